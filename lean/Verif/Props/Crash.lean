import Verif.Props.StorageHistory
import Verif.Model.Crash
import Verif.Props.Gpg
/-!
# Crashes (C03)
-/
namespace Verif

open Chainstore

variable {c : Codec}

/-- what a process reads from these files: these names with these logs -/
def ReadsAs (c : Codec) (d : Disk) (s : Store) : Prop :=
  (Disk.impl c).heads d = .ok s.names ∧ ∀ name, (Disk.impl c).chain d name = .ok (s.get name)

theorem Represents.readsAs (hl : c.Lawful) {d : Disk} {s : Store} (h : Represents c d s) : ReadsAs c d s :=
  ⟨impl_heads h, impl_chain hl h⟩

theorem FProg.crash_bind {α β : Type} {t : Time} {p : FProg α} {f : α → FProg β} {d d' : Disk}
    (h : (p.bind f).Crash c t d d') :
    p.Crash c t d d' ∨ ∃ a d1, p.run c t d = (.ok a, d1) ∧ (f a).Crash c t d1 d' := by
  induction p generalizing d with
  | pure a => exact Or.inr ⟨a, d, rfl, h⟩
  | raise e => exact Or.inl h
  | op o k ih =>
    rcases h with h | h | h
    · exact Or.inl (Or.inl h)
    · exact Or.inl (Or.inr (Or.inl h))
    · rcases ih _ h with h | ⟨a, d1, h1, h2⟩
      · exact Or.inl (Or.inr (Or.inr h))
      · exact Or.inr ⟨a, d1, h1, h2⟩

/-- an operation which writes no file -/
def FOp.ReadOnly : FOp → Prop
  | .write _ _ => False
  | .read _ => True
  | .time => True

/-- a program which writes no file -/
def FProg.ReadOnly {α : Type} : FProg α → Prop
  | .pure _ => True
  | .raise _ => True
  | .op o k => o.ReadOnly ∧ ∀ r, (k r).ReadOnly

theorem FProg.ReadOnly.bind {α β : Type} {p : FProg α} {f : α → FProg β} (hp : p.ReadOnly)
    (hf : ∀ a, (f a).ReadOnly) : (p.bind f).ReadOnly := by
  induction p with
  | pure a => exact hf a
  | raise e => trivial
  | op o k ih => exact ⟨hp.1, fun r => ih r (hp.2 r)⟩

theorem FProg.ReadOnly.ofExcept {α : Type} (x : Except Exc α) : (FProg.ofExcept x).ReadOnly := by
  cases x <;> trivial

theorem FProg.ReadOnly.crash {α : Type} {p : FProg α} (hp : p.ReadOnly) {t : Time} {d d' : Disk}
    (h : p.Crash c t d d') : d' = d := by
  induction p generalizing d with
  | pure a => exact h
  | raise e => exact h
  | op o k ih =>
    rcases h with h | h | h
    · exact h
    · cases o with
      | write p b => exact hp.1.elim
      | read p => exact h.elim
      | time => exact h.elim
    · have := ih _ (hp.2 _) h
      cases o with
      | write p b => exact hp.1.elim
      | read p => exact this
      | time => exact this

theorem getheads_readOnly : (getheads c).ReadOnly :=
  ⟨trivial, fun r => by cases r with | none => trivial | some b => exact FProg.ReadOnly.ofExcept _⟩

theorem getBlock_readOnly (cid : Str) : (getBlock c cid).ReadOnly :=
  ⟨trivial, fun r => by
    cases r with
    | none => trivial
    | some b =>
      exact FProg.ReadOnly.bind (p := FProg.ofExcept _) (.ofExcept _) fun _ =>
        FProg.ReadOnly.bind (p := FProg.ofExcept _) (.ofExcept _) fun _ => trivial⟩

theorem getHeadBlock_readOnly (name : Str) : (getHeadBlock c name).ReadOnly :=
  .bind (.bind getheads_readOnly fun _ => trivial) fun r => by
    match r with
    | none => trivial
    | some [] => trivial
    | some (_ :: _) => exact getBlock_readOnly _

/-- writing anything to a block file which does not exist, or which isn't named by its content, leaves the logs as they are -/
theorem Linked.put_fresh {blocks : List (Str × Bytes)} {cid : Str} {b : Bytes} {o : Option Str}
    {l : List (Str × Entry)} (h : Linked c blocks o l) (hn : ∀ b', Disk.lookup blocks cid = some b' → c.hash b' ≠ cid) :
    Linked c (Disk.put blocks cid b) o l := by
  induction h with
  | nil => exact .nil
  | @cons cid' b' e parent t l file named content rest ih =>
    refine .cons (b := b') ?_ named content ih
    have : cid ≠ cid' := by rintro rfl; exact hn _ file named
    rw [Disk.lookup_put_ne _ _ this, file]

theorem Represents.put_fresh {d : Disk} {s : Store} {cid : Str} {b : Bytes} (h : Represents c d s)
    (hn : ∀ b', Disk.lookup d.blocks cid = some b' → c.hash b' ≠ cid) {d' : Disk} (hd : d'.heads = d.heads)
    (hb : d'.blocks = Disk.put d.blocks cid b) : Represents c d' s := by
  obtain ⟨h1, hs, h2, h3⟩ := h
  refine ⟨h1, hs, ?_, ?_⟩
  · unfold HeadsAre; rw [hd]; exact h2
  · rw [hb]; exact h3.imp fun _ _ ⟨g1, l, g2, g3⟩ => ⟨g1, l, g2.put_fresh hn, g3⟩

/-- **C03** (partial). If the process dies at any point of an append, the files hold the logs from before the append, or those after
it, or the heads file is a proper beginning of its new content, or a block file is a proper beginning of what it was. The last happens
only if an entry with the same content, time and parent is stored already. The claim excludes the last two cases, which do occur, see
`C03_refuted` and `C03_refuted_shared`: the files are rewritten in place. -/
theorem C03_crash_partial (hl : c.Lawful) {d d' : Disk} {s : Store} (h : Represents c d s) (name : Str) (e : Entry)
    (t : Time) (hnc : ((Disk.impl c).append d name e t).2.collided = false)
    (hcrash : (appendEntry c name e).Crash c t d d') :
    Represents c d' s ∨ Represents c d' (s.push name e) ∨
    (∃ hs pre, pre <+: c.dumpDict hs ∧ pre ≠ c.dumpDict hs ∧ d'.heads = some pre ∧
      (hs.map (·.1)) = (s.push name e).names) ∨
    ∃ parent cid b pre, b = c.dumpList (blockData e parent t) ∧ Disk.lookup d.blocks cid = some b ∧ pre <+: b ∧ pre ≠ b ∧
      d' = d.torn (.block cid) pre := by
  have hrep := h
  obtain ⟨hnd, hs, hh, hf⟩ := h
  obtain ⟨parent, l, h1, h2, h3, h4⟩ := run_appendEntry hl hh hf name e t
  have happ : ((Disk.impl c).append d name e t) = (appendEntry c name e).run c t d := rfl
  have hcol : d.collision c (c.hash (c.dumpList (blockData e parent t))) (c.dumpList (blockData e parent t)) = false := by
    rw [happ, h4] at hnc
    simp only [Disk.write, Bool.or_eq_false_iff] at hnc
    exact hnc.2
  rcases FProg.crash_bind hcrash with h | ⟨head, d1, g1, g2⟩
  · exact Or.inl ((getHeadBlock_readOnly name).crash h ▸ hrep)
  · have hd1 : d1 = d ∧ head.map (·.cid) = parent := by
      rcases run_getHeadBlock hl hh hf name t with ⟨k1, k2, k3⟩ | ⟨cid, l, blk, k1, k2, k3, k4, k5, -⟩
      · rw [g1] at k1; cases k1; exact ⟨rfl, by rw [h3, k2]; rfl⟩
      · rw [g1] at k1; cases k1; exact ⟨rfl, by rw [h3, k3, ← k2]; rfl⟩
    obtain ⟨rfl, hpar⟩ := hd1
    rw [hpar] at g2
    generalize hb : c.dumpList (blockData e parent t) = b at hcol h4
    have hb' : c.dumpList ([.text e.tag, parentVal parent, .float t] ++ e.args) = b := hb
    have hw : Represents c (d1.write c (.block (c.hash b)) b) s := hrep.write_block hcol
    rcases g2 with g2 | g2 | g2
    · exact Or.inl (g2 ▸ hrep)
    · exact g2.elim
    · simp only [Disk.step] at g2
      change (FProg.op (.write (.block (c.hash (c.dumpList ([.text e.tag, parentVal parent, .float t] ++ e.args))))
        (c.dumpList ([.text e.tag, parentVal parent, .float t] ++ e.args))) (fun _ => upsert c name
        (c.hash (c.dumpList ([.text e.tag, parentVal parent, .float t] ++ e.args))))).Crash c t d1 d' at g2
      rw [hb'] at g2
      rcases g2 with g2 | g2 | g2
      · exact Or.inl (g2 ▸ hrep)
      · obtain ⟨pre, g3, g4⟩ := g2
        by_cases hx : Disk.lookup d1.blocks (c.hash b) = some b
        · by_cases hpre : pre = b
          · subst hpre
            refine Or.inl ?_
            obtain ⟨k1, k2, k3, k4⟩ := hw
            exact ⟨k1, k2, by unfold HeadsAre; rw [g4]; exact k3, by rw [g4]; exact k4⟩
          · exact Or.inr (Or.inr (Or.inr ⟨parent, c.hash b, b, pre, hb.symm, hx, g3, hpre, g4⟩))
        · refine Or.inl (hrep.put_fresh (b := pre) (cid := c.hash b) ?_ ?_ ?_)
          · intro b' hb1 hb2
            refine hx ?_
            simp only [Disk.collision, hb1, hb2, beq_self_eq_true, Bool.and_true, bne_eq_false_iff_eq] at hcol
            rw [hb1, hcol]
          · rw [g4]; rfl
          · rw [g4]; rfl
      · simp only [Disk.step] at g2
        rcases FProg.crash_bind g2 with g3 | ⟨hs', d2, g3, g4⟩
        · exact Or.inl (getheads_readOnly.crash g3 ▸ hw)
        · have hh2 : HeadsAre c (d1.write c (.block (c.hash b)) b) hs := hh
          rw [run_getheads hh2] at g3
          cases g3
          have hfin : Represents c ((d1.write c (.block (c.hash b)) b).write c .heads
              (c.dumpDict (setHead hs name (c.hash b)))) (s.push name e) := by
            have hf' : List.Forall₂ (HeadIs c (Disk.put d1.blocks (c.hash b) b)) hs s :=
              hf.imp fun _ _ ⟨g1, l, g2, g3⟩ => ⟨g1, l, g2.put hcol, g3⟩
            have hnew : Linked c (Disk.put d1.blocks (c.hash b) b) (some (c.hash b)) ((c.hash b, e) :: l) :=
              .cons (Disk.lookup_put_self ..) rfl (by rw [← hb]; exact hl.load_dump_list _) (h1.put hcol)
            have hfn := setHead_forall hf' hnew h2
            refine ⟨Store.nodup_push hnd name e, _, Or.inr ⟨_, rfl, hl.load_dump_dict _ ?_⟩, hfn⟩
            rw [heads_nodup hfn]
            exact Store.nodup_push hnd name e
          rcases g4 with g4 | g4 | g4
          · exact Or.inl (g4 ▸ hw)
          · obtain ⟨pre, g5, g6⟩ := g4
            by_cases hp : pre = c.dumpDict (setHead hs name (c.hash b))
            · subst hp
              refine Or.inr (Or.inl ?_)
              obtain ⟨k1, k2, k3, k4⟩ := hfin
              refine ⟨k1, k2, ?_, ?_⟩
              · unfold HeadsAre; rw [g6]; exact k3
              · rw [g6]; exact k4
            · refine Or.inr (Or.inr (Or.inl ⟨setHead hs name (c.hash b), pre, g5, hp, by rw [g6]; rfl, ?_⟩))
              have hf' : List.Forall₂ (HeadIs c (Disk.put d1.blocks (c.hash b) b)) hs s :=
                hf.imp fun _ _ ⟨g1, l, g2, g3⟩ => ⟨g1, l, g2.put hcol, g3⟩
              have hnew : Linked c (Disk.put d1.blocks (c.hash b) b) (some (c.hash b)) ((c.hash b, e) :: l) :=
                .cons (Disk.lookup_put_self ..) rfl (by rw [← hb]; exact hl.load_dump_list _) (h1.put hcol)
              exact heads_nodup (setHead_forall hf' hnew h2)
          · exact Or.inr (Or.inl (by cases g4; exact hfin))

/-- truncated data cannot be loaded; true of the real serializer, which writes an end mark -/
def Codec.RejectsTruncated (c : Codec) : Prop :=
  (∀ l pre, pre <+: c.dumpList l → pre ≠ c.dumpList l → ∃ e, c.loadList pre = .error e) ∧
  (∀ hs pre, pre <+: c.dumpDict hs → pre ≠ c.dumpDict hs → ∃ e, c.loadDict pre = .error e)

/-- In the third case of `C03_crash_partial` nothing is lost silently: every read raises. -/
theorem C03_torn_heads {d : Disk} (ht : c.RejectsTruncated) {hs : List (Str × Str)} {pre : Bytes}
    (h1 : pre <+: c.dumpDict hs) (h2 : pre ≠ c.dumpDict hs) (h3 : d.heads = some pre) :
    (∃ e, (Disk.impl c).heads d = .error e) ∧ ∀ name, ∃ e, (Disk.impl c).chain d name = .error e := by
  obtain ⟨e, he⟩ := ht.2 hs pre h1 h2
  have hg : ∀ t, (getheads c).run c t d = (.error e, d) := by
    intro t; simp [getheads, FProg.run_bind, Disk.read, h3, he]
  refine ⟨⟨e, by simp [Disk.impl, hg, Except.map]⟩, fun name => ⟨e, ?_⟩⟩
  simp [Disk.impl, iterEntries, getHeadBlock, getHeadCid, FProg.run_bind, hg]

namespace Concrete

theorem codec_rejectsTruncated : codec.RejectsTruncated := by
  have key : ∀ {x pre : Bytes}, pre <+: x → pre ≠ x → ∃ q, q ≠ [] ∧ x = pre ++ q := by
    rintro x pre ⟨q, rfl⟩ hne
    exact ⟨q, fun h => hne (by simp [h]), rfl⟩
  constructor
  · intro l pre h hne
    obtain ⟨q, hq, h⟩ := key h hne
    exact ⟨.other 1, by simp only [codec]; rw [valsCode.short l pre q h hq]⟩
  · intro l pre h hne
    obtain ⟨q, hq, h⟩ := key h hne
    exact ⟨.other 1, by simp only [codec]; rw [dictCode.short l pre q h hq]⟩

/-- a directory with one chain which has one entry, made at time 5 -/
def oneChain : Disk := ((Disk.impl codec).append {} (str!"a") (.acfg (str!"1")) 5).2
/-- its logs -/
def oneLog : Store := [(str!"a", [.acfg (str!"1")])]

theorem oneChain_represents : Represents codec oneChain oneLog :=
  (impl_append codec_lawful (c := codec) (d := {}) (s := []) ⟨List.nodup_nil, [], Or.inl ⟨rfl, rfl⟩, .nil⟩
    (str!"a") (.acfg (str!"1")) 5 (by decide +kernel)).2

/-- the hypotheses of `C03_crash_partial` can be met: another entry for the same chain at another time -/
example : ((Disk.impl codec).append oneChain (str!"a") (.acfg (str!"2")) 6).2.collided = false := by decide +kernel

end Concrete

theorem FProg.crash_intro {α β : Type} {t : Time} {p : FProg α} {f : α → FProg β} {d d1 d' : Disk} {a : α}
    (h1 : p.run c t d = (.ok a, d1)) (h2 : (f a).Crash c t d1 d') : (p.bind f).Crash c t d d' := by
  induction p generalizing d with
  | pure a => cases h1; exact h2
  | raise e => cases h1
  | op o k ih => exact Or.inr (Or.inr (ih _ h1))

/-- **C03** fails in every append: if the process dies right after `open` has emptied the heads file, the next process
can read no chain at all, not even those of other accounts. -/
theorem C03_refuted (hl : c.Lawful) (ht : c.RejectsTruncated) (hne : ∀ hs, c.dumpDict hs ≠ []) {d : Disk} {s : Store}
    (h : Represents c d s) (name : Str) (e : Entry) (t : Time) :
    ∃ d', (appendEntry c name e).Crash c t d d' ∧ ∀ name', ∃ x, (Disk.impl c).chain d' name' = .error x := by
  obtain ⟨hnd, hs, hh, hf⟩ := h
  have hcrash : ∀ head : Option Block, (getHeadBlock c name).run c t d = (.ok head, d) →
      ∃ d', (appendEntry c name e).Crash c t d d' ∧ d'.heads = some [] := by
    intro head hrun
    refine ⟨_, FProg.crash_intro hrun (FProg.crash_intro
      (p := storeBlock c e.tag e.args (head.map (·.cid))) (by
        simp only [storeBlock, FProg.bind_eq, FProg.pure_eq, FProg.run_bind, FProg.run_time, FProg.run_write,
          FProg.run_pure]; rfl)
      (FProg.crash_intro (p := getheads c)
        (f := fun hs => FProg.write .heads (c.dumpDict (setHead hs name _))) (run_getheads (hs := hs) ?_ t)
        (Or.inr (Or.inl ⟨[], List.nil_prefix, rfl⟩)))), rfl⟩
    exact hh
  have : ∃ d', (appendEntry c name e).Crash c t d d' ∧ d'.heads = some [] := by
    rcases run_getHeadBlock hl hh hf name t with ⟨k1, -⟩ | ⟨cid, l, blk, k1, -⟩
    · exact hcrash _ k1
    · exact hcrash _ k1
  obtain ⟨d', h1, h2⟩ := this
  exact ⟨d', h1, (C03_torn_heads ht (hs := []) List.nil_prefix (Ne.symm (hne [])) h2).2⟩

namespace Concrete

theorem codec_dumpDict_ne (hs : List (Str × Str)) : codec.dumpDict hs ≠ [] := by
  intro h
  have h1 := dictCode.ok hs []
  have h2 : dictCode.enc hs = [] := h
  rw [h2] at h1
  cases h1

/-- the hypotheses of `C03_refuted` are met; the chain could be read before -/
example : ∃ d', (appendEntry codec (str!"b") (.acfg (str!"2"))).Crash codec 6 oneChain d' ∧
    ∀ name', ∃ x, (Disk.impl codec).chain d' name' = .error x :=
  C03_refuted codec_lawful codec_rejectsTruncated codec_dumpDict_ne oneChain_represents _ _ _
example : (Disk.impl codec).chain oneChain (str!"a") = .ok [.acfg (str!"1")] :=
  Except.eq_ok_of_toOption (by decide +kernel)

end Concrete

/-- **C03** fails in a second way, although the heads file is intact. A block holds nothing of the name of its chain,
so the first entries of two chains share a file if they are equal and made at the same clock value. If the process dies
while it writes this file for the second chain, the first one cannot be read any more. -/
theorem C03_refuted_shared : ∃ d' : Disk,
    (appendEntry Concrete.codec (str!"b") (.acfg (str!"1"))).Crash Concrete.codec 5 Concrete.oneChain d' ∧
    d'.heads = Concrete.oneChain.heads ∧ ∃ x, (Disk.impl Concrete.codec).chain d' (str!"a") = .error x := by
  refine ⟨{ Concrete.oneChain with blocks := Disk.put Concrete.oneChain.blocks (Concrete.codec.hash
    (Concrete.codec.dumpList (blockData (.acfg (str!"1")) none 5))) [] }, ?_, rfl, .other 1, ?_⟩
  · obtain ⟨hnd, hs, hh, hf⟩ := Concrete.oneChain_represents
    rcases run_getHeadBlock Concrete.codec_lawful hh hf (str!"b") 5 with ⟨k1, -⟩ | ⟨cid, l, blk, k1, k2, k3, k4, k5, -⟩
    · exact FProg.crash_intro k1 (Or.inr (Or.inr (Or.inr (Or.inl ⟨[], List.nil_prefix, rfl⟩))))
    · have hb : Concrete.oneLog.get (str!"b") = [] := by decide +kernel
      rw [hb] at k5
      cases List.map_eq_nil_iff.1 k5.symm
      cases k4
  · exact Except.eq_error_of_exc? (by decide +kernel)

end Verif
