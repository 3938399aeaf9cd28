import Verif.Model.Chainstore
import Verif.Model.Store
import Verif.Lemmas.Run
import Verif.Lemmas.Store
import Mathlib.Data.List.Forall2
import Mathlib.Data.List.Perm.Subperm
/-!
# The store on disk (C01, C02)

`Represents c d s`: the files `d` hold the logs `s`. Every store operation preserves it and gives the same result on
both sides, so every program behaves alike over both, as long as no hash collision occurs.
-/
namespace Verif

open Chainstore

variable {c : Codec}

/-! ## running file programs -/

theorem FProg.run_bind {α β : Type} (t : Time) (p : FProg α) (f : α → FProg β) (d : Disk) :
    (p.bind f).run c t d =
      match p.run c t d with
      | (.ok a, d') => (f a).run c t d'
      | (.error e, d') => (.error e, d') := by
  induction p generalizing d with
  | pure a => rfl
  | raise e => rfl
  | op o k ih => simp only [FProg.bind, FProg.run]; rw [ih]

@[simp] theorem FProg.bind_eq {α β : Type} (p : FProg α) (f : α → FProg β) : p >>= f = p.bind f := rfl
@[simp] theorem FProg.pure_eq {α : Type} (a : α) : (Pure.pure a : FProg α) = .pure a := rfl
@[simp] theorem FProg.run_pure {α : Type} (t : Time) (a : α) (d : Disk) :
    (FProg.pure a).run c t d = (.ok a, d) := rfl
@[simp] theorem FProg.run_read (t : Time) (p : Path) (d : Disk) :
    (FProg.read p).run c t d = (.ok (d.read p), d) := rfl
@[simp] theorem FProg.run_write (t : Time) (p : Path) (b : Bytes) (d : Disk) :
    (FProg.write p b).run c t d = (.ok (), d.write c p b) := rfl
@[simp] theorem FProg.run_time (t : Time) (d : Disk) : FProg.time.run c t d = (.ok t, d) := rfl
@[simp] theorem FProg.run_ofExcept {α : Type} (t : Time) (x : Except Exc α) (d : Disk) :
    (FProg.ofExcept x).run c t d = (x, d) := by cases x <;> rfl

/-! ## files -/

theorem Disk.lookup_put_self (l : List (Str × Bytes)) (cid : Str) (b : Bytes) :
    Disk.lookup (Disk.put l cid b) cid = some b := by
  induction l with
  | nil => simp [Disk.put, Disk.lookup]
  | cons x l ih =>
    obtain ⟨n, y⟩ := x
    by_cases h : n = cid
    · simp [Disk.put, Disk.lookup, h]
    · simp [Disk.put, Disk.lookup, h, ih]

theorem Disk.lookup_put_ne (l : List (Str × Bytes)) {cid cid' : Str} (b : Bytes) (h : cid ≠ cid') :
    Disk.lookup (Disk.put l cid b) cid' = Disk.lookup l cid' := by
  induction l with
  | nil => simp [Disk.put, Disk.lookup, h]
  | cons x l ih =>
    obtain ⟨n, y⟩ := x
    by_cases h' : n = cid
    · subst h'; simp [Disk.put, Disk.lookup, h]
    · simp [Disk.put, Disk.lookup, h', ih]

theorem Disk.lookup_some_mem {l : List (Str × Bytes)} {cid : Str} {b : Bytes} (h : Disk.lookup l cid = some b) :
    (cid, b) ∈ l := by
  induction l with
  | nil => simp [Disk.lookup] at h
  | cons x l ih =>
    obtain ⟨n, y⟩ := x
    by_cases h' : n = cid
    · simp [Disk.lookup, h'] at h; simp [h', h]
    · simp [Disk.lookup, h'] at h; exact List.mem_cons_of_mem _ (ih h)

/-! ## linked blocks -/

/-- the data of a block, as the code lays it out: type, parent, time, arguments -/
def blockData (e : Entry) (parent : Option Str) (t : Time) : List Val :=
  [.text e.tag, parentVal parent, .float t] ++ e.args

/-- Starting at a cid and following parent links to a block without parent, one finds these blocks. Each file is named
by the hash of its bytes. -/
inductive Linked (c : Codec) (blocks : List (Str × Bytes)) : Option Str → List (Str × Entry) → Prop
  | nil : Linked c blocks none []
  | cons {cid : Str} {b : Bytes} {e : Entry} {parent : Option Str} {t : Time} {l : List (Str × Entry)}
      (file : Disk.lookup blocks cid = some b) (named : c.hash b = cid)
      (content : c.loadList b = .ok (blockData e parent t)) (rest : Linked c blocks parent l) :
      Linked c blocks (some cid) ((cid, e) :: l)

/-- the heads file holds this dictionary; no file is the empty one -/
def HeadsAre (c : Codec) (d : Disk) (hs : List (Str × Str)) : Prop :=
  (d.heads = none ∧ hs = []) ∨ ∃ b, d.heads = some b ∧ c.loadDict b = .ok hs

/-- a head with its cid stands for a name with its log -/
def HeadIs (c : Codec) (blocks : List (Str × Bytes)) (x : Str × Str) (y : Str × List Entry) : Prop :=
  x.1 = y.1 ∧ ∃ l, Linked c blocks (some x.2) l ∧ y.2 = l.map (·.2)

/-- the files hold these logs -/
def Represents (c : Codec) (d : Disk) (s : Store) : Prop :=
  s.names.Nodup ∧ ∃ hs, HeadsAre c d hs ∧ List.Forall₂ (HeadIs c d.blocks) hs s

theorem parentVal_inj {p q : Option Str} (h : parentVal p = parentVal q) : p = q := by
  cases p <;> cases q <;> simp_all [parentVal]

theorem entry_ofBlock (e : Entry) : Entry.ofBlock (.text e.tag) e.args = .ok (some e) := by
  cases e with
  | msg e => obtain ⟨i, d, pe, k, h⟩ := e; cases pe <;> rfl
  | gossip e => rfl
  | keygen e => obtain ⟨k, h⟩ := e; cases k <;> cases h <;> rfl
  | cfg e => obtain ⟨pe, n, r, m, b⟩ := e; cases pe <;> cases m <;> rfl
  | oob e => obtain ⟨a, k, o⟩ := e; cases o <;> rfl
  | acfg v => rfl

theorem entry_inj {e e' : Entry} (h1 : e.tag = e'.tag) (h2 : e.args = e'.args) : e = e' := by
  have h := entry_ofBlock e
  rw [h1, h2, entry_ofBlock e'] at h
  cases h; rfl

theorem blockData_inj {e e' : Entry} {p p' : Option Str} {t t' : Time}
    (h : blockData e p t = blockData e' p' t') : e = e' ∧ p = p' ∧ t = t' := by
  simp only [blockData, List.cons_append, List.nil_append, List.cons.injEq, Val.text.injEq, Val.float.injEq] at h
  exact ⟨entry_inj h.1 h.2.2.2, parentVal_inj h.2.1, h.2.2.1⟩

theorem Linked.functional {blocks : List (Str × Bytes)} {o : Option Str} {l l' : List (Str × Entry)}
    (h : Linked c blocks o l) (h' : Linked c blocks o l') : l = l' := by
  induction h generalizing l' with
  | nil => cases h'; rfl
  | cons file named content rest ih =>
    cases h' with
    | cons file' named' content' rest' =>
      rw [file] at file'; cases file'
      rw [content] at content'
      obtain ⟨rfl, rfl, -⟩ := blockData_inj (Except.ok.inj content')
      rw [ih rest']

theorem Linked.drop {blocks : List (Str × Bytes)} {o : Option Str} {l : List (Str × Entry)}
    (h : Linked c blocks o l) {cid : Str} (hm : cid ∈ l.map (·.1)) :
    ∃ l', Linked c blocks (some cid) l' ∧ l'.length ≤ l.length := by
  induction h with
  | nil => cases hm
  | cons file named content rest ih =>
    rcases List.mem_cons.1 hm with h | h
    · exact ⟨_, h ▸ Linked.cons file named content rest, Nat.le_refl _⟩
    · obtain ⟨l', h1, h2⟩ := ih h
      exact ⟨l', h1, by simp only [List.length_cons]; omega⟩

/-- no block is visited twice -/
theorem Linked.nodup {blocks : List (Str × Bytes)} {o : Option Str} {l : List (Str × Entry)}
    (h : Linked c blocks o l) : (l.map (·.1)).Nodup := by
  induction h with
  | nil => exact List.nodup_nil
  | cons file named content rest ih =>
    refine List.nodup_cons.2 ⟨fun hm => ?_, ih⟩
    obtain ⟨l', h1, h2⟩ := rest.drop hm
    have := h1.functional (.cons file named content rest)
    rw [this] at h2
    simp only [List.length_cons] at h2
    omega

theorem Linked.subset {blocks : List (Str × Bytes)} {o : Option Str} {l : List (Str × Entry)}
    (h : Linked c blocks o l) : l.map (·.1) ⊆ blocks.map (·.1) := by
  induction h with
  | nil => exact List.nil_subset _
  | cons file named content rest ih =>
    intro x hx
    rcases List.mem_cons.1 hx with h | h
    · exact h ▸ List.mem_map_of_mem (f := (·.1)) (Disk.lookup_some_mem file)
    · exact ih h

theorem Linked.length_le {blocks : List (Str × Bytes)} {o : Option Str} {l : List (Str × Entry)}
    (h : Linked c blocks o l) : l.length ≤ blocks.length := by
  have := (h.nodup.subperm h.subset).length_le
  simpa using this

/-- writing a block file without collision leaves all linked blocks as they are -/
theorem Linked.put {d : Disk} {b : Bytes} {o : Option Str} {l : List (Str × Entry)}
    (h : Linked c d.blocks o l) (hc : d.collision c (c.hash b) b = false) :
    Linked c (Disk.put d.blocks (c.hash b) b) o l := by
  induction h with
  | nil => exact .nil
  | @cons cid b' e parent t l file named content rest ih =>
    refine .cons (b := b') ?_ named content ih
    by_cases h : c.hash b = cid
    · subst h
      simp only [Disk.collision, file, named, beq_self_eq_true, Bool.and_true, bne_eq_false_iff_eq] at hc
      rw [Disk.lookup_put_self, hc]
    · rw [Disk.lookup_put_ne _ _ h, file]

/-! ## reading -/

theorem run_getheads {d : Disk} {hs : List (Str × Str)} (h : HeadsAre c d hs) (t : Time) :
    (getheads c).run c t d = (.ok hs, d) := by
  rcases h with ⟨h1, h2⟩ | ⟨b, h1, h2⟩
  · simp [getheads, FProg.run_bind, Disk.read, h1, h2]
  · simp [getheads, FProg.run_bind, Disk.read, h1, h2]

theorem run_getBlock {d : Disk} {cid : Str} {e : Entry} {parent : Option Str} {t' : Time} {b : Bytes}
    (file : Disk.lookup d.blocks cid = some b) (content : c.loadList b = .ok (blockData e parent t')) (t : Time) :
    (getBlock c cid).run c t d = (.ok (some ⟨cid, .text e.tag, parentVal parent, .float t', e.args⟩), d) := by
  simp [getBlock, FProg.run_bind, Disk.read, file, content, blockData, Block.ofData]

/-- the block object for a cid of linked blocks -/
theorem Linked.run_ancestors (hl : c.Lawful) {d : Disk} {cid : Str} {l : List (Str × Entry)}
    (h : Linked c d.blocks (some cid) l) {n : Nat} (hn : l.length ≤ n) (t : Time) :
    ∃ blk bs, (getBlock c cid).run c t d = (.ok (some blk), d) ∧ blk.cid = cid ∧
      (ancestors c n (some blk)).run c t d = (.ok (some bs), d) ∧ entriesOf bs = .ok (l.map (·.2)) ∧
      bs.map (·.cid) = l.map (·.1) := by
  generalize ho : some cid = o at h
  induction h generalizing cid n with
  | nil => cases ho
  | @cons cid' b e par t' l file named content rest ih =>
    cases ho
    cases n with
    | zero => simp at hn
    | succ n =>
      simp only [List.length_cons, Nat.add_le_add_iff_right] at hn
      cases par with
      | none =>
        cases rest
        refine ⟨_, [⟨cid', .text e.tag, parentVal none, .float t', e.args⟩], run_getBlock file content t, rfl, ?_, ?_, rfl⟩
        · simp only [ancestors, parent, parentVal, FProg.bind_eq, FProg.pure_eq, FProg.run_bind, FProg.run_pure]
        · simp [entriesOf, entry_ofBlock, bind, Except.bind, pure, Except.pure]
      | some p =>
        have hp : p ≠ [] := by
          cases rest with
          | cons _ named' _ _ => rw [← named']; exact hl.hash_ne _
        obtain ⟨blk, bs, h1, h2, h3, h4, h5⟩ := ih hn rfl
        have hpar : (parent c ⟨cid', .text e.tag, parentVal (some p), .float t', e.args⟩) = getBlock c p := by
          cases p with
          | nil => exact absurd rfl hp
          | cons x xs => rfl
        refine ⟨_, ⟨cid', .text e.tag, parentVal (some p), .float t', e.args⟩ :: bs, run_getBlock file content t, rfl,
          ?_, ?_, by simp [h5]⟩
        · simp only [ancestors, FProg.bind_eq, FProg.pure_eq, FProg.run_bind, FProg.run_pure, hpar, h1, h3]
        · simp [entriesOf, entry_ofBlock, bind, Except.bind, pure, Except.pure, h4]

theorem headOf_forall {blocks : List (Str × Bytes)} {hs : List (Str × Str)} {s : Store}
    (h : List.Forall₂ (HeadIs c blocks) hs s) (name : Str) :
    (headOf hs name = none ∧ s.get name = []) ∨
    ∃ cid l, headOf hs name = some cid ∧ Linked c blocks (some cid) l ∧ s.get name = l.map (·.2) := by
  induction h with
  | nil => exact Or.inl ⟨rfl, rfl⟩
  | @cons x y hs s hxy hrest ih =>
    obtain ⟨n, cid⟩ := x
    obtain ⟨n', log⟩ := y
    obtain ⟨h1, l, h2, h3⟩ := hxy
    simp only at h1 h2 h3
    subst h1
    by_cases hn : n = name
    · exact Or.inr ⟨cid, l, by simp [headOf, hn], h2, by simp [Store.get, hn, h3]⟩
    · simpa [headOf, Store.get, hn] using ih

/-- the cid of a linked block is not empty -/
theorem Linked.cid_ne (hl : c.Lawful) {blocks : List (Str × Bytes)} {cid : Str} {l : List (Str × Entry)}
    (h : Linked c blocks (some cid) l) : cid ≠ [] := by
  cases h with
  | cons _ named _ _ => rw [← named]; exact hl.hash_ne _

/-- `get_head_block` -/
theorem run_getHeadBlock (hl : c.Lawful) {d : Disk} {hs : List (Str × Str)} {s : Store} (hh : HeadsAre c d hs)
    (hf : List.Forall₂ (HeadIs c d.blocks) hs s) (name : Str) (t : Time) :
    ((getHeadBlock c name).run c t d = (.ok none, d) ∧ headOf hs name = none ∧ s.get name = []) ∨
    ∃ cid l blk, (getHeadBlock c name).run c t d = (.ok (some blk), d) ∧ blk.cid = cid ∧
      headOf hs name = some cid ∧ Linked c d.blocks (some cid) l ∧ s.get name = l.map (·.2) ∧
      (getBlock c cid).run c t d = (.ok (some blk), d) := by
  rcases headOf_forall hf name with ⟨h1, h2⟩ | ⟨cid, l, h1, h2, h3⟩
  · refine Or.inl ⟨?_, h1, h2⟩
    simp [getHeadBlock, getHeadCid, FProg.run_bind, run_getheads hh, h1]
  · obtain ⟨blk, bs, h4, h5, -, -, -⟩ := h2.run_ancestors hl (Nat.le_refl _) t
    refine Or.inr ⟨cid, l, blk, ?_, h5, h1, h2, h3, h4⟩
    have hne := h2.cid_ne hl
    cases cid with
    | nil => exact absurd rfl hne
    | cons x xs => simp [getHeadBlock, getHeadCid, FProg.run_bind, run_getheads hh, h1, h4]

/-- reading a chain gives its log -/
theorem impl_chain (hl : c.Lawful) {d : Disk} {s : Store} (h : Represents c d s) (name : Str) :
    (Disk.impl c).chain d name = .ok (s.get name) := by
  obtain ⟨-, hs, hh, hf⟩ := h
  rcases run_getHeadBlock hl hh hf name 0 with ⟨h1, -, h3⟩ | ⟨cid, l, blk, h1, h2, h3, h4, h5, h6⟩
  · have hz : (ancestors c d.blocks.length none).run c 0 d = (.ok (some []), d) := by
      cases d.blocks.length <;> rfl
    simp [Disk.impl, iterEntries, FProg.run_bind, h1, hz, entriesOf, h3]
  · obtain ⟨blk', bs, g1, g2, g3, g4, -⟩ := h4.run_ancestors hl h4.length_le 0
    rw [h6] at g1
    cases g1
    simp [Disk.impl, iterEntries, FProg.run_bind, h1, g3, g4, h5]

theorem impl_heads {d : Disk} {s : Store} (h : Represents c d s) :
    (Disk.impl c).heads d = .ok s.names := by
  obtain ⟨-, hs, hh, hf⟩ := h
  have : hs.map (·.1) = s.map (·.1) := by
    clear hh
    induction hf with
    | nil => rfl
    | cons hxy _ ih => simp only [List.map_cons, ih, hxy.1]
  simp [Disk.impl, run_getheads hh, Except.map, this, Store.names]

/-! ## writing -/

theorem heads_nodup {blocks : List (Str × Bytes)} {hs : List (Str × Str)} {s : Store}
    (hf : List.Forall₂ (HeadIs c blocks) hs s) : hs.map (·.1) = s.names := by
  induction hf with
  | nil => rfl
  | cons hxy _ ih => simp only [List.map_cons, Store.names, hxy.1]; rw [ih]; rfl

theorem setHead_forall {blocks : List (Str × Bytes)} {hs : List (Str × Str)} {s : Store} {name cid : Str}
    {e : Entry} {l : List (Str × Entry)} (hf : List.Forall₂ (HeadIs c blocks) hs s)
    (hnew : Linked c blocks (some cid) ((cid, e) :: l)) (hlog : s.get name = l.map (·.2)) :
    List.Forall₂ (HeadIs c blocks) (setHead hs name cid) (s.push name e) := by
  induction hf with
  | nil =>
    refine .cons ⟨rfl, (cid, e) :: l, hnew, ?_⟩ .nil
    simp only [List.map_cons, ← hlog]; rfl
  | @cons x y hs s hxy hrest ih =>
    obtain ⟨n, x⟩ := x
    obtain ⟨n', log⟩ := y
    obtain ⟨h1, l', h2, h3⟩ := hxy
    simp only at h1 h2 h3
    subst h1
    by_cases hn : n = name
    · simp only [setHead, Store.push, hn, if_true]
      refine .cons ⟨rfl, _, hnew, ?_⟩ hrest
      simp only [Store.get, hn, if_true] at hlog
      simp only [List.map_cons, hlog]
    · simp only [setHead, Store.push, hn, if_false]
      refine .cons ⟨rfl, l', h2, h3⟩ (ih ?_)
      simpa only [Store.get, hn, if_false] using hlog

/-- the disk after an append -/
theorem run_appendEntry {d : Disk} (hl : c.Lawful) {hs : List (Str × Str)} {s : Store} (hh : HeadsAre c d hs)
    (hf : List.Forall₂ (HeadIs c d.blocks) hs s) (name : Str) (e : Entry) (t : Time) :
    ∃ parent l, Linked c d.blocks parent l ∧ s.get name = l.map (·.2) ∧ parent = headOf hs name ∧
      (appendEntry c name e).run c t d =
        (.ok (), (d.write c (.block (c.hash (c.dumpList (blockData e parent t)))) (c.dumpList (blockData e parent t))).write c
          .heads (c.dumpDict (setHead hs name (c.hash (c.dumpList (blockData e parent t)))))) := by
  have key : ∀ (b : Bytes) (cid : Str), HeadsAre c (d.write c (.block cid) b) hs := fun b cid => hh
  rcases run_getHeadBlock hl hh hf name t with ⟨h1, h2, h3⟩ | ⟨cid, l, blk, h1, h2, h3, h4, h5, -⟩
  · refine ⟨none, [], .nil, h3, h2.symm, ?_⟩
    simp only [appendEntry, newHeadBlock, storeBlock, upsert, FProg.bind_eq, FProg.pure_eq, FProg.run_bind, h1,
      FProg.run_time, FProg.run_write, FProg.run_pure, Option.map_none, run_getheads (key _ _) t]
    rfl
  · refine ⟨some cid, l, h4, h5, h3.symm, ?_⟩
    subst h2
    simp only [appendEntry, newHeadBlock, storeBlock, upsert, FProg.bind_eq, FProg.pure_eq, FProg.run_bind, h1,
      FProg.run_time, FProg.run_write, FProg.run_pure, Option.map_some, run_getheads (key _ _) t]
    rfl

theorem Represents.write_block {d : Disk} {s : Store} {b : Bytes} (h : Represents c d s)
    (hc : d.collision c (c.hash b) b = false) : Represents c (d.write c (.block (c.hash b)) b) s := by
  obtain ⟨h1, hs, h2, h3⟩ := h
  exact ⟨h1, hs, h2, h3.imp fun _ _ ⟨g1, l, g2, g3⟩ => ⟨g1, l, g2.put hc, g3⟩⟩

theorem impl_append (hl : c.Lawful) {d : Disk} {s : Store} (h : Represents c d s) (name : Str) (e : Entry) (t : Time)
    (hc : ((Disk.impl c).append d name e t).2.collided = false) :
    ((Disk.impl c).append d name e t).1 = .ok () ∧
    Represents c ((Disk.impl c).append d name e t).2 (s.push name e) := by
  obtain ⟨hnd, hs, hh, hf⟩ := h
  obtain ⟨parent, l, h1, h2, h3, h4⟩ := run_appendEntry hl hh hf name e t
  have hrun : (Disk.impl c).append d name e t = (appendEntry c name e).run c t d := rfl
  rw [hrun, h4] at hc ⊢
  generalize hb : c.dumpList (blockData e parent t) = b at hc ⊢
  have hcol : d.collision c (c.hash b) b = false := by
    simp only [Disk.write, Bool.or_eq_false_iff] at hc
    exact hc.2
  have hf' : List.Forall₂ (HeadIs c (Disk.put d.blocks (c.hash b) b)) hs s :=
    hf.imp fun _ _ ⟨g1, l, g2, g3⟩ => ⟨g1, l, g2.put hcol, g3⟩
  have hnew : Linked c (Disk.put d.blocks (c.hash b) b) (some (c.hash b)) ((c.hash b, e) :: l) :=
    .cons (Disk.lookup_put_self ..) rfl (by rw [← hb]; exact hl.load_dump_list _) (h1.put hcol)
  have hfn := setHead_forall hf' hnew h2
  refine ⟨rfl, Store.nodup_push hnd name e, setHead hs name (c.hash b), Or.inr ⟨_, rfl, hl.load_dump_dict _ ?_⟩, hfn⟩
  rw [heads_nodup hfn]
  exact Store.nodup_push hnd name e

theorem impl_removeIf (hl : c.Lawful) {d : Disk} {s : Store} (h : Represents c d s) (p : Str → Bool) :
    ((Disk.impl c).removeIf d p).1 = .ok () ∧
    Represents c ((Disk.impl c).removeIf d p).2 (s.removeIf p) ∧
    ((Disk.impl c).removeIf d p).2.collided = d.collided ∧ ((Disk.impl c).removeIf d p).2.blocks = d.blocks := by
  obtain ⟨hnd, hs, hh, hf⟩ := h
  have hrun : (Disk.impl c).removeIf d p =
      (.ok (), d.write c .heads (c.dumpDict (hs.filter (fun x => !p x.1)))) := by
    simp [Disk.impl, Chainstore.removeIf, FProg.run_bind, run_getheads hh]
  have hf' : List.Forall₂ (HeadIs c d.blocks) (hs.filter (fun x => !p x.1)) (s.removeIf p) := by
    clear hnd hh hrun
    induction hf with
    | nil => exact .nil
    | @cons x y hs s hxy _ ih =>
      simp only [Store.removeIf, List.filter_cons, hxy.1] at ih ⊢
      cases p y.1
      · exact .cons hxy ih
      · exact ih
  have hnd' : (s.removeIf p).names.Nodup := Store.nodup_removeIf hnd p
  rw [hrun]
  refine ⟨rfl, ⟨hnd', _, Or.inr ⟨_, rfl, hl.load_dump_dict _ ?_⟩, hf'⟩, rfl, rfl⟩
  rw [heads_nodup hf']
  exact hnd'

/-! ## C01 -/

/-- two worlds which differ only in the way logs are stored -/
structure SameWorld {K : Type} (c : Codec) (w : World Disk K) (v : World Store K) : Prop where
  store : Represents c w.store v.store
  clock : w.clock = v.clock
  tick : w.tick = v.tick
  env : w.env = v.env
  trace : w.trace = v.trace

theorem impl_append_collided (d : Disk) (name : Str) (e : Entry) (t : Time)
    (h : ((Disk.impl c).append d name e t).2.collided = false) : d.collided = false := by
  have key : ∀ {α : Type} (p : FProg α) (d : Disk), (p.run c t d).2.collided = false → d.collided = false := by
    intro α p
    induction p with
    | pure a => exact fun d h => h
    | raise e => exact fun d h => h
    | op o k ih =>
      intro d h
      have h1 := ih _ _ h
      cases o with
      | read p => exact h1
      | time => exact h1
      | write p b =>
        cases p with
        | heads => exact h1
        | block cid =>
          simp only [Disk.step, Disk.write, Bool.or_eq_false_iff] at h1
          exact h1.1
  exact key _ _ h

theorem step_collided {K : Type} (O : Oracle K) (o : Op) (w : World Disk K)
    (h : (step (Disk.impl c) O o w).2.store.collided = false) : w.store.collided = false := by
  cases o with
  | append name e => exact impl_append_collided _ _ _ _ h
  | removeIf p =>
    have key : ∀ (d : Disk), ((Chainstore.removeIf c p).run c 0 d).2.collided = d.collided := by
      intro d
      simp only [Chainstore.removeIf, getheads, FProg.bind_eq, FProg.run_bind, FProg.run_read]
      cases h : d.read .heads with
      | none => rfl
      | some b => simp only [FProg.run_ofExcept]; cases c.loadDict b <;> rfl
    exact (key w.store).symm.trans h
  | _ => exact h

theorem run_collided {K : Type} (O : Oracle K) {α : Type} (p : Prog α) (w : World Disk K)
    (h : (run (Disk.impl c) O p w).2.store.collided = false) : w.store.collided = false := by
  induction p generalizing w with
  | pure a => exact h
  | raise e => exact h
  | op o k ih => exact step_collided O o w (ih _ _ h)

theorem step_same {K : Type} (hl : c.Lawful) (O : Oracle K) (o : Op) {w : World Disk K} {v : World Store K}
    (hw : SameWorld c w v) (hc : (step (Disk.impl c) O o w).2.store.collided = false) :
    (step (Disk.impl c) O o w).1 = (step Store.impl O o v).1 ∧
    SameWorld c (step (Disk.impl c) O o w).2 (step Store.impl O o v).2 := by
  obtain ⟨hs, h1, h2, h3, h4⟩ := hw
  cases o with
  | now => exact ⟨by simp only [step]; rw [h1, h2], ⟨hs, h1, by simp [step, h2], h3, h4⟩⟩
  | chain name => exact ⟨impl_chain hl hs name, ⟨hs, h1, h2, h3, h4⟩⟩
  | append name e =>
    have := impl_append hl hs name e (w.clock w.tick) hc
    exact ⟨this.1, ⟨this.2, h1, by simp [step, h2], h3, h4⟩⟩
  | heads => exact ⟨impl_heads hs, ⟨hs, h1, h2, h3, h4⟩⟩
  | removeIf p =>
    have := impl_removeIf hl hs p
    exact ⟨this.1, ⟨this.2.1, h1, h2, h3, h4⟩⟩
  | wipe => exact ⟨rfl, ⟨⟨List.nodup_nil, [], Or.inl ⟨rfl, rfl⟩, .nil⟩, h1, h2, h3, h4⟩⟩
  | ext o =>
    exact ⟨by simp only [step]; rw [h3], ⟨hs, h1, h2, by simp only [step]; rw [h3], by simp only [step]; rw [h3, h4]⟩⟩

/-- **C01.** Every program of store operations, clock reads and external operations gives the same result over the
files as over a map from names to logs, and leaves the same logs, if no hash collision occurred. -/
theorem C01_refinement {K : Type} (hl : c.Lawful) (O : Oracle K) {α : Type} (p : Prog α) {w : World Disk K}
    {v : World Store K} (hw : SameWorld c w v) (hc : (run (Disk.impl c) O p w).2.store.collided = false) :
    (run (Disk.impl c) O p w).1 = (run Store.impl O p v).1 ∧
    SameWorld c (run (Disk.impl c) O p w).2 (run Store.impl O p v).2 := by
  induction p generalizing w v with
  | pure a => exact ⟨rfl, hw⟩
  | raise e => exact ⟨rfl, hw⟩
  | op o k ih =>
    have h1 := step_same hl O o hw (run_collided O _ _ hc)
    simp only [run] at hc ⊢
    rw [h1.1] at hc ⊢
    exact ih _ h1.2 hc

end Verif
