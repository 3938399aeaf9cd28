import Verif.Props.Crash
import Verif.Spec.Concrete
/-!
# Removing everything, with some files left (C111)

`shutil.rmtree(dir, ignore_errors=True)` removes files one after the other and leaves those it cannot remove; the process may
also die on the way. A store which is left like this can be read: chains end where a block is missing.
-/
namespace Verif

open Chainstore

variable {c : Codec}

/-- some files were removed, the others are as before -/
def Disk.Left (d d' : Disk) : Prop :=
  (d'.heads = d.heads ∨ d'.heads = none) ∧ ∀ cid, Disk.lookup d'.blocks cid = Disk.lookup d.blocks cid ∨ Disk.lookup d'.blocks cid = none

theorem lookup_filter (l : List (Str × Bytes)) (cid x : Str) :
    Disk.lookup (l.filter (fun y => y.1 ≠ cid)) x = if x = cid then none else Disk.lookup l x := by
  induction l with
  | nil => simp [Disk.lookup]
  | cons y l ih =>
    obtain ⟨n, b⟩ := y
    by_cases hn : n = cid
    · simp only [List.filter_cons, hn, ne_eq, not_true_eq_false, decide_false, Bool.false_eq_true, if_false]
      rw [ih]
      by_cases hx : x = cid
      · simp [hx]
      · have : cid ≠ x := fun h => hx h.symm
        simp [hx, Disk.lookup, this]
    · simp only [List.filter_cons, hn, ne_eq, not_false_eq_true, decide_true, if_true, Disk.lookup]
      rw [ih]
      by_cases hx : x = cid
      · subst hx; simp [hn]
      · simp [hx]

theorem removing_left (d : Disk) (ps : List Path) : d.Left (d.removing ps) := by
  induction ps generalizing d with
  | nil => exact ⟨Or.inl rfl, fun _ => Or.inl rfl⟩
  | cons p ps ih =>
    obtain ⟨h1, h2⟩ := ih (d.unlink p)
    show d.Left ((d.unlink p).removing ps)
    cases p with
    | heads => exact ⟨Or.inr (h1.elim id id), h2⟩
    | block cid =>
      refine ⟨h1, fun x => ?_⟩
      rcases h2 x with h | h
      · rw [h]
        simp only [Disk.unlink, lookup_filter]
        by_cases hx : x = cid <;> simp [hx]
      · exact Or.inr h

theorem removing_heads {d : Disk} {ps : List Path} : (d.removing ps).heads = if .heads ∈ ps then none else d.heads := by
  induction ps generalizing d with
  | nil => rfl
  | cons p ps ih =>
    show ((d.unlink p).removing ps).heads = _
    rw [ih]
    cases p with
    | heads => simp [Disk.unlink]
    | block cid => simp [Disk.unlink]

theorem removing_block {d : Disk} {ps : List Path} (cid : Str) :
    Disk.lookup (d.removing ps).blocks cid = if .block cid ∈ ps then none else Disk.lookup d.blocks cid := by
  induction ps generalizing d with
  | nil => rfl
  | cons p ps ih =>
    show Disk.lookup ((d.unlink p).removing ps).blocks cid = _
    rw [ih]
    cases p with
    | heads => simp [Disk.unlink]
    | block x =>
      simp only [Disk.unlink, lookup_filter, List.mem_cons, Path.block.injEq]
      by_cases h : cid = x <;> simp [h]

/-! ## chains which end at a missing block -/

/-- Starting at a cid and following parent links, to a block without parent or to a removed file (its name is in `gone`), one finds
these blocks. -/
inductive Cut (c : Codec) (gone : Str → Prop) (blocks : List (Str × Bytes)) : Option Str → List (Str × Entry) → Prop
  | nil : Cut c gone blocks none []
  | stop {cid : Str} (ne : cid ≠ []) (removed : gone cid) (missing : Disk.lookup blocks cid = none) : Cut c gone blocks (some cid) []
  | cons {cid : Str} {b : Bytes} {e : Entry} {parent : Option Str} {t : Time} {l : List (Str × Entry)}
      (file : Disk.lookup blocks cid = some b) (named : c.hash b = cid)
      (content : c.loadList b = .ok (blockData e parent t)) (rest : Cut c gone blocks parent l) :
      Cut c gone blocks (some cid) ((cid, e) :: l)

/-- the names of the block files which were removed -/
def GoneFile (d d' : Disk) (cid : Str) : Prop := Disk.lookup d.blocks cid ≠ none ∧ Disk.lookup d'.blocks cid = none

theorem Linked.cut (hl : c.Lawful) {d d' : Disk} (h : d.Left d') {o : Option Str} {l : List (Str × Entry)} (hk : Linked c d.blocks o l) :
    ∃ l', Cut c (GoneFile d d') d'.blocks o l' ∧ l' <+: l := by
  induction hk with
  | nil => exact ⟨[], .nil, List.prefix_rfl⟩
  | @cons cid b e par t l file named content rest ih =>
    obtain ⟨l', h1, h2⟩ := ih
    rcases h.2 cid with hb | hb
    · exact ⟨(cid, e) :: l', .cons (hb.trans file) named content h1, List.cons_prefix_cons.2 ⟨rfl, h2⟩⟩
    · exact ⟨[], .stop (by rw [← named]; exact hl.hash_ne _) ⟨by rw [file]; exact Option.some_ne_none _, hb⟩ hb, List.nil_prefix⟩

variable {gone : Str → Prop}

theorem Cut.functional {blocks : List (Str × Bytes)} {o : Option Str} {l l' : List (Str × Entry)}
    (h : Cut c gone blocks o l) (h' : Cut c gone blocks o l') : l = l' := by
  induction h generalizing l' with
  | nil => cases h'; rfl
  | stop _ _ hm =>
    cases h' with
    | stop => rfl
    | cons file' _ _ _ => rw [hm] at file'; cases file'
  | cons file named content rest ih =>
    cases h' with
    | stop _ _ hm => rw [hm] at file; cases file
    | cons file' named' content' rest' =>
      rw [file] at file'; cases file'
      rw [content] at content'
      obtain ⟨rfl, rfl, -⟩ := blockData_inj (Except.ok.inj content')
      rw [ih rest']

theorem Cut.drop {blocks : List (Str × Bytes)} {o : Option Str} {l : List (Str × Entry)}
    (h : Cut c gone blocks o l) {cid : Str} (hm : cid ∈ l.map (·.1)) :
    ∃ l', Cut c gone blocks (some cid) l' ∧ l'.length ≤ l.length := by
  induction h with
  | nil => cases hm
  | stop => cases hm
  | cons file named content rest ih =>
    rcases List.mem_cons.1 hm with h | h
    · exact ⟨_, h ▸ Cut.cons file named content rest, Nat.le_refl _⟩
    · obtain ⟨l', h1, h2⟩ := ih h
      exact ⟨l', h1, by simp only [List.length_cons]; omega⟩

theorem Cut.nodup {blocks : List (Str × Bytes)} {o : Option Str} {l : List (Str × Entry)}
    (h : Cut c gone blocks o l) : (l.map (·.1)).Nodup := by
  induction h with
  | nil => exact List.nodup_nil
  | stop => exact List.nodup_nil
  | cons file named content rest ih =>
    refine List.nodup_cons.2 ⟨fun hm => ?_, ih⟩
    obtain ⟨l', h1, h2⟩ := rest.drop hm
    have := h1.functional (.cons file named content rest)
    rw [this] at h2
    simp only [List.length_cons] at h2
    omega

theorem Cut.subset {blocks : List (Str × Bytes)} {o : Option Str} {l : List (Str × Entry)}
    (h : Cut c gone blocks o l) : l.map (·.1) ⊆ blocks.map (·.1) := by
  induction h with
  | nil => exact List.nil_subset _
  | stop => exact List.nil_subset _
  | cons file named content rest ih =>
    intro x hx
    rcases List.mem_cons.1 hx with h | h
    · exact h ▸ List.mem_map_of_mem (f := (·.1)) (Disk.lookup_some_mem file)
    · exact ih h

theorem Cut.length_le {blocks : List (Str × Bytes)} {o : Option Str} {l : List (Str × Entry)}
    (h : Cut c gone blocks o l) : l.length ≤ blocks.length := by
  have := (h.nodup.subperm h.subset).length_le
  simpa using this

theorem Cut.put {d : Disk} {b : Bytes} {o : Option Str} {l : List (Str × Entry)}
    (h : Cut c gone d.blocks o l) (hc : d.collision c (c.hash b) b = false) (hg : ¬ gone (c.hash b)) :
    Cut c gone (Disk.put d.blocks (c.hash b) b) o l := by
  induction h with
  | nil => exact .nil
  | @stop cid ne removed missing =>
    refine .stop ne removed ?_
    rw [Disk.lookup_put_ne _ _ (fun h => hg (by rw [h]; exact removed)), missing]
  | @cons cid b' e parent t l file named content rest ih =>
    refine .cons (b := b') ?_ named content ih
    by_cases h : c.hash b = cid
    · subst h
      simp only [Disk.collision, file, named, beq_self_eq_true, Bool.and_true, bne_eq_false_iff_eq] at hc
      rw [Disk.lookup_put_self, hc]
    · rw [Disk.lookup_put_ne _ _ h, file]

theorem run_getBlock_none {d : Disk} {cid : Str} (h : Disk.lookup d.blocks cid = none) (t : Time) :
    (getBlock c cid).run c t d = (.ok none, d) := by
  simp [getBlock, FProg.run_bind, Disk.read, h]

/-- the walk over such a chain -/
theorem Cut.run_ancestors (hl : c.Lawful) {d : Disk} {cid : Str} {l : List (Str × Entry)}
    (h : Cut c gone d.blocks (some cid) l) {n : Nat} (hn : l.length ≤ n) (t : Time) :
    ∃ blk bs, (getBlock c cid).run c t d = (.ok blk, d) ∧ (∀ x, blk = some x → x.cid = cid) ∧ (blk = none → l = []) ∧
      (ancestors c n blk).run c t d = (.ok (some bs), d) ∧ entriesOf bs = .ok (l.map (·.2)) := by
  generalize ho : some cid = o at h
  induction h generalizing cid n with
  | nil => cases ho
  | stop _ _ missing =>
    cases ho
    refine ⟨none, [], run_getBlock_none missing t, by simp, fun _ => rfl, ?_, rfl⟩
    cases n <;> rfl
  | @cons cid' b e par t' l file named content rest ih =>
    cases ho
    cases n with
    | zero => simp at hn
    | succ n =>
      simp only [List.length_cons, Nat.add_le_add_iff_right] at hn
      cases par with
      | none =>
        cases rest
        refine ⟨some ⟨cid', .text e.tag, parentVal none, .float t', e.args⟩, [⟨cid', .text e.tag, parentVal none, .float t', e.args⟩],
          run_getBlock file content t, by rintro x ⟨⟩; rfl, by simp, ?_, ?_⟩
        · simp only [ancestors, parent, parentVal, FProg.bind_eq, FProg.pure_eq, FProg.run_bind, FProg.run_pure]
        · simp [entriesOf, entry_ofBlock, bind, Except.bind, pure, Except.pure]
      | some p =>
        have hp : p ≠ [] := by
          cases rest with
          | stop ne _ _ => exact ne
          | cons _ named' _ _ => rw [← named']; exact hl.hash_ne _
        obtain ⟨blk, bs, h1, -, -, h3, h4⟩ := ih hn rfl
        have hpar : (parent c ⟨cid', .text e.tag, parentVal (some p), .float t', e.args⟩) = getBlock c p := by
          cases p with
          | nil => exact absurd rfl hp
          | cons x xs => rfl
        refine ⟨some ⟨cid', .text e.tag, parentVal (some p), .float t', e.args⟩,
          ⟨cid', .text e.tag, parentVal (some p), .float t', e.args⟩ :: bs, run_getBlock file content t, by rintro x ⟨⟩; rfl, by simp, ?_, ?_⟩
        · simp only [ancestors, FProg.bind_eq, FProg.pure_eq, FProg.run_bind, FProg.run_pure, hpar, h1, h3]
        · simp [entriesOf, entry_ofBlock, bind, Except.bind, pure, Except.pure, h4]

/-! ## stores with such chains -/

/-- a head with its cid stands for a name with what is left of its log -/
def CutHead (c : Codec) (gone : Str → Prop) (blocks : List (Str × Bytes)) (x : Str × Str) (y : Str × List Entry) : Prop :=
  x.1 = y.1 ∧ ∃ l, Cut c gone blocks (some x.2) l ∧ y.2 = l.map (·.2)

/-- the files hold these logs, where blocks may be missing -/
def Remains (c : Codec) (gone : Str → Prop) (d : Disk) (s : Store) : Prop :=
  s.names.Nodup ∧ ∃ hs, HeadsAre c d hs ∧ List.Forall₂ (CutHead c gone d.blocks) hs s

/-- the second store has the same names with the newest parts of the logs -/
def NewestParts (s s' : Store) : Prop := List.Forall₂ (fun x y : Str × List Entry => x.1 = y.1 ∧ y.2 <+: x.2) s s'

theorem NewestParts.names {s s' : Store} (h : NewestParts s s') : s'.names = s.names := by
  induction h with
  | nil => rfl
  | cons hxy _ ih => simp only [Store.names, List.map_cons, ← hxy.1] at ih ⊢; rw [ih]

theorem NewestParts.get {s s' : Store} (h : NewestParts s s') (name : Str) : s'.get name <+: s.get name := by
  induction h with
  | nil => exact List.prefix_rfl
  | @cons x y _ _ hxy _ ih =>
    obtain ⟨n, lx⟩ := x
    obtain ⟨m, ly⟩ := y
    obtain ⟨h1, h2⟩ := hxy
    simp only at h1 h2
    subst h1
    by_cases hn : n = name
    · simpa [Store.get, hn] using h2
    · simpa [Store.get, hn] using ih

theorem Represents.remains (hl : c.Lawful) {d d' : Disk} {s : Store} (h : Represents c d s) (hd : d.Left d') :
    ∃ s', Remains c (GoneFile d d') d' s' ∧ (NewestParts s s' ∧ d'.heads = d.heads ∨ s' = [] ∧ d'.heads = none) := by
  obtain ⟨hnd, hs, hh, hf⟩ := h
  rcases hd.1 with hd1 | hd1
  · have : ∃ s', List.Forall₂ (CutHead c (GoneFile d d') d'.blocks) hs s' ∧ NewestParts s s' := by
      clear hnd hh
      induction hf with
      | nil => exact ⟨[], .nil, .nil⟩
      | @cons x y hs s hxy _ ih =>
        obtain ⟨s', h1, h2⟩ := ih
        obtain ⟨g1, l, g2, g3⟩ := hxy
        obtain ⟨l', k1, k2⟩ := g2.cut hl hd
        exact ⟨(y.1, l'.map (·.2)) :: s', .cons ⟨g1, l', k1, rfl⟩ h1, .cons ⟨rfl, by rw [g3]; exact k2.map _⟩ h2⟩
    obtain ⟨s', h1, h2⟩ := this
    exact ⟨s', ⟨by rw [h2.names]; exact hnd, hs, by unfold HeadsAre; rw [hd1]; exact hh, h1⟩, Or.inl ⟨h2, hd1⟩⟩
  · exact ⟨[], ⟨List.nodup_nil, [], Or.inl ⟨hd1, rfl⟩, .nil⟩, Or.inr ⟨rfl, hd1⟩⟩

theorem headOf_cut {blocks : List (Str × Bytes)} {hs : List (Str × Str)} {s : Store}
    (h : List.Forall₂ (CutHead c gone blocks) hs s) (name : Str) :
    (headOf hs name = none ∧ s.get name = []) ∨
    ∃ cid l, headOf hs name = some cid ∧ Cut c gone blocks (some cid) l ∧ s.get name = l.map (·.2) := by
  induction h with
  | nil => exact Or.inl ⟨rfl, rfl⟩
  | @cons x y hs s hxy hrest ih =>
    obtain ⟨n, cid⟩ := x
    obtain ⟨n', log⟩ := y
    obtain ⟨h1, l, h2, h3⟩ := hxy
    simp only at h1 h2 h3
    subst h1
    by_cases hn : n = name
    · exact Or.inr ⟨cid, l, by simp [headOf, hn], h2, by simp [Store.get, hn, h3]⟩
    · simpa [headOf, Store.get, hn] using ih

theorem Cut.cid_ne (hl : c.Lawful) {blocks : List (Str × Bytes)} {cid : Str} {l : List (Str × Entry)}
    (h : Cut c gone blocks (some cid) l) : cid ≠ [] := by
  cases h with
  | stop ne _ _ => exact ne
  | cons _ named _ _ => rw [← named]; exact hl.hash_ne _

theorem cut_getHeadBlock (hl : c.Lawful) {d : Disk} {hs : List (Str × Str)} {s : Store} (hh : HeadsAre c d hs)
    (hf : List.Forall₂ (CutHead c gone d.blocks) hs s) (name : Str) (t : Time) :
    ((getHeadBlock c name).run c t d = (.ok none, d) ∧ s.get name = []) ∨
    ∃ cid l blk, (getHeadBlock c name).run c t d = (.ok (some blk), d) ∧ blk.cid = cid ∧
      Cut c gone d.blocks (some cid) l ∧ s.get name = l.map (·.2) ∧ (getBlock c cid).run c t d = (.ok (some blk), d) := by
  rcases headOf_cut hf name with ⟨h1, h2⟩ | ⟨cid, l, h1, h2, h3⟩
  · refine Or.inl ⟨?_, h2⟩
    simp [getHeadBlock, getHeadCid, FProg.run_bind, run_getheads hh, h1]
  · obtain ⟨blk, bs, h4, h5, h6, -⟩ := h2.run_ancestors hl (Nat.le_refl _) t
    have hgh : (getHeadBlock c name).run c t d = (.ok blk, d) := by
      have hne := h2.cid_ne hl
      cases cid with
      | nil => exact absurd rfl hne
      | cons x xs => simp [getHeadBlock, getHeadCid, FProg.run_bind, run_getheads hh, h1, h4]
    cases blk with
    | none => exact Or.inl ⟨hgh, by rw [h3, h6 rfl]; rfl⟩
    | some blk => exact Or.inr ⟨cid, l, blk, hgh, h5 _ rfl, h2, h3, h4⟩

theorem remains_chain (hl : c.Lawful) {d : Disk} {s : Store} (h : Remains c gone d s) (name : Str) :
    (Disk.impl c).chain d name = .ok (s.get name) := by
  obtain ⟨-, hs, hh, hf⟩ := h
  rcases cut_getHeadBlock hl hh hf name 0 with ⟨h1, h3⟩ | ⟨cid, l, blk, h1, h2, h4, h5, h6⟩
  · have hz : (ancestors c d.blocks.length none).run c 0 d = (.ok (some []), d) := by
      cases d.blocks.length <;> rfl
    simp [Disk.impl, iterEntries, FProg.run_bind, h1, hz, entriesOf, h3]
  · obtain ⟨blk', bs, g1, -, -, g3, g4⟩ := h4.run_ancestors hl h4.length_le 0
    rw [h6] at g1
    cases g1
    simp [Disk.impl, iterEntries, FProg.run_bind, h1, g3, g4, h5]

theorem cutHeads_names {blocks : List (Str × Bytes)} {hs : List (Str × Str)} {s : Store}
    (hf : List.Forall₂ (CutHead c gone blocks) hs s) : hs.map (·.1) = s.names := by
  induction hf with
  | nil => rfl
  | cons hxy _ ih => simp only [List.map_cons, Store.names, hxy.1]; rw [ih]; rfl

theorem remains_heads {d : Disk} {s : Store} (h : Remains c gone d s) : (Disk.impl c).heads d = .ok s.names := by
  obtain ⟨-, hs, hh, hf⟩ := h
  simp [Disk.impl, run_getheads hh, Except.map, cutHeads_names hf]

theorem setHead_cut {blocks : List (Str × Bytes)} {hs : List (Str × Str)} {s : Store} {name cid : Str}
    {e : Entry} {l : List (Str × Entry)} (hf : List.Forall₂ (CutHead c gone blocks) hs s)
    (hnew : Cut c gone blocks (some cid) ((cid, e) :: l)) (hlog : s.get name = l.map (·.2)) :
    List.Forall₂ (CutHead c gone blocks) (setHead hs name cid) (s.push name e) := by
  induction hf with
  | nil =>
    refine .cons ⟨rfl, (cid, e) :: l, hnew, ?_⟩ .nil
    simp only [List.map_cons, ← hlog]; rfl
  | @cons x y hs s hxy hrest ih =>
    obtain ⟨n, x⟩ := x
    obtain ⟨n', log⟩ := y
    obtain ⟨h1, l', h2, h3⟩ := hxy
    simp only at h1 h2 h3
    subst h1
    by_cases hn : n = name
    · simp only [setHead, Store.push, hn, if_true]
      refine .cons ⟨rfl, _, hnew, ?_⟩ hrest
      simp only [Store.get, hn, if_true] at hlog
      simp only [List.map_cons, hlog]
    · simp only [setHead, Store.push, hn, if_false]
      refine .cons ⟨rfl, l', h2, h3⟩ (ih ?_)
      simpa only [Store.get, hn, if_false] using hlog

theorem cut_appendEntry {d : Disk} (hl : c.Lawful) {hs : List (Str × Str)} {s : Store} (hh : HeadsAre c d hs)
    (hf : List.Forall₂ (CutHead c gone d.blocks) hs s) (name : Str) (e : Entry) (t : Time) :
    ∃ parent l, Cut c gone d.blocks parent l ∧ s.get name = l.map (·.2) ∧
      (appendEntry c name e).run c t d =
        (.ok (), (d.write c (.block (c.hash (c.dumpList (blockData e parent t)))) (c.dumpList (blockData e parent t))).write c
          .heads (c.dumpDict (setHead hs name (c.hash (c.dumpList (blockData e parent t)))))) := by
  have key : ∀ (b : Bytes) (cid : Str), HeadsAre c (d.write c (.block cid) b) hs := fun b cid => hh
  rcases cut_getHeadBlock hl hh hf name t with ⟨h1, h3⟩ | ⟨cid, l, blk, h1, h2, h4, h5, -⟩
  · refine ⟨none, [], .nil, h3, ?_⟩
    simp only [appendEntry, newHeadBlock, storeBlock, upsert, FProg.bind_eq, FProg.pure_eq, FProg.run_bind, h1,
      FProg.run_time, FProg.run_write, FProg.run_pure, Option.map_none, run_getheads (key _ _) t]
    rfl
  · refine ⟨some cid, l, h4, h5, ?_⟩
    subst h2
    simp only [appendEntry, newHeadBlock, storeBlock, upsert, FProg.bind_eq, FProg.pure_eq, FProg.run_bind, h1,
      FProg.run_time, FProg.run_write, FProg.run_pure, Option.map_some, run_getheads (key _ _) t]
    rfl

/-- no removed file has come back -/
def StillGone (gone : Str → Prop) (d : Disk) : Prop := ∀ cid, gone cid → Disk.lookup d.blocks cid = none

theorem remains_append (hl : c.Lawful) {d : Disk} {s : Store} (h : Remains c gone d s) (name : Str) (e : Entry) (t : Time)
    (hc : ((Disk.impl c).append d name e t).2.collided = false) (hg : StillGone gone ((Disk.impl c).append d name e t).2) :
    ((Disk.impl c).append d name e t).1 = .ok () ∧ Remains c gone ((Disk.impl c).append d name e t).2 (s.push name e) := by
  obtain ⟨hnd, hs, hh, hf⟩ := h
  obtain ⟨parent, l, h1, h2, h4⟩ := cut_appendEntry hl hh hf name e t
  have hrun : (Disk.impl c).append d name e t = (appendEntry c name e).run c t d := rfl
  rw [hrun, h4] at hc hg ⊢
  generalize hb : c.dumpList (blockData e parent t) = b at hc hg ⊢
  have hcol : d.collision c (c.hash b) b = false := by
    simp only [Disk.write, Bool.or_eq_false_iff] at hc
    exact hc.2
  have hng : ¬ gone (c.hash b) := by
    intro hx
    have := hg _ hx
    simp only [Disk.write, Disk.lookup_put_self] at this
    cases this
  have hf' : List.Forall₂ (CutHead c gone (Disk.put d.blocks (c.hash b) b)) hs s :=
    hf.imp fun _ _ ⟨g1, l, g2, g3⟩ => ⟨g1, l, g2.put hcol hng, g3⟩
  have hnew : Cut c gone (Disk.put d.blocks (c.hash b) b) (some (c.hash b)) ((c.hash b, e) :: l) :=
    .cons (Disk.lookup_put_self ..) rfl (by rw [← hb]; exact hl.load_dump_list _) (h1.put hcol hng)
  have hfn := setHead_cut hf' hnew h2
  refine ⟨rfl, Store.nodup_push hnd name e, setHead hs name (c.hash b), Or.inr ⟨_, rfl, hl.load_dump_dict _ ?_⟩, hfn⟩
  rw [cutHeads_names hfn]
  exact Store.nodup_push hnd name e

theorem remains_removeIf (hl : c.Lawful) {d : Disk} {s : Store} (h : Remains c gone d s) (p : Str → Bool) :
    ((Disk.impl c).removeIf d p).1 = .ok () ∧ Remains c gone ((Disk.impl c).removeIf d p).2 (s.removeIf p) := by
  obtain ⟨hnd, hs, hh, hf⟩ := h
  have hrun : (Disk.impl c).removeIf d p =
      (.ok (), d.write c .heads (c.dumpDict (hs.filter (fun x => !p x.1)))) := by
    simp [Disk.impl, Chainstore.removeIf, FProg.run_bind, run_getheads hh]
  have hf' : List.Forall₂ (CutHead c gone d.blocks) (hs.filter (fun x => !p x.1)) (s.removeIf p) := by
    clear hnd hh hrun
    induction hf with
    | nil => exact .nil
    | @cons x y hs s hxy _ ih =>
      simp only [Store.removeIf, List.filter_cons, hxy.1] at ih ⊢
      cases p y.1
      · exact .cons hxy ih
      · exact ih
  have hnd' : (s.removeIf p).names.Nodup := Store.nodup_removeIf hnd p
  rw [hrun]
  refine ⟨rfl, hnd', _, Or.inr ⟨_, rfl, hl.load_dump_dict _ ?_⟩, hf'⟩
  rw [cutHeads_names hf']
  exact hnd'

/-! ## C111 -/

/-- **C111.** Whatever files a removal of everything has left, no read raises. The names are all there, or none (if the heads file is
gone), and each chain holds the newest part of what it held, possibly nothing of it. -/
theorem C111_reads (hl : c.Lawful) {d : Disk} {s : Store} (h : Represents c d s) (ps : List Path) :
    (Disk.impl c).heads (d.removing ps) = .ok (if .heads ∈ ps then [] else s.names) ∧
    ∀ name, ∃ l, (Disk.impl c).chain (d.removing ps) name = .ok l ∧ l <+: s.get name ∧ (.heads ∈ ps → l = []) := by
  obtain ⟨s', h1, h2⟩ := h.remains hl (removing_left d ps)
  refine ⟨?_, fun name => ⟨s'.get name, remains_chain hl h1 name, ?_, ?_⟩⟩
  · rw [remains_heads h1]
    rcases h2 with ⟨h2, h3⟩ | ⟨h2, h3⟩
    · rw [removing_heads] at h3
      by_cases hm : Path.heads ∈ ps
      · rw [if_pos hm] at h3 ⊢
        obtain ⟨-, hs, hh, hf⟩ := h
        rcases hh with ⟨-, rfl⟩ | ⟨b, hb, -⟩
        · rw [h2.names]; cases hf; rfl
        · rw [hb] at h3; cases h3
      · rw [if_neg hm, h2.names]
    · rw [removing_heads] at h3
      by_cases hm : Path.heads ∈ ps
      · rw [if_pos hm, h2]; rfl
      · rw [if_neg hm] at h3 ⊢
        obtain ⟨-, hs, hh, hf⟩ := h
        rcases hh with ⟨-, rfl⟩ | ⟨b, hb, -⟩
        · rw [h2]; cases hf; rfl
        · rw [hb] at h3; cases h3
  · rcases h2 with ⟨h2, -⟩ | ⟨h2, -⟩
    · exact h2.get name
    · rw [h2]; exact List.nil_prefix
  · intro hm
    rcases h2 with ⟨h2, h3⟩ | ⟨h2, -⟩
    · rw [removing_heads, if_pos hm] at h3
      obtain ⟨-, hs, hh, hf⟩ := h
      rcases hh with ⟨-, rfl⟩ | ⟨b, hb, -⟩
      · cases hf; cases h2; rfl
      · rw [hb] at h3; cases h3
    · rw [h2]; rfl

/-- **C111**, for a chain whose files are all there: it is read as before -/
theorem C111_kept (hl : c.Lawful) {d : Disk} {s : Store} (h : Represents c d s) (ps : List Path) (hp : .heads ∉ ps) {hs : List (Str × Str)}
    (hh : HeadsAre c d hs) {name cid : Str} (hc : headOf hs name = some cid) {l : List (Str × Entry)} (hk : Linked c d.blocks (some cid) l)
    (hb : ∀ x ∈ l, Path.block x.1 ∉ ps) : (Disk.impl c).chain (d.removing ps) name = .ok (s.get name) := by
  obtain ⟨hnd, hs', hh', hf⟩ := h
  have : hs' = hs := by
    rcases hh with ⟨a1, rfl⟩ | ⟨b, a1, a2⟩ <;> rcases hh' with ⟨b1, rfl⟩ | ⟨b', b1, b2⟩
    · rfl
    · rw [a1] at b1; cases b1
    · rw [a1] at b1; cases b1
    · rw [a1] at b1; cases b1; rw [a2] at b2; cases b2; rfl
  subst this
  rcases headOf_forall hf name with ⟨g1, -⟩ | ⟨cid', l', g1, g2, g3⟩
  · rw [hc] at g1; cases g1
  · rw [hc] at g1; cases g1
    have := g2.functional hk
    subst this
    have key : ∀ {o : Option Str} {m : List (Str × Entry)}, Linked c d.blocks o m → (∀ x ∈ m, Path.block x.1 ∉ ps) →
        Cut c (fun _ => False) (d.removing ps).blocks o m := by
      intro o m hm
      induction hm with
      | nil => exact fun _ => .nil
      | cons file named content rest ih =>
        intro hx
        refine .cons ?_ named content (ih fun x hm => hx x (List.mem_cons_of_mem _ hm))
        rw [removing_block, if_neg (hx _ List.mem_cons_self), file]
    have hcut := key hk hb
    have hheads : HeadsAre c (d.removing ps) hs' := by
      unfold HeadsAre; rw [removing_heads, if_neg hp]; exact hh'
    obtain ⟨blk, bs, k1, -, -, k4, k5⟩ := hcut.run_ancestors hl hcut.length_le 0
    have hgh : (getHeadBlock c name).run c 0 (d.removing ps) = (.ok blk, d.removing ps) := by
      have hne := hcut.cid_ne hl
      cases cid with
      | nil => exact absurd rfl hne
      | cons x xs => simp [getHeadBlock, getHeadCid, FProg.run_bind, run_getheads hheads, hc, k1]
    simp [Disk.impl, iterEntries, FProg.run_bind, hgh, k4, k5, g3]

/-- **C111**, removing again: if all files are removed then nothing is left, also if some were removed before -/
theorem C111_again {d : Disk} (ps qs : List Path) (hh : .heads ∈ qs) (hq : ∀ cid, Disk.lookup d.blocks cid ≠ none → .block cid ∈ qs) :
    Represents c ((d.removing ps).removing qs) [] ∧ ∀ cid, Disk.lookup ((d.removing ps).removing qs).blocks cid = none := by
  refine ⟨⟨List.nodup_nil, [], Or.inl ⟨?_, rfl⟩, .nil⟩, fun cid => ?_⟩
  · rw [removing_heads, if_pos hh]
  · rw [removing_block]
    split
    · rfl
    · next h =>
      rw [removing_block]
      split
      · rfl
      · exact Classical.byContradiction fun hx => h (hq cid hx)

/-- two worlds: files of which some may be missing, and what is left of the logs -/
structure LeftWorld {K : Type} (c : Codec) (gone : Str → Prop) (w : World Disk K) (v : World Store K) : Prop where
  store : Remains c gone w.store v.store
  clock : w.clock = v.clock
  tick : w.tick = v.tick
  env : w.env = v.env
  trace : w.trace = v.trace

/-- the program does not remove the whole directory -/
def Op.notWipe : Op → Prop
  | .wipe => False
  | _ => True

theorem put_lookup_none {blocks : List (Str × Bytes)} {cid x : Str} {b : Bytes} (h : Disk.lookup (Disk.put blocks cid b) x = none) :
    Disk.lookup blocks x = none := by
  by_cases hx : cid = x
  · subst hx; rw [Disk.lookup_put_self] at h; cases h
  · rwa [Disk.lookup_put_ne _ _ hx] at h

theorem fprog_stillGone {t : Time} {α : Type} (p : FProg α) (d : Disk) (h : StillGone gone (p.run c t d).2) : StillGone gone d := by
  induction p generalizing d with
  | pure a => exact h
  | raise e => exact h
  | op o k ih =>
    have h1 := ih _ _ h
    cases o with
    | read p => exact h1
    | time => exact h1
    | write p b =>
      cases p with
      | heads => exact h1
      | block cid => exact fun x hx => put_lookup_none (h1 x hx)

theorem step_stillGone {K : Type} (O : Oracle K) {o : Op} (ho : o.notWipe) (w : World Disk K)
    (h : StillGone gone (step (Disk.impl c) O o w).2.store) : StillGone gone w.store := by
  cases o with
  | append name e => exact fprog_stillGone _ _ h
  | removeIf p => exact fprog_stillGone _ _ h
  | wipe => exact ho.elim
  | now => exact h
  | chain _ => exact h
  | heads => exact h
  | ext _ => exact h

theorem run_stillGone {K : Type} (O : Oracle K) {α : Type} (p : Prog α) (hp : p.AllOps Op.notWipe) (w : World Disk K)
    (h : StillGone gone (run (Disk.impl c) O p w).2.store) : StillGone gone w.store := by
  induction p generalizing w with
  | pure a => exact h
  | raise e => exact h
  | op o k ih => exact step_stillGone O hp.1 w (ih _ (hp.2 _) _ h)

theorem left_step {K : Type} (hl : c.Lawful) (O : Oracle K) {o : Op} (ho : o.notWipe) {w : World Disk K} {v : World Store K}
    (hw : LeftWorld c gone w v) (hc : (step (Disk.impl c) O o w).2.store.collided = false)
    (hg : StillGone gone (step (Disk.impl c) O o w).2.store) :
    (step (Disk.impl c) O o w).1 = (step Store.impl O o v).1 ∧
    LeftWorld c gone (step (Disk.impl c) O o w).2 (step Store.impl O o v).2 := by
  obtain ⟨hs, h1, h2, h3, h4⟩ := hw
  cases o with
  | now => exact ⟨by simp only [step]; rw [h1, h2], ⟨hs, h1, by simp [step, h2], h3, h4⟩⟩
  | chain name => exact ⟨remains_chain hl hs name, ⟨hs, h1, h2, h3, h4⟩⟩
  | append name e =>
    have := remains_append hl hs name e (w.clock w.tick) hc hg
    exact ⟨this.1, ⟨this.2, h1, by simp [step, h2], h3, h4⟩⟩
  | heads => exact ⟨remains_heads hs, ⟨hs, h1, h2, h3, h4⟩⟩
  | removeIf p =>
    have := remains_removeIf hl hs p
    exact ⟨this.1, ⟨this.2, h1, h2, h3, h4⟩⟩
  | wipe => exact ho.elim
  | ext o =>
    exact ⟨by simp only [step]; rw [h3], ⟨hs, h1, h2, by simp only [step]; rw [h3], by simp only [step]; rw [h3, h4]⟩⟩

theorem left_run {K : Type} (hl : c.Lawful) (O : Oracle K) {α : Type} (p : Prog α) (hp : p.AllOps Op.notWipe) {w : World Disk K}
    {v : World Store K} (hw : LeftWorld c gone w v) (hc : (run (Disk.impl c) O p w).2.store.collided = false)
    (hg : StillGone gone (run (Disk.impl c) O p w).2.store) :
    (run (Disk.impl c) O p w).1 = (run Store.impl O p v).1 ∧ LeftWorld c gone (run (Disk.impl c) O p w).2 (run Store.impl O p v).2 := by
  induction p generalizing w v with
  | pure a => exact ⟨rfl, hw⟩
  | raise e => exact ⟨rfl, hw⟩
  | op o k ih =>
    have h1 := left_step hl O hp.1 hw (run_collided O _ _ hc) (run_stillGone O _ (hp.2 _) _ hg)
    simp only [run] at hc hg ⊢
    rw [h1.1] at hc hg ⊢
    exact ih _ (hp.2 _) h1.2 hc hg

/-- **C111**, for what comes after it: every program which does not remove everything again runs on the files which were left like on
logs of which the older parts were cut off, or on no logs at all. Assumed is, besides that no hash collision occurs, that no block is
written with the name of a removed one (which would need an equal entry, parent and time). -/
theorem C111_after {K : Type} (hl : c.Lawful) (O : Oracle K) {α : Type} (p : Prog α) (hp : p.AllOps Op.notWipe) {d : Disk} {s : Store}
    (h : Represents c d s) (ps : List Path) :
    ∃ s', (NewestParts s s' ∨ s' = []) ∧ ∀ (clock : Nat → Time) (tick : Nat) (env : K) (trace : List Event),
      (run (Disk.impl c) O p ⟨d.removing ps, clock, tick, env, trace⟩).2.store.collided = false →
      (∀ cid, Disk.lookup d.blocks cid ≠ none → .block cid ∈ ps →
        Disk.lookup (run (Disk.impl c) O p ⟨d.removing ps, clock, tick, env, trace⟩).2.store.blocks cid = none) →
      (run (Disk.impl c) O p ⟨d.removing ps, clock, tick, env, trace⟩).1 = (run Store.impl O p ⟨s', clock, tick, env, trace⟩).1 ∧
      ReadsAs c (run (Disk.impl c) O p ⟨d.removing ps, clock, tick, env, trace⟩).2.store (run Store.impl O p ⟨s', clock, tick, env, trace⟩).2.store ∧
      (run (Disk.impl c) O p ⟨d.removing ps, clock, tick, env, trace⟩).2.trace = (run Store.impl O p ⟨s', clock, tick, env, trace⟩).2.trace := by
  obtain ⟨s', h1, h2⟩ := h.remains hl (removing_left d ps)
  refine ⟨s', h2.imp (·.1) (·.1), fun clock tick env trace hc hg => ?_⟩
  have hw : LeftWorld c (GoneFile d (d.removing ps)) (⟨d.removing ps, clock, tick, env, trace⟩ : World Disk K) ⟨s', clock, tick, env, trace⟩ :=
    ⟨h1, rfl, rfl, rfl, rfl⟩
  have hst : StillGone (GoneFile d (d.removing ps)) (run (Disk.impl c) O p ⟨d.removing ps, clock, tick, env, trace⟩).2.store := by
    rintro cid ⟨g1, g2⟩
    refine hg cid g1 ?_
    rw [removing_block] at g2
    by_cases hm : Path.block cid ∈ ps
    · exact hm
    · rw [if_neg hm] at g2; exact absurd g2 g1
  obtain ⟨k1, k2⟩ := left_run hl O p hp hw hc hst
  exact ⟨k1, ⟨remains_heads k2.store, remains_chain hl k2.store⟩, k2.trace⟩

namespace Concrete

/-- a second entry for the chain of `oneChain` -/
def twoEntries : Disk := ((Disk.impl codec).append oneChain (str!"a") (.acfg (str!"2")) 6).2
/-- its logs -/
def twoLog : Store := [(str!"a", [.acfg (str!"2"), .acfg (str!"1")])]

theorem twoEntries_represents : Represents codec twoEntries twoLog :=
  (impl_append codec_lawful oneChain_represents (str!"a") (.acfg (str!"2")) 6 (by decide +kernel)).2

/-- the file of the first entry -/
def firstFile : Path := .block ((twoEntries.blocks.map (·.1)).headD [])

/-- With the file of the first entry removed the second one is still read; with that of the second one removed nothing is. -/
example : (Disk.impl codec).chain (twoEntries.removing [firstFile]) (str!"a") = .ok [.acfg (str!"2")] :=
  Except.eq_ok_of_toOption (by decide +kernel)
example : (Disk.impl codec).chain (twoEntries.removing [.block ((twoEntries.blocks.map (·.1)).getLastD [])]) (str!"a") = .ok [] :=
  Except.eq_ok_of_toOption (by decide +kernel)

/-- the hypotheses of `C111_again` and `C111_kept` can be met -/
example (ps : List Path) : Represents codec ((twoEntries.removing ps).removing (.heads :: twoEntries.blocks.map (fun y => Path.block y.1))) [] := by
  refine (C111_again ps _ List.mem_cons_self fun cid h => List.mem_cons_of_mem _ ?_).1
  obtain ⟨b, hb⟩ := Option.ne_none_iff_exists'.1 h
  exact List.mem_map_of_mem (f := fun y : Str × Bytes => Path.block y.1) (Disk.lookup_some_mem hb)
example : (Disk.impl codec).chain (twoEntries.removing []) (str!"a") = .ok [.acfg (str!"2"), .acfg (str!"1")] :=
  Except.eq_ok_of_toOption (by decide +kernel)

/-- the hypotheses of `C111_after` are met: another entry is appended after an incomplete removal -/
def later : Prog (List Entry) := (Prog.append (str!"a") (.acfg (str!"3"))).bind fun _ => Prog.chain (str!"a")

example : (run (Disk.impl codec) oracle later ⟨twoEntries.removing [firstFile], fun _ => 9, 0, (), []⟩).1.toOption =
      some [.acfg (str!"3"), .acfg (str!"2")] ∧
    (run (Disk.impl codec) oracle later ⟨twoEntries.removing [firstFile], fun _ => 9, 0, (), []⟩).2.store.collided = false ∧
    (Disk.lookup (run (Disk.impl codec) oracle later
      ⟨twoEntries.removing [firstFile], fun _ => 9, 0, (), []⟩).2.store.blocks ((twoEntries.blocks.map (·.1)).headD [])).isNone = true := by
  decide +kernel

end Concrete

end Verif
