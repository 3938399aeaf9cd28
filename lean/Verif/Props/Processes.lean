import Verif.Props.Crash
import Verif.Model.Processes
/-!
# Several processes (C05)

The proof is by rely and guarantee: `FProg.Safe` says that the rest of a program keeps the store sound whatever other
processes do in between, as long as they only add block files and keep the store sound themselves.
-/
namespace Verif

open Chainstore

variable {c : Codec}

/-- a cid with a complete chain below it, down to a block without parent, and all its entries were appended under
this name by one of these calls -/
def Good (c : Codec) (d : Disk) (A : List Job) (n cid : Str) : Prop :=
  ∃ l, Linked c d.blocks (some cid) l ∧ ∀ x ∈ l, Job.append n x.2 ∈ A

/-- the heads file can be read and every head is good -/
def Sound (c : Codec) (d : Disk) (A : List Job) : Prop :=
  ∃ hs, HeadsAre c d hs ∧ (hs.map (·.1)).Nodup ∧ ∀ x ∈ hs, Good c d A x.1 x.2

/-- block files named by the hash of their bytes stay -/
def Keeps (c : Codec) (d d' : Disk) : Prop :=
  ∀ cid b, c.hash b = cid → Disk.lookup d.blocks cid = some b → Disk.lookup d'.blocks cid = some b

theorem Linked.keeps {d d' : Disk} (hk : Keeps c d d') {o : Option Str} {l : List (Str × Entry)}
    (h : Linked c d.blocks o l) : Linked c d'.blocks o l := by
  induction h with
  | nil => exact .nil
  | cons file named content rest ih => exact .cons (hk _ _ named file) named content ih

/-- a later state: block files stay, calls are added -/
def Later (c : Codec) (d : Disk) (A : List Job) (d' : Disk) (A' : List Job) : Prop :=
  Keeps c d d' ∧ A ⊆ A'

theorem Later.refl (d : Disk) (A : List Job) : Later c d A d A := ⟨fun _ _ _ h => h, fun _ h => h⟩

theorem Later.trans {d d1 d2 : Disk} {A A1 A2 : List Job} (h : Later c d A d1 A1) (h' : Later c d1 A1 d2 A2) :
    Later c d A d2 A2 :=
  ⟨fun x b hb hl => h'.1 x b hb (h.1 x b hb hl), fun _ hx => h'.2 (h.2 hx)⟩

theorem Good.later {d d1 : Disk} {A A1 : List Job} {n cid : Str} (h : Good c d A n cid) (hl : Later c d A d1 A1) :
    Good c d1 A1 n cid := by
  obtain ⟨l, h1, h2⟩ := h
  exact ⟨l, h1.keeps hl.1, fun x hx => hl.2 (h2 x hx)⟩

/-- the rest of a program keeps the store sound and ends well -/
def FProg.Safe (c : Codec) {α : Type} (Q : α → Disk → List Job → Prop) : FProg α → Disk → List Job → Prop
  | .pure a, d, A => Q a d A
  | .raise _, _, _ => False
  | .op o k, d, A => ∀ d1 A1, Later c d A d1 A1 → Sound c d1 A1 → ∀ t, (d1.step c t o).2.collided = false →
      Sound c (d1.step c t o).2 A1 ∧ Later c d1 A1 (d1.step c t o).2 A1 ∧
      (k (d1.step c t o).1).Safe c Q (d1.step c t o).2 A1

/-- a condition which stays true -/
def Stable (c : Codec) (Q : Disk → List Job → Prop) : Prop :=
  ∀ d A d1 A1, Later c d A d1 A1 → Q d A → Q d1 A1

theorem FProg.Safe.later {α : Type} {Q : α → Disk → List Job → Prop} (hQ : ∀ a, Stable c (Q a)) {p : FProg α}
    {d d1 : Disk} {A A1 : List Job} (h : p.Safe c Q d A) (hl : Later c d A d1 A1) : p.Safe c Q d1 A1 := by
  cases p with
  | pure a => exact hQ a _ _ _ _ hl h
  | raise e => exact h
  | op o k => exact fun d2 A2 h2 => h d2 A2 (hl.trans h2)

theorem FProg.Safe.bind {α β : Type} {Q : α → Disk → List Job → Prop} {Q' : β → Disk → List Job → Prop}
    {p : FProg α} {f : α → FProg β} {d : Disk} {A : List Job} (h : p.Safe c Q d A)
    (hf : ∀ a d1 A1, Later c d A d1 A1 → Q a d1 A1 → (f a).Safe c Q' d1 A1) : (p.bind f).Safe c Q' d A := by
  induction p generalizing d A with
  | pure a => exact hf a d A (.refl d A) h
  | raise e => exact h
  | op o k ih =>
    intro d1 A1 h1 h2 t h3
    obtain ⟨g1, g2, g3⟩ := h d1 A1 h1 h2 t h3
    exact ⟨g1, g2, ih _ g3 fun a d2 A2 h4 => hf a d2 A2 ((h1.trans g2).trans h4)⟩

theorem FProg.Safe.weaken {α : Type} {Q Q' : α → Disk → List Job → Prop} {p : FProg α} {d : Disk} {A : List Job}
    (h : p.Safe c Q d A) (hf : ∀ a d1 A1, Later c d A d1 A1 → Q a d1 A1 → Q' a d1 A1) : p.Safe c Q' d A := by
  induction p generalizing d A with
  | pure a => exact hf a d A (.refl d A) h
  | raise e => exact h
  | op o k ih =>
    intro d1 A1 h1 h2 t h3
    obtain ⟨g1, g2, g3⟩ := h d1 A1 h1 h2 t h3
    exact ⟨g1, g2, ih _ g3 fun a d2 A2 h4 => hf a d2 A2 ((h1.trans g2).trans h4)⟩

theorem FProg.Safe.ofExcept {α : Type} {Q : α → Disk → List Job → Prop} {x : Except Exc α} {a : α} (hx : x = .ok a)
    {d : Disk} {A : List Job} (h : Q a d A) : (FProg.ofExcept x).Safe c Q d A := by
  subst hx; exact h

theorem FProg.Safe.read {Q : Option Bytes → Disk → List Job → Prop} {p : Path} {d : Disk} {A : List Job}
    (h : ∀ d1 A1, Later c d A d1 A1 → Sound c d1 A1 → Q (d1.read p) d1 A1) : (FProg.read p).Safe c Q d A :=
  fun d1 A1 h1 h2 _ _ => ⟨h2, .refl d1 A1, h d1 A1 h1 h2⟩

theorem not_collided_write {d : Disk} {cid : Str} {b : Bytes} (h : (d.write c (.block cid) b).collided = false) :
    d.collision c cid b = false := by
  simp only [Disk.write, Bool.or_eq_false_iff] at h
  exact h.2

/-! ## the functions of the store -/

theorem safe_getheads {d : Disk} {A : List Job} : (getheads c).Safe c
    (fun hs d A => (hs.map (·.1)).Nodup ∧ ∀ x ∈ hs, Good c d A x.1 x.2) d A := by
  refine FProg.Safe.bind (p := FProg.read .heads) (Q := fun r d A => ∃ hs : List (Str × Str),
    ((r = none ∧ hs = []) ∨ ∃ b, r = some b ∧ c.loadDict b = .ok hs) ∧
    (hs.map Prod.fst).Nodup ∧ ∀ x ∈ hs, Good c d A x.1 x.2) (.read fun d1 A1 _ h2 => h2) ?_
  rintro r d1 A1 - ⟨hs, h | ⟨b, h, hb⟩, h2⟩
  · obtain ⟨rfl, rfl⟩ := h; exact h2
  · subst h; exact .ofExcept hb h2

theorem keeps_write {d : Disk} {b : Bytes} (h : d.collision c (c.hash b) b = false) :
    Keeps c d (d.write c (.block (c.hash b)) b) := by
  intro cid b' hb' hf
  by_cases hx : c.hash b = cid
  · subst hx
    simp only [Disk.collision, hf, hb', beq_self_eq_true, Bool.and_true, bne_eq_false_iff_eq] at h
    subst h
    exact Disk.lookup_put_self ..
  · rw [← hf]; exact Disk.lookup_put_ne _ _ hx

theorem safe_getBlock {cid : Str} {b : Bytes} {e : Entry} {p : Option Str} {t : Time} {d : Disk} {A : List Job}
    (file : Disk.lookup d.blocks cid = some b) (named : c.hash b = cid) (content : c.loadList b = .ok (blockData e p t)) :
    (getBlock c cid).Safe c (fun r _ _ => r = some ⟨cid, .text e.tag, parentVal p, .float t, e.args⟩) d A := by
  refine FProg.Safe.bind (p := FProg.read (.block cid)) (Q := fun r _ _ => r = some b)
    (.read fun d1 A1 h1 _ => h1.1 _ _ named file) ?_
  rintro r d1 A1 - rfl
  exact FProg.Safe.bind (p := FProg.ofExcept _) (Q := fun x _ _ => x = blockData e p t) (.ofExcept content rfl)
    fun x d2 A2 _ hx => FProg.Safe.bind (p := FProg.ofExcept _)
      (Q := fun x _ _ => x = ⟨cid, .text e.tag, parentVal p, .float t, e.args⟩)
      (.ofExcept (by subst hx; rfl) rfl) fun y d3 A3 _ hy => congrArg some hy

/-- what `get_head_block` finds -/
def HeadFound (c : Codec) (n : Str) (r : Option Block) (d : Disk) (A : List Job) : Prop :=
  r = none ∨ ∃ cid b e p t l, r = some ⟨cid, .text e.tag, parentVal p, .float t, e.args⟩ ∧
    Disk.lookup d.blocks cid = some b ∧ c.hash b = cid ∧ c.loadList b = .ok (blockData e p t) ∧
    Linked c d.blocks p l ∧ Job.append n e ∈ A ∧ ∀ x ∈ l, Job.append n x.2 ∈ A

theorem headOf_mem {hs : List (Str × Str)} {n cid : Str} (h : headOf hs n = some cid) : (n, cid) ∈ hs := by
  induction hs with
  | nil => cases h
  | cons x hs ih =>
    obtain ⟨m, y⟩ := x
    by_cases hm : m = n
    · simp [headOf, hm] at h; simp [hm, h]
    · simp [headOf, hm] at h; exact List.mem_cons_of_mem _ (ih h)

theorem headOf_none {hs : List (Str × Str)} {n : Str} (h : headOf hs n = none) : n ∉ hs.map (·.1) := by
  induction hs with
  | nil => exact List.not_mem_nil
  | cons x hs ih =>
    obtain ⟨m, y⟩ := x
    by_cases hm : m = n
    · simp [headOf, hm] at h
    · simp only [headOf, hm, if_false] at h
      simp only [List.map_cons, List.mem_cons, not_or]
      exact ⟨fun h => hm h.symm, ih h⟩

theorem headOf_unique {hs : List (Str × Str)} {n x y : Str} (h : (hs.map (·.1)).Nodup) (hx : (n, x) ∈ hs)
    (hy : (n, y) ∈ hs) : x = y := by
  induction hs with
  | nil => cases hx
  | cons z hs ih =>
    obtain ⟨h1, h2⟩ := List.nodup_cons.1 h
    rcases List.mem_cons.1 hx with rfl | hx'
    · rcases List.mem_cons.1 hy with e | hy'
      · cases e; rfl
      · exact absurd (List.mem_map_of_mem (f := (·.1)) hy') h1
    · rcases List.mem_cons.1 hy with rfl | hy'
      · exact absurd (List.mem_map_of_mem (f := (·.1)) hx') h1
      · exact ih h2 hx' hy'

theorem safe_getHeadBlock (hl : c.Lawful) {n : Str} {d : Disk} {A : List Job} :
    (getHeadBlock c n).Safe c (HeadFound c n) d A := by
  refine FProg.Safe.bind (p := getHeadCid c n) (Q := fun r d A => ∀ cid, r = some cid → Good c d A n cid) ?_ ?_
  · refine FProg.Safe.bind (p := getheads c) safe_getheads ?_
    rintro hs d1 A1 - ⟨-, h2⟩ cid hc
    exact h2 _ (headOf_mem hc)
  · intro r d1 A1 _ hr
    match r with
    | none => exact Or.inl rfl
    | some [] =>
      obtain ⟨l, h1, -⟩ := hr [] rfl
      exact absurd rfl (h1.cid_ne hl)
    | some (x :: xs) =>
      obtain ⟨l, h1, h2⟩ := hr _ rfl
      cases h1 with
      | @cons _ b e p t l file named content rest =>
        refine (safe_getBlock (A := A1) file named content).weaken fun r d2 A2 h4 hr => ?_
        exact Or.inr ⟨_, b, e, p, t, l, hr, h4.1 _ _ named file, named, content, rest.keeps h4.1,
          h4.2 (h2 _ List.mem_cons_self), fun x hx => h4.2 (h2 x (List.mem_cons_of_mem _ hx))⟩

theorem HeadFound.good {n : Str} {r : Option Block} {d : Disk} {A : List Job} (h : HeadFound c n r d A) :
    r.map (·.cid) = none ∨ ∃ cid, r.map (·.cid) = some cid ∧ Good c d A n cid := by
  rcases h with rfl | ⟨cid, b, e, p, t, l, rfl, file, named, content, rest, h1, h2⟩
  · exact Or.inl rfl
  · refine Or.inr ⟨cid, rfl, (cid, e) :: l, .cons file named content rest, fun x hx => ?_⟩
    rcases List.mem_cons.1 hx with rfl | hx
    · exact h1
    · exact h2 x hx

theorem Sound.keeps {d d' : Disk} {A : List Job} (h : Sound c d A) (hh : d'.heads = d.heads) (hk : Keeps c d d') :
    Sound c d' A := by
  obtain ⟨hs, h1, h2, h3⟩ := h
  refine ⟨hs, ?_, h2, fun x hx => (h3 x hx).later ⟨hk, fun _ h => h⟩⟩
  unfold HeadsAre; rw [hh]; exact h1

theorem safe_storeBlock (hl : c.Lawful) {n : Str} {e : Entry} {par : Option Str} {d : Disk} {A : List Job}
    (hA : Job.append n e ∈ A) (hp : par = none ∨ ∃ cid, par = some cid ∧ Good c d A n cid) :
    (storeBlock c e.tag e.args par).Safe c (fun cid d A => Good c d A n cid) d A := by
  intro d1 A1 h1 h2 t _
  refine ⟨h2, .refl _ _, ?_⟩
  intro d2 A2 h3 h4 t' hcol
  have hk := keeps_write (not_collided_write hcol)
  refine ⟨h4.keeps rfl hk, ⟨hk, fun _ h => h⟩, ?_⟩
  have h5 := (h1.trans h3).trans ⟨hk, fun _ h => h⟩
  rcases hp with rfl | ⟨cid, rfl, hg⟩
  · refine ⟨[(_, e)], .cons (Disk.lookup_put_self ..) rfl (hl.load_dump_list _) .nil, fun x hx => ?_⟩
    rw [List.mem_singleton.1 hx]; exact h5.2 hA
  · obtain ⟨l, g1, g2⟩ := hg.later h5
    refine ⟨(_, e) :: l, .cons (Disk.lookup_put_self ..) rfl (hl.load_dump_list _) g1, fun x hx => ?_⟩
    rcases List.mem_cons.1 hx with rfl | hx
    · exact h5.2 hA
    · exact g2 x hx

theorem setHead_nodup {hs : List (Str × Str)} (h : (hs.map (·.1)).Nodup) (n cid : Str) :
    ((setHead hs n cid).map (·.1)).Nodup ∧ ∀ m, m ∈ (setHead hs n cid).map (·.1) → m = n ∨ m ∈ hs.map (·.1) := by
  induction hs with
  | nil => exact ⟨by simp [setHead], fun m hm => Or.inl (by simpa [setHead] using hm)⟩
  | cons x hs ih =>
    obtain ⟨k, y⟩ := x
    obtain ⟨h1, h2⟩ := List.nodup_cons.1 h
    by_cases hk : k = n
    · simp only [setHead, hk, if_true]
      subst hk
      exact ⟨h, fun m hm => Or.inr hm⟩
    · simp only [setHead, hk, if_false]
      obtain ⟨i1, i2⟩ := ih h2
      refine ⟨List.nodup_cons.2 ⟨fun hm => ?_, i1⟩, fun m hm => ?_⟩
      · rcases i2 _ hm with rfl | hm
        · exact hk rfl
        · exact h1 hm
      · rcases List.mem_cons.1 hm with rfl | hm
        · exact Or.inr List.mem_cons_self
        · exact (i2 m hm).imp_right (List.mem_cons_of_mem _)

theorem mem_setHead {hs : List (Str × Str)} {n cid : Str} {x : Str × Str} (h : x ∈ setHead hs n cid) :
    x = (n, cid) ∨ x ∈ hs := by
  induction hs with
  | nil => exact Or.inl (by simpa [setHead] using h)
  | cons y hs ih =>
    obtain ⟨k, y⟩ := y
    by_cases hk : k = n
    · simp only [setHead, hk, if_true] at h
      rcases List.mem_cons.1 h with rfl | h
      · exact Or.inl rfl
      · exact Or.inr (List.mem_cons_of_mem _ h)
    · simp only [setHead, hk, if_false] at h
      rcases List.mem_cons.1 h with rfl | h
      · exact Or.inr List.mem_cons_self
      · exact (ih h).imp_right (List.mem_cons_of_mem _)

/-- a write of the heads file with good heads -/
theorem safe_writeHeads (hl : c.Lawful) {hs : List (Str × Str)} {d : Disk} {A : List Job}
    (hn : (hs.map (·.1)).Nodup) (hg : ∀ x ∈ hs, Good c d A x.1 x.2) :
    (FProg.write .heads (c.dumpDict hs)).Safe c (fun _ _ _ => True) d A := by
  intro d1 A1 h1 _ t _
  refine ⟨⟨hs, Or.inr ⟨_, rfl, hl.load_dump_dict _ hn⟩, hn, fun x hx => ?_⟩, ⟨fun _ _ _ h => h, fun _ h => h⟩, trivial⟩
  exact ((hg x hx).later h1).later ⟨fun _ _ _ h => h, fun _ h => h⟩

theorem safe_append (hl : c.Lawful) {n : Str} {e : Entry} {d : Disk} {A : List Job} (hA : Job.append n e ∈ A) :
    (appendEntry c n e).Safe c (fun _ _ _ => True) d A := by
  refine FProg.Safe.bind (safe_getHeadBlock hl) fun r d1 A1 h1 hr => ?_
  refine FProg.Safe.bind (safe_storeBlock hl (h1.2 hA) hr.good) fun cid d2 A2 h2 hcid => ?_
  refine FProg.Safe.bind safe_getheads fun hs d3 A3 h3 hhs => ?_
  refine safe_writeHeads hl (setHead_nodup hhs.1 _ _).1 fun x hx => ?_
  rcases mem_setHead hx with rfl | hx
  · exact hcid.later h3
  · exact hhs.2 x hx

theorem safe_remove (hl : c.Lawful) {p : Str → Bool} {d : Disk} {A : List Job} :
    (Chainstore.removeIf c p).Safe c (fun _ _ _ => True) d A := by
  refine FProg.Safe.bind safe_getheads fun hs d3 A3 h3 hhs => ?_
  refine safe_writeHeads hl ?_ fun x hx => hhs.2 x (List.mem_of_mem_filter hx)
  exact hhs.1.sublist (List.filter_sublist.map _)

theorem safe_ancestors (hl : c.Lawful) {n : Str} (fuel : Nat) {r : Option Block} {d : Disk} {A : List Job}
    (h : HeadFound c n r d A) : (ancestors c fuel r).Safe c
    (fun res _ A => ∀ bs, res = some bs → ∃ es, entriesOf bs = .ok es ∧ ∀ e ∈ es, Job.append n e ∈ A) d A := by
  induction fuel generalizing r d A with
  | zero =>
    cases r with
    | none => rintro bs h; cases h; exact ⟨[], rfl, fun _ h => nomatch h⟩
    | some b => rintro bs h; cases h
  | succ k ih =>
    cases r with
    | none => rintro bs h; cases h; exact ⟨[], rfl, fun _ h => nomatch h⟩
    | some b =>
      rcases h with h | ⟨cid, b, e, p, t, l, h, file, named, content, rest, h1, h2⟩
      · cases h
      cases h
      refine FProg.Safe.bind (p := parent c _) (Q := HeadFound c n) ?_ ?_
      · cases rest with
        | nil => exact Or.inl rfl
        | @cons cid' b' e' p' t' l' file' named' content' rest' =>
          have hne : cid' ≠ [] := by rw [← named']; exact hl.hash_ne _
          have hpar : (parent c ⟨cid, .text e.tag, parentVal (some cid'), .float t, e.args⟩) = getBlock c cid' := by
            cases cid' with
            | nil => exact absurd rfl hne
            | cons x xs => rfl
          rw [hpar]
          refine (safe_getBlock file' named' content').weaken fun r d2 A2 h4 hr => ?_
          exact Or.inr ⟨_, b', e', p', t', l', hr, h4.1 _ _ named' file', named', content', rest'.keeps h4.1,
            h4.2 (h2 _ List.mem_cons_self), fun x hx => h4.2 (h2 x (List.mem_cons_of_mem _ hx))⟩
      · intro r d1 A1 hl1 hr
        refine FProg.Safe.bind (ih hr) fun res d2 A2 hl2 hres => ?_
        cases res with
        | none => rintro bs h; cases h
        | some bs =>
          rintro bs' h
          cases h
          obtain ⟨es, g1, g2⟩ := hres bs rfl
          refine ⟨e :: es, ?_, fun x hx => ?_⟩
          · simp only [entriesOf, entry_ofBlock, g1]; rfl
          · rcases List.mem_cons.1 hx with rfl | hx
            · exact hl2.2 (hl1.2 h1)
            · exact g2 x hx

theorem safe_read (hl : c.Lawful) {n : Str} (fuel : Nat) {d : Disk} {A : List Job} : (iterEntries c fuel n).Safe c
    (fun res _ A => ∀ es, res = some es → ∀ e ∈ es, Job.append n e ∈ A) d A := by
  refine FProg.Safe.bind (safe_getHeadBlock hl) fun r d1 A1 h1 hr => ?_
  refine FProg.Safe.bind (safe_ancestors hl fuel hr) fun res d2 A2 h2 hres => ?_
  cases res with
  | none => rintro es h; cases h
  | some bs =>
    obtain ⟨es, g1, g2⟩ := hres bs rfl
    refine FProg.Safe.bind (p := FProg.ofExcept _) (Q := fun x _ _ => x = es) (.ofExcept g1 rfl) fun x d3 A3 h3 hx => ?_
    subst hx
    rintro es' h
    cases h
    exact fun e he => h3.2 (g2 e he)

/-! ## schedules -/

/-- what a call may return -/
def Returns (j : Job) (a : Option (List Entry)) (A : List Job) : Prop :=
  match j with
  | .read n _ => ∀ es, a = some es → ∀ e ∈ es, Job.append n e ∈ A
  | _ => True

theorem Returns.mono {j : Job} {a : Option (List Entry)} {A A1 : List Job} (hs : A ⊆ A1) (h : Returns j a A) :
    Returns j a A1 := by
  cases j with
  | read n fuel => exact fun es he e hm => hs (h es he e hm)
  | _ => trivial

theorem safe_job (hl : c.Lawful) (j : Job) {d : Disk} {A : List Job} (hA : j ∈ A) :
    (j.prog c).Safe c (fun a _ A => Returns j a A) d A := by
  cases j with
  | append n e => exact FProg.Safe.bind (safe_append hl hA) fun _ _ _ _ _ => trivial
  | remove p => exact FProg.Safe.bind (safe_remove hl) fun _ _ _ _ _ => trivial
  | read n fuel => exact safe_read hl fuel

/-- holds throughout every schedule -/
structure Sys.Inv (c : Codec) (s : Sys) : Prop where
  sound : Sound c s.disk s.started
  procs : ∀ i r, s.procs i = some r → r.rest.Safe c (fun a _ A => Returns r.job a A) s.disk s.started
  finished : ∀ x ∈ s.finished, ∃ a, x.2 = .ok a ∧ Returns x.1 a s.started

theorem Sys.act_collided (s : Sys) (x : Turn) (h : (s.act c x).disk.collided = false) : s.disk.collided = false := by
  cases x with
  | start i j =>
    simp only [Sys.act] at h
    split at h <;> exact h
  | step i t =>
    simp only [Sys.act] at h
    split at h
    · exact h
    · split at h
      · exact h
      · exact h
      · rename_i o k _
        cases o with
        | read p => exact h
        | time => exact h
        | write p b =>
          cases p with
          | heads => exact h
          | block cid =>
            simp only [Disk.step, Disk.write, Bool.or_eq_false_iff] at h
            exact h.1

theorem Sys.runs_collided (turns : List Turn) (s : Sys) (h : (s.runs c turns).disk.collided = false) :
    s.disk.collided = false := by
  induction turns generalizing s with
  | nil => exact h
  | cons x xs ih => exact s.act_collided x (ih _ h)

theorem Sys.Inv.act (hl : c.Lawful) {s : Sys} (hi : s.Inv c) (x : Turn) (h : (s.act c x).disk.collided = false) :
    (s.act c x).Inv c := by
  cases x with
  | start i j =>
    simp only [Sys.act] at h ⊢
    split
    · exact hi
    · have hlat : Later c s.disk s.started s.disk (j :: s.started) :=
        ⟨fun _ _ _ h => h, List.subset_cons_self _ _⟩
      refine ⟨?_, ?_, ?_⟩
      · obtain ⟨hs, h1, h2, h3⟩ := hi.sound
        exact ⟨hs, h1, h2, fun x hx => (h3 x hx).later hlat⟩
      · intro i' r hr
        simp only [Sys.setProc] at hr
        split at hr
        · cases hr; exact safe_job hl j List.mem_cons_self
        · exact (hi.procs i' r hr).later (fun a _ _ _ _ hl h => h.mono hl.2) hlat
      · intro x hx
        obtain ⟨a, h1, h2⟩ := hi.finished x hx
        exact ⟨a, h1, h2.mono hlat.2⟩
  | step i t =>
    simp only [Sys.act] at h ⊢
    split
    · exact hi
    · rename_i r hr
      have hsafe := hi.procs i r hr
      split
      · rename_i a ha
        rw [ha] at hsafe
        refine ⟨hi.sound, fun i' r' hr' => ?_, fun x hx => ?_⟩
        · simp only [Sys.setProc] at hr'
          split at hr'
          · cases hr'
          · exact hi.procs i' r' hr'
        · rcases List.mem_cons.1 hx with rfl | hx
          · exact ⟨a, rfl, hsafe⟩
          · exact hi.finished x hx
      · rename_i e he
        rw [he] at hsafe
        exact hsafe.elim
      · rename_i o k hok
        simp only [hr, hok] at h
        rw [hok] at hsafe
        obtain ⟨g1, g2, g3⟩ := hsafe s.disk s.started (.refl _ _) hi.sound t h
        refine ⟨g1, fun i' r' hr' => ?_, hi.finished⟩
        simp only [Sys.setProc] at hr'
        split at hr'
        · cases hr'; exact g3
        · exact (hi.procs i' r' hr').later (fun a _ _ _ _ hl h => h.mono hl.2) g2

theorem Sys.Inv.runs (hl : c.Lawful) (turns : List Turn) {s : Sys} (hi : s.Inv c)
    (h : (s.runs c turns).disk.collided = false) : (s.runs c turns).Inv c := by
  induction turns generalizing s with
  | nil => exact hi
  | cons x xs ih => exact ih (hi.act hl x (Sys.runs_collided xs _ h)) h

theorem Sys.inv_init : ({} : Sys).Inv c :=
  ⟨⟨[], Or.inl ⟨rfl, rfl⟩, List.nodup_nil, fun _ h => nomatch h⟩, (fun _ _ h => nomatch h), (fun _ h => nomatch h)⟩

theorem Sys.inv_of_runs (hl : c.Lawful) (turns : List Turn)
    (h : (({} : Sys).runs c turns).disk.collided = false) : (({} : Sys).runs c turns).Inv c :=
  Sys.inv_init.runs hl turns h

/-- the calls which started are those of the schedule -/
theorem Sys.started_mem (turns : List Turn) {s : Sys} {j : Job} (h : j ∈ (s.runs c turns).started) :
    j ∈ s.started ∨ ∃ i, Turn.start i j ∈ turns := by
  induction turns generalizing s with
  | nil => exact Or.inl h
  | cons x xs ih =>
    rcases ih (s := s.act c x) h with h | ⟨i, h⟩
    · cases x with
      | start i j' =>
        simp only [Sys.act] at h
        split at h
        · exact Or.inl h
        · rcases List.mem_cons.1 h with rfl | h
          · exact Or.inr ⟨i, List.mem_cons_self⟩
          · exact Or.inl h
      | step i t =>
        simp only [Sys.act] at h
        split at h
        · exact Or.inl h
        · split at h <;> exact Or.inl h
    · exact Or.inr ⟨i, List.mem_cons_of_mem _ h⟩

theorem Sys.started_init {turns : List Turn} {j : Job} (h : j ∈ (({} : Sys).runs c turns).started) :
    ∃ i, Turn.start i j ∈ turns := by
  rcases Sys.started_mem turns h with h | h
  · cases h
  · exact h

/-- A sound disk as a store. -/
theorem Sound.represents {d : Disk} {A : List Job} (h : Sound c d A) :
    ∃ s, Represents c d s ∧ ∀ n, ∀ e ∈ s.get n, Job.append n e ∈ A := by
  obtain ⟨hs, h1, h2, h3⟩ := h
  have : ∃ s : Store, List.Forall₂ (HeadIs c d.blocks) hs s ∧ ∀ n, ∀ e ∈ s.get n, Job.append n e ∈ A := by
    clear h1 h2
    induction hs with
    | nil => exact ⟨[], .nil, fun n e h => nomatch h⟩
    | cons x hs ih =>
      obtain ⟨s, g1, g2⟩ := ih fun y hy => h3 y (List.mem_cons_of_mem _ hy)
      obtain ⟨l, k1, k2⟩ := h3 x List.mem_cons_self
      refine ⟨(x.1, l.map (·.2)) :: s, .cons ⟨rfl, l, k1, rfl⟩ g1, fun n e he => ?_⟩
      by_cases hx : x.1 = n
      · simp only [Store.get, hx, if_true] at he
        obtain ⟨y, hy, rfl⟩ := List.mem_map.1 he
        exact hx ▸ k2 y hy
      · simp only [Store.get, hx, if_false] at he
        exact g2 n e he
  obtain ⟨s, g1, g2⟩ := this
  exact ⟨s, ⟨by rw [← heads_nodup g1]; exact h2, hs, h1, g1⟩, g2⟩

/-- **C05.** Whatever the schedule of any number of processes, each doing any calls: afterwards the heads file can be
read and names no chain twice. From every head the parent links lead over complete block files to one without parent,
reading the chain returns exactly the entries on this path, and every one was appended under this name. A name without
head has no entries. -/
theorem C05_sound (hl : c.Lawful) (turns : List Turn) (h : (({} : Sys).runs c turns).disk.collided = false) :
    ∃ hs, (getheads c).run c 0 (({} : Sys).runs c turns).disk = (.ok hs, (({} : Sys).runs c turns).disk) ∧
      (hs.map (·.1)).Nodup ∧
      (∀ n cid, (n, cid) ∈ hs → ∃ l, Linked c (({} : Sys).runs c turns).disk.blocks (some cid) l ∧
        (Disk.impl c).chain (({} : Sys).runs c turns).disk n = .ok (l.map (·.2)) ∧
        ∀ x ∈ l, ∃ i, Turn.start i (.append n x.2) ∈ turns) ∧
      ∀ n, n ∉ hs.map (·.1) → (Disk.impl c).chain (({} : Sys).runs c turns).disk n = .ok [] := by
  have hi := (Sys.inv_of_runs hl turns h).sound
  have hst := fun j => Sys.started_init (c := c) (turns := turns) (j := j)
  generalize ({} : Sys).runs c turns = S at hi hst
  obtain ⟨s, ⟨k1, hs, k2, k3⟩, -⟩ := hi.represents
  obtain ⟨hs', g1, g2, g3⟩ := hi
  have hhs : hs' = hs := by
    have e1 := run_getheads g1 0
    have e2 := run_getheads k2 0
    rw [e1] at e2; cases e2; rfl
  subst hhs
  refine ⟨hs', run_getheads g1 0, g2, fun n cid hm => ?_, fun n hn => ?_⟩
  · obtain ⟨l, l1, l2⟩ := g3 _ hm
    refine ⟨l, l1, ?_, fun x hx => hst _ (l2 x hx)⟩
    rw [impl_chain hl ⟨k1, hs', k2, k3⟩ n]
    rcases headOf_forall k3 n with ⟨j1, -⟩ | ⟨cid', l', j1, j2, j3⟩
    · exact absurd (List.mem_map_of_mem (f := (·.1)) hm) (headOf_none j1)
    · have : cid' = cid := headOf_unique g2 (headOf_mem j1) hm
      subst this
      rw [j3, l1.functional j2]
  · rw [impl_chain hl ⟨k1, hs', k2, k3⟩ n]
    rcases headOf_forall k3 n with ⟨-, j2⟩ | ⟨cid', l', j1, -⟩
    · rw [j2]
    · exact absurd (List.mem_map_of_mem (f := (·.1)) (headOf_mem j1)) hn

/-- **C05**, for readers among the processes: no call of any process ever raises, and a read which runs while others
write returns only entries which were appended under this name. -/
theorem C05_calls (hl : c.Lawful) (turns : List Turn) (h : (({} : Sys).runs c turns).disk.collided = false)
    (j : Job) (res : Except Exc (Option (List Entry))) (hm : (j, res) ∈ (({} : Sys).runs c turns).finished) :
    ∃ a, res = .ok a ∧ ∀ n fuel es, j = .read n fuel → a = some es →
      ∀ e ∈ es, ∃ i, Turn.start i (.append n e) ∈ turns := by
  obtain ⟨a, h1, h2⟩ := (Sys.inv_of_runs hl turns h).finished _ hm
  exact ⟨a, h1, fun n fuel es hj ha e he => by subst hj; exact Sys.started_init (h2 es ha e he)⟩

end Verif
