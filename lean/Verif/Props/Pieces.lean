import Verif.Props.Processes
import Verif.Model.Pieces
import Mathlib.Data.List.Infix
/-!
# Several processes which see files half written (C109)

`known` are the blocks whose writing has ended, whatever other processes do to their files now. `FProg.Steady` says that
the rest of a program behaves well if it reads known blocks and good heads; if it reads anything else, this is a file
half written, which cannot be loaded, and the program stops with an exception.
-/
namespace Verif

open Chainstore

variable {c : Codec}

/-! ## files -/

theorem Disk.read_torn_self (d : Disk) (p : Path) (x : Bytes) : (d.torn p x).read p = some x := by
  cases p with
  | heads => rfl
  | block cid => exact Disk.lookup_put_self ..

theorem Disk.read_torn_ne (d : Disk) {p q : Path} (x : Bytes) (h : p ≠ q) : (d.torn p x).read q = d.read q := by
  cases p with
  | heads =>
    cases q with
    | heads => exact absurd rfl h
    | block cid => rfl
  | block cid =>
    cases q with
    | heads => rfl
    | block cid' => exact Disk.lookup_put_ne _ _ (fun e => h (by rw [e]))

theorem overlay_start (x b : Bytes) : overlay x 0 b = b ++ x.drop b.length := by
  simp [overlay]

theorem overlay_prefix {x b : Bytes} (h : x <+: b) : overlay x 0 b = b := by
  rw [overlay_start, List.drop_of_length_le h.length_le, List.append_nil]

theorem overlay_next (b : Bytes) (off n : Nat) (h : off ≤ b.length) :
    overlay (b.take off) off ((b.drop off).take n) = b.take (off + n) := by
  have h1 : (b.take off).length = off := by simp [h]
  have h2 : (b.take off).drop (off + ((b.drop off).take n).length) = [] :=
    List.drop_of_length_le (by rw [h1]; omega)
  simp only [overlay, h1, h2, Nat.sub_self, List.replicate_zero, List.append_nil]
  rw [List.take_take, Nat.min_self, List.take_add]

/-! ## good heads -/

/-- what is known only grows -/
def Grows (K : List (Str × Bytes)) (A : List Job) (K1 : List (Str × Bytes)) (A1 : List Job) : Prop :=
  (∀ cid b, Disk.lookup K cid = some b → Disk.lookup K1 cid = some b) ∧ A ⊆ A1

theorem Grows.refl (K : List (Str × Bytes)) (A : List Job) : Grows K A K A := ⟨fun _ _ h => h, fun _ h => h⟩

theorem Grows.trans {K K1 K2 : List (Str × Bytes)} {A A1 A2 : List Job} (h : Grows K A K1 A1) (h' : Grows K1 A1 K2 A2) :
    Grows K A K2 A2 := ⟨fun x b hb => h'.1 x b (h.1 x b hb), fun _ hx => h'.2 (h.2 hx)⟩

theorem Linked.grows {K K1 : List (Str × Bytes)} {A A1 : List Job} (hg : Grows K A K1 A1) {o : Option Str}
    {l : List (Str × Entry)} (h : Linked c K o l) : Linked c K1 o l := by
  induction h with
  | nil => exact .nil
  | cons file named content rest ih => exact .cons (hg.1 _ _ file) named content ih

/-- a cid with a complete chain of known blocks below it, and all its entries were appended under this name -/
def GoodIn (c : Codec) (K : List (Str × Bytes)) (A : List Job) (n cid : Str) : Prop :=
  ∃ l, Linked c K (some cid) l ∧ ∀ x ∈ l, Job.append n x.2 ∈ A

theorem GoodIn.grows {K K1 : List (Str × Bytes)} {A A1 : List Job} {n cid : Str} (h : GoodIn c K A n cid)
    (hg : Grows K A K1 A1) : GoodIn c K1 A1 n cid := by
  obtain ⟨l, h1, h2⟩ := h
  exact ⟨l, h1.grows hg, fun x hx => hg.2 (h2 x hx)⟩

/-- heads which are all good -/
def GoodHeads (c : Codec) (hs : List (Str × Str)) (K : List (Str × Bytes)) (A : List Job) : Prop :=
  (hs.map (·.1)).Nodup ∧ ∀ x ∈ hs, GoodIn c K A x.1 x.2

theorem GoodHeads.grows {hs : List (Str × Str)} {K K1 : List (Str × Bytes)} {A A1 : List Job} (h : GoodHeads c hs K A)
    (hg : Grows K A K1 A1) : GoodHeads c hs K1 A1 := ⟨h.1, fun x hx => (h.2 x hx).grows hg⟩

/-! ## programs -/

/-- the rest of a program behaves well -/
def FProg.Steady (c : Codec) {α : Type} (Q : α → List (Str × Bytes) → List Job → Prop) :
    FProg α → List (Str × Bytes) → List Job → Prop
  | .pure a, K, A => Q a K A
  | .raise _, _, _ => False
  | .op .time k, K, A => ∀ t K1 A1, Grows K A K1 A1 → (k t).Steady c Q K1 A1
  | .op (.read .heads) k, K, A =>
      (∀ x e, c.loadDict x = .error e → ∃ e', k (some x) = .raise e') ∧
      ∀ K1 A1, Grows K A K1 A1 → ∀ hs, GoodHeads c hs K1 A1 →
        (hs = [] → (k none).Steady c Q K1 A1) ∧ ∀ x, c.loadDict x = .ok hs → (k (some x)).Steady c Q K1 A1
  | .op (.read (.block cid)) k, K, A =>
      (∀ x e, c.loadList x = .error e → ∃ e', k (some x) = .raise e') ∧
      ∃ b, Disk.lookup K cid = some b ∧ ∀ K1 A1, Grows K A K1 A1 → (k (some b)).Steady c Q K1 A1
  | .op (.write .heads b) k, K, A =>
      (∃ hs, b = c.dumpDict hs ∧ GoodHeads c hs K A) ∧ ∀ K1 A1, Grows K A K1 A1 → (k ()).Steady c Q K1 A1
  | .op (.write (.block cid) b) k, K, A =>
      (∃ l, b = c.dumpList l) ∧ c.hash b = cid ∧
      ∀ K1 A1, Grows K A K1 A1 → Disk.lookup K1 cid = some b → (k ()).Steady c Q K1 A1

variable {α β : Type} {Q : α → List (Str × Bytes) → List Job → Prop} {Q' : β → List (Str × Bytes) → List Job → Prop}
  {K : List (Str × Bytes)} {A : List Job}

theorem FProg.Steady.grows (hQ : ∀ a K A K1 A1, Grows K A K1 A1 → Q a K A → Q a K1 A1) {p : FProg α}
    {K1 : List (Str × Bytes)} {A1 : List Job} (h : p.Steady c Q K A) (hg : Grows K A K1 A1) : p.Steady c Q K1 A1 := by
  match p with
  | .pure a => exact hQ a _ _ _ _ hg h
  | .raise e => exact h
  | .op .time k => exact fun t K2 A2 h2 => h t K2 A2 (hg.trans h2)
  | .op (.read .heads) k => exact ⟨h.1, fun K2 A2 h2 => h.2 K2 A2 (hg.trans h2)⟩
  | .op (.read (.block cid)) k =>
    obtain ⟨h1, b, h2, h3⟩ := h
    exact ⟨h1, b, hg.1 _ _ h2, fun K2 A2 h4 => h3 K2 A2 (hg.trans h4)⟩
  | .op (.write .heads b) k =>
    obtain ⟨⟨hs, h1, h2⟩, h3⟩ := h
    exact ⟨⟨hs, h1, h2.grows hg⟩, fun K2 A2 h4 => h3 K2 A2 (hg.trans h4)⟩
  | .op (.write (.block cid) b) k => exact ⟨h.1, h.2.1, fun K2 A2 h4 => h.2.2 K2 A2 (hg.trans h4)⟩

theorem FProg.Steady.bind {p : FProg α} {f : α → FProg β} (h : p.Steady c Q K A)
    (hf : ∀ a K1 A1, Grows K A K1 A1 → Q a K1 A1 → (f a).Steady c Q' K1 A1) : (p.bind f).Steady c Q' K A := by
  induction p generalizing K A with
  | pure a => exact hf a K A (.refl K A) h
  | raise e => exact h
  | op o k ih =>
    have raises : ∀ {r : o.Ret}, (∃ e', k r = .raise e') → ∃ e', (k r).bind f = .raise e' := by
      rintro r ⟨e', he⟩; exact ⟨e', by rw [he]; rfl⟩
    match o with
    | .time => exact fun t K1 A1 h1 => ih t (h t K1 A1 h1) fun a K2 A2 h2 => hf a K2 A2 (h1.trans h2)
    | .read .heads =>
      refine ⟨fun x e he => raises (h.1 x e he), fun K1 A1 h1 hs hgood => ⟨fun h0 => ?_, fun x hx => ?_⟩⟩
      · exact ih none ((h.2 K1 A1 h1 hs hgood).1 h0) fun a K2 A2 h2 => hf a K2 A2 (h1.trans h2)
      · exact ih (some x) ((h.2 K1 A1 h1 hs hgood).2 x hx) fun a K2 A2 h2 => hf a K2 A2 (h1.trans h2)
    | .read (.block cid) =>
      obtain ⟨h1, b, h2, h3⟩ := h
      exact ⟨fun x e he => raises (h1 x e he), b, h2, fun K1 A1 h4 =>
        ih (some b) (h3 K1 A1 h4) fun a K2 A2 h5 => hf a K2 A2 (h4.trans h5)⟩
    | .write .heads b =>
      exact ⟨h.1, fun K1 A1 h4 => ih () (h.2 K1 A1 h4) fun a K2 A2 h5 => hf a K2 A2 (h4.trans h5)⟩
    | .write (.block cid) b =>
      exact ⟨h.1, h.2.1, fun K1 A1 h4 h5 => ih () (h.2.2 K1 A1 h4 h5) fun a K2 A2 h6 => hf a K2 A2 (h4.trans h6)⟩

theorem FProg.Steady.ofExcept {x : Except Exc α} {a : α} (hx : x = .ok a) (h : Q a K A) :
    (FProg.ofExcept x).Steady c Q K A := by
  subst hx; exact h

/-! ## the functions of the store -/

theorem steady_getheads : (getheads c).Steady c (fun hs K A => GoodHeads c hs K A) K A := by
  refine ⟨fun x e he => ⟨e, ?_⟩, fun K1 A1 _ hs hgood => ⟨fun h0 => ?_, fun x hx => ?_⟩⟩
  · show FProg.ofExcept (c.loadDict x) = _
    rw [he]; rfl
  · subst h0; exact hgood
  · exact FProg.Steady.ofExcept hx hgood

theorem steady_getBlock {cid : Str} {b : Bytes} {e : Entry} {p : Option Str} {t : Time}
    (file : Disk.lookup K cid = some b) (content : c.loadList b = .ok (blockData e p t)) :
    (getBlock c cid).Steady c (fun r _ _ => r = some ⟨cid, .text e.tag, parentVal p, .float t, e.args⟩) K A := by
  refine ⟨fun x e he => ⟨e, ?_⟩, b, file, fun K1 A1 _ => ?_⟩
  · show (FProg.ofExcept (c.loadList x)).bind _ = _
    rw [he]; rfl
  · exact FProg.Steady.bind (p := FProg.ofExcept _) (Q := fun x _ _ => x = blockData e p t) (.ofExcept content rfl)
      fun x K2 A2 _ hx => FProg.Steady.bind (p := FProg.ofExcept _)
        (Q := fun x _ _ => x = ⟨cid, .text e.tag, parentVal p, .float t, e.args⟩)
        (.ofExcept (by subst hx; rfl) rfl) fun y K3 A3 _ hy => congrArg some hy

/-- what `get_head_block` finds -/
def HeadIn (c : Codec) (n : Str) (r : Option Block) (K : List (Str × Bytes)) (A : List Job) : Prop :=
  r = none ∨ ∃ cid b e p t l, r = some ⟨cid, .text e.tag, parentVal p, .float t, e.args⟩ ∧
    Disk.lookup K cid = some b ∧ c.hash b = cid ∧ c.loadList b = .ok (blockData e p t) ∧
    Linked c K p l ∧ Job.append n e ∈ A ∧ ∀ x ∈ l, Job.append n x.2 ∈ A

theorem FProg.Steady.weaken {Q2 : α → List (Str × Bytes) → List Job → Prop} {p : FProg α} (h : p.Steady c Q K A)
    (hf : ∀ a K1 A1, Grows K A K1 A1 → Q a K1 A1 → Q2 a K1 A1) : p.Steady c Q2 K A := by
  have : p = p.bind .pure := by
    clear h hf
    induction p with
    | pure a => rfl
    | raise e => rfl
    | op o k ih => simp only [FProg.bind]; congr 1; funext r; exact ih r
  rw [this]
  exact h.bind hf

theorem steady_found {n cid : Str} (h : GoodIn c K A n cid) : (getBlock c cid).Steady c (HeadIn c n) K A := by
  obtain ⟨l, h1, h2⟩ := h
  cases h1 with
  | @cons _ b e p t l file named content rest =>
    refine (steady_getBlock (A := A) file content).weaken fun r K2 A2 h4 hr => ?_
    exact Or.inr ⟨_, b, e, p, t, l, hr, h4.1 _ _ file, named, content, rest.grows h4,
      h4.2 (h2 _ List.mem_cons_self), fun x hx => h4.2 (h2 x (List.mem_cons_of_mem _ hx))⟩

theorem steady_getHeadBlock (hl : c.Lawful) {n : Str} : (getHeadBlock c n).Steady c (HeadIn c n) K A := by
  refine FProg.Steady.bind (p := getHeadCid c n) (Q := fun r K A => ∀ cid, r = some cid → GoodIn c K A n cid) ?_ ?_
  · refine FProg.Steady.bind (p := getheads c) steady_getheads ?_
    rintro hs K1 A1 - ⟨-, h2⟩ cid hc
    exact h2 _ (headOf_mem hc)
  · intro r K1 A1 _ hr
    match r with
    | none => exact Or.inl rfl
    | some [] =>
      obtain ⟨l, h1, -⟩ := hr [] rfl
      exact absurd rfl (h1.cid_ne hl)
    | some (x :: xs) => exact steady_found (hr _ rfl)

theorem HeadIn.good {n : Str} {r : Option Block} (h : HeadIn c n r K A) :
    r.map (·.cid) = none ∨ ∃ cid, r.map (·.cid) = some cid ∧ GoodIn c K A n cid := by
  rcases h with rfl | ⟨cid, b, e, p, t, l, rfl, file, named, content, rest, h1, h2⟩
  · exact Or.inl rfl
  · refine Or.inr ⟨cid, rfl, (cid, e) :: l, .cons file named content rest, fun x hx => ?_⟩
    rcases List.mem_cons.1 hx with rfl | hx
    · exact h1
    · exact h2 x hx

theorem steady_storeBlock (hl : c.Lawful) {n : Str} {e : Entry} {par : Option Str}
    (hA : Job.append n e ∈ A) (hp : par = none ∨ ∃ cid, par = some cid ∧ GoodIn c K A n cid) :
    (storeBlock c e.tag e.args par).Steady c (fun cid K A => GoodIn c K A n cid) K A := by
  intro t K1 A1 h1
  refine ⟨⟨_, rfl⟩, rfl, fun K2 A2 h2 hfile => ?_⟩
  have h5 := h1.trans h2
  rcases hp with rfl | ⟨cid, rfl, hg⟩
  · refine ⟨[(_, e)], .cons hfile rfl (hl.load_dump_list _) .nil, fun x hx => ?_⟩
    rw [List.mem_singleton.1 hx]; exact h5.2 hA
  · obtain ⟨l, g1, g2⟩ := hg.grows h5
    refine ⟨(_, e) :: l, .cons hfile rfl (hl.load_dump_list _) g1, fun x hx => ?_⟩
    rcases List.mem_cons.1 hx with rfl | hx
    · exact h5.2 hA
    · exact g2 x hx

theorem steady_writeHeads {hs : List (Str × Str)} (h : GoodHeads c hs K A) :
    (FProg.write .heads (c.dumpDict hs)).Steady c (fun _ _ _ => True) K A :=
  ⟨⟨hs, rfl, h⟩, fun _ _ _ => trivial⟩

theorem steady_append (hl : c.Lawful) {n : Str} {e : Entry} (hA : Job.append n e ∈ A) :
    (appendEntry c n e).Steady c (fun _ _ _ => True) K A := by
  refine FProg.Steady.bind (steady_getHeadBlock hl) fun r K1 A1 h1 hr => ?_
  refine FProg.Steady.bind (steady_storeBlock hl (h1.2 hA) hr.good) fun cid K2 A2 h2 hcid => ?_
  refine FProg.Steady.bind steady_getheads fun hs K3 A3 h3 hhs => ?_
  refine steady_writeHeads ⟨(setHead_nodup hhs.1 _ _).1, fun x hx => ?_⟩
  rcases mem_setHead hx with rfl | hx
  · exact hcid.grows h3
  · exact hhs.2 x hx

theorem steady_remove {p : Str → Bool} : (Chainstore.removeIf c p).Steady c (fun _ _ _ => True) K A := by
  refine FProg.Steady.bind steady_getheads fun hs K3 A3 h3 hhs => ?_
  exact steady_writeHeads ⟨hhs.1.sublist (List.filter_sublist.map _), fun x hx => hhs.2 x (List.mem_of_mem_filter hx)⟩

theorem steady_ancestors (hl : c.Lawful) {n : Str} (fuel : Nat) {r : Option Block} (h : HeadIn c n r K A) :
    (ancestors c fuel r).Steady c
    (fun res _ A => ∀ bs, res = some bs → ∃ es, entriesOf bs = .ok es ∧ ∀ e ∈ es, Job.append n e ∈ A) K A := by
  induction fuel generalizing r K A with
  | zero =>
    cases r with
    | none => rintro bs h; cases h; exact ⟨[], rfl, fun _ h => nomatch h⟩
    | some b => rintro bs h; cases h
  | succ k ih =>
    cases r with
    | none => rintro bs h; cases h; exact ⟨[], rfl, fun _ h => nomatch h⟩
    | some b =>
      rcases h with h | ⟨cid, b, e, p, t, l, h, file, named, content, rest, h1, h2⟩
      · cases h
      cases h
      refine FProg.Steady.bind (p := parent c _) (Q := HeadIn c n) ?_ ?_
      · cases p with
        | none => exact Or.inl rfl
        | some cid' =>
          have hpar : (parent c ⟨cid, .text e.tag, parentVal (some cid'), .float t, e.args⟩) = getBlock c cid' := by
            have hne := rest.cid_ne hl
            cases cid' with
            | nil => exact absurd rfl hne
            | cons x xs => rfl
          rw [hpar]
          exact steady_found ⟨l, rest, h2⟩
      · intro r K1 A1 hl1 hr
        refine FProg.Steady.bind (ih hr) fun res K2 A2 hl2 hres => ?_
        cases res with
        | none => rintro bs h; cases h
        | some bs =>
          rintro bs' h
          cases h
          obtain ⟨es, g1, g2⟩ := hres bs rfl
          refine ⟨e :: es, ?_, fun x hx => ?_⟩
          · simp only [entriesOf, entry_ofBlock, g1]; rfl
          · rcases List.mem_cons.1 hx with rfl | hx
            · exact hl2.2 (hl1.2 h1)
            · exact g2 x hx

theorem steady_read (hl : c.Lawful) {n : Str} (fuel : Nat) : (iterEntries c fuel n).Steady c
    (fun res _ A => ∀ es, res = some es → ∀ e ∈ es, Job.append n e ∈ A) K A := by
  refine FProg.Steady.bind (steady_getHeadBlock hl) fun r K1 A1 h1 hr => ?_
  refine FProg.Steady.bind (steady_ancestors hl fuel hr) fun res K2 A2 h2 hres => ?_
  cases res with
  | none => rintro es h; cases h
  | some bs =>
    obtain ⟨es, g1, g2⟩ := hres bs rfl
    refine FProg.Steady.bind (p := FProg.ofExcept _) (Q := fun x _ _ => x = es) (.ofExcept g1 rfl) fun x K3 A3 h3 hx => ?_
    subst hx
    rintro es' h
    cases h
    exact fun e he => h3.2 (g2 e he)

theorem steady_job (hl : c.Lawful) (j : Job) (hA : j ∈ A) :
    (j.prog c).Steady c (fun a _ A => Returns j a A) K A := by
  cases j with
  | append n e => exact FProg.Steady.bind (steady_append hl hA) fun _ _ _ _ _ => trivial
  | remove p => exact FProg.Steady.bind steady_remove fun _ _ _ _ _ => trivial
  | read n fuel => exact steady_read hl fuel

/-! ## schedules -/

/-- nothing behind a dictionary is read -/
def Codec.IgnoresRest (c : Codec) : Prop :=
  ∀ hs rest, (hs.map (·.1)).Nodup → c.loadDict (c.dumpDict hs ++ rest) = .ok hs

/-- no two of these blocks have the same hash -/
def NoCollision (c : Codec) (begun : List Bytes) : Prop :=
  ∀ b ∈ begun, ∀ b' ∈ begun, c.hash b = c.hash b' → b = b'

/-- a process which writes a file in pieces is the only one which has it open -/
def PSys.Alone (s : PSys) : Prop :=
  ∀ i j r r' w w', s.procs i = some r → s.procs j = some r' → r.writing = some w → r'.writing = some w' →
    w.path = w'.path → i ≠ j → w.pieces = false

/-- A process may die without harm: it has no file open, or a block file of which no writing has ended. -/
def PSys.MayDie (s : PSys) (i : Nat) : Prop :=
  ∀ r w, s.procs i = some r → r.writing = some w → ∃ cid, w.path = .block cid ∧ Disk.lookup s.known cid = none

/-- holds throughout every schedule -/
structure PSys.Inv (c : Codec) (s : PSys) : Prop where
  known : ∀ cid b, Disk.lookup s.known cid = some b → c.hash b = cid ∧ b ∈ s.begun ∧
    ∃ x, s.disk.read (.block cid) = some x
  files : ∀ cid x, s.disk.read (.block cid) = some x → ∃ b ∈ s.begun, c.hash b = cid ∧ x <+: b ∧
    (x ≠ b → s.IsOpen (.block cid) ∨ Disk.lookup s.known cid = none)
  begun : ∀ b ∈ s.begun, ∃ l, b = c.dumpList l
  heads : s.disk.read .heads = none ∨ ∃ x hs, s.disk.read .heads = some x ∧ GoodHeads c hs s.known s.started ∧
    (c.dumpDict hs <+: x ∨ (x <+: c.dumpDict hs ∧ x ≠ c.dumpDict hs ∧ s.IsOpen .heads))
  procs : ∀ i r, s.procs i = some r → (r.disturbed ∧ r.writing = none ∧ ∃ e, r.rest = .raise e) ∨
    r.rest.Steady c (fun a _ A => Returns r.job a A) s.known s.started
  writing : ∀ i r w, s.procs i = some r → r.writing = some w → ∃ b k x, r.rest = .op (.write w.path b) k ∧
    s.disk.read w.path = some x ∧ w.off ≤ b.length ∧ (w.pieces = true → x = b.take w.off) ∧
    (w.pieces = false → w.off = 0) ∧ w.path.blockBytes b ⊆ s.begun
  finished : ∀ y ∈ s.finished, (¬ y.2.2 → ∃ a, y.2.1 = .ok a) ∧ ∀ a, y.2.1 = .ok a → Returns y.1 a s.started

theorem steady_later {j : Job} {p : FProg (Option (List Entry))} {K1 : List (Str × Bytes)} {A1 : List Job}
    (h : p.Steady c (fun a _ A => Returns j a A) K A) (hg : Grows K A K1 A1) :
    p.Steady c (fun a _ A => Returns j a A) K1 A1 :=
  h.grows (fun _ _ _ _ _ hg h => h.mono hg.2) hg

/-- a state in which one process has moved on without touching files or opening or closing one -/
theorem PSys.Inv.move {s : PSys} (hi : s.Inv c) {i : Nat} {r : Option PProc} {r0 : Option PProc} (h0 : s.procs i = r0)
    (hw0 : ∀ x, r0 = some x → x.writing = none) (hw : ∀ x, r = some x → x.writing = none)
    (hr : ∀ x, r = some x → (x.disturbed ∧ x.writing = none ∧ ∃ e, x.rest = .raise e) ∨
      x.rest.Steady c (fun a _ A => Returns x.job a A) s.known (s.started))
    {fin : List (Job × Except Exc (Option (List Entry)) × Prop)}
    (hfin : ∀ y ∈ fin, (¬ y.2.2 → ∃ a, y.2.1 = .ok a) ∧ ∀ a, y.2.1 = .ok a → Returns y.1 a s.started) :
    PSys.Inv c { s with procs := s.setProc i r, finished := fin } := by
  have hopen : ∀ p, s.IsOpen p → PSys.IsOpen { s with procs := s.setProc i r, finished := fin } p := by
    rintro p ⟨j, r', w, h1, h2, h3⟩
    refine ⟨j, r', w, ?_, h2, h3⟩
    have hne : j ≠ i := by
      rintro rfl
      rw [h1] at h0
      have := hw0 r' h0.symm
      rw [h2] at this; cases this
    simp [PSys.setProc, hne, h1]
  refine ⟨hi.known, fun cid x hx => ?_, hi.begun, ?_, fun k r' hk => ?_, fun k r' w hk hw' => ?_, hfin⟩
  · obtain ⟨b, h1, h2, h3, h4⟩ := hi.files cid x hx
    exact ⟨b, h1, h2, h3, fun h => (h4 h).imp_left (hopen _)⟩
  · rcases hi.heads with h | ⟨x, hs, h1, h2, h3 | ⟨h3, h4, h5⟩⟩
    · exact Or.inl h
    · exact Or.inr ⟨x, hs, h1, h2, Or.inl h3⟩
    · exact Or.inr ⟨x, hs, h1, h2, Or.inr ⟨h3, h4, hopen _ h5⟩⟩
  · simp only [PSys.setProc] at hk
    split at hk
    · exact hr r' hk
    · exact hi.procs k r' hk
  · simp only [PSys.setProc] at hk
    split at hk
    · rw [hw r' hk] at hw'; cases hw'
    · exact hi.writing k r' w hk hw'

theorem Path.blockBytes_mem {p : Path} {b x : Bytes} (h : x ∈ p.blockBytes b) : x = b ∧ ∃ cid, p = .block cid := by
  cases p with
  | heads => cases h
  | block cid => exact ⟨List.mem_singleton.1 h, cid, rfl⟩

/-- a process opens a file -/
theorem PSys.Inv.opens {s : PSys} (hi : s.Inv c) {i : Nat} {r : PProc} (h0 : s.procs i = some r) (hw0 : r.writing = none)
    {p : Path} {b : Bytes} {k : Unit → FProg (Option (List Entry))} (hrest : r.rest = .op (.write p b) k) (pieces : Bool)
    (halone : PSys.Alone { s with
            disk := s.disk.torn p []
            procs := s.setProc i (some { r with writing := some ⟨p, pieces, 0⟩ })
            begun := p.blockBytes b ++ s.begun }) :
    PSys.Inv c { s with
            disk := s.disk.torn p []
            procs := s.setProc i (some { r with writing := some ⟨p, pieces, 0⟩ })
            begun := p.blockBytes b ++ s.begun } := by
  have hcalm : r.rest.Steady c (fun a _ A => Returns r.job a A) s.known s.started := by
    rcases hi.procs i r h0 with ⟨-, -, e, he⟩ | h
    · rw [hrest] at he; cases he
    · exact h
  have hopen : ∀ q, (q = p ∨ s.IsOpen q) → PSys.IsOpen { s with
            disk := s.disk.torn p []
            procs := s.setProc i (some { r with writing := some ⟨p, pieces, 0⟩ })
            begun := p.blockBytes b ++ s.begun } q := by
    rintro q (rfl | ⟨j, r', w, h1, h2, h3⟩)
    · exact ⟨i, { r with writing := some ⟨q, pieces, 0⟩ }, _, by simp [PSys.setProc], rfl, rfl⟩
    · refine ⟨j, r', w, ?_, h2, h3⟩
      have hne : j ≠ i := by
        rintro rfl
        rw [h1] at h0; cases h0
        rw [h2] at hw0; cases hw0
      simp [PSys.setProc, hne, h1]
  have hsub : s.begun ⊆ p.blockBytes b ++ s.begun := List.subset_append_right _ _
  refine ⟨fun cid b' hb' => ?_, fun cid x hx => ?_, fun b' hb' => ?_, ?_, fun j r' hj => ?_, fun j r' w hj hw' => ?_,
    hi.finished⟩
  · obtain ⟨h1, h2, x, h3⟩ := hi.known cid b' hb'
    refine ⟨h1, hsub h2, ?_⟩
    by_cases hp : p = .block cid
    · subst hp; exact ⟨[], Disk.read_torn_self s.disk (.block cid) []⟩
    · exact ⟨x, by rw [Disk.read_torn_ne _ _ hp]; exact h3⟩
  · by_cases hp : p = .block cid
    · subst hp
      rw [hrest] at hcalm
      simp only [Disk.read_torn_self, Option.some.injEq] at hx
      subst hx
      exact ⟨b, List.mem_append_left _ List.mem_cons_self, hcalm.2.1, List.nil_prefix, fun _ => Or.inl (hopen _ (Or.inl rfl))⟩
    · simp only [Disk.read_torn_ne _ _ hp] at hx
      obtain ⟨b', h1, h2, h3, h4⟩ := hi.files cid x hx
      exact ⟨b', hsub h1, h2, h3, fun h => (h4 h).imp_left fun h => hopen _ (Or.inr h)⟩
  · rcases List.mem_append.1 hb' with h | h
    · obtain ⟨rfl, cid, rfl⟩ := Path.blockBytes_mem h
      rw [hrest] at hcalm
      exact hcalm.1
    · exact hi.begun b' h
  · by_cases hp : p = .heads
    · subst hp
      rw [hrest] at hcalm
      obtain ⟨⟨hs, h1, h2⟩, -⟩ := hcalm
      refine Or.inr ⟨[], hs, Disk.read_torn_self s.disk .heads [], h2, ?_⟩
      by_cases hd : c.dumpDict hs = []
      · exact Or.inl (by rw [hd])
      · exact Or.inr ⟨List.nil_prefix, fun h => hd h.symm, hopen _ (Or.inl rfl)⟩
    · simp only [Disk.read_torn_ne _ _ hp]
      rcases hi.heads with h | ⟨x, hs, h1, h2, h3 | ⟨h3, h4, h5⟩⟩
      · exact Or.inl h
      · exact Or.inr ⟨x, hs, h1, h2, Or.inl h3⟩
      · exact Or.inr ⟨x, hs, h1, h2, Or.inr ⟨h3, h4, hopen _ (Or.inr h5)⟩⟩
  · simp only [PSys.setProc] at hj
    split at hj
    · cases hj; exact Or.inr hcalm
    · exact hi.procs j r' hj
  · have hj0 := hj
    simp only [PSys.setProc] at hj
    split at hj
    · cases hj
      cases hw'
      exact ⟨b, k, [], hrest, Disk.read_torn_self .., Nat.zero_le _, fun _ => rfl, fun _ => rfl,
        List.subset_append_left _ _⟩
    · rename_i hne
      obtain ⟨b', k', x, h1, h2, h3, h4, h5, h6⟩ := hi.writing j r' w hj hw'
      by_cases hp : p = w.path
      · have := halone j i r' { r with writing := some ⟨p, pieces, 0⟩ } w _ hj0 (by simp [PSys.setProc]) hw' rfl hp.symm hne
        refine ⟨b', k', [], h1, ?_, h3, (fun h => by rw [this] at h; cases h), h5, fun y hy => hsub (h6 hy)⟩
        rw [← hp]; exact Disk.read_torn_self ..
      · refine ⟨b', k', x, h1, ?_, h3, h4, h5, fun y hy => hsub (h6 hy)⟩
        simp only [Disk.read_torn_ne _ _ hp]; exact h2

/-- some bytes arrive, more are to come -/
theorem PSys.Inv.continues {s : PSys} (hi : s.Inv c) (halone : s.Alone) {i : Nat} {r : PProc} {w : Writing}
    (h0 : s.procs i = some r) (hw0 : r.writing = some w) {b : Bytes} {k : Unit → FProg (Option (List Entry))}
    (hrest : r.rest = .op (.write w.path b) k) (hp : w.pieces = true) {off : Nat} (hoff : off ≤ b.length) :
    PSys.Inv c { s with
      disk := s.disk.torn w.path (b.take off)
      procs := s.setProc i (some { r with writing := some { w with off := off } }) } := by
  have hcalm : r.rest.Steady c (fun a _ A => Returns r.job a A) s.known s.started := by
    rcases hi.procs i r h0 with ⟨-, -, e, he⟩ | h
    · rw [hrest] at he; cases he
    · exact h
  obtain ⟨b0, k0, x0, e0, -, -, -, -, hbeg⟩ := hi.writing i r w h0 hw0
  have hb0 : b0 = b := by rw [hrest] at e0; cases e0; rfl
  subst hb0
  have hopen : ∀ q, s.IsOpen q → PSys.IsOpen { s with
      disk := s.disk.torn w.path (b0.take off)
      procs := s.setProc i (some { r with writing := some { w with off := off } }) } q := by
    rintro q ⟨j, r', w', h1, h2, h3⟩
    by_cases hne : j = i
    · subst hne
      rw [h0] at h1; cases h1
      rw [hw0] at h2; cases h2
      exact ⟨j, { r with writing := some { w with off := off } }, _, by simp [PSys.setProc], rfl, h3⟩
    · exact ⟨j, r', w', by simp [PSys.setProc, hne, h1], h2, h3⟩
  have hself : s.IsOpen w.path := ⟨i, r, w, h0, hw0, rfl⟩
  refine ⟨fun cid b' hb' => ?_, fun cid x hx => ?_, hi.begun, ?_, fun j r' hj => ?_, fun j r' w' hj hw' => ?_,
    hi.finished⟩
  · obtain ⟨h1, h2, x, h3⟩ := hi.known cid b' hb'
    refine ⟨h1, h2, ?_⟩
    by_cases hp : w.path = .block cid
    · rw [hp]; exact ⟨_, Disk.read_torn_self s.disk (.block cid) _⟩
    · exact ⟨x, by rw [Disk.read_torn_ne _ _ hp]; exact h3⟩
  · by_cases hp : w.path = .block cid
    · simp only [hp, Disk.read_torn_self, Option.some.injEq] at hx
      subst hx
      rw [hrest, hp] at hcalm
      refine ⟨b0, hbeg ?_, hcalm.2.1, List.take_prefix _ _, fun _ => Or.inl (hopen _ (hp ▸ hself))⟩
      rw [hp]; exact List.mem_cons_self
    · simp only [Disk.read_torn_ne _ _ hp] at hx
      obtain ⟨b', h1, h2, h3, h4⟩ := hi.files cid x hx
      exact ⟨b', h1, h2, h3, fun h => (h4 h).imp_left (hopen _)⟩
  · by_cases hp : w.path = .heads
    · rw [hrest, hp] at hcalm
      obtain ⟨⟨hs, h1, h2⟩, -⟩ := hcalm
      refine Or.inr ⟨b0.take off, hs, by rw [hp]; exact Disk.read_torn_self s.disk .heads _, h2, ?_⟩
      by_cases hd : b0.take off = c.dumpDict hs
      · exact Or.inl (by rw [hd])
      · exact Or.inr ⟨h1 ▸ List.take_prefix _ _, hd, hopen _ (hp ▸ hself)⟩
    · simp only [Disk.read_torn_ne _ _ hp]
      rcases hi.heads with h | ⟨x, hs, h1, h2, h3 | ⟨h3, h4, h5⟩⟩
      · exact Or.inl h
      · exact Or.inr ⟨x, hs, h1, h2, Or.inl h3⟩
      · exact Or.inr ⟨x, hs, h1, h2, Or.inr ⟨h3, h4, hopen _ h5⟩⟩
  · simp only [PSys.setProc] at hj
    split at hj
    · cases hj; exact Or.inr hcalm
    · exact hi.procs j r' hj
  · simp only [PSys.setProc] at hj
    split at hj
    · cases hj
      cases hw'
      exact ⟨b0, k, b0.take off, hrest, Disk.read_torn_self s.disk w.path _, hoff, fun _ => rfl,
        (fun h => by rw [hp] at h; cases h), hbeg⟩
    · rename_i hne
      obtain ⟨b', k', x, h1, h2, h3, h4, h5, h6⟩ := hi.writing j r' w' hj hw'
      by_cases hpp : w.path = w'.path
      · have := halone i j r r' w w' h0 hj hw0 hw' hpp (fun h => hne h.symm)
        rw [hp] at this; cases this
      · refine ⟨b', k', x, h1, ?_, h3, h4, h5, h6⟩
        simp only [Disk.read_torn_ne _ _ hpp]; exact h2

/-- all bytes have arrived, the file is closed -/
theorem PSys.Inv.closes {s : PSys} (hi : s.Inv c) (halone : s.Alone) (hcol : NoCollision c s.begun) {i : Nat} {r : PProc}
    {w : Writing} (h0 : s.procs i = some r) (hw0 : r.writing = some w) {b : Bytes}
    {k : Unit → FProg (Option (List Entry))} (hrest : r.rest = .op (.write w.path b) k) {y : Bytes} (hy : b <+: y)
    (hyb : ∀ cid, w.path = .block cid → y = b) :
    PSys.Inv c { s with
      disk := s.disk.torn w.path y
      procs := s.setProc i (some { r with rest := k (), writing := none })
      known := w.path.putBlock b s.known } := by
  have hcalm : r.rest.Steady c (fun a _ A => Returns r.job a A) s.known s.started := by
    rcases hi.procs i r h0 with ⟨-, -, e, he⟩ | h
    · rw [hrest] at he; cases he
    · exact h
  obtain ⟨b0, k0, x0, e0, -, -, -, -, hbeg⟩ := hi.writing i r w h0 hw0
  have hb0 : b0 = b := by rw [hrest] at e0; cases e0; rfl
  subst hb0
  have hgrow : Grows s.known s.started (w.path.putBlock b0 s.known) s.started := by
    refine ⟨fun cid b' hb' => ?_, fun _ h => h⟩
    cases hp : w.path with
    | heads => exact hb'
    | block cid' =>
      by_cases hc : cid' = cid
      · subst hc
        obtain ⟨g1, g2, -⟩ := hi.known _ _ hb'
        rw [hrest, hp] at hcalm
        rw [hp] at hbeg
        have : b0 = b' := hcol _ (hbeg List.mem_cons_self) _ g2 (hcalm.2.1.trans g1.symm)
        subst this
        exact Disk.lookup_put_self ..
      · exact (Disk.lookup_put_ne _ _ hc).trans hb'
  have hopen : ∀ q, s.IsOpen q → q ≠ w.path → PSys.IsOpen { s with
      disk := s.disk.torn w.path y
      procs := s.setProc i (some { r with rest := k (), writing := none })
      known := w.path.putBlock b0 s.known } q := by
    rintro q ⟨j, r', w', h1, h2, h3⟩ hq
    refine ⟨j, r', w', ?_, h2, h3⟩
    have hne : j ≠ i := by
      rintro rfl
      rw [h0] at h1; cases h1
      rw [hw0] at h2; cases h2
      exact hq h3.symm
    simp [PSys.setProc, hne, h1]
  refine ⟨fun cid b' hb' => ?_, fun cid x hx => ?_, hi.begun, ?_, fun j r' hj => ?_, fun j r' w' hj hw' => ?_,
    hi.finished⟩
  · by_cases hp : w.path = .block cid
    · simp only [hp, Path.putBlock, Disk.lookup_put_self, Option.some.injEq] at hb'
      subst hb'
      rw [hrest, hp] at hcalm
      rw [hp] at hbeg ⊢
      exact ⟨hcalm.2.1, hbeg List.mem_cons_self, y, Disk.read_torn_self s.disk (.block cid) _⟩
    · have : Disk.lookup s.known cid = some b' := by
        cases hpp : w.path with
        | heads => simpa [hpp, Path.putBlock] using hb'
        | block cid' =>
          have hc : cid' ≠ cid := fun h => hp (by rw [hpp, h])
          simpa [hpp, Path.putBlock, Disk.lookup_put_ne _ _ hc] using hb'
      obtain ⟨h1, h2, x, h3⟩ := hi.known cid b' this
      exact ⟨h1, h2, x, by rw [Disk.read_torn_ne _ _ hp]; exact h3⟩
  · by_cases hp : w.path = .block cid
    · simp only [hp, Disk.read_torn_self, Option.some.injEq] at hx
      subst hx
      rw [hrest, hp] at hcalm
      rw [hp] at hbeg
      have := hyb cid hp
      exact ⟨b0, hbeg List.mem_cons_self, hcalm.2.1, this ▸ List.prefix_refl _, fun h => absurd this h⟩
    · simp only [Disk.read_torn_ne _ _ hp] at hx
      obtain ⟨b', h1, h2, h3, h4⟩ := hi.files cid x hx
      refine ⟨b', h1, h2, h3, fun h => (h4 h).imp (fun h => hopen _ h (fun h => hp h.symm)) fun h => ?_⟩
      cases hpp : w.path with
      | heads => exact h
      | block cid' => exact (Disk.lookup_put_ne _ _ fun h => hp (by rw [hpp, h])).trans h
  · by_cases hp : w.path = .heads
    · rw [hrest, hp] at hcalm
      obtain ⟨⟨hs, h1, h2⟩, -⟩ := hcalm
      exact Or.inr ⟨y, hs, by rw [hp]; exact Disk.read_torn_self s.disk .heads _, h2.grows hgrow, Or.inl (h1 ▸ hy)⟩
    · simp only [Disk.read_torn_ne _ _ hp]
      rcases hi.heads with h | ⟨x, hs, h1, h2, h3 | ⟨h3, h4, h5⟩⟩
      · exact Or.inl h
      · exact Or.inr ⟨x, hs, h1, h2.grows hgrow, Or.inl h3⟩
      · exact Or.inr ⟨x, hs, h1, h2.grows hgrow, Or.inr ⟨h3, h4, hopen _ h5 (fun h => hp h.symm)⟩⟩
  · simp only [PSys.setProc] at hj
    split at hj
    · cases hj
      refine Or.inr ?_
      rw [hrest] at hcalm
      cases hp : w.path with
      | heads =>
        rw [hp] at hcalm
        exact hcalm.2 _ _ (.refl _ _)
      | block cid =>
        rw [hp] at hcalm
        rw [hp] at hgrow
        exact hcalm.2.2 _ _ hgrow (Disk.lookup_put_self ..)
    · rcases hi.procs j r' hj with h | h
      · exact Or.inl h
      · exact Or.inr (steady_later h hgrow)
  · simp only [PSys.setProc] at hj
    split at hj
    · cases hj
      cases hw'
    · rename_i hne
      obtain ⟨b', k', x, h1, h2, h3, h4, h5, h6⟩ := hi.writing j r' w' hj hw'
      by_cases hpp : w.path = w'.path
      · have := halone j i r' r w' w hj h0 hw' hw0 hpp.symm hne
        refine ⟨b', k', y, h1, ?_, h3, (fun h => by rw [this] at h; cases h), h5, h6⟩
        rw [← hpp]; exact Disk.read_torn_self ..
      · refine ⟨b', k', x, h1, ?_, h3, h4, h5, h6⟩
        simp only [Disk.read_torn_ne _ _ hpp]; exact h2

theorem PSys.begun_act (s : PSys) (x : PTurn) : s.begun ⊆ (s.act c x).begun := by
  cases x with
  | start i j => simp only [PSys.act]; split <;> exact fun _ h => h
  | step i t pieces =>
    simp only [PSys.act]
    split
    · exact fun _ h => h
    · split
      · exact fun _ h => h
      · split <;> first | exact fun _ h => h | exact List.subset_append_right _ _
  | write i n =>
    simp only [PSys.act]
    repeat' split
    all_goals exact fun _ h => h
  | die i => exact fun _ h => h

theorem PSys.begun_runs (turns : List PTurn) (s : PSys) : s.begun ⊆ (s.runs c turns).begun := by
  induction turns generalizing s with
  | nil => exact fun _ h => h
  | cons x xs ih => exact fun _ h => ih (s.act c x) (s.begun_act x h)

theorem NoCollision.sub {l l' : List Bytes} (h : NoCollision c l') (hs : l ⊆ l') : NoCollision c l :=
  fun b hb b' hb' => h b (hs hb) b' (hs hb')

/-- the assumptions about the serializer -/
structure Codec.Streams (c : Codec) : Prop where
  lawful : c.Lawful
  truncated : c.RejectsTruncated
  rest : c.IgnoresRest

/-- a process dies -/
theorem PSys.Inv.dies {s : PSys} (hi : s.Inv c) {i : Nat} (hd : s.MayDie i) :
    PSys.Inv c { s with procs := s.setProc i none } := by
  have hopen : ∀ p, s.IsOpen p → PSys.IsOpen { s with procs := s.setProc i none } p ∨
      ∃ cid, p = .block cid ∧ Disk.lookup s.known cid = none := by
    rintro p ⟨j, r', w, h1, h2, h3⟩
    by_cases hne : j = i
    · subst hne
      obtain ⟨cid, g1, g2⟩ := hd r' w h1 h2
      exact Or.inr ⟨cid, h3.symm.trans g1, g2⟩
    · exact Or.inl ⟨j, r', w, by simp [PSys.setProc, hne, h1], h2, h3⟩
  refine ⟨hi.known, fun cid x hx => ?_, hi.begun, ?_, fun k r' hk => ?_, fun k r' w hk hw' => ?_, hi.finished⟩
  · obtain ⟨b, h1, h2, h3, h4⟩ := hi.files cid x hx
    refine ⟨b, h1, h2, h3, fun h => (h4 h).elim (fun h => ?_) Or.inr⟩
    rcases hopen _ h with h | ⟨cid', g1, g2⟩
    · exact Or.inl h
    · cases g1; exact Or.inr g2
  · rcases hi.heads with h | ⟨x, hs, h1, h2, h3 | ⟨h3, h4, h5⟩⟩
    · exact Or.inl h
    · exact Or.inr ⟨x, hs, h1, h2, Or.inl h3⟩
    · rcases hopen _ h5 with h | ⟨cid', g1, -⟩
      · exact Or.inr ⟨x, hs, h1, h2, Or.inr ⟨h3, h4, h⟩⟩
      · cases g1
  · simp only [PSys.setProc] at hk
    split at hk
    · cases hk
    · exact hi.procs k r' hk
  · simp only [PSys.setProc] at hk
    split at hk
    · cases hk
    · exact hi.writing k r' w hk hw'

theorem PSys.Inv.act (hl : c.Streams) {s : PSys} (hi : s.Inv c) (x : PTurn) (halone : s.Alone)
    (halone' : (s.act c x).Alone) (hcol : NoCollision c s.begun) (hdie : ∀ i, x = .die i → s.MayDie i) :
    (s.act c x).Inv c := by
  cases x with
  | die i => exact hi.dies (hdie i rfl)
  | start i j =>
    simp only [PSys.act]
    split
    · exact hi
    · rename_i h0
      have hg : Grows s.known s.started s.known (j :: s.started) := ⟨fun _ _ h => h, List.subset_cons_self _ _⟩
      have h1 : PSys.Inv c { s with started := j :: s.started } := by
        refine ⟨hi.known, hi.files, hi.begun, ?_, fun i r hr => ?_, hi.writing, fun y hy => ?_⟩
        · rcases hi.heads with h | ⟨x, hs, h1, h2, h3⟩
          · exact Or.inl h
          · exact Or.inr ⟨x, hs, h1, h2.grows hg, h3⟩
        · rcases hi.procs i r hr with h | h
          · exact Or.inl h
          · exact Or.inr (steady_later h hg)
        · obtain ⟨h1, h2⟩ := hi.finished y hy
          exact ⟨h1, fun a ha => (h2 a ha).mono hg.2⟩
      refine h1.move (i := i) (r := some ⟨j, j.prog c, none, False⟩) h0 (fun _ h => nomatch h)
        (fun x hx => by cases hx; rfl) (fun x hx => ?_) h1.finished
      cases hx
      exact Or.inr (steady_job hl.lawful j List.mem_cons_self)
  | step i t pieces =>
    simp only [PSys.act] at halone' ⊢
    cases h0 : s.procs i with
    | none => simpa only [h0] using hi
    | some r =>
      simp only [h0] at halone' ⊢
      obtain ⟨job, rest, wr, dist⟩ := r
      cases wr with
      | some w => exact hi
      | none =>
        have hw0' : ∀ x, some (PProc.mk job rest none dist) = some x → x.writing = none := by rintro x h; cases h; rfl
        have hproc := hi.procs i _ h0
        cases rest with
        | pure a =>
          refine hi.move (r := none) h0 hw0' (fun _ h => nomatch h) (fun _ h => nomatch h) fun y hy => ?_
          rcases List.mem_cons.1 hy with rfl | hy
          · rcases hproc with ⟨-, -, e, he⟩ | h
            · cases he
            · exact ⟨fun _ => ⟨a, rfl⟩, fun a' ha => by cases ha; exact h⟩
          · exact hi.finished y hy
        | raise e =>
          refine hi.move (r := none) h0 hw0' (fun _ h => nomatch h) (fun _ h => nomatch h) fun y hy => ?_
          rcases List.mem_cons.1 hy with rfl | hy
          · rcases hproc with ⟨hd, -⟩ | h
            · exact ⟨fun hn => absurd hd hn, fun a ha => nomatch ha⟩
            · exact h.elim
          · exact hi.finished y hy
        | op o k =>
          have hcalm : (FProg.op o k).Steady c (fun a _ A => Returns job a A) s.known s.started := by
            rcases hproc with ⟨-, -, e, he⟩ | h
            · cases he
            · exact h
          match o with
          | .time =>
            refine hi.move h0 hw0' (fun x hx => by cases hx; rfl) (fun x hx => ?_) hi.finished
            cases hx
            exact Or.inr (hcalm t _ _ (.refl _ _))
          | .read .heads =>
            refine hi.move h0 hw0' (fun x hx => by cases hx; rfl) (fun x hx => ?_) hi.finished
            cases hx
            obtain ⟨g1, g2⟩ := hcalm
            rcases hi.heads with h | ⟨x, hs, h1, h2, ⟨y, h3⟩ | ⟨h3, h4, h5⟩⟩
            · rw [h]
              exact Or.inr ((g2 _ _ (.refl _ _) [] ⟨List.nodup_nil, fun _ h => nomatch h⟩).1 rfl)
            · rw [h1]
              exact Or.inr ((g2 _ _ (.refl _ _) hs h2).2 x (by rw [← h3]; exact hl.rest hs y h2.1))
            · rw [h1]
              obtain ⟨e, he⟩ := hl.truncated.2 hs x h3 h4
              exact Or.inl ⟨Or.inr h5, rfl, g1 x e he⟩
          | .read (.block cid) =>
            refine hi.move h0 hw0' (fun x hx => by cases hx; rfl) (fun x hx => ?_) hi.finished
            cases hx
            obtain ⟨g1, b, g2, g3⟩ := hcalm
            obtain ⟨k1, k2, x, k3⟩ := hi.known cid b g2
            obtain ⟨b', j1, j2, j3, j4⟩ := hi.files cid x k3
            have : b' = b := hcol _ j1 _ k2 (j2.trans k1.symm)
            subst this
            rw [k3]
            by_cases hx : x = b'
            · subst hx; exact Or.inr (g3 _ _ (.refl _ _))
            · obtain ⟨l, hb⟩ := hi.begun b' j1
              obtain ⟨e, he⟩ := hl.truncated.1 l x (hb ▸ j3) (hb ▸ hx)
              exact Or.inl ⟨Or.inr ((j4 hx).resolve_right fun h => by rw [g2] at h; cases h), rfl, g1 x e he⟩
          | .write p b =>
            exact hi.opens h0 rfl rfl pieces halone'
  | write i n =>
    simp only [PSys.act]
    split
    · exact hi
    · rename_i r h0
      split
      · rename_i w p b k hw0 hrest
        obtain ⟨b0, k0, x, e0, hx, hoff, hp1, hp2, hbeg⟩ := hi.writing i r w h0 hw0
        have hcalm : r.rest.Steady c (fun a _ A => Returns r.job a A) s.known s.started := by
          rcases hi.procs i r h0 with ⟨-, -, e, he⟩ | h
          · rw [hrest] at he; cases he
          · exact h
        rw [hrest] at e0
        cases e0
        simp only [hx, Option.getD_some]
        cases hpc : w.pieces with
        | false =>
          have h1 := hp2 hpc
          simp only [h1, List.drop_zero, Bool.false_eq_true, if_false, List.take_length, Nat.zero_add, Nat.le_refl,
            if_true]
          refine hi.closes halone hcol h0 hw0 hrest (by rw [overlay_start]; exact List.prefix_append _ _) fun cid hcid => ?_
          rw [hrest, hcid] at hcalm
          rw [hcid] at hx hbeg
          obtain ⟨b', j1, j2, j3, -⟩ := hi.files cid x hx
          have : b' = b := hcol _ j1 _ (hbeg List.mem_cons_self) (j2.trans hcalm.2.1.symm)
          subst this
          exact overlay_prefix j3
        | true =>
          have h1 := hp1 hpc
          subst h1
          simp only [if_true]
          have hlen : ((b.drop w.off).take n).length = min n (b.length - w.off) := by simp
          split
          · rename_i hge
            have hall : b.take (w.off + n) = b := List.take_of_length_le (by rw [hlen] at hge; omega)
            rw [overlay_next _ _ _ hoff, hall]
            exact hi.closes halone hcol h0 hw0 hrest (List.prefix_refl _) fun _ _ => rfl
          · rename_i hlt
            have hn : w.off + ((b.drop w.off).take n).length = w.off + n := by rw [hlen] at hlt ⊢; omega
            rw [overlay_next _ _ _ hoff, hn]
            have := hi.continues halone h0 hw0 hrest hpc (off := w.off + n) (by rw [hlen] at hlt; omega)
            rw [hpc] at this
            exact this
      · exact hi

theorem PSys.Inv.runs (hl : c.Streams) (turns : List PTurn) {s : PSys} (hi : s.Inv c)
    (ha : ∀ pre, pre <+: turns → (s.runs c pre).Alone) (hcol : NoCollision c (s.runs c turns).begun)
    (hdie : ∀ pre i, pre ++ [.die i] <+: turns → (s.runs c pre).MayDie i) :
    (s.runs c turns).Inv c := by
  induction turns generalizing s with
  | nil => exact hi
  | cons x xs ih =>
    refine ih (s := s.act c x) (hi.act hl x (ha [] List.nil_prefix) (ha [x] ?_) ?_ fun i hx => hdie [] i ?_)
      (fun pre hpre => ?_) hcol (fun pre i hpre => ?_)
    · exact List.cons_prefix_cons.2 ⟨rfl, List.nil_prefix⟩
    · exact hcol.sub (s.begun_runs (x :: xs))
    · subst hx; exact List.cons_prefix_cons.2 ⟨rfl, List.nil_prefix⟩
    · exact ha (x :: pre) (List.cons_prefix_cons.2 ⟨rfl, hpre⟩)
    · exact hdie (x :: pre) i (List.cons_prefix_cons.2 ⟨rfl, hpre⟩)

theorem PSys.inv_init : ({} : PSys).Inv c :=
  ⟨(fun _ _ h => nomatch h), (fun _ _ h => nomatch h), (fun _ h => nomatch h), Or.inl rfl, (fun _ _ h => nomatch h),
    (fun _ _ _ h => nomatch h), (fun _ h => nomatch h)⟩

/-- the calls which started are those of the schedule -/
theorem PSys.started_mem (turns : List PTurn) {s : PSys} {j : Job} (h : j ∈ (s.runs c turns).started) :
    j ∈ s.started ∨ ∃ i, PTurn.start i j ∈ turns := by
  induction turns generalizing s with
  | nil => exact Or.inl h
  | cons x xs ih =>
    rcases ih (s := s.act c x) h with h | ⟨i, h⟩
    · cases x with
      | start i j' =>
        simp only [PSys.act] at h
        split at h
        · exact Or.inl h
        · rcases List.mem_cons.1 h with rfl | h
          · exact Or.inr ⟨i, List.mem_cons_self⟩
          · exact Or.inl h
      | step i t pieces =>
        simp only [PSys.act] at h
        split at h
        · exact Or.inl h
        · split at h
          · exact Or.inl h
          · split at h <;> exact Or.inl h
      | write i n =>
        simp only [PSys.act] at h
        repeat' split at h
        all_goals exact Or.inl h
      | die i => exact Or.inl h
    · exact Or.inr ⟨i, List.mem_cons_of_mem _ h⟩

theorem PSys.started_init {turns : List PTurn} {j : Job} (h : j ∈ (({} : PSys).runs c turns).started) :
    ∃ i, PTurn.start i j ∈ turns := by
  rcases PSys.started_mem turns h with h | h
  · cases h
  · exact h

/-- A state in which no file is open holds a sound store. -/
theorem PSys.Inv.sound (hl : c.Streams) {s : PSys} (hi : s.Inv c) (hcol : NoCollision c s.begun)
    (hclosed : ∀ p, ¬ s.IsOpen p) : Sound c s.disk s.started := by
  have hk : Grows s.known s.started s.disk.blocks s.started := by
    refine ⟨fun cid b hb => ?_, fun _ h => h⟩
    obtain ⟨k1, k2, x, k3⟩ := hi.known cid b hb
    obtain ⟨b', j1, j2, j3, j4⟩ := hi.files cid x k3
    have : b' = b := hcol _ j1 _ k2 (j2.trans k1.symm)
    subst this
    have hx : x = b' := Classical.byContradiction fun h =>
      (j4 h).elim (hclosed _) fun h => by rw [hb] at h; cases h
    subst hx
    exact k3
  rcases hi.heads with h | ⟨x, hs, h1, h2, ⟨y, h3⟩ | ⟨-, -, h5⟩⟩
  · exact ⟨[], Or.inl ⟨h, rfl⟩, List.nodup_nil, fun _ h => nomatch h⟩
  · exact ⟨hs, Or.inr ⟨x, h1, by rw [← h3]; exact hl.rest hs y h2.1⟩, h2.1, fun z hz => (h2.2 z hz).grows hk⟩
  · exact absurd h5 (hclosed _)

/-- What `C05_sound` says of a sound disk. -/
theorem Sound.whole (hl : c.Lawful) {d : Disk} {A : List Job} (hi : Sound c d A) :
    ∃ hs, (getheads c).run c 0 d = (.ok hs, d) ∧ (hs.map (·.1)).Nodup ∧
      (∀ n cid, (n, cid) ∈ hs → ∃ l, Linked c d.blocks (some cid) l ∧ (Disk.impl c).chain d n = .ok (l.map (·.2)) ∧
        ∀ x ∈ l, Job.append n x.2 ∈ A) ∧
      ∀ n, n ∉ hs.map (·.1) → (Disk.impl c).chain d n = .ok [] := by
  obtain ⟨s, ⟨k1, hs, k2, k3⟩, -⟩ := hi.represents
  obtain ⟨hs', g1, g2, g3⟩ := hi
  have hhs : hs' = hs := by
    have e1 := run_getheads g1 0
    have e2 := run_getheads k2 0
    rw [e1] at e2; cases e2; rfl
  subst hhs
  refine ⟨hs', run_getheads g1 0, g2, fun n cid hm => ?_, fun n hn => ?_⟩
  · obtain ⟨l, l1, l2⟩ := g3 _ hm
    refine ⟨l, l1, ?_, l2⟩
    rw [impl_chain hl ⟨k1, hs', k2, k3⟩ n]
    rcases headOf_forall k3 n with ⟨j1, -⟩ | ⟨cid', l', j1, j2, j3⟩
    · exact absurd (List.mem_map_of_mem (f := (·.1)) hm) (headOf_none j1)
    · have : cid' = cid := headOf_unique g2 (headOf_mem j1) hm
      subst this
      rw [j3, l1.functional j2]
  · rw [impl_chain hl ⟨k1, hs', k2, k3⟩ n]
    rcases headOf_forall k3 n with ⟨-, j2⟩ | ⟨cid', l', j1, -⟩
    · rw [j2]
    · exact absurd (List.mem_map_of_mem (f := (·.1)) (headOf_mem j1)) hn

/-- **C112**, restricted to schedules in which a process that writes a file in pieces is the only one which has it open, and
no process dies while it has the heads file open or a block file of which a writing has ended before (`C112_refuted`:
otherwise it is false). Whenever no file is open for writing, the heads file can be read and names no chain twice; from
every head the parent links lead over complete block files to one without parent, reading the chain returns exactly the
entries on this path, and every one was appended under this name. A name without head has no entries. -/
theorem C112_whole_partial (hl : c.Streams) (turns : List PTurn)
    (ha : ∀ pre, pre <+: turns → (({} : PSys).runs c pre).Alone)
    (hcol : NoCollision c (({} : PSys).runs c turns).begun)
    (hdie : ∀ pre i, pre ++ [.die i] <+: turns → (({} : PSys).runs c pre).MayDie i)
    (hclosed : ∀ p, ¬ (({} : PSys).runs c turns).IsOpen p) :
    ∃ hs, (getheads c).run c 0 (({} : PSys).runs c turns).disk = (.ok hs, (({} : PSys).runs c turns).disk) ∧
      (hs.map (·.1)).Nodup ∧
      (∀ n cid, (n, cid) ∈ hs → ∃ l, Linked c (({} : PSys).runs c turns).disk.blocks (some cid) l ∧
        (Disk.impl c).chain (({} : PSys).runs c turns).disk n = .ok (l.map (·.2)) ∧
        ∀ x ∈ l, ∃ i, PTurn.start i (.append n x.2) ∈ turns) ∧
      ∀ n, n ∉ hs.map (·.1) → (Disk.impl c).chain (({} : PSys).runs c turns).disk n = .ok [] := by
  have hi := PSys.inv_init.runs hl turns ha hcol hdie
  obtain ⟨hs, h1, h2, h3, h4⟩ := (hi.sound hl hcol hclosed).whole hl.lawful
  refine ⟨hs, h1, h2, fun n cid hm => ?_, h4⟩
  obtain ⟨l, l1, l2, l3⟩ := h3 n cid hm
  exact ⟨l, l1, l2, fun x hx => PSys.started_init (l3 x hx)⟩

/-- **C112**, for the calls, with the same restriction: a call raises only if it has read a file while another process had
it open for writing, and a read which returns entries returns only entries which were appended under this name. -/
theorem C112_calls_partial (hl : c.Streams) (turns : List PTurn)
    (ha : ∀ pre, pre <+: turns → (({} : PSys).runs c pre).Alone)
    (hcol : NoCollision c (({} : PSys).runs c turns).begun)
    (hdie : ∀ pre i, pre ++ [.die i] <+: turns → (({} : PSys).runs c pre).MayDie i)
    (j : Job) (res : Except Exc (Option (List Entry))) (disturbed : Prop)
    (hm : (j, res, disturbed) ∈ (({} : PSys).runs c turns).finished) :
    (¬ disturbed → ∃ a, res = .ok a) ∧
    ∀ n fuel es, j = .read n fuel → res = .ok (some es) → ∀ e ∈ es, ∃ i, PTurn.start i (.append n e) ∈ turns := by
  obtain ⟨h1, h2⟩ := (PSys.inv_init.runs hl turns ha hcol hdie).finished _ hm
  refine ⟨h1, fun n fuel es hj hr e he => ?_⟩
  subst hj
  exact PSys.started_init (h2 _ hr es rfl e he)

/-- **C109**, restricted to schedules in which a process that writes a file in pieces is the only one which has it open
and no process dies (`C109_refuted`: if several write a file in pieces it is false; for processes which die see `C112`).
Whenever no file is open for writing, the heads file can be read and names no chain twice; from every head the parent
links lead over complete block files to one without parent, reading the chain returns exactly the entries on this path,
and every one was appended under this name. A name without head has no entries. -/
theorem C109_whole_partial (hl : c.Streams) (turns : List PTurn)
    (ha : ∀ pre, pre <+: turns → (({} : PSys).runs c pre).Alone)
    (hcol : NoCollision c (({} : PSys).runs c turns).begun) (hdie : ∀ i, .die i ∉ turns)
    (hclosed : ∀ p, ¬ (({} : PSys).runs c turns).IsOpen p) :
    ∃ hs, (getheads c).run c 0 (({} : PSys).runs c turns).disk = (.ok hs, (({} : PSys).runs c turns).disk) ∧
      (hs.map (·.1)).Nodup ∧
      (∀ n cid, (n, cid) ∈ hs → ∃ l, Linked c (({} : PSys).runs c turns).disk.blocks (some cid) l ∧
        (Disk.impl c).chain (({} : PSys).runs c turns).disk n = .ok (l.map (·.2)) ∧
        ∀ x ∈ l, ∃ i, PTurn.start i (.append n x.2) ∈ turns) ∧
      ∀ n, n ∉ hs.map (·.1) → (Disk.impl c).chain (({} : PSys).runs c turns).disk n = .ok [] :=
  C112_whole_partial hl turns ha hcol (fun _ i h => absurd (h.subset (by simp)) (hdie i)) hclosed

/-- **C109**, for the calls, with the same restriction: a call raises only if it has read a file while another process had
it open for writing, and a read which returns entries returns only entries which were appended under this name. -/
theorem C109_calls_partial (hl : c.Streams) (turns : List PTurn)
    (ha : ∀ pre, pre <+: turns → (({} : PSys).runs c pre).Alone)
    (hcol : NoCollision c (({} : PSys).runs c turns).begun) (hdie : ∀ i, .die i ∉ turns)
    (j : Job) (res : Except Exc (Option (List Entry))) (disturbed : Prop)
    (hm : (j, res, disturbed) ∈ (({} : PSys).runs c turns).finished) :
    (¬ disturbed → ∃ a, res = .ok a) ∧
    ∀ n fuel es, j = .read n fuel → res = .ok (some es) → ∀ e ∈ es, ∃ i, PTurn.start i (.append n e) ∈ turns :=
  C112_calls_partial hl turns ha hcol (fun _ i h => absurd (h.subset (by simp)) (hdie i)) j res disturbed hm

/-! ## examples and the refutation -/

/-- a process which starts no call stays idle -/
theorem PSys.idle (turns : List PTurn) {i : Nat} (h : ∀ j, PTurn.start i j ∉ turns) {s : PSys} (hs : s.procs i = none) :
    (s.runs c turns).procs i = none := by
  induction turns generalizing s with
  | nil => exact hs
  | cons x xs ih =>
    refine ih (fun j hj => h j (List.mem_cons_of_mem _ hj)) (s := s.act c x) ?_
    have key : ∀ (i' : Nat) (r : Option PProc), i' ≠ i → s.setProc i' r i = none := by
      intro i' r hne
      simp only [PSys.setProc, if_neg (fun h => hne h.symm : i ≠ i')]; exact hs
    cases x with
    | start i' j =>
      have hne : i' ≠ i := by rintro rfl; exact h j List.mem_cons_self
      simp only [PSys.act]
      split
      · exact hs
      · exact key _ _ hne
    | step i' t pieces =>
      by_cases hne : i' = i
      · subst hne; simp only [PSys.act, hs]
      · simp only [PSys.act]
        repeat' split
        all_goals first | exact hs | exact key _ _ hne
    | write i' n =>
      by_cases hne : i' = i
      · subst hne; simp only [PSys.act, hs]
      · simp only [PSys.act]
        repeat' split
        all_goals first | exact hs | exact key _ _ hne
    | die i' =>
      by_cases hne : i' = i
      · subst hne; simp [PSys.act, PSys.setProc]
      · exact key _ _ hne

theorem Except.error_of_toOption {α : Type} {x : Except Exc α} (h : x.toOption.isNone = true) : ∃ e, x = .error e := by
  cases x with
  | error e => exact ⟨e, rfl⟩
  | ok a => cases h

namespace Concrete

theorem codec_streams : codec.Streams where
  lawful := codec_lawful
  truncated := codec_rejectsTruncated
  rest hs r _ := by simp [codec, dictCode.ok]

/-- a whole call of one process -/
def callOf (i : Nat) (j : Job) : List PTurn :=
  .start i j :: (List.replicate 12 [.step i 7 false, .write i 0]).flatten

/-- does the process have no file open? -/
def closedB (s : PSys) (i : Nat) : Bool := match s.procs i with | some r => r.writing.isNone | none => true

/-- two processes do not get in each other's way -/
def pairB (s : PSys) (i j : Nat) : Bool :=
  match s.procs i, s.procs j with
  | some r, some r' => match r.writing, r'.writing with
    | some w, some w' => w.path != w'.path || !w.pieces
    | _, _ => true
  | _, _ => true

theorem alone_of_pair {turns : List PTurn} (ht : ∀ i j, 2 ≤ i → PTurn.start i j ∉ turns)
    (h1 : pairB (({} : PSys).runs codec turns) 0 1 = true) (h2 : pairB (({} : PSys).runs codec turns) 1 0 = true) :
    (({} : PSys).runs codec turns).Alone := by
  intro i j r r' w w' hi hj hw hw' hp hne
  have small : ∀ i r, (({} : PSys).runs codec turns).procs i = some r → i = 0 ∨ i = 1 := by
    intro i r hi
    by_cases h : 2 ≤ i
    · rw [PSys.idle turns (fun j => ht i j h) rfl] at hi; cases hi
    · omega
  rcases small i r hi with rfl | rfl <;> rcases small j r' hj with rfl | rfl
  · exact absurd rfl hne
  · simpa [pairB, hi, hj, hw, hw', hp] using h1
  · simpa [pairB, hi, hj, hw, hw', hp] using h2
  · exact absurd rfl hne

theorem closed_of {turns : List PTurn} (ht : ∀ i j, 2 ≤ i → PTurn.start i j ∉ turns)
    (h1 : closedB (({} : PSys).runs codec turns) 0 = true) (h2 : closedB (({} : PSys).runs codec turns) 1 = true)
    (p : Path) : ¬ (({} : PSys).runs codec turns).IsOpen p := by
  rintro ⟨i, r, w, hi, hw, -⟩
  have h : i = 0 ∨ i = 1 := by
    by_cases h : 2 ≤ i
    · rw [PSys.idle turns (fun j => ht i j h) rfl] at hi; cases hi
    · omega
  rcases h with rfl | rfl
  · simp [closedB, hi, hw] at h1
  · simp [closedB, hi, hw] at h2

/-- does the process not have the heads file open? -/
def headsShutB (s : PSys) (i : Nat) : Bool :=
  match s.procs i with
  | some r => match r.writing with
    | some w => w.path != .heads
    | none => true
  | none => true

theorem headsShut {turns : List PTurn} (ht : ∀ i j, 2 ≤ i → PTurn.start i j ∉ turns)
    (h1 : headsShutB (({} : PSys).runs codec turns) 0 = true) (h2 : headsShutB (({} : PSys).runs codec turns) 1 = true) :
    ¬ (({} : PSys).runs codec turns).IsOpen .heads := by
  rintro ⟨i, r, w, hi, hw, hp⟩
  have h : i = 0 ∨ i = 1 := by
    by_cases h : 2 ≤ i
    · rw [PSys.idle turns (fun j => ht i j h) rfl] at hi; cases hi
    · omega
  rcases h with rfl | rfl
  · simp [headsShutB, hi, hw, hp] at h1
  · simp [headsShutB, hi, hw, hp] at h2

/-- is this a start of one of the first two processes? -/
def startOk : PTurn → Bool
  | .start i _ => i < 2
  | _ => true

theorem starts_of {turns : List PTurn} (h : turns.all startOk = true) : ∀ i j, 2 ≤ i → PTurn.start i j ∉ turns := by
  intro i j hi hm
  have := List.all_eq_true.1 h _ hm
  simp only [startOk, decide_eq_true_eq] at this
  omega

theorem alone_all {turns : List PTurn} (hs : turns.all startOk = true)
    (hall : turns.inits.all (fun pre => pairB (({} : PSys).runs codec pre) 0 1 &&
      pairB (({} : PSys).runs codec pre) 1 0) = true) (pre : List PTurn) (hp : pre <+: turns) :
    (({} : PSys).runs codec pre).Alone := by
  have h1 := List.all_eq_true.1 hall pre ((List.mem_inits _ _).2 hp)
  rw [Bool.and_eq_true] at h1
  exact alone_of_pair (fun i j hi hm => starts_of hs i j hi (hp.subset hm)) h1.1 h1.2

/-- is this the death of a process? -/
def isDie : PTurn → Bool
  | .die _ => true
  | _ => false

theorem no_die {turns : List PTurn} (h : turns.any isDie = false) (i : Nat) : .die i ∉ turns := fun hm => by
  rw [List.any_eq_false] at h
  exact h _ hm rfl

/-- A process appends an entry, then another one and writes the heads file in pieces. A second process reads the chain
when six bytes have arrived, and once more at the end. -/
def readsBetween : List PTurn :=
  callOf 0 (.append (str!"a") (.acfg (str!"1"))) ++
  [.start 0 (.append (str!"a") (.acfg (str!"2"))), .step 0 8 false, .step 0 8 false, .step 0 8 false, .step 0 8 false,
    .write 0 0, .step 0 8 false, .step 0 8 true, .write 0 6] ++
  callOf 1 (.read (str!"a") 5) ++ [.write 0 1000, .step 0 9 false] ++ callOf 1 (.read (str!"a") 5)

/-- the hypotheses of `C109_whole_partial` and `C109_calls_partial` are met -/
example : (∀ pre, pre <+: readsBetween → (({} : PSys).runs codec pre).Alone) ∧
    NoCollision codec (({} : PSys).runs codec readsBetween).begun ∧ (∀ i, .die i ∉ readsBetween) ∧
    (∀ p, ¬ (({} : PSys).runs codec readsBetween).IsOpen p) ∧
    -- newest first: the last read sees both entries, the second append ends, the read in between raises
    (({} : PSys).runs codec readsBetween).finished.map (fun y => y.2.1.toOption.map (·.map (·.length))) =
      [some (some 2), some none, none, some none] := by
  have hs : readsBetween.all startOk = true := by decide +kernel
  exact ⟨alone_all hs (by decide +kernel), by unfold NoCollision; decide +kernel, no_die (by decide +kernel),
    closed_of (starts_of hs) (by decide +kernel) (by decide +kernel), by decide +kernel⟩

/-- Two chains. One process removes the second, in pieces, and another one removes the first at the same time. -/
def mixed : List PTurn :=
  callOf 0 (.append (str!"a") (.acfg (str!"1"))) ++ callOf 0 (.append (str!"b") (.acfg (str!"2"))) ++
  [.start 0 (.remove (fun n => n == str!"b")), .start 1 (.remove (fun n => n == str!"a")),
    .step 0 8 false, .step 1 8 false, .step 0 8 true, .step 1 8 false, .write 0 4, .write 1 0, .write 0 1000,
    .step 0 8 false, .step 1 8 false]

/-- may the process die without harm? -/
def mayDieB (s : PSys) (i : Nat) : Bool :=
  match s.procs i with
  | some r => match r.writing with
    | some w => match w.path with
      | .heads => false
      | .block cid => (Disk.lookup s.known cid).isNone
    | none => true
  | none => true

theorem mayDie_of {s : PSys} {i : Nat} (h : mayDieB s i = true) : s.MayDie i := by
  intro r w hr hw
  simp only [mayDieB, hr, hw] at h
  cases hp : w.path with
  | heads => rw [hp] at h; cases h
  | block cid => rw [hp] at h; exact ⟨cid, rfl, Option.isNone_iff_eq_none.1 h⟩

/-- if the last item of the schedule is the death of a process, then it may die -/
def lastB (turns : List PTurn) : Bool :=
  match turns.getLast? with
  | some (.die i) => mayDieB (({} : PSys).runs codec turns.dropLast) i
  | _ => true

theorem mayDie_all {turns : List PTurn} (h : turns.inits.all lastB = true) (pre : List PTurn) (i : Nat)
    (hp : pre ++ [.die i] <+: turns) : (({} : PSys).runs codec pre).MayDie i := by
  have h1 := List.all_eq_true.1 h _ ((List.mem_inits _ _).2 hp)
  simp only [lastB, List.getLast?_append, List.getLast?_singleton, Option.some_or, List.dropLast_concat] at h1
  exact mayDie_of h1

/-- A process appends an entry and is about to append another one. It dies when three bytes of the new block have
arrived, while another process is reading; this one then appends the same entry at the same time, that is, the same
block. -/
def diesInBlock : List PTurn :=
  callOf 0 (.append (str!"a") (.acfg (str!"1"))) ++
  [.start 0 (.append (str!"a") (.acfg (str!"2"))), .start 1 (.read (str!"a") 5), .step 1 7 false, .step 0 7 false,
    .step 0 7 false, .step 0 7 false, .step 0 7 true, .write 0 3, .die 0] ++
  (callOf 1 (.read (str!"a") 5)).tail ++
  callOf 1 (.append (str!"a") (.acfg (str!"2"))) ++ callOf 1 (.read (str!"a") 5)

/-- the hypotheses of `C112_whole_partial` and `C112_calls_partial` are met -/
example : (∀ pre, pre <+: diesInBlock → (({} : PSys).runs codec pre).Alone) ∧
    NoCollision codec (({} : PSys).runs codec diesInBlock).begun ∧
    (∀ pre i, pre ++ [.die i] <+: diesInBlock → (({} : PSys).runs codec pre).MayDie i) ∧
    (∀ p, ¬ (({} : PSys).runs codec diesInBlock).IsOpen p) ∧
    -- newest first: the last read sees both entries, the read in between sees one
    (({} : PSys).runs codec diesInBlock).finished.map (fun y => y.2.1.toOption.map (·.map (·.length))) =
      [some (some 2), some none, some (some 1), some none] ∧
    -- the block which was cut and then written is one file
    (({} : PSys).runs codec diesInBlock).begun.length = 3 ∧ (({} : PSys).runs codec diesInBlock).disk.blocks.length = 2 := by
  have hs : diesInBlock.all startOk = true := by decide +kernel
  exact ⟨alone_all hs (by decide +kernel), by unfold NoCollision; decide +kernel, mayDie_all (by decide +kernel),
    closed_of (starts_of hs) (by decide +kernel) (by decide +kernel), by decide +kernel, by decide +kernel,
    by decide +kernel⟩

/-- A process appends an entry and another one, but dies as soon as it has opened the heads file. -/
def diesInHeads : List PTurn :=
  callOf 0 (.append (str!"a") (.acfg (str!"1"))) ++
  [.start 0 (.append (str!"a") (.acfg (str!"2"))), .step 0 7 false, .step 0 7 false, .step 0 7 false, .step 0 7 false,
    .write 0 0, .step 0 7 false, .step 0 7 false, .die 0] ++ callOf 1 (.read (str!"a") 5)

/-- Two processes append the same entry at the same time. One is done; the other one dies when it has opened the block
file, which the heads file names already. -/
def diesInSame : List PTurn :=
  [.start 1 (.append (str!"a") (.acfg (str!"1"))), .step 1 7 false, .step 1 7 false] ++
  callOf 0 (.append (str!"a") (.acfg (str!"1"))) ++ [.step 1 7 false, .die 1] ++ callOf 0 (.read (str!"a") 5)

end Concrete

open Concrete in
/-- **C112** is false if a process may die at any moment, though no two processes ever have the same file open: here it dies
with the heads file open and afterwards, when no file is open, the chain cannot be read. -/
theorem C112_refuted : ∃ (c : Codec) (turns : List PTurn), c.Streams ∧
    (∀ pre, pre <+: turns → (({} : PSys).runs c pre).Alone) ∧ NoCollision c (({} : PSys).runs c turns).begun ∧
    (∀ p, ¬ (({} : PSys).runs c turns).IsOpen p) ∧
    ∃ n e, (Disk.impl c).chain (({} : PSys).runs c turns).disk n = .error e := by
  have hs : diesInHeads.all startOk = true := by decide +kernel
  refine ⟨codec, diesInHeads, codec_streams, alone_all hs (by decide +kernel), by unfold NoCollision; decide +kernel,
    closed_of (starts_of hs) (by decide +kernel) (by decide +kernel), str!"a", ?_⟩
  exact Except.error_of_toOption (by decide +kernel)

open Concrete in
/-- **C112** is also false if the heads file is never open when a process dies: here two processes append the same entry at
the same time, and one of them dies with the file of the block open when the other one is done. -/
theorem C112_refuted_block : ∃ (c : Codec) (turns : List PTurn), c.Streams ∧
    (∀ pre, pre <+: turns → (({} : PSys).runs c pre).Alone) ∧ NoCollision c (({} : PSys).runs c turns).begun ∧
    (∀ p, ¬ (({} : PSys).runs c turns).IsOpen p) ∧
    (∀ pre i, pre ++ [.die i] <+: turns → ¬ (({} : PSys).runs c pre).IsOpen .heads) ∧
    ∃ n e, (Disk.impl c).chain (({} : PSys).runs c turns).disk n = .error e := by
  have hs : diesInSame.all startOk = true := by decide +kernel
  refine ⟨codec, diesInSame, codec_streams, alone_all hs (by decide +kernel), by unfold NoCollision; decide +kernel,
    closed_of (starts_of hs) (by decide +kernel) (by decide +kernel), fun pre i hp => ?_, str!"a", ?_⟩
  · have h : diesInSame.inits.all (fun t => !(t.getLast?.any isDie) ||
        (headsShutB (({} : PSys).runs codec t.dropLast) 0 && headsShutB (({} : PSys).runs codec t.dropLast) 1)) = true := by
      decide +kernel
    have h1 := List.all_eq_true.1 h _ ((List.mem_inits _ _).2 hp)
    simp only [List.getLast?_append, List.getLast?_singleton, Option.some_or, List.dropLast_concat, Option.any_some, isDie,
      Bool.not_true, Bool.false_or, Bool.and_eq_true] at h1
    exact headsShut (fun i j hi hm => starts_of hs i j hi (((List.prefix_append _ _).trans hp).subset hm)) h1.1 h1.2
  · exact Except.error_of_toOption (by decide +kernel)

open Concrete in
/-- **C109** is false if processes write the same file in pieces at the same time: here two processes remove different
names, no call raises, all files are closed, and then one of the names has an entry which was never appended under it. -/
theorem C109_refuted : ∃ (c : Codec) (turns : List PTurn), c.Streams ∧ (∀ i, .die i ∉ turns) ∧
    NoCollision c (({} : PSys).runs c turns).begun ∧ (∀ p, ¬ (({} : PSys).runs c turns).IsOpen p) ∧
    (({} : PSys).runs c turns).finished.all (fun y => y.2.1.toOption.isSome) = true ∧
    ∃ n es e, (Disk.impl c).chain (({} : PSys).runs c turns).disk n = .ok es ∧ e ∈ es ∧
      ∀ i, PTurn.start i (.append n e) ∉ turns := by
  have hs : mixed.all startOk = true := by decide +kernel
  refine ⟨codec, mixed, codec_streams, no_die (by decide +kernel), by unfold NoCollision; decide +kernel,
    closed_of (starts_of hs) (by decide +kernel) (by decide +kernel), by decide +kernel, str!"b", [.acfg (str!"1")],
    .acfg (str!"1"), ?_, List.mem_cons_self, fun i h => ?_⟩
  · have h : ((Disk.impl codec).chain (({} : PSys).runs codec mixed).disk (str!"b")).toOption = some [.acfg (str!"1")] := by
      decide +kernel
    cases hc : (Disk.impl codec).chain (({} : PSys).runs codec mixed).disk (str!"b") with
    | error e => rw [hc] at h; cases h
    | ok es => rw [hc] at h; cases h; rfl
  · have : mixed.all (fun x => match x with
      | .start _ (.append n e) => !(n == str!"b" && e == .acfg (str!"1"))
      | _ => true) = true := by decide +kernel
    have := List.all_eq_true.1 this _ h
    simp at this

end Verif
