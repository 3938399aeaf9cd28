import Verif.Props.Gpg
import Verif.Lemmas.PyStr
import Mathlib.Data.List.Forall2
/-!
# Key ids, key handles and key listings (C59, C60, C61)
-/
namespace Verif
open BinGPG

variable {σ K : Type}

/-! ## C59 -/

/-- the same text ignoring ASCII letter case -/
def SameText (a b : Str) : Prop := List.Forall₂ (fun x y => Py.lowerChar x = Py.lowerChar y) a b

/-- `b` ends with `a`, ignoring letter case -/
def EndsWith (b a : Str) : Prop := ∃ p s, b = p ++ s ∧ SameText s a

theorem sameText_iff {a b : Str} : SameText a b ↔ Py.lower a = Py.lower b := by
  unfold SameText Py.lower
  induction a generalizing b with
  | nil => cases b <;> simp
  | cons x a ih => cases b with
    | nil => simp
    | cons y b => simp [ih]

theorem SameText.length {a b : Str} (h : SameText a b) : a.length = b.length := List.Forall₂.length_eq h

/-- C59: two key ids match iff one of them ends with the other, ignoring letter case. Missing from the full statement: an
empty id only matches an empty id, see `C59_refuted`. -/
theorem C59_match_partial (id other : Str) :
    idMatch id other = true ↔ (id = [] ↔ other = []) ∧ (EndsWith id other ∨ EndsWith other id) := by
  have hlen : ∀ s : Str, (Py.lower s).length = s.length := fun s => List.length_map ..
  unfold idMatch
  rw [beq_iff_eq]
  by_cases h0 : min other.length id.length = 0
  · rw [h0]
    simp only [Py.lastN, if_true]
    have : other = [] ∨ id = [] := by
      rcases Nat.min_eq_zero_iff.mp h0 with h | h
      · exact Or.inl (List.eq_nil_of_length_eq_zero h)
      · exact Or.inr (List.eq_nil_of_length_eq_zero h)
    constructor
    · intro h
      have hl := congrArg List.length h
      rw [hlen, hlen] at hl
      rcases this with rfl | rfl
      · obtain rfl := List.eq_nil_of_length_eq_zero hl
        exact ⟨by simp, Or.inl ⟨[], [], rfl, .nil⟩⟩
      · obtain rfl := List.eq_nil_of_length_eq_zero hl.symm
        exact ⟨by simp, Or.inl ⟨[], [], rfl, .nil⟩⟩
    · rintro ⟨h, -⟩
      rcases this with rfl | rfl
      · rw [h.mpr rfl]
      · rw [h.mp rfl]
  · have hid : id ≠ [] := by rintro rfl; simp at h0
    have hot : other ≠ [] := by rintro rfl; simp at h0
    simp only [Py.lastN, h0, if_false]
    have hiff : (id = [] ↔ other = []) := by simp [hid, hot]
    rw [← sameText_iff]
    constructor
    · intro h
      refine ⟨hiff, ?_⟩
      rcases Nat.le_total other.length id.length with hl | hl
      · rw [Nat.min_eq_left hl, Nat.sub_self, List.drop_zero] at h
        exact Or.inl ⟨_, _, (List.take_append_drop (id.length - other.length) id).symm, h⟩
      · rw [Nat.min_eq_right hl, Nat.sub_self, List.drop_zero] at h
        refine Or.inr ⟨_, _, (List.take_append_drop (other.length - id.length) other).symm, ?_⟩
        rw [sameText_iff] at h ⊢; exact h.symm
    · rintro ⟨-, ⟨p, s, h, hs⟩ | ⟨p, s, h, hs⟩⟩
      · have hl := hs.length
        have h1 : other.length ≤ id.length := by rw [h, List.length_append]; omega
        rw [Nat.min_eq_left h1, Nat.sub_self, List.drop_zero, h]
        rw [List.length_append, hl, Nat.add_sub_cancel, List.drop_left]; exact hs
      · have hl := hs.length
        have h1 : id.length ≤ other.length := by rw [h, List.length_append]; omega
        rw [Nat.min_eq_right h1, Nat.sub_self, List.drop_zero, h]
        rw [List.length_append, hl, Nat.add_sub_cancel, List.drop_left]
        rw [sameText_iff] at hs ⊢; exact hs.symm

/-- C59: two nonempty key ids match iff one of them ends with the other, ignoring letter case. -/
theorem C59_match (id other : Str) (h1 : id ≠ []) (h2 : other ≠ []) :
    idMatch id other = true ↔ EndsWith id other ∨ EndsWith other id := by
  rw [C59_match_partial]
  exact and_iff_right ⟨fun h => absurd h h1, fun h => absurd h h2⟩

/-- C59: matching is reflexive and symmetric -/
theorem C59_refl_symm (a b : Str) : idMatch a a = true ∧ (idMatch a b = true → idMatch b a = true) := by
  constructor
  · rw [C59_match_partial]; exact ⟨Iff.rfl, Or.inl ⟨[], a, rfl, sameText_iff.mpr rfl⟩⟩
  · rw [C59_match_partial, C59_match_partial]
    rintro ⟨h1, h2⟩
    exact ⟨h1.symm, h2.symm⟩

example : idMatch (str!"0123456789ABCDEF") (str!"89abcdef") = true := by decide
example : idMatch (str!"0123456789ABCDEF") (str!"89abcdee") = false := by decide

/-- C59 is false for an empty id: every id ends with it, and it matches none but itself -/
theorem C59_refuted : ∃ a b : Str, EndsWith a b ∧ idMatch a b = false :=
  ⟨str!"A", [], ⟨str!"A", [], rfl, sameText_iff.mpr rfl⟩, by decide⟩

/-! ## C60 -/

/-- an upper case hexadecimal digit -/
def HexDigit (c : Char) : Prop := ('0' ≤ c ∧ c ≤ '9') ∨ ('A' ≤ c ∧ c ≤ 'F')

theorem isHexUpper_iff {c : Char} : isHexUpper c = true ↔ HexDigit c := by
  unfold isHexUpper HexDigit
  simp only [Bool.or_eq_true, Bool.and_eq_true, decide_eq_true_eq]
  exact Iff.rfl

/-- at the start of `s` gpg names the key `h`: 'key ' or 'key ID ', followed by a maximal non-empty run of digits -/
def KeyAt (s h : Str) : Prop :=
  h ≠ [] ∧ (∀ c ∈ h, HexDigit c) ∧ ∃ rest, (s = str!"key " ++ (h ++ rest) ∨ s = str!"key ID " ++ (h ++ rest)) ∧
    ∀ c ∈ rest.head?, ¬ HexDigit c

/-- the first key named in a text -/
def FirstKey (text h : Str) : Prop :=
  ∃ pre s, text = pre ++ s ∧ KeyAt s h ∧ ∀ pre' s' h', text = pre' ++ s' → KeyAt s' h' → pre.length ≤ pre'.length

theorem takeWhile_run {h rest : Str} (hh : ∀ c ∈ h, HexDigit c) (hr : ∀ c ∈ rest.head?, ¬ HexDigit c) :
    (h ++ rest).takeWhile isHexUpper = h := by
  induction h with
  | nil =>
    cases rest with
    | nil => rfl
    | cons c r =>
      have := hr c rfl
      rw [List.nil_append, List.takeWhile_cons, if_neg]
      rwa [isHexUpper_iff]
  | cons c h ih =>
    rw [List.cons_append, List.takeWhile_cons, if_pos (isHexUpper_iff.mpr (hh c (List.mem_cons_self ..)))]
    rw [ih fun x hx => hh x (List.mem_cons_of_mem _ hx)]

theorem hexRun_some {s h : Str} : hexRun s = some h ↔
    h ≠ [] ∧ (∀ c ∈ h, HexDigit c) ∧ ∃ rest, s = h ++ rest ∧ ∀ c ∈ rest.head?, ¬ HexDigit c := by
  unfold hexRun
  constructor
  · intro hr
    dsimp only at hr
    split at hr
    · cases hr
    · rename_i hne
      cases hr
      refine ⟨by simpa using hne, fun c hc => isHexUpper_iff.mp (List.all_eq_true.mp List.all_takeWhile c hc), s.dropWhile isHexUpper,
        (List.takeWhile_append_dropWhile ..).symm, ?_⟩
      intro c hc hx
      rw [Option.mem_def] at hc
      obtain ⟨t, ht⟩ : ∃ t, s.dropWhile isHexUpper = c :: t := by
        cases hd : s.dropWhile isHexUpper with
        | nil => rw [hd] at hc; cases hc
        | cons x t => rw [hd] at hc; cases hc; exact ⟨t, rfl⟩
      have := Py.dropWhile_head ht
      rw [isHexUpper_iff.mpr hx] at this; cases this
  · rintro ⟨hne, hh, rest, rfl, hr⟩
    dsimp only
    rw [takeWhile_run hh hr, if_neg (by simpa using hne)]

theorem startsWith_iff {p s : Str} : Py.startsWith p s = true ↔ ∃ r, s = p ++ r := by
  unfold Py.startsWith
  rw [List.isPrefixOf_iff_prefix]
  exact ⟨fun ⟨r, h⟩ => ⟨r, h.symm⟩, fun ⟨r, h⟩ => ⟨r, h.symm⟩⟩

theorem matchKey_iff {s h : Str} : matchKey s = some h ↔ KeyAt s h := by
  unfold matchKey KeyAt
  constructor
  · intro hm
    split at hm
    · rename_i hk
      obtain ⟨r, rfl⟩ := startsWith_iff.mp hk
      have hd : (str!"key " ++ r).drop 4 = r := rfl
      dsimp only at hm
      rw [hd] at hm
      split at hm
      · rename_i hid
        obtain ⟨q, rfl⟩ := startsWith_iff.mp hid
        have hd2 : (str!"ID " ++ q).drop 3 = q := rfl
        rw [hd2] at hm
        obtain ⟨h1, h2, rest, h3, h4⟩ := hexRun_some.mp hm
        exact ⟨h1, h2, rest, Or.inr (by rw [h3]; rfl), h4⟩
      · obtain ⟨h1, h2, rest, h3, h4⟩ := hexRun_some.mp hm
        exact ⟨h1, h2, rest, Or.inl (by rw [h3]), h4⟩
    · cases hm
  · rintro ⟨h1, h2, rest, h3 | h3, h4⟩
    · rw [if_pos (startsWith_iff.mpr ⟨_, h3⟩)]
      have hd : s.drop 4 = h ++ rest := by rw [h3]; rfl
      dsimp only
      rw [hd, if_neg]
      · exact hexRun_some.mpr ⟨h1, h2, rest, rfl, h4⟩
      · intro hs
        obtain ⟨q, hq⟩ := startsWith_iff.mp hs
        cases h with
        | nil => exact h1 rfl
        | cons c h =>
          have : c = 'I' := by injection hq
          have hc := h2 c (List.mem_cons_self ..)
          rw [this] at hc
          rw [← isHexUpper_iff] at hc
          revert hc; decide
    · have h3' : s = str!"key " ++ (str!"ID " ++ (h ++ rest)) := h3
      rw [if_pos (startsWith_iff.mpr ⟨_, h3'⟩)]
      have hd : s.drop 4 = str!"ID " ++ (h ++ rest) := by rw [h3']; rfl
      dsimp only
      rw [hd, if_pos (startsWith_iff.mpr ⟨_, rfl⟩)]
      exact hexRun_some.mpr ⟨h1, h2, rest, rfl, h4⟩

theorem KeyAt.unique {s h h' : Str} (h1 : KeyAt s h) (h2 : KeyAt s h') : h = h' := by
  have := (matchKey_iff.mpr h1).symm.trans (matchKey_iff.mpr h2)
  cases this; rfl

/-- C60: the handle extracted from a text is the first key it names -/
theorem C60_search (text h : Str) : searchKey text = some h ↔ FirstKey text h := by
  unfold FirstKey
  induction text with
  | nil =>
    constructor
    · intro h; cases h
    · rintro ⟨pre, s, ht, ⟨-, -, rest, hs, -⟩, -⟩
      obtain ⟨rfl, rfl⟩ := List.append_eq_nil_iff.mp ht.symm
      rcases hs with hs | hs <;> cases hs
  | cons c cs ih =>
    unfold searchKey
    cases hm : matchKey (c :: cs) with
    | some x =>
      have hk := matchKey_iff.mp hm
      constructor
      · intro he; cases he
        exact ⟨[], _, rfl, hk, fun _ _ _ _ _ => Nat.zero_le _⟩
      · rintro ⟨pre, s, ht, hs, hmin⟩
        have := hmin [] _ _ rfl hk
        obtain rfl : pre = [] := List.eq_nil_of_length_eq_zero (Nat.le_zero.mp this)
        rw [List.nil_append] at ht; subst ht
        exact congrArg some (hk.unique hs)
    | none =>
      have hno : ∀ h', ¬ KeyAt (c :: cs) h' := fun h' hk => by rw [matchKey_iff.mpr hk] at hm; cases hm
      dsimp only
      rw [ih]
      constructor
      · rintro ⟨pre, s, ht, hs, hmin⟩
        refine ⟨c :: pre, s, by rw [ht]; rfl, hs, ?_⟩
        intro pre' s' h' ht' hk
        cases pre' with
        | nil => rw [List.nil_append] at ht'; exact absurd (ht' ▸ hk) (hno _)
        | cons d pre' =>
          simp only [List.cons_append, List.cons.injEq] at ht'
          exact Nat.succ_le_succ (hmin pre' s' h' ht'.2 hk)
      · rintro ⟨pre, s, ht, hs, hmin⟩
        cases pre with
        | nil => rw [List.nil_append] at ht; exact absurd (ht ▸ hs) (hno _)
        | cons d pre =>
          simp only [List.cons_append, List.cons.injEq] at ht
          obtain ⟨rfl, ht⟩ := ht
          refine ⟨pre, s, ht, hs, ?_⟩
          intro pre' s' h' ht' hk
          exact Nat.le_of_succ_le_succ (hmin (c :: pre') s' h' (by rw [ht']; rfl) hk)

/-- C60: no handle is found iff the text names no key at any position -/
theorem C60_none (text : Str) : searchKey text = none ↔ ∀ pre s h, text = pre ++ s → ¬ KeyAt s h := by
  constructor
  · intro hn pre s h ht hk
    induction pre generalizing text with
    | nil =>
      rw [List.nil_append] at ht
      rw [← ht] at hk
      cases text with
      | nil =>
        obtain ⟨-, -, rest, hs, -⟩ := hk
        rcases hs with hs | hs <;> cases hs
      | cons c cs => rw [searchKey, matchKey_iff.mpr hk] at hn; cases hn
    | cons c pre ih =>
      subst ht
      rw [List.cons_append, searchKey] at hn
      split at hn
      · cases hn
      · exact ih _ hn rfl
  · intro h
    cases hs : searchKey text with
    | none => rfl
    | some x =>
      obtain ⟨pre, s, ht, hk, -⟩ := (C60_search text x).mp hs
      exact absurd hk (h pre s x ht)

example : searchKey (str!"gpg: key ring ok\ngpg: encrypted with key ID 0A1B2C, key FF") = some (str!"0A1B2C") := by decide

/-! ## C61 -/

/-- the fields of a line of a colon listing -/
abbrev fields (line : Str) : List Str := Py.split ':' line
/-- the kind of the line, its first field -/
def tag (line : Str) : Str := (fields line).headD []

/-- the user ids given after a primary key: those in the `uid` lines up to the next primary key -/
def uidsAfter (primary : Str) : List Str → List Str
  | lines => ((lines.takeWhile fun l => tag l ≠ primary).filter fun l => tag l = str!"uid").map fun l => (fields l)[9]?.getD []

/-- the fields of a key line, without user ids -/
def KeyLine (env : Env) (line : Str) (k : KeyInfo) : Prop :=
  (fields line)[3]? = some k.type ∧ (∃ b, (fields line)[2]? = some b ∧ env.pyInt b = .ok k.bits) ∧
  (fields line)[4]? = some k.id ∧ (fields line)[5]? = some k.date

/-- the user id in a key line, if not empty (old versions of gpg put it there) -/
def ownUid (line : Str) : List Str := ((fields line)[9]?.toList).filter (· ≠ [])

/-- `Listing env (primary, sub) lines keys`: `keys` are the keys in `lines`, in order: each primary key with the user
id of its own line and of the `uid` lines before the next primary key, each subkey with that of its own line -/
inductive Listing (env : Env) (types : Str × Str) : List Str → List KeyInfo → Prop
  | nil : Listing env types [] []
  | primary {l ls k ks} : tag l = types.1 → KeyLine env l k → k.uids = ownUid l ++ uidsAfter types.1 ls →
      Listing env types ls ks → Listing env types (l :: ls) (k :: ks)
  | sub {l ls k ks} : tag l = types.2 → KeyLine env l k → k.uids = ownUid l →
      Listing env types ls ks → Listing env types (l :: ls) (k :: ks)
  | other {l ls ks} : tag l ≠ types.1 → tag l ≠ types.2 → Listing env types ls ks → Listing env types (l :: ls) ks

/-- the two pairs of line kinds which the code uses -/
def KeyTypes (types : Str × Str) : Prop := types = (str!"pub", str!"sub") ∨ types = (str!"sec", str!"ssb")

theorem KeyTypes.ne {types : Str × Str} (h : KeyTypes types) : types.1 ≠ str!"uid" ∧ types.2 ≠ str!"uid" ∧ types.1 ≠ types.2 := by
  rcases h with rfl | rfl <;> decide

theorem field_ok {parts : List Str} {i : Nat} {x : Str} : field parts i = .ok x ↔ parts[i]? = some x := by
  unfold field
  split <;> simp_all

theorem parseLine_ok {env : Env} {types : Str × Str} {infos infos' : List KeyInfo} {last last' : Option Nat} {l : Str}
    (_hty : KeyTypes types) (h : parseLine env types infos last l = .ok (infos', last')) :
    (∃ k, (tag l = types.1 ∨ tag l = types.2) ∧ KeyLine env l k ∧ k.uids = ownUid l ∧ infos' = infos ++ [k] ∧
      last' = if tag l = types.1 then some infos.length else last) ∨
    (tag l = str!"uid" ∧ last' = last ∧ ∃ i, last = some i ∧ infos' = addUid infos i ((fields l)[9]?.getD [])) ∨
    (tag l ≠ types.1 ∧ tag l ≠ types.2 ∧ tag l ≠ str!"uid" ∧ infos' = infos ∧ last' = last) := by
  unfold parseLine at h
  simp only [Except.bind, bind, pure, Except.pure, throw, throwThe, MonadExceptOf.throw] at h
  have htag : (Py.split ':' l).headD [] = tag l := rfl
  simp only [htag] at h
  split at h
  · rename_i ht
    left
    cases h3 : field (fields l) 3 with
    | error e => rw [h3] at h; cases h
    | ok ty =>
    cases h2 : field (fields l) 2 with
    | error e => rw [h3, h2] at h; cases h
    | ok b =>
    cases hb : env.pyInt b with
    | error e => rw [h3, h2] at h; dsimp only at h; rw [hb] at h; cases h
    | ok n =>
    cases h9 : field (fields l) 9 with
    | error e => rw [h3, h2] at h; dsimp only at h; rw [hb, h9] at h; cases h
    | ok uid =>
    cases h4 : field (fields l) 4 with
    | error e => rw [h3, h2] at h; dsimp only at h; rw [hb, h9, h4] at h; cases h
    | ok id =>
    cases h5 : field (fields l) 5 with
    | error e => rw [h3, h2] at h; dsimp only at h; rw [hb, h9, h4, h5] at h; cases h
    | ok date =>
      rw [h3, h2] at h; dsimp only at h; rw [hb, h9, h4, h5] at h
      dsimp only at h
      cases h
      refine ⟨⟨ty, n, id, uidList uid, date⟩, ht, ⟨field_ok.mp h3, ⟨b, field_ok.mp h2, hb⟩, field_ok.mp h4, field_ok.mp h5⟩, ?_, rfl, rfl⟩
      unfold ownUid uidList
      rw [field_ok.mp h9]
      cases uid <;> rfl
  · rename_i ht
    by_cases hu : tag l = str!"uid"
    · rw [if_pos hu] at h
      right; left
      cases last with
      | none => cases h
      | some i =>
        dsimp only at h
        cases h9 : field (fields l) 9 with
        | error e => rw [h9] at h; cases h
        | ok uid =>
          rw [h9] at h; cases h
          exact ⟨hu, rfl, i, rfl, by rw [field_ok.mp h9]; rfl⟩
    · rw [if_neg hu] at h
      cases h
      exact Or.inr (Or.inr ⟨fun h => ht (Or.inl h), fun h => ht (Or.inr h), hu, rfl, rfl⟩)

/-- append user ids to a key -/
def addUids (uids : List Str) (k : KeyInfo) : KeyInfo := { k with uids := k.uids ++ uids }

/-- append user ids to the key at the given position, if any -/
def withUids (infos : List KeyInfo) (uids : List Str) : Option Nat → List KeyInfo
  | some i => infos.modify i (addUids uids)
  | none => infos

theorem withUids_nil (infos : List KeyInfo) (last : Option Nat) : withUids infos [] last = infos := by
  have : addUids [] = id := by funext k; simp [addUids]
  cases last <;> simp [withUids, this]

theorem withUids_cons (infos : List KeyInfo) (u : Str) (us : List Str) (i : Nat) :
    withUids infos (u :: us) (some i) = withUids (addUid infos i u) us (some i) := by
  unfold withUids addUid
  dsimp only
  rw [List.modify_modify_eq]
  congr 1
  funext k
  simp [addUids]

theorem withUids_append (infos : List KeyInfo) (ks : List KeyInfo) (us : List Str) (last : Option Nat)
    (hl : ∀ i ∈ last, i < infos.length) : withUids (infos ++ ks) us last = withUids infos us last ++ ks := by
  cases last with
  | none => rfl
  | some i =>
    have := hl i rfl
    unfold withUids
    dsimp only
    clear hl
    induction infos generalizing i with
    | nil => simp at this
    | cons x infos ih =>
      cases i with
      | zero => rfl
      | succ i => simp only [List.cons_append, List.modify_succ_cons]; rw [ih i (by simpa using this)]

theorem withUids_length (infos : List KeyInfo) (k : KeyInfo) (us : List Str) :
    withUids (infos ++ [k]) us (some infos.length) = infos ++ [addUids us k] := by
  unfold withUids
  dsimp only
  induction infos with
  | nil => rfl
  | cons x infos ih => simp only [List.cons_append, List.length_cons, List.modify_succ_cons]; rw [ih]

theorem parseLines_listing {env : Env} {types : Str × Str} (hty : KeyTypes types) {lines : List Str} {infos res : List KeyInfo}
    {last : Option Nat} (hl : ∀ i ∈ last, i < infos.length)
    (h : parseLines env types infos last lines = .ok res) :
    ∃ ks, Listing env types lines ks ∧ res = withUids infos (uidsAfter types.1 lines) last ++ ks := by
  induction lines generalizing infos last with
  | nil =>
    cases h
    exact ⟨[], .nil, by rw [show uidsAfter types.1 [] = [] from rfl, withUids_nil, List.append_nil]⟩
  | cons l ls ih =>
    unfold parseLines at h
    split at h
    · cases h
    rename_i infos' last' hp
    rcases parseLine_ok hty hp with ⟨k, ht, hk, hku, rfl, rfl⟩ | ⟨hu, rfl, i, rfl, rfl⟩ | ⟨h1, h2, h3, rfl, rfl⟩
    · by_cases htp : tag l = types.1
      · rw [if_pos htp] at h
        obtain ⟨ks, hks, hres⟩ := ih (by simp) h
        refine ⟨addUids (uidsAfter types.1 ls) k :: ks, .primary htp hk (by rw [← hku]; rfl) hks, ?_⟩
        have hua : uidsAfter types.1 (l :: ls) = [] := by simp [uidsAfter, htp]
        rw [hres, withUids_length, hua, withUids_nil]; simp
      · have hts : tag l = types.2 := ht.resolve_left htp
        rw [if_neg htp] at h
        obtain ⟨ks, hks, hres⟩ := ih (by
          intro i hi; have := hl i hi; simp; omega) h
        refine ⟨k :: ks, .sub hts hk hku hks, ?_⟩
        have hua : uidsAfter types.1 (l :: ls) = uidsAfter types.1 ls := by
          have hne : tag l ≠ str!"uid" := hts ▸ hty.ne.2.1
          simp only [uidsAfter]
          rw [List.takeWhile_cons, if_pos (by simpa using htp), List.filter_cons, if_neg (by simpa using hne)]
        rw [hres, hua, withUids_append _ _ _ _ hl]; simp
    · obtain ⟨ks, hks, hres⟩ := ih (by
        intro j hj; have := hl j hj; simpa [addUid] using this) h
      have hne1 : tag l ≠ types.1 := hu ▸ Ne.symm hty.ne.1
      refine ⟨ks, .other hne1 (hu ▸ Ne.symm hty.ne.2.1) hks, ?_⟩
      have hua : uidsAfter types.1 (l :: ls) = (fields l)[9]?.getD [] :: uidsAfter types.1 ls := by
        simp only [uidsAfter]
        rw [List.takeWhile_cons, if_pos (by simpa using hne1), List.filter_cons, if_pos (by simpa using hu)]; rfl
      rw [hres, hua, withUids_cons]
    · obtain ⟨ks, hks, hres⟩ := ih hl h
      refine ⟨ks, .other h1 h2 hks, ?_⟩
      have hua : uidsAfter types.1 (l :: ls) = uidsAfter types.1 ls := by
        simp only [uidsAfter]
        rw [List.takeWhile_cons, if_pos (by simpa using h1), List.filter_cons, if_neg (by simpa using h3)]
      rw [hres, hua]

/-- a user id before any primary key cannot be attached: an exception -/
theorem C61_orphan {env : Env} {types : Str × Str} (hty : KeyTypes types) (l : Str) (ls : List Str) (h : tag l = str!"uid") :
    parseLines env types [] none (l :: ls) = .error .attributeError := by
  have h1 : ¬ (tag l = types.1 ∨ tag l = types.2) := by
    rw [h]; rintro (h | h)
    · exact hty.ne.1 h.symm
    · exact hty.ne.2.1 h.symm
  have htag : (Py.split ':' l).headD [] = tag l := rfl
  unfold parseLines parseLine
  simp only [htag]
  rw [if_neg h1, if_pos h]; rfl

/-- C61: the keys of a parsed listing are those of the key lines, in order, and each user id line is attached to the last
preceding primary key, in order. Missing from the full statement ("and nothing else"): a user id in the key line itself is
attached to that key too, see `C61_refuted`. -/
theorem C61_listing_partial {env : Env} {types : Str × Str} (hty : KeyTypes types) (lines : List Str) (keys : List KeyInfo)
    (h : parseLines env types [] none lines = .ok keys) : Listing env types lines keys := by
  obtain ⟨ks, h1, h2⟩ := parseLines_listing hty (by simp) h
  rw [h2]; exact h1

/-- a listing with two keys, a subkey and three user ids -/
def Concrete.listing : Str :=
  str!"tru::1:15\npub:-:3072:1:AAAA:15:::::::\nuid:-::::15::H::Bob <b@x.org>:\nsub:-:3072:1:BBBB:15:::::::\nuid:-::::15::H::Bob2 <b2@x.org>:\npub:-:2048:1:CCCC:16:::::::\nuid:-::::15::H::Eve <e@x.org>:\n"

example : parseLines Concrete.env (str!"pub", str!"sub") [] none (Py.splitlines Concrete.listing) =
    .ok [⟨str!"1", 3072, str!"AAAA", [str!"Bob <b@x.org>", str!"Bob2 <b2@x.org>"], str!"15"⟩, ⟨str!"1", 3072, str!"BBBB", [], str!"15"⟩,
      ⟨str!"1", 2048, str!"CCCC", [str!"Eve <e@x.org>"], str!"16"⟩] := Except.eq_ok_of_toOption (by decide +kernel)

/-- C61, "nothing else", is false: a listing without user id lines has a key with a user id -/
theorem C61_refuted : ∃ lines : List Str, (∀ l ∈ lines, tag l ≠ str!"uid") ∧ ∃ k : KeyInfo, k.uids ≠ [] ∧
    parseLines Concrete.env (str!"pub", str!"sub") [] none lines = .ok [k] :=
  ⟨[str!"pub:-:3072:1:AAAA:15::::Bob:"], by decide +kernel, ⟨str!"1", 3072, str!"AAAA", [str!"Bob"], str!"15"⟩, by decide,
    Except.eq_ok_of_toOption (by decide +kernel)⟩

/-! ## C60: short handles -/

/-- the ids in a listing are those of its key lines -/
theorem Listing.line {env : Env} {types : Str × Str} {lines : List Str} {ks : List KeyInfo} (h : Listing env types lines ks) {k : KeyInfo}
    (hk : k ∈ ks) : ∃ l ∈ lines, (tag l = types.1 ∨ tag l = types.2) ∧ (fields l)[4]? = some k.id := by
  induction h with
  | nil => cases hk
  | primary ht hl _ _ ih =>
    rcases List.mem_cons.mp hk with rfl | hk
    · exact ⟨_, List.mem_cons_self .., Or.inl ht, hl.2.2.1⟩
    · obtain ⟨l, hl, h⟩ := ih hk; exact ⟨l, List.mem_cons_of_mem _ hl, h⟩
  | sub ht hl _ _ ih =>
    rcases List.mem_cons.mp hk with rfl | hk
    · exact ⟨_, List.mem_cons_self .., Or.inr ht, hl.2.2.1⟩
    · obtain ⟨l, hl, h⟩ := ih hk; exact ⟨l, List.mem_cons_of_mem _ hl, h⟩
  | other _ _ _ ih => obtain ⟨l, hl, h⟩ := ih hk; exact ⟨l, List.mem_cons_of_mem _ hl, h⟩

/-- the key `k` is in the public listing which gpg gave for the id `x` as the last thing it did -/
def ListedFor (env : Env) (g : BinGPG) (x k : Str) (w w' : World σ K) : Prop :=
  ∃ out text, w'.trace = ⟨.gpg (commandLine g [str!"--skip-verify", str!"--with-colons", str!"--list-public-keys", x]) none,
      (.ok out : Except Exc GpgOut)⟩ :: w.trace ∧ out.ret = 0 ∧ env.utf8Decode out.out = .ok text ∧
    ∃ l ∈ Py.splitlines text, (tag l = str!"pub" ∨ tag l = str!"sub") ∧ (fields l)[4]? = some k

theorem gpgOutText_ok {S : StoreImpl σ} {O : Oracle K} {env : Env} {g : BinGPG} {args : List Str} {input : Option Bytes}
    {w w' : World σ K} {text : Str} (h : run S O (gpgOutText env g args input) w = (.ok text, w')) :
    ∃ out, w'.trace = ⟨.gpg (g.argv args) input, (.ok out : Except Exc GpgOut)⟩ :: w.trace ∧ out.ret = 0 ∧
      env.utf8Decode out.out = .ok text ∧ w'.store = w.store := by
  obtain ⟨ret, w1, h1, htr, hst, -⟩ := run_gpgOuterr S O env g args input false true w
  unfold gpgOutText at h
  simp only [bind_eq] at h
  rw [run_bind, h1] at h
  cases ret with
  | error e => cases h
  | ok out =>
    simp only [Except.bind] at h
    cases hc : checkResult env false true out with
    | error e => rw [hc] at h; cases h
    | ok r =>
      rw [hc] at h
      dsimp only at h
      rw [run_ofExcept] at h
      obtain ⟨h0, ho, -, -⟩ := checkResult_returns hc
      simp only [Prod.mk.injEq] at h
      refine ⟨out, ?_, h0, ?_, ?_⟩
      · rw [← h.2]; exact htr
      · rw [← ho]; exact h.1
      · rw [← h.2]; exact hst

/-- C60: the handle taken from gpg's messages is the first key they name, if it has more than 8 digits; otherwise the id of a
listed key which matches it. Missing from the full statement: the listed id may also be shorter, and a suffix of the one
in the message, see `C60_refuted`. -/
theorem C60_handle_partial {S : StoreImpl σ} {O : Oracle K} {env : Env} {g : BinGPG} {text k : Str} {w w' : World σ K}
    (h : run S O (findKeyhandle env g text) w = (.ok k, w')) :
    ∃ x, FirstKey text x ∧ (8 < x.length ∧ k = x ∧ w' = w ∨
      x.length ≤ 8 ∧ (EndsWith k x ∨ EndsWith x k) ∧ k ≠ [] ∧ ListedFor env g x k w w') := by
  unfold findKeyhandle at h
  cases hs : searchKey text with
  | none => rw [hs] at h; cases h
  | some x =>
    rw [hs] at h
    have hfk := (C60_search text x).mp hs
    have hx : x ≠ [] := by obtain ⟨_, _, _, hk, _⟩ := hfk; exact hk.1
    dsimp only at h
    refine ⟨x, hfk, ?_⟩
    split at h
    · rename_i hlen
      right
      simp only [bind_eq, pure_eq] at h
      obtain ⟨infos, w1, h1, h2⟩ := run_bind_ok.mp h
      unfold listPublicKeyinfos parseList at h1
      simp only [bind_eq] at h1
      obtain ⟨t, w2, h3, h4⟩ := run_bind_ok.mp h1
      rw [run_ofExcept] at h4
      have hp := congrArg Prod.fst h4
      have hw : w2 = w1 := congrArg Prod.snd h4
      dsimp only at hp
      have hl := C61_listing_partial (Or.inl rfl) _ _ hp
      obtain ⟨out, htr, h0, hdec, -⟩ := gpgOutText_ok h3
      cases hf : infos.find? (fun k => idMatch k.id x) with
      | none => rw [hf] at h2; cases h2
      | some ki =>
        rw [hf] at h2
        dsimp only at h2
        simp only [run_pure, Prod.mk.injEq, Except.ok.injEq] at h2
        obtain ⟨hk, hw'⟩ := h2
        have hm := (C59_match_partial ki.id x).mp (by simpa using List.find?_some hf)
        obtain ⟨l, hlm, ht, hid⟩ := hl.line (List.mem_of_find?_eq_some hf)
        rw [hk] at hm hid
        refine ⟨hlen, hm.2, fun hh => hx (hm.1.mp hh), out, t, ?_, h0, hdec, l, hlm, ht, hid⟩
        rw [← hw', ← hw, htr]; rw [argv_eq]; rfl
    · rename_i hlen
      left
      cases h
      exact ⟨by omega, rfl, rfl⟩

/-- a short id is completed from the listing -/
example : (exec Concrete.oracle (findKeyhandle Concrete.env ⟨none, str!"gpg"⟩ (str!"gpg: key 0A1B2C3D: imported")) Concrete.world0).1 =
    .ok (str!"0A1B2C3D") := Except.eq_ok_of_toOption (by decide +kernel)

/-- C60: if the messages name no key, the call fails without running gpg -/
theorem C60_fails {S : StoreImpl σ} {O : Oracle K} {env : Env} {g : BinGPG} {text : Str} (w : World σ K)
    (hno : ∀ pre s h, text = pre ++ s → ¬ KeyAt s h) :
    run S O (findKeyhandle env g text) w = (.error .assertionError, w) := by
  unfold findKeyhandle
  rw [(C60_none text).mpr hno]; rfl

/-- gpg as in `Concrete`, except that it lists a key with a one-digit id -/
def Concrete.shortIds : Oracle Unit where
  step o k := match o with
    | .gpg _ _ => (.ok ⟨0, Concrete.bs (str!"pub:-:3072:1:D:15:::::::\n"), []⟩, k)
    | o => Concrete.oracle.step o k

/-- C60 is false if gpg lists a key with an id shorter than the one it was asked for -/
theorem C60_refuted : ∃ text x k : Str, FirstKey text x ∧ ¬ EndsWith k x ∧
    (exec Concrete.shortIds (findKeyhandle Concrete.env ⟨none, str!"gpg"⟩ text) Concrete.world0).1 = .ok k := by
  refine ⟨str!"gpg: key 0A1B2C3D: imported", str!"0A1B2C3D", str!"D", (C60_search _ _).mp (by decide +kernel), ?_,
    Except.eq_ok_of_toOption (by decide +kernel)⟩
  rintro ⟨p, s, h, hs⟩
  have h1 := hs.length
  have h2 := congrArg List.length h
  simp only [List.length_append] at h2
  have h3 : (str!"0A1B2C3D").length = 8 := by decide
  have h4 : (str!"D").length = 1 := by decide
  omega

end Verif
