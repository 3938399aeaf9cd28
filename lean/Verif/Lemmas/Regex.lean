import Verif.Py.Regex
/-!
# Greedy matching
-/
namespace Verif

/-- `s` is divided into `a`, as long as possible, and `b`, if only `p` may be in the first part and `q` in the second one -/
def Longest (p q : Str → Prop) (s a b : Str) : Prop :=
  s = a ++ b ∧ p a ∧ q b ∧ ∀ a' b', s = a' ++ b' → p a' → q b' → a'.length ≤ a.length

/-- `s` can be divided that way -/
def Divides (p q : Str → Prop) (s : Str) : Prop := ∃ a b, s = a ++ b ∧ p a ∧ q b

namespace Py

theorem mem_manyOf {p : Char → Bool} {s : Str} {x : Str × Str} : x ∈ manyOf p s ↔ s = x.1 ++ x.2 ∧ ∀ c ∈ x.1, p c = true := by
  induction s generalizing x with
  | nil =>
    obtain ⟨a, b⟩ := x
    simp only [manyOf, List.mem_singleton, Prod.mk.injEq]
    constructor
    · rintro ⟨rfl, rfl⟩; simp
    · rintro ⟨h, -⟩
      have := List.append_eq_nil_iff.mp h.symm
      exact this
  | cons c s ih =>
    obtain ⟨a, b⟩ := x
    unfold manyOf
    split
    · next hp =>
      simp only [List.mem_append, List.mem_map, List.mem_singleton, Prod.mk.injEq]
      constructor
      · rintro (⟨⟨u, v⟩, h, rfl, rfl⟩ | ⟨rfl, rfl⟩)
        · obtain ⟨rfl, h2⟩ := ih.mp h
          exact ⟨rfl, by simpa [hp] using h2⟩
        · simp
      · rintro ⟨h1, h2⟩
        cases a with
        | nil => exact .inr ⟨rfl, h1.symm⟩
        | cons d a =>
          cases h1
          exact .inl ⟨(a, b), ih.mpr ⟨rfl, fun x hx => h2 x (by simp [hx])⟩, rfl, rfl⟩
    · next hp =>
      simp only [List.mem_singleton, Prod.mk.injEq]
      constructor
      · rintro ⟨rfl, rfl⟩; simp
      · rintro ⟨h1, h2⟩
        cases a with
        | nil => exact ⟨rfl, h1.symm⟩
        | cons d a => cases h1; exact absurd (h2 _ (.head _)) hp

theorem manyOf_sorted (p : Char → Bool) (s : Str) : (manyOf p s).Pairwise fun x y => y.1.length < x.1.length := by
  induction s with
  | nil => simp [manyOf]
  | cons c s ih =>
    unfold manyOf
    split
    · rw [List.pairwise_append]
      refine ⟨?_, by simp, ?_⟩
      · rw [List.pairwise_map]
        exact ih.imp fun h => by simpa using h
      · intro x hx y hy
        obtain ⟨u, -, rfl⟩ := List.mem_map.mp hx
        cases List.mem_singleton.mp hy
        simp
    · simp

/-- the first result, if divisions are tried from the longest one down -/
theorem first_of {L : List (Str × Str)} {s : Str} {p q : Str → Prop} {β : Type} {f : Str × Str → List β} {r : β}
    (hm : ∀ x, x ∈ L ↔ s = x.1 ++ x.2 ∧ p x.1) (hs : L.Pairwise fun x y => y.1.length < x.1.length) (hq : ∀ a b, f (a, b) ≠ [] ↔ q b) :
    (L.flatMap f).head? = some r ↔ ∃ a b, Longest p q s a b ∧ (f (a, b)).head? = some r := by
  rw [List.head?_flatMap, List.findSome?_eq_some_iff]
  constructor
  · rintro ⟨l1, ⟨a, b⟩, l2, hL, hr, hn⟩
    obtain ⟨h1, h2⟩ := (hm (a, b)).mp (by rw [hL]; simp)
    refine ⟨a, b, ⟨h1, h2, (hq a b).mp (fun h => by rw [h] at hr; cases hr), fun a' b' h3 h4 h5 => ?_⟩, hr⟩
    have hx := (hm (a', b')).mpr ⟨h3, h4⟩
    rw [hL] at hx hs
    rcases List.mem_append.mp hx with hx | hx
    · have := hn _ hx
      have h6 := (hq a' b').mpr h5
      rw [List.head?_eq_none_iff] at this
      exact absurd this h6
    · rcases List.mem_cons.mp hx with hx | hx
      · cases hx; exact Nat.le_refl _
      · have h7 := (List.pairwise_cons.mp (List.pairwise_append.mp hs).2.1).1 _ hx
        exact Nat.le_of_lt h7
  · rintro ⟨a, b, ⟨h1, h2, h3, h4⟩, hr⟩
    obtain ⟨l1, l2, hL⟩ := List.append_of_mem ((hm (a, b)).mpr ⟨h1, h2⟩)
    refine ⟨l1, (a, b), l2, hL, hr, fun ⟨a', b'⟩ hx => ?_⟩
    rw [List.head?_eq_none_iff]
    have h5 := (hm (a', b')).mp (by rw [hL]; simp [hx])
    rw [hL] at hs
    have h6 := (List.pairwise_append.mp hs).2.2 _ hx _ (.head _)
    cases he : f (a', b') with
    | nil => rfl
    | cons y ys =>
      have := h4 a' b' h5.1 h5.2 ((hq a' b').mp (by rw [he]; simp))
      have h6 : a.length < a'.length := h6
      omega

theorem some_of {L : List (Str × Str)} {s : Str} {p q : Str → Prop} {β : Type} {f : Str × Str → List β}
    (hm : ∀ x, x ∈ L ↔ s = x.1 ++ x.2 ∧ p x.1) (hq : ∀ a b, f (a, b) ≠ [] ↔ q b) : L.flatMap f ≠ [] ↔ Divides p q s := by
  rw [Ne, List.flatMap_eq_nil_iff]
  constructor
  · intro h
    have : ∃ x ∈ L, f x ≠ [] := by
      apply Classical.byContradiction
      intro hn
      exact h fun x hx => Classical.byContradiction fun h' => hn ⟨x, hx, h'⟩
    obtain ⟨⟨a, b⟩, hx, hf⟩ := this
    obtain ⟨h1, h2⟩ := (hm _).mp hx
    exact ⟨a, b, h1, h2, (hq a b).mp hf⟩
  · rintro ⟨a, b, h1, h2, h3⟩ h
    exact (hq a b).mpr h3 (h (a, b) ((hm _).mpr ⟨h1, h2⟩))

/-- characters of a kind -/
def AllOf (p : Char → Bool) (s : Str) : Prop := ∀ c ∈ s, p c = true

/-- at least one character of a kind -/
def SomeOf (p : Char → Bool) (s : Str) : Prop := s ≠ [] ∧ AllOf p s

theorem mem_someOf {p : Char → Bool} {s : Str} {x : Str × Str} : x ∈ someOf p s ↔ s = x.1 ++ x.2 ∧ SomeOf p x.1 := by
  unfold someOf SomeOf AllOf
  rw [List.mem_filter, mem_manyOf, and_assoc]
  simp only [Bool.not_eq_true', List.isEmpty_eq_false_iff, and_comm]

theorem many_first {p : Char → Bool} {s : Str} {q : Str → Prop} {β : Type} {f : Str × Str → List β} {r : β} (hq : ∀ a b, f (a, b) ≠ [] ↔ q b) :
    ((manyOf p s).flatMap f).head? = some r ↔ ∃ a b, Longest (AllOf p) q s a b ∧ (f (a, b)).head? = some r :=
  first_of (fun _ => mem_manyOf) (manyOf_sorted p s) hq

theorem some_first {p : Char → Bool} {s : Str} {q : Str → Prop} {β : Type} {f : Str × Str → List β} {r : β} (hq : ∀ a b, f (a, b) ≠ [] ↔ q b) :
    ((someOf p s).flatMap f).head? = some r ↔ ∃ a b, Longest (SomeOf p) q s a b ∧ (f (a, b)).head? = some r :=
  first_of (fun _ => mem_someOf) ((manyOf_sorted p s).filter _) hq

theorem literal_append (t r : Str) : literal t (t ++ r) = [r] := by simp [literal]

theorem literal_cases (t s : Str) : (∃ r, s = t ++ r ∧ literal t s = [r]) ∨ (¬ ∃ r, s = t ++ r) ∧ literal t s = [] := by
  unfold literal
  by_cases h : t.isPrefixOf s = true
  · obtain ⟨r, rfl⟩ := List.isPrefixOf_iff_prefix.mp h
    exact .inl ⟨r, rfl, by simp⟩
  · refine .inr ⟨fun ⟨r, hr⟩ => h (List.isPrefixOf_iff_prefix.mpr ⟨r, hr.symm⟩), if_neg h⟩

theorem literal_first {t s : Str} {β : Type} {f : Str → List β} {r : β} :
    ((literal t s).flatMap f).head? = some r ↔ ∃ u, s = t ++ u ∧ (f u).head? = some r := by
  rcases literal_cases t s with ⟨u, rfl, h⟩ | ⟨hn, h⟩
  · rw [h]
    simp
  · rw [h]
    simp only [List.flatMap_nil, List.head?_nil, reduceCtorEq, false_iff]
    rintro ⟨u, hu, -⟩
    exact hn ⟨u, hu⟩

theorem literal_some {t s : Str} {β : Type} {f : Str → List β} {q : Str → Prop} (hq : ∀ u, f u ≠ [] ↔ q u) :
    (literal t s).flatMap f ≠ [] ↔ ∃ u, s = t ++ u ∧ q u := by
  rcases literal_cases t s with ⟨u, rfl, h⟩ | ⟨hn, h⟩
  · rw [h]
    simp [hq]
  · rw [h]
    simp only [List.flatMap_nil, ne_eq, not_true_eq_false, false_iff]
    rintro ⟨u, hu, -⟩
    exact hn ⟨u, hu⟩

end Py
end Verif
