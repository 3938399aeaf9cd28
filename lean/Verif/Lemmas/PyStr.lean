import Verif.Py.Base64
/-!
# Lemmas about python strings
-/
namespace Verif.Py

/-! ## white space -/

theorem dropWhile_eq_nil {α : Type} {p : α → Bool} {l : List α} : l.dropWhile p = [] ↔ ∀ x ∈ l, p x = true := by
  induction l with
  | nil => simp
  | cons x l ih =>
    by_cases hx : p x = true
    · simp [hx, ih]
    · simp [hx]

theorem dropWhile_head {α : Type} {p : α → Bool} {l : List α} {x : α} {t : List α} (h : l.dropWhile p = x :: t) : p x = false := by
  induction l with
  | nil => simp at h
  | cons y l ih =>
    by_cases hy : p y = true
    · rw [List.dropWhile_cons, if_pos hy] at h; exact ih h
    · rw [List.dropWhile_cons, if_neg hy] at h; cases h; simpa using hy

theorem dropWhile_eq_self {α : Type} {p : α → Bool} {l : List α} (h : ∀ x ∈ l.head?, p x = false) : l.dropWhile p = l := by
  cases l with
  | nil => rfl
  | cons x l => simp [h x (by simp)]

theorem lstrip_eq_nil {s : Str} : lstrip s = [] ↔ ∀ c ∈ s, isSpace c = true := dropWhile_eq_nil

theorem rstrip_eq_nil {s : Str} : rstrip s = [] ↔ ∀ c ∈ s, isSpace c = true := by
  simp [rstrip, dropWhile_eq_nil]

theorem strip_eq_nil {s : Str} : strip s = [] ↔ ∀ c ∈ s, isSpace c = true := by
  rw [strip, rstrip_eq_nil]
  constructor
  · intro h
    apply lstrip_eq_nil.mp
    cases hl : lstrip s with
    | nil => rfl
    | cons c t =>
      have h1 : isSpace c = false := dropWhile_head (by simpa [lstrip] using hl)
      rw [h c (by rw [hl]; simp)] at h1; cases h1
  · intro h c hc
    rw [lstrip_eq_nil.mpr h] at hc; cases hc

/-- `rstrip` keeps a prefix -/
theorem rstrip_append (s : Str) : ∃ t, s = rstrip s ++ t ∧ ∀ c ∈ t, isSpace c = true := by
  refine ⟨(s.reverse.takeWhile isSpace).reverse, ?_, ?_⟩
  · rw [rstrip, ← List.reverse_append, List.takeWhile_append_dropWhile, List.reverse_reverse]
  · intro c hc
    exact List.all_eq_true.mp List.all_takeWhile c (List.mem_reverse.mp hc)

theorem lstrip_append (s : Str) : ∃ t, s = t ++ lstrip s ∧ ∀ c ∈ t, isSpace c = true :=
  ⟨s.takeWhile isSpace, List.takeWhile_append_dropWhile.symm, fun c hc => List.all_eq_true.mp List.all_takeWhile c hc⟩

/-- stripped text does not begin with white space -/
theorem strip_head {s : Str} {c : Char} {t : Str} (h : strip s = c :: t) : isSpace c = false := by
  obtain ⟨u, hu, _⟩ := rstrip_append (lstrip s)
  rw [← strip, h] at hu
  exact dropWhile_head (by simpa [lstrip] using hu)

theorem mem_strip {s : Str} {c : Char} (h : c ∈ strip s) : c ∈ s := by
  obtain ⟨u, hu, _⟩ := rstrip_append (lstrip s)
  obtain ⟨t, ht, _⟩ := lstrip_append s
  rw [ht, hu]
  simp only [List.mem_append]
  exact Or.inr (Or.inl h)

/-- text without white space at both ends is not changed -/
theorem strip_eq_self {s : Str} (h1 : ∀ c ∈ s.head?, isSpace c = false) (h2 : ∀ c ∈ s.getLast?, isSpace c = false) :
    strip s = s := by
  rw [strip, lstrip, dropWhile_eq_self h1, rstrip, dropWhile_eq_self, List.reverse_reverse]
  intro c hc
  rw [List.head?_reverse] at hc
  exact h2 c hc

/-- removing all white space commutes with stripping -/
theorem dropWhile_append_of_exists {α : Type} {p : α → Bool} {l t : List α} (h : ∃ x ∈ l, p x = false) :
    (l ++ t).dropWhile p = l.dropWhile p ++ t := by
  induction l with
  | nil => obtain ⟨x, hx, _⟩ := h; cases hx
  | cons y l ih =>
    rw [List.cons_append, List.dropWhile_cons, List.dropWhile_cons]
    split
    · rename_i hy
      apply ih
      obtain ⟨x, hx, hp⟩ := h
      rcases List.mem_cons.mp hx with rfl | hx
      · rw [hy] at hp; cases hp
      · exact ⟨x, hx, hp⟩
    · rfl

theorem dropWhile_append_of_all {α : Type} {p : α → Bool} {l t : List α} (h : ∀ x ∈ l, p x = true) :
    (l ++ t).dropWhile p = t.dropWhile p := by
  induction l with
  | nil => rfl
  | cons y l ih =>
    rw [List.cons_append, List.dropWhile_cons, if_pos (h y (List.mem_cons_self ..))]
    exact ih fun x hx => h x (List.mem_cons_of_mem _ hx)

theorem rstrip_append_space {s t : Str} (h : ∀ c ∈ t, isSpace c = true) : rstrip (s ++ t) = rstrip s := by
  rw [rstrip, List.reverse_append, dropWhile_append_of_all (by simpa using h), rstrip]

theorem rstrip_append_of_exists {s t : Str} (h : ∃ c ∈ t, isSpace c = false) : rstrip (s ++ t) = s ++ rstrip t := by
  rw [rstrip, List.reverse_append, dropWhile_append_of_exists (by simpa using h), rstrip]
  simp

theorem lstrip_space_append {s t : Str} (h : ∀ c ∈ t, isSpace c = true) : lstrip (t ++ s) = lstrip s :=
  dropWhile_append_of_all h

theorem strip_append_space {s t : Str} (h : ∀ c ∈ t, isSpace c = true) : strip (s ++ t) = strip s := by
  by_cases hs : ∀ c ∈ s, isSpace c = true
  · rw [strip_eq_nil.mpr hs, strip_eq_nil]
    intro c hc
    rcases List.mem_append.mp hc with hc | hc
    · exact hs c hc
    · exact h c hc
  · have hs : ∃ c ∈ s, isSpace c = false := by simpa using hs
    rw [strip, lstrip, dropWhile_append_of_exists hs, rstrip_append_space h, strip, lstrip]

theorem strip_rstrip (s : Str) : strip (rstrip s) = strip s := by
  obtain ⟨t, h, ht⟩ := rstrip_append s
  conv => rhs; rw [h]
  rw [strip_append_space ht]

theorem strip_lstrip (s : Str) : strip (lstrip s) = strip s := by
  obtain ⟨t, h, ht⟩ := lstrip_append s
  conv => rhs; rw [h, strip, lstrip_space_append ht]
  rw [strip]

/-- stripping does not change the name and the value of an attribute -/
theorem strip_attr {n v : Str} : ∃ n' v', strip (n ++ '=' :: v) = n' ++ '=' :: v' ∧ (∀ c ∈ n', c ∈ n) ∧
    strip n' = strip n ∧ strip v' = strip v := by
  have he : isSpace '=' = false := by decide
  have h1 : lstrip (n ++ '=' :: v) = lstrip n ++ '=' :: v := by
    by_cases hn : ∀ c ∈ n, isSpace c = true
    · rw [lstrip_space_append hn, lstrip_eq_nil.mpr hn]
      simp [lstrip, he]
    · have hn : ∃ c ∈ n, isSpace c = false := by simpa using hn
      exact dropWhile_append_of_exists hn
  have h2 : rstrip ('=' :: v) = '=' :: rstrip v := by
    by_cases hv : ∀ c ∈ v, isSpace c = true
    · have := rstrip_append_space (s := ['=']) hv
      rw [rstrip_eq_nil.mpr hv, ← List.singleton_append, this]
      simp [rstrip, he]
    · have hv : ∃ c ∈ v, isSpace c = false := by simpa using hv
      exact rstrip_append_of_exists (s := ['=']) hv
  refine ⟨lstrip n, rstrip v, ?_, ?_, strip_lstrip n, strip_rstrip v⟩
  · rw [strip, h1, rstrip_append_of_exists ⟨'=', List.mem_cons_self .., he⟩, h2]
  · intro c hc
    exact (List.dropWhile_sublist isSpace).mem hc

theorem removeSpace_append (a b : Str) : removeSpace (a ++ b) = removeSpace a ++ removeSpace b := by
  simp [removeSpace]

theorem removeSpace_of_all {s : Str} (h : ∀ c ∈ s, isSpace c = true) : removeSpace s = [] := by
  simp [removeSpace, List.filter_eq_nil_iff]; exact h

theorem removeSpace_of_none {s : Str} (h : ∀ c ∈ s, isSpace c = false) : removeSpace s = s := by
  simp [removeSpace, List.filter_eq_self]; exact h

theorem removeSpace_rstrip (s : Str) : removeSpace (rstrip s) = removeSpace s := by
  obtain ⟨t, h, ht⟩ := rstrip_append s
  conv => rhs; rw [h]
  rw [removeSpace_append, removeSpace_of_all ht, List.append_nil]

theorem removeSpace_lstrip (s : Str) : removeSpace (lstrip s) = removeSpace s := by
  obtain ⟨t, h, ht⟩ := lstrip_append s
  conv => rhs; rw [h]
  rw [removeSpace_append, removeSpace_of_all ht, List.nil_append]

theorem removeSpace_strip (s : Str) : removeSpace (strip s) = removeSpace s := by
  rw [strip, removeSpace_rstrip, removeSpace_lstrip]

/-! ## splitting -/

theorem split1_none {sep : Char} {s n : Str} (h : split1 sep s = (n, none)) : s = n ∧ sep ∉ s := by
  induction s generalizing n with
  | nil => cases h; simp
  | cons c s ih =>
    simp only [split1] at h
    split at h
    · cases h
    · rename_i hc
      rcases hs : split1 sep s with ⟨a, b⟩
      rw [hs] at h
      cases h
      obtain ⟨h1, h2⟩ := ih hs
      exact ⟨by rw [h1], by simp [h2, Ne.symm hc]⟩

theorem split1_some {sep : Char} {s n v : Str} (h : split1 sep s = (n, some v)) : s = n ++ sep :: v ∧ sep ∉ n := by
  induction s generalizing n with
  | nil => cases h
  | cons c s ih =>
    simp only [split1] at h
    split at h
    · rename_i hc; cases h; simp [hc]
    · rename_i hc
      rcases hs : split1 sep s with ⟨a, b⟩
      rw [hs] at h
      cases h
      obtain ⟨h1, h2⟩ := ih hs
      exact ⟨by rw [h1]; rfl, by simp [h2, Ne.symm hc]⟩

theorem split1_append {sep : Char} {n v : Str} (h : sep ∉ n) : split1 sep (n ++ sep :: v) = (n, some v) := by
  induction n with
  | nil => simp [split1]
  | cons c n ih =>
    simp only [List.mem_cons, not_or] at h
    simp [split1, Ne.symm h.1, ih h.2]

theorem split1_not_mem {sep : Char} {n : Str} (h : sep ∉ n) : split1 sep n = (n, none) := by
  induction n with
  | nil => rfl
  | cons c n ih =>
    simp only [List.mem_cons, not_or] at h
    simp [split1, Ne.symm h.1, ih h.2]

theorem split_ne_nil (sep : Char) (s : Str) : split sep s ≠ [] := by
  cases s with
  | nil => simp [split]
  | cons c s =>
    simp only [split]
    split
    · simp
    · split <;> simp

theorem split_of_not_mem {sep : Char} {s : Str} (h : sep ∉ s) : split sep s = [s] := by
  induction s with
  | nil => rfl
  | cons c s ih =>
    simp only [List.mem_cons, not_or] at h
    simp [split, Ne.symm h.1, ih h.2]

theorem split_append {sep : Char} (a b : Str) : split sep (a ++ sep :: b) = split sep a ++ split sep b := by
  induction a with
  | nil => simp [split]
  | cons c a ih =>
    simp only [List.cons_append, split]
    split
    · simp [ih]
    · rw [ih]
      cases h : split sep a with
      | nil => exact absurd h (split_ne_nil _ _)
      | cons p ps => rfl

theorem not_mem_of_mem_split {sep : Char} {s p : Str} (h : p ∈ split sep s) : sep ∉ p := by
  induction s generalizing p with
  | nil => simp [split] at h; simp [h]
  | cons c s ih =>
    simp only [split] at h
    split at h
    · rcases List.mem_cons.mp h with rfl | h
      · simp
      · exact ih h
    · rename_i hc
      cases hs : split sep s with
      | nil => exact absurd hs (split_ne_nil _ _)
      | cons q qs =>
        rw [hs] at h ih
        rcases List.mem_cons.mp h with rfl | h
        · simp only [List.mem_cons, not_or]
          exact ⟨Ne.symm hc, ih (List.mem_cons_self ..)⟩
        · exact ih (List.mem_cons_of_mem _ h)

end Verif.Py
