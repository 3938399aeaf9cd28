import Verif.Model.Store
/-!
# Lemmas about the abstract store
-/
namespace Verif.Store

@[simp] theorem get_nil (h : Str) : get [] h = [] := rfl

theorem get_push_self (s : Store) (h : Str) (e : Entry) : (s.push h e).get h = e :: s.get h := by
  induction s with
  | nil => simp [push, get]
  | cons a s ih =>
    obtain ⟨n, l⟩ := a
    by_cases hn : n = h
    · simp [push, get, hn]
    · simp [push, get, hn, ih]

theorem get_push_ne (s : Store) {h h' : Str} (hne : h' ≠ h) (e : Entry) : (s.push h e).get h' = s.get h' := by
  induction s with
  | nil => simp [push, get, Ne.symm hne]
  | cons a s ih =>
    obtain ⟨n, l⟩ := a
    by_cases hn : n = h
    · subst hn; simp [push, get, Ne.symm hne]
    · by_cases hn' : n = h'
      · simp [push, get, hn']; simp [hne, get]
      · simp [push, get, hn, hn', ih]

theorem get_push (s : Store) (h h' : Str) (e : Entry) :
    (s.push h e).get h' = if h' = h then e :: s.get h' else s.get h' := by
  by_cases hh : h' = h
  · subst hh; simp [get_push_self]
  · simp [hh, get_push_ne]

theorem names_push (s : Store) (h : Str) (e : Entry) :
    (s.push h e).names = if h ∈ s.names then s.names else s.names ++ [h] := by
  induction s with
  | nil => simp [push, names]
  | cons a s ih =>
    obtain ⟨n, l⟩ := a
    by_cases hn : n = h
    · subst hn; simp [push, names]
    · have : h ≠ n := fun hh => hn hh.symm
      simp only [names] at ih
      simp only [push, hn, if_false, names, List.map_cons, ih]
      by_cases hm : h ∈ List.map (fun x => x.1) s
      · simp [hm]
      · simp [hm, this]

theorem mem_names_push (s : Store) (h h' : Str) (e : Entry) :
    h' ∈ (s.push h e).names ↔ h' = h ∨ h' ∈ s.names := by
  rw [names_push]; split
  · constructor
    · exact Or.inr
    · rintro (rfl | h) <;> assumption
  · simp [or_comm]

theorem get_removeIf (s : Store) (p : Str → Bool) (h : Str) :
    (s.removeIf p).get h = if p h then [] else s.get h := by
  induction s with
  | nil => simp [removeIf, get]
  | cons a s ih =>
    obtain ⟨n, l⟩ := a
    simp only [removeIf] at ih ⊢
    by_cases hp : p n
    · simp only [hp, List.filter, Bool.not_true]
      rw [ih]
      by_cases hn : n = h
      · subst hn; simp [hp]
      · simp [get, hn]
    · simp only [hp, List.filter, Bool.not_false]
      by_cases hn : n = h
      · subst hn; simp [get, hp]
      · simp only [get, hn, if_false, ih]

theorem mem_names_removeIf (s : Store) (p : Str → Bool) (h : Str) :
    h ∈ (s.removeIf p).names ↔ h ∈ s.names ∧ p h = false := by
  simp only [removeIf, names, List.mem_map, List.mem_filter]
  constructor
  · rintro ⟨x, ⟨hx, hp⟩, rfl⟩; exact ⟨⟨x, hx, rfl⟩, by simpa using hp⟩
  · rintro ⟨⟨x, hx, rfl⟩, hp⟩; exact ⟨x, ⟨hx, by simpa using hp⟩, rfl⟩

theorem get_eq_nil_of_not_mem {s : Store} {h : Str} (hn : h ∉ s.names) : s.get h = [] := by
  induction s with
  | nil => rfl
  | cons a s ih =>
    obtain ⟨n, l⟩ := a
    simp only [names, List.map_cons, List.mem_cons, not_or] at hn
    simp only [get, Ne.symm hn.1, if_false]
    exact ih hn.2

theorem nodup_push {s : Store} (hs : s.names.Nodup) (h : Str) (e : Entry) : (s.push h e).names.Nodup := by
  rw [names_push]; split
  · exact hs
  · rename_i hm
    rw [List.nodup_append]
    refine ⟨hs, by simp, ?_⟩
    intro a ha b hb
    simp at hb; subst hb
    intro hab; subst hab; exact hm ha

theorem nodup_removeIf {s : Store} (hs : s.names.Nodup) (p : Str → Bool) : (s.removeIf p).names.Nodup := by
  exact hs.sublist (List.Sublist.map _ List.filter_sublist)

end Verif.Store
