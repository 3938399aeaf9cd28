import Verif.Model.Mime
/-!
# Lemmas about header parsing
-/
namespace Verif.Mime

variable {env : Env}

/-- an invariant of the loop over attributes -/
theorem parseAttrs_inv {I : ParseState → Prop} (hstep : ∀ s x s', I s → parseAttr env s x = .next s' → I s')
    {s s' : ParseState} {l : List Str} (hs : I s) (h : parseAttrs env s l = .ok (.ok s')) : I s' := by
  induction l generalizing s with
  | nil => cases h; exact hs
  | cons x l ih =>
    simp only [parseAttrs] at h
    split at h
    · rename_i s1 h1; exact ih (hstep _ _ _ hs h1) h
    · cases h
    · cases h

/-- the preference after parsing is one of the two values -/
theorem parseAttrs_pe {l : List Str} {s : ParseState} (h : parseAttrs env {} l = .ok (.ok s)) :
    ∃ pe : PE, s.pe = pe.toStr := by
  refine parseAttrs_inv (I := fun s => ∃ pe : PE, s.pe = pe.toStr) ?_ ⟨.nopreference, rfl⟩ h
  rintro s x s' hs h
  unfold parseAttr at h
  split at h
  · cases h
  · dsimp only at h
    split at h
    · split at h
      · cases h
      · cases h; exact hs
    · split at h
      · split at h
        · rename_i hv
          cases h
          rcases hv with hv | hv
          · exact ⟨.nopreference, hv⟩
          · exact ⟨.mutual, hv⟩
        · cases h
      · split at h
        · cases h; exact hs
        · split at h
          · cases h
          · split at h
            · cases h
            · cases h; exact hs

/-- the two shapes of a parse result: an error and nothing else, or all fields and no error -/
theorem parseAcHeadervalue_shape {v : Str} {r : ACResult} (h : parseAcHeadervalue env v = .ok r) :
    (∃ e, r = .err e) ∨
    ∃ k a pe ext, r = { keydata := some k, addr := some a, pe := some (PE.toStr pe), extra := some ext, error := none } := by
  unfold parseAcHeadervalue at h
  split at h
  · cases h
  · cases h; exact Or.inl ⟨_, rfl⟩
  · rename_i s hs
    obtain ⟨pe, hpe⟩ := parseAttrs_pe hs
    split at h
    · cases h; exact Or.inl ⟨_, rfl⟩
    · cases h; exact Or.inl ⟨_, rfl⟩
    · cases h; exact Or.inr ⟨_, _, pe, _, by rw [hpe]⟩

/-- the result of a header value that is accepted for one of the addresses -/
def accepted (env : Env) (fl : List Str) (v : Str) : Option ACResult :=
  match parseAcHeadervalue env v with
  | .ok r => if r.error.isNone && (fl.isEmpty || fl.contains (r.addr.getD [])) then some r else none
  | .error _ => none

theorem accepted_eq_some {fl : List Str} {v : Str} {r : ACResult} :
    accepted env fl v = some r ↔ parseAcHeadervalue env v = .ok r ∧ r.error = none ∧
      (fl = [] ∨ r.addr.getD [] ∈ fl) := by
  unfold accepted
  split
  · rename_i r' h'
    rw [h']
    split
    · rename_i hc
      simp only [Bool.and_eq_true, Bool.or_eq_true, Option.isNone_iff_eq_none, List.isEmpty_iff,
        List.contains_iff_mem] at hc
      constructor
      · intro h; cases h; exact ⟨rfl, hc.1, hc.2⟩
      · rintro ⟨h, _⟩; cases h; rfl
    · rename_i hc
      constructor
      · intro h; cases h
      · rintro ⟨h, h1, h2⟩; cases h
        exfalso; apply hc
        simp [h1]
        exact h2
  · rename_i e h'
    rw [h']; simp

/-- what the loop over Autocrypt headers collects -/
theorem collectAc_ok {fl vs : List Str} {rs es : List ACResult} (h : collectAc env fl vs = .ok (rs, es)) :
    rs = vs.filterMap (accepted env fl) ∧ (∀ e ∈ es, ∃ x, e = .err x) ∧
    (∀ v ∈ vs, ∃ r, parseAcHeadervalue env v = .ok r) ∧
    rs.length + es.length = vs.length := by
  induction vs generalizing rs es with
  | nil => cases h; simp
  | cons v vs ih =>
    simp only [collectAc] at h
    split at h
    · cases h
    · rename_i r hr
      split at h
      · cases h
      · rename_i rs' es' h'
        obtain ⟨h1, h2, h3, h4⟩ := ih h'
        have h3' : ∀ v' ∈ v :: vs, ∃ r, parseAcHeadervalue env v' = .ok r := by
          intro v' hv'
          rcases List.mem_cons.mp hv' with rfl | hv'
          · exact ⟨r, hr⟩
          · exact h3 v' hv'
        split at h
        · rename_i he
          cases h
          refine ⟨?_, ?_, h3', by simp; omega⟩
          · rw [List.filterMap_cons]
            have : accepted env fl v = none := by
              unfold accepted; rw [hr]; dsimp only; rw [if_neg]
              cases hx : r.error with
              | none => rw [hx] at he; cases he
              | some _ => simp
            rw [this]; exact h1
          · intro e he'
            rcases List.mem_cons.mp he' with rfl | he'
            · rcases parseAcHeadervalue_shape hr with h | ⟨_, _, _, _, h⟩
              · exact h
              · rw [h] at he; cases he
            · exact h2 e he'
        · rename_i he
          split at h
          · rename_i hc
            cases h
            refine ⟨?_, ?_, h3', by simp; omega⟩
            · rw [List.filterMap_cons]
              have : accepted env fl v = none := by
                unfold accepted; rw [hr]; dsimp only; rw [if_neg]
                simp only [Bool.and_eq_true, Bool.not_eq_true', not_and, Bool.or_eq_true, not_or] at hc ⊢
                intro _; simpa using hc
              rw [this]; exact h1
            · intro e he'
              rcases List.mem_cons.mp he' with rfl | he'
              · exact ⟨_, rfl⟩
              · exact h2 e he'
          · rename_i hc
            cases h
            refine ⟨?_, h2, h3', by simp; omega⟩
            rw [List.filterMap_cons]
            have : accepted env fl v = some r := by
              unfold accepted; rw [hr]; dsimp only; rw [if_pos]
              simp only [Bool.and_eq_true, Bool.not_eq_true', not_and, Bool.or_eq_true] at hc ⊢
              refine ⟨by simpa using he, ?_⟩
              cases hfe : fl.isEmpty
              · right; simpa using hc hfe
              · left; rfl
            rw [this, h1]

/-- the Autocrypt result of a message: an error and nothing else, or the accepted result of the one header
accepted -/
theorem parseOne_shape {m : Msg} {fl : List Str} {r : ACResult} (h : parseOneAcHeaderFromMsg env m fl = .ok r) :
    (∃ e, r = .err e) ∨
    (m.contentType ≠ str!"multipart/report" ∧ (env.getaddresses (m.getAll (str!"From"))).length ≤ 1 ∧
     (m.getAll (str!"Autocrypt")).filterMap (accepted env (fl.map fun x => parseEmailAddr env (some x))) = [r]) := by
  unfold parseOneAcHeaderFromMsg at h
  split at h
  · cases h; exact Or.inl ⟨_, rfl⟩
  rename_i h1
  split at h
  · cases h; exact Or.inl ⟨_, rfl⟩
  rename_i h2
  split at h
  · cases h
  · rename_i r' _ hc
    cases h
    exact Or.inr ⟨h1, by omega, (collectAc_ok hc).1.symm⟩
  · cases h; exact Or.inl ⟨_, rfl⟩
  · rename_i hc
    cases h
    exact Or.inl ((collectAc_ok hc).2.1 _ (List.mem_cons_self ..))
  · cases h; exact Or.inl ⟨_, rfl⟩

/-! ## dictionaries -/

theorem dictGet_dictSet {α : Type} (d : List (Str × α)) (k k' : Str) (v : α) :
    dictGet (dictSet d k v) k' = if k' = k then some v else dictGet d k' := by
  unfold dictGet dictSet
  by_cases h : k' = k
  · subst h
    rw [if_pos rfl]
    split
    · rename_i hany
      induction d with
      | nil => simp at hany
      | cons x d ih =>
        by_cases hx : x.1 = k'
        · simp [hx]
        · simp only [List.any_cons, beq_eq_false_iff_ne.mpr hx, Bool.false_or] at hany
          simp only [List.map_cons, beq_eq_false_iff_ne.mpr hx, List.find?_cons, Bool.false_eq_true, if_false]
          exact ih hany
    · rename_i hany
      have : d.find? (fun x => x.1 == k') = none := by
        rw [List.find?_eq_none]; intro x hx hxk
        exact hany (List.any_eq_true.mpr ⟨x, hx, hxk⟩)
      simp [List.find?_append, this]
  · rw [if_neg h]
    split
    · rename_i hany
      clear hany
      induction d with
      | nil => rfl
      | cons x d ih =>
        by_cases hx : x.1 = k
        · subst hx
          have : (x.1 == k') = false := by simpa using Ne.symm h
          simp only [List.map_cons, beq_self_eq_true, if_true, List.find?_cons, this]; exact ih
        · simp only [List.map_cons, beq_eq_false_iff_ne.mpr hx, List.find?_cons, Bool.false_eq_true, if_false]
          cases hxk : x.1 == k'
          · exact ih
          · rfl
    · have : (k == k') = false := by simpa using Ne.symm h
      simp [List.find?_append, this]

theorem mem_keys_dictSet {α : Type} (d : List (Str × α)) (k k' : Str) (v : α) :
    k' ∈ (dictSet d k v).map (·.1) ↔ k' = k ∨ k' ∈ d.map (·.1) := by
  unfold dictSet
  split
  · rename_i hany
    have : (d.map fun x => if x.1 == k then (k, v) else x).map (·.1) = d.map (·.1) := by
      rw [List.map_map]; apply List.map_congr_left
      intro x _
      by_cases hx : x.1 = k
      · simp [hx]
      · simp [hx]
    rw [this]
    constructor
    · exact Or.inr
    · rintro (rfl | h)
      · obtain ⟨x, hx, hxk⟩ := List.any_eq_true.mp hany
        exact List.mem_map.mpr ⟨x, hx, by simpa using hxk⟩
      · exact h
  · simp [or_comm]

end Verif.Mime
