import Verif.Lemmas.Store
import Verif.Model.States
import Verif.Model.Env
/-!
# Lemmas about head names
-/
namespace Verif

theorem colon_not_mem_of_isalnum {env : Env} {n : Str} (h : env.isalnum n = true) : ':' ∉ n := by
  intro hm
  simp only [Env.isalnum, Bool.and_eq_true, List.all_eq_true] at h
  have := h.2 _ hm
  revert this
  simp [Env.isAlnumChar]

theorem split1_append {c : Char} {a b : Str} (h : c ∉ a) : Py.split1 c (a ++ c :: b) = (a, some b) := by
  induction a with
  | nil => simp [Py.split1]
  | cons x a ih =>
    simp only [List.mem_cons, not_or] at h
    simp [Py.split1, Ne.symm h.1, ih h.2]

theorem split1_of_not_mem {c : Char} {a : Str} (h : c ∉ a) : Py.split1 c a = (a, none) := by
  induction a with
  | nil => rfl
  | cons x a ih =>
    simp only [List.mem_cons, not_or] at h
    simp [Py.split1, Ne.symm h.1, ih h.2]

theorem split1_peerHead (n a : Str) : Py.split1 ':' (peerHead n a) = (str!"peer", some (n ++ ':' :: a)) := by
  have : peerHead n a = str!"peer" ++ ':' :: (n ++ ':' :: a) := by simp [peerHead]
  rw [this, split1_append (by decide)]

theorem split1_ownHead (n : Str) : Py.split1 ':' (ownHead n) = (str!"own", some n) := by
  have : ownHead n = str!"own" ++ ':' :: n := by simp [ownHead]
  rw [this, split1_append (by decide)]

theorem split1_oobHead (n : Str) : Py.split1 ':' (oobHead n) = (str!"oob", some n) := by
  have : oobHead n = str!"oob" ++ ':' :: n := by simp [oobHead]
  rw [this, split1_append (by decide)]

theorem split1_managerHead : Py.split1 ':' managerHead = (str!".", none) := rfl

/-- the key under which a head name sorts into kinds -/
theorem peerHead_inj {n n' a a' : Str} (hn : ':' ∉ n) (hn' : ':' ∉ n') :
    peerHead n a = peerHead n' a' ↔ n = n' ∧ a = a' := by
  constructor
  · intro h
    have h1 := congrArg (Py.split1 ':') h
    rw [split1_peerHead, split1_peerHead] at h1
    simp only [Prod.mk.injEq, Option.some.injEq, true_and] at h1
    have h2 := congrArg (Py.split1 ':') h1
    rw [split1_append hn, split1_append hn'] at h2
    simpa using h2
  · rintro ⟨rfl, rfl⟩; rfl

theorem peerHead_inj_addr {n a a' : Str} : peerHead n a = peerHead n a' ↔ a = a' := by
  simp [peerHead]

theorem ownHead_inj {n n' : Str} : ownHead n = ownHead n' ↔ n = n' := by simp [ownHead]
theorem oobHead_inj {n n' : Str} : oobHead n = oobHead n' ↔ n = n' := by simp [oobHead]

theorem ownHead_ne_peerHead (n n' a : Str) : ownHead n ≠ peerHead n' a := by simp [ownHead, peerHead]
theorem oobHead_ne_peerHead (n n' a : Str) : oobHead n ≠ peerHead n' a := by simp [oobHead, peerHead]
theorem managerHead_ne_peerHead (n' a : Str) : managerHead ≠ peerHead n' a := by simp [managerHead, peerHead]
theorem ownHead_ne_oobHead (n n' : Str) : ownHead n ≠ oobHead n' := by simp [ownHead, oobHead]
theorem ownHead_ne_managerHead (n : Str) : ownHead n ≠ managerHead := by simp [ownHead, managerHead]
theorem oobHead_ne_managerHead (n : Str) : oobHead n ≠ managerHead := by simp [oobHead, managerHead]

theorem matchAccount_peerHead {m n a : Str} (hn : ':' ∉ n) : matchAccount m (peerHead n a) = decide (n = m) := by
  simp [matchAccount, headFields, split1_peerHead, split1_append hn]

theorem matchAccount_ownHead {m n : Str} (hn : ':' ∉ n) : matchAccount m (ownHead n) = decide (n = m) := by
  simp [matchAccount, headFields, split1_ownHead, split1_of_not_mem hn]

theorem matchAccount_oobHead (m n : Str) : matchAccount m (oobHead n) = false := by
  simp [matchAccount, headFields, split1_oobHead]

theorem matchAccount_managerHead (m : Str) : matchAccount m managerHead = false := by
  simp [matchAccount, headFields, split1_managerHead]

theorem mem_stripPrefix (pre : Str) (names : List Str) (a : Str) :
    a ∈ stripPrefix pre names ↔ pre ++ a ∈ names := by
  simp only [stripPrefix, List.mem_map, List.mem_filter, Py.startsWith, List.isPrefixOf_iff_prefix]
  constructor
  · rintro ⟨x, ⟨hx, t, rfl⟩, rfl⟩; simpa using hx
  · intro h; exact ⟨pre ++ a, ⟨h, List.prefix_append _ _⟩, by simp⟩

theorem nodup_stripPrefix {pre : Str} {names : List Str} (h : names.Nodup) : (stripPrefix pre names).Nodup := by
  induction names with
  | nil => exact List.nodup_nil
  | cons x l ih =>
    rw [List.nodup_cons] at h
    by_cases hp : Py.startsWith pre x
    · have : stripPrefix pre (x :: l) = x.drop pre.length :: stripPrefix pre l := by
        simp [stripPrefix, List.filter, hp]
      rw [this, List.nodup_cons]
      refine ⟨?_, ih h.2⟩
      rw [mem_stripPrefix]
      simp only [Py.startsWith, List.isPrefixOf_iff_prefix] at hp
      obtain ⟨t, rfl⟩ := hp
      simpa using h.1
    · have : stripPrefix pre (x :: l) = stripPrefix pre l := by
        simp [stripPrefix, List.filter, hp]
      rw [this]; exact ih h.2

/-! ## sorting -/
open Py

theorem strLe_total (a b : Str) : strLe a b = true ∨ strLe b a = true := by
  induction a generalizing b with
  | nil => exact Or.inl rfl
  | cons x a ih =>
    cases b with
    | nil => exact Or.inr rfl
    | cons y b =>
      simp only [strLe]
      by_cases h1 : x.toNat < y.toNat
      · simp [h1]
      · by_cases h2 : y.toNat < x.toNat
        · simp [h2]
        · simp only [h1, h2, if_false]; exact ih b

theorem strLe_refl (a : Str) : strLe a a = true := (strLe_total a a).elim id id

theorem strLe_trans {a b c : Str} (h1 : strLe a b = true) (h2 : strLe b c = true) : strLe a c = true := by
  induction a generalizing b c with
  | nil => rfl
  | cons x a ih =>
    cases b with
    | nil => simp [strLe] at h1
    | cons y b =>
      cases c with
      | nil => simp [strLe] at h2
      | cons z c =>
        simp only [strLe] at h1 h2 ⊢
        split at h1
        · split at h2
          · rw [if_pos (by omega)]
          · split at h2
            · cases h2
            · rw [if_pos (by omega)]
        · split at h1
          · cases h1
          · split at h2
            · rw [if_pos (by omega)]
            · split at h2
              · cases h2
              · rw [if_neg (by omega), if_neg (by omega)]; exact ih h1 h2

theorem strLe_antisymm {a b : Str} (h1 : strLe a b = true) (h2 : strLe b a = true) : a = b := by
  induction a generalizing b with
  | nil => cases b with
    | nil => rfl
    | cons y b => simp [strLe] at h2
  | cons x a ih =>
    cases b with
    | nil => simp [strLe] at h1
    | cons y b =>
      simp only [strLe] at h1 h2
      split at h1
      · rw [if_neg (by omega), if_pos (by assumption)] at h2; cases h2
      · split at h1
        · cases h1
        · rw [if_neg (by omega), if_neg (by omega)] at h2
          have : x = y := by
            apply Char.ext; apply UInt32.toNat_inj.mp
            show x.toNat = y.toNat
            omega
          rw [this, ih h1 h2]

theorem perm_insertSorted (x : Str) (l : List Str) : (insertSorted x l).Perm (x :: l) := by
  induction l with
  | nil => exact List.Perm.refl _
  | cons y l ih =>
    simp only [insertSorted]
    split
    · exact List.Perm.refl _
    · exact (List.Perm.cons y ih).trans (List.Perm.swap x y l)

theorem perm_sorted (l : List Str) : (sorted l).Perm l := by
  induction l with
  | nil => exact List.Perm.refl _
  | cons x l ih => exact (perm_insertSorted x _).trans (List.Perm.cons x ih)

theorem mem_sorted {x : Str} {l : List Str} : x ∈ sorted l ↔ x ∈ l := (perm_sorted l).mem_iff

theorem nodup_sorted {l : List Str} : (sorted l).Nodup ↔ l.Nodup := (perm_sorted l).nodup_iff

theorem pairwise_insertSorted {x : Str} {l : List Str} (h : l.Pairwise (fun a b => strLe a b = true)) :
    (insertSorted x l).Pairwise (fun a b => strLe a b = true) := by
  induction l with
  | nil => simp [insertSorted]
  | cons y l ih =>
    simp only [insertSorted]
    rw [List.pairwise_cons] at h
    split
    · rename_i hxy
      rw [List.pairwise_cons]
      refine ⟨?_, List.pairwise_cons.mpr h⟩
      intro z hz
      rcases List.mem_cons.mp hz with rfl | hz
      · exact hxy
      · exact strLe_trans hxy (h.1 z hz)
    · rename_i hxy
      rw [List.pairwise_cons]
      refine ⟨?_, ih h.2⟩
      intro z hz
      rcases List.mem_cons.mp ((perm_insertSorted x l).mem_iff.mp hz) with rfl | hz
      · exact (strLe_total z y).elim (fun hh => absurd hh hxy) id
      · exact h.1 z hz

theorem pairwise_sorted (l : List Str) : (sorted l).Pairwise (fun a b => strLe a b = true) := by
  induction l with
  | nil => exact List.Pairwise.nil
  | cons x l ih => exact pairwise_insertSorted ih

end Verif
