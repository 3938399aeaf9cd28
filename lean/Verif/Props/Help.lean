import Verif.Model.Group
import Verif.Lemmas.Names
/-!
# The list of subcommands (C146)

For every sequence of `add_command`: what `list_commands` gives, and which command is run.
-/
namespace Verif
open Cmd

variable {C : Type}

/-! ## dictionaries -/

theorem dictGet_dictSet (d : List (Str × C)) (k k' : Str) (v : C) :
    dictGet (dictSet d k v) k' = if k = k' then some v else dictGet d k' := by
  induction d with
  | nil => simp [dictSet, dictGet]
  | cons x d ih =>
    obtain ⟨a, b⟩ := x
    unfold dictSet
    by_cases h : a = k
    · subst h
      by_cases h' : a = k' <;> simp [dictGet, h']
    · rw [if_neg h]
      unfold dictGet
      by_cases h' : a = k'
      · subst h'
        rw [if_pos rfl, if_pos rfl, if_neg (Ne.symm h)]
      · rw [if_neg h', if_neg h', ih]

theorem dictSet_keys (d : List (Str × C)) (k : Str) (v : C) :
    (dictSet d k v).map (·.1) = if k ∈ d.map (·.1) then d.map (·.1) else d.map (·.1) ++ [k] := by
  induction d with
  | nil => rfl
  | cons x d ih =>
    obtain ⟨a, b⟩ := x
    unfold dictSet
    by_cases h : a = k
    · subst h; simp
    · rw [if_neg h]
      have h' : k ≠ a := Ne.symm h
      simp only [List.map_cons, List.mem_cons, h', false_or, ih]
      by_cases hm : k ∈ d.map (·.1) <;> simp [hm]

/-! ## what holds of a group after some commands were added -/

theorem addAll_cmdlist (g : Group C) (cmds : List (Str × C)) :
    (g.addAll cmds).cmdlist = if cmds = [] then g.cmdlist else some (g.cmdlist.getD [] ++ cmds.map (·.1)) := by
  induction cmds generalizing g with
  | nil => rfl
  | cons c cmds ih =>
    show ((g.addCommand c).addAll cmds).cmdlist = _
    rw [ih]
    by_cases h : cmds = []
    · subst h; simp [Group.addCommand]
    · simp [h, Group.addCommand]

theorem addAll_get (g : Group C) (cmds : List (Str × C)) (n : Str) :
    (g.addAll cmds).getCommand n = ((cmds.filter fun c => c.1 = n).getLast?.map (·.2)).or (g.getCommand n) := by
  induction cmds generalizing g with
  | nil => simp [Group.addAll]
  | cons c cmds ih =>
    show ((g.addCommand c).addAll cmds).getCommand n = _
    rw [ih]
    have : (g.addCommand c).getCommand n = if c.1 = n then some c.2 else g.getCommand n := dictGet_dictSet _ _ _ _
    rw [this]
    by_cases h : c.1 = n
    · simp only [h, List.filter_cons, decide_true, if_true]
      cases hf : (cmds.filter fun c => decide (c.1 = n)) with
      | nil => simp
      | cons a l => simp [List.getLast?_cons]
    · simp [h]

/-- the keys are the names added, each once -/
theorem addAll_keys (g : Group C) (cmds : List (Str × C)) (hg : (g.commands.map (·.1)).Nodup) :
    ((g.addAll cmds).commands.map (·.1)).Nodup ∧
      ∀ n, n ∈ (g.addAll cmds).commands.map (·.1) ↔ n ∈ g.commands.map (·.1) ∨ n ∈ cmds.map (·.1) := by
  induction cmds generalizing g with
  | nil => exact ⟨hg, by simp [Group.addAll]⟩
  | cons c cmds ih =>
    have hk : (g.addCommand c).commands.map (·.1) = _ := dictSet_keys g.commands c.1 c.2
    have hn : ((g.addCommand c).commands.map (·.1)).Nodup := by
      rw [hk]
      split
      · exact hg
      · rename_i h
        exact List.nodup_append.mpr ⟨hg, by simp, by
          intro a ha b hb e
          rw [List.mem_singleton] at hb
          exact h (hb ▸ e ▸ ha)⟩
    refine ⟨(ih (g.addCommand c) hn).1, fun n => ((ih (g.addCommand c) hn).2 n).trans ?_⟩
    rw [hk, List.map_cons, List.mem_cons]
    split
    · rename_i h
      constructor
      · rintro (h1 | h1)
        · exact .inl h1
        · exact .inr (.inr h1)
      · rintro (h1 | rfl | h1)
        · exact .inl h1
        · exact .inl h
        · exact .inr h1
    · rw [List.mem_append, List.mem_singleton, or_assoc]

theorem sorted_eq_iff {a b : List Str} : Py.sorted a = Py.sorted b ↔ a.Perm b := by
  constructor
  · intro h
    exact ((perm_sorted a).symm.trans (h ▸ List.Perm.refl _)).trans (perm_sorted b)
  · intro h
    exact List.Perm.eq_of_pairwise (le := fun a b => Py.strLe a b = true) (fun x y _ _ h1 h2 => strLe_antisymm h1 h2) (pairwise_sorted a)
      (pairwise_sorted b) (((perm_sorted a).trans h).trans (perm_sorted b).symm)

/-! ## C146 -/

/-- **C146**: after any commands were added, and at least one, the list is that of their names, in the order added, if no name was given twice;
otherwise it is an `AssertionError`. -/
theorem C146_listed (cmds : List (Str × C)) (h : cmds ≠ []) :
    (Group.new.addAll cmds).listCommands =
      if (cmds.map (·.1)).Nodup then .ok (cmds.map (·.1)) else .error .assertionError := by
  have hl : (Group.new.addAll cmds).cmdlist = some (cmds.map (·.1)) := by rw [addAll_cmdlist, if_neg h]; rfl
  obtain ⟨hn, hm⟩ := addAll_keys (Group.new : Group C) cmds List.nodup_nil
  unfold Group.listCommands
  rw [hl]
  simp only
  have key : Py.sorted (Py.sorted ((Group.new.addAll cmds).commands.map (·.1))) = Py.sorted (cmds.map (·.1)) ↔ (cmds.map (·.1)).Nodup := by
    rw [sorted_eq_iff]
    constructor
    · intro hp
      exact ((perm_sorted _).symm.trans hp).nodup_iff.mp hn
    · intro hc
      refine (perm_sorted _).trans ?_
      refine (List.perm_ext_iff_of_nodup hn hc).mpr fun n => ?_
      rw [hm n]
      show n ∈ [] ∨ _ ↔ _
      simp
  by_cases hc : (cmds.map (·.1)).Nodup
  · rw [if_pos hc, if_pos (key.mpr hc)]
  · rw [if_neg hc, if_neg fun e => hc (key.mp e)]

/-- **C146**: the command run for a name is the one added last under it; there is none if and only if the name was not added. -/
theorem C146_run (cmds : List (Str × C)) (n : Str) :
    (∀ c, (Group.new.addAll cmds).getCommand n = some c ↔
      ∃ l r, cmds = l ++ (n, c) :: r ∧ n ∉ r.map (·.1)) ∧
    ((Group.new.addAll cmds).getCommand n = none ↔ n ∉ cmds.map (·.1)) := by
  have hg : ∀ (cmds : List (Str × C)), (Group.new.addAll cmds).getCommand n = (cmds.filter fun c => c.1 = n).getLast?.map (·.2) := by
    intro cmds
    rw [addAll_get]
    show Option.or _ none = _
    simp
  have hnone : ∀ (cmds : List (Str × C)), (Group.new.addAll cmds).getCommand n = none ↔ n ∉ cmds.map (·.1) := by
    intro cmds
    rw [hg, Option.map_eq_none_iff, List.getLast?_eq_none_iff, List.filter_eq_nil_iff]
    simp only [decide_eq_true_eq, List.mem_map, not_exists, not_and]
  refine ⟨fun c => ⟨fun h => ?_, ?_⟩, hnone cmds⟩
  · clear hnone
    rw [hg, Option.map_eq_some_iff] at h
    obtain ⟨⟨n', c'⟩, hl, rfl⟩ := h
    rw [List.getLast?_eq_some_iff] at hl
    obtain ⟨ys, hys⟩ := hl
    obtain ⟨l, r, rfl, _, hr⟩ := List.filter_eq_append_iff.mp hys
    obtain ⟨r1, r2, rfl, h1, h2, h3⟩ := List.filter_eq_cons_iff.mp hr
    have : n' = n := by simpa using h2
    subst this
    refine ⟨l ++ r1, r2, by simp, ?_⟩
    rw [List.filter_eq_nil_iff] at h3
    simpa only [decide_eq_true_eq, List.mem_map, not_exists, not_and] using h3
  · rintro ⟨l, r, rfl, hr⟩
    rw [hg]
    have : (r.filter fun c => decide (c.1 = n)) = [] := by
      rw [List.filter_eq_nil_iff]
      simpa only [decide_eq_true_eq, List.mem_map, not_exists, not_and] using hr
    simp [List.filter_append, this]

theorem mainGroup_eq (what : Str → C) (plugins : List (Str × C)) :
    mainGroup what plugins = Group.new.addAll ((ownCommands.map fun n => (n, what n)) ++ plugins) := by
  unfold mainGroup Group.addAll
  rw [List.foldl_append]

theorem nodup_ownCommands : ownCommands.Nodup := by decide +kernel

/-- **C146**: the list of `muacrypt` is its own commands followed by those of plugins, if these have new and distinct names. With any other plugin
commands it is an `AssertionError`. -/
theorem C146_main (what : Str → C) (plugins : List (Str × C)) :
    (mainGroup what plugins).listCommands =
      if (plugins.map (·.1)).Nodup ∧ ∀ n ∈ plugins.map (·.1), n ∉ ownCommands then .ok (ownCommands ++ plugins.map (·.1))
      else .error .assertionError := by
  have hmap : ((ownCommands.map fun n => (n, what n)) ++ plugins).map (·.1) = ownCommands ++ plugins.map (·.1) := by
    simp [List.map_map, Function.comp_def]
  rw [mainGroup_eq, C146_listed _ (by simp [ownCommands]), hmap]
  have : (ownCommands ++ plugins.map (·.1)).Nodup ↔ (plugins.map (·.1)).Nodup ∧ ∀ n ∈ plugins.map (·.1), n ∉ ownCommands := by
    rw [List.nodup_append]
    constructor
    · rintro ⟨_, h1, h2⟩
      exact ⟨h1, fun n hn ho => h2 n ho n hn rfl⟩
    · rintro ⟨h1, h2⟩
      exact ⟨nodup_ownCommands, h1, fun a ha b hb e => h2 b hb (e ▸ ha)⟩
  simp only [this]

/-- **C146**: a plugin command replaces the one of muacrypt with the same name; the others remain. -/
theorem C146_replaced (what : Str → C) (plugins : List (Str × C)) (n : Str) :
    (n ∈ ownCommands → n ∉ plugins.map (·.1) → (mainGroup what plugins).getCommand n = some (what n)) ∧
    ∀ c l r, plugins = l ++ (n, c) :: r → n ∉ r.map (·.1) → (mainGroup what plugins).getCommand n = some c := by
  rw [mainGroup_eq]
  constructor
  · intro hn hp
    obtain ⟨l, r, e⟩ := List.append_of_mem hn
    have hown := nodup_ownCommands
    rw [e, List.nodup_append, List.nodup_cons] at hown
    refine ((C146_run _ n).1 (what n)).mpr ⟨l.map fun n => (n, what n), r.map (fun n => (n, what n)) ++ plugins, ?_, ?_⟩
    · rw [e, List.map_append, List.map_cons, List.append_assoc, List.cons_append]
    · rw [List.map_append, List.mem_append, List.map_map]
      rintro (h | h)
      · obtain ⟨x, hx, rfl⟩ := List.mem_map.mp h
        exact hown.2.1.1 hx
      · exact hp h
  · rintro c l r rfl hr
    exact ((C146_run _ n).1 c).mpr ⟨(ownCommands.map fun n => (n, what n)) ++ l, r, by rw [List.append_assoc], hr⟩

/-! ## examples -/

example : (mainGroup (fun _ => 0) [(str!"list-gossip", 1)]).listCommands.toOption = some (ownCommands ++ [str!"list-gossip"]) := by decide +kernel

example : (mainGroup (fun _ => 0) [(str!"status", 1)]).listCommands.toOption = none ∧
    (mainGroup (fun _ => 0) [(str!"status", 1)]).getCommand (str!"status") = some 1 := by decide +kernel

end Verif
