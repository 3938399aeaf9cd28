import Verif.Model.Windows
import Verif.Props.Executable
/-!
# Finding a program on Windows: C134
-/
namespace Verif
open Windows

/-! ## Specification -/

/-- `t` is `s` with all occurrences of `old`, from left to right, replaced by `new` -/
inductive Replaced (old new : Str) : Str → Str → Prop
  | nil : Replaced old new [] []
  | hit {s t : Str} : Replaced old new s t → Replaced old new (old ++ s) (new ++ t)
  | skip {c : Char} {s t : Str} : ¬ old <+: c :: s → Replaced old new s t → Replaced old new (c :: s) (c :: t)

/-- a value stands for these texts, separated by semicolons -/
def Semicolons (value : Str) (l : List Str) : Prop := l ≠ [] ∧ (∀ d ∈ l, ';' ∉ d) ∧ value = Py.join [';'] l

/-- the directories to look into: those of Path, and the current one if it is not among them; `%SystemRoot%` stands for the value of SYSTEMROOT -/
def WindowsDirs (e : System) (dirs : List Str) : Prop :=
  ∃ path raw all, e.path = some path ∧ Semicolons path raw ∧
    (([] ∈ raw ∨ str!"." ∈ raw) ∧ all = raw ∨ [] ∉ raw ∧ str!"." ∉ raw ∧ all = raw ++ [str!"."]) ∧
    (e.systemroot = none ∧ dirs = all ∨ ∃ root, e.systemroot = some root ∧ List.Forall₂ (Replaced (str!"%SystemRoot%") root) all dirs)

/-- the endings to try: those of PATHEXT, and then none -/
def WindowsExts (e : System) (exts : List Str) : Prop := ∃ value l, e.pathext = some value ∧ Semicolons value l ∧ exts = l ++ [[]]

/-- `p` is the file for `name`: `name` itself if it is absolute, and otherwise the first one, by directory and then by ending -/
def WindowsLocates (e : System) (name p : Str) : Prop :=
  e.isfile p = true ∧ (e.isabs name = true ∧ p = name ∨
    e.isabs name = false ∧ ∃ dirs exts before dir after first ext rest, WindowsDirs e dirs ∧ WindowsExts e exts ∧
      dirs = before ++ dir :: after ∧ exts = first ++ ext :: rest ∧ p = e.join dir name ++ ext ∧
      (∀ d ∈ before, ∀ x ∈ exts, e.isfile (e.join d name ++ x) = false) ∧ ∀ x ∈ first, e.isfile (e.join dir name ++ x) = false)

/-! ## Proofs -/

theorem semicolons_iff {v : Str} {l : List Str} : Semicolons v l ↔ Py.split ';' v = l := by
  constructor
  · rintro ⟨h1, h2, rfl⟩
    exact split_join h1 h2
  · rintro rfl
    exact ⟨Py.split_ne_nil _ _, fun d hd => Py.not_mem_of_mem_split hd, (join_split _ _).symm⟩

theorem replaceAux_drop (old new : Str) (n : Nat) (s : Str) : replaceAux old new n s = replaceAux old new 0 (s.drop n) := by
  induction n generalizing s with
  | zero => rfl
  | succ n ih =>
    cases s with
    | nil => simp [replaceAux]
    | cons c s => rw [replaceAux, ih]; rfl

theorem replaceAux_hit {old new : Str} (h : old ≠ []) (s : Str) : replaceAux old new 0 (old ++ s) = new ++ replaceAux old new 0 s := by
  obtain ⟨c, o, rfl⟩ := List.exists_cons_of_ne_nil h
  rw [List.cons_append, replaceAux, if_pos (by unfold Py.startsWith; rw [List.isPrefixOf_iff_prefix]; exact ⟨s, rfl⟩), replaceAux_drop]
  simp

theorem replaceAux_skip {old new : Str} {c : Char} {s : Str} (h : ¬ old <+: c :: s) : replaceAux old new 0 (c :: s) = c :: replaceAux old new 0 s := by
  rw [replaceAux, if_neg (by unfold Py.startsWith; rw [List.isPrefixOf_iff_prefix]; exact h)]

theorem replaced_iff {old new : Str} (h : old ≠ []) {s t : Str} : Replaced old new s t ↔ replaceAux old new 0 s = t := by
  constructor
  · intro hr
    induction hr with
    | nil => rfl
    | hit _ ih => rw [replaceAux_hit h, ih]
    | skip hn _ ih => rw [replaceAux_skip hn, ih]
  · rintro rfl
    induction hl : s.length using Nat.strongRecOn generalizing s with
    | _ n ih =>
      cases s with
      | nil => exact .nil
      | cons c s =>
        by_cases hp : old <+: c :: s
        · obtain ⟨r, hr⟩ := hp
          rw [← hr, replaceAux_hit h]
          refine .hit (ih r.length ?_ rfl)
          rw [← hl, ← hr, List.length_append]
          have := List.length_pos_of_ne_nil h
          omega
        · rw [replaceAux_skip hp]
          exact .skip hp (ih s.length (by rw [← hl]; simp) rfl)

theorem template_plain {hit s : Str} (h : '\\' ∉ s) : template hit s = .ok s := by
  induction s with
  | nil => rw [template]
  | cons c s ih =>
    have hc : c ≠ '\\' := fun h' => h (by simp [h'])
    rw [template, ih fun h' => h (List.mem_cons_of_mem _ h')]
    · rfl
    all_goals intros; first | exact hc ‹_› | skip

theorem template_letter {hit pre post : Str} {c : Char} (h : '\\' ∉ pre) (hc : c.isAlpha = true) (hg : c ≠ 'g') (he : escapes.lookup c = none) :
    template hit (pre ++ '\\' :: c :: post) = .error .reError := by
  induction pre with
  | nil =>
    rw [List.nil_append, template.eq_def]
    split
    · rename_i h'; cases h'
    · rename_i h'; cases h'
    · rename_i h'; cases h'; exact absurd rfl hg
    · rename_i h'; cases h'; rw [he]; simp [hc]
    · rename_i h1 h2 h'; cases h'; exact (h2 _ _ rfl rfl).elim
  | cons d pre ih =>
    have hd : d ≠ '\\' := fun h' => h (by simp [h'])
    rw [List.cons_append, template, ih fun h' => h (List.mem_cons_of_mem _ h')]
    · rfl
    all_goals intros; first | exact hd ‹_› | skip

theorem tryExts_iff {isfile : Str → Bool} {p q : Str} {exts : List Str} : tryExts isfile p exts = some q ↔
    isfile q = true ∧ ∃ first ext rest, exts = first ++ ext :: rest ∧ q = p ++ ext ∧ ∀ x ∈ first, isfile (p ++ x) = false := by
  induction exts with
  | nil => simp [tryExts]
  | cons x xs ih =>
    unfold tryExts
    by_cases hx : isfile (p ++ x) = true
    · rw [if_pos hx]
      constructor
      · rintro ⟨⟩
        exact ⟨hx, [], x, xs, rfl, rfl, by simp⟩
      · rintro ⟨hq, first, ext, rest, h1, rfl, h3⟩
        cases first with
        | nil => cases h1; rfl
        | cons y first =>
          cases h1
          have := h3 x (by simp)
          rw [hx] at this; cases this
    · rw [if_neg hx, ih]
      constructor
      · rintro ⟨hq, first, ext, rest, rfl, rfl, h3⟩
        refine ⟨hq, x :: first, ext, rest, rfl, rfl, ?_⟩
        rintro y hy
        rcases List.mem_cons.mp hy with rfl | hy
        · simpa using hx
        · exact h3 y hy
      · rintro ⟨hq, first, ext, rest, h1, rfl, h3⟩
        cases first with
        | nil => cases h1; exact absurd hq hx
        | cons y first =>
          cases h1
          exact ⟨hq, first, ext, rest, rfl, rfl, fun z hz => h3 z (List.mem_cons_of_mem _ hz)⟩

theorem tryExts_none {isfile : Str → Bool} {p : Str} {exts : List Str} : tryExts isfile p exts = none ↔ ∀ x ∈ exts, isfile (p ++ x) = false := by
  induction exts with
  | nil => simp [tryExts]
  | cons x xs ih =>
    unfold tryExts
    by_cases hx : isfile (p ++ x) = true
    · simp [hx]
    · simp [hx, ih]

theorem winSearch_iff {e : System} {name q : Str} {exts dirs : List Str} : search e name exts dirs = some q ↔
    e.isfile q = true ∧ ∃ before dir after first ext rest, dirs = before ++ dir :: after ∧ exts = first ++ ext :: rest ∧ q = e.join dir name ++ ext ∧
      (∀ d ∈ before, ∀ x ∈ exts, e.isfile (e.join d name ++ x) = false) ∧ ∀ x ∈ first, e.isfile (e.join dir name ++ x) = false := by
  induction dirs with
  | nil => simp [search]
  | cons d ds ih =>
    unfold search
    cases ht : tryExts e.isfile (e.join d name) exts with
    | some q' =>
      obtain ⟨h1, f', x', r', h2, h3, h4⟩ := tryExts_iff.mp ht
      rw [Option.some_or]
      constructor
      · rintro ⟨⟩
        exact ⟨h1, [], d, ds, f', x', r', rfl, h2, h3, by simp, h4⟩
      · rintro ⟨h5, before, dir, after, first, ext, rest, h6, h7, h8, h9, h10⟩
        cases before with
        | nil =>
          cases h6
          rw [← ht]
          exact tryExts_iff.mpr ⟨h5, first, ext, rest, h7, h8, h10⟩
        | cons y before =>
          cases h6
          have := h9 d (by simp) x' (by rw [h2]; simp)
          rw [← h3, h1] at this; cases this
    | none =>
      rw [Option.none_or, ih]
      have hn := tryExts_none.mp ht
      constructor
      · rintro ⟨h5, before, dir, after, first, ext, rest, rfl, h7, h8, h9, h10⟩
        refine ⟨h5, d :: before, dir, after, first, ext, rest, rfl, h7, h8, ?_, h10⟩
        rintro y hy
        rcases List.mem_cons.mp hy with rfl | hy
        · exact hn
        · exact h9 y hy
      · rintro ⟨h5, before, dir, after, first, ext, rest, h6, h7, h8, h9, h10⟩
        cases before with
        | nil =>
          cases h6
          rw [h8, hn ext (by rw [h7]; simp)] at h5; cases h5
        | cons y before =>
          cases h6
          exact ⟨h5, before, dir, after, first, ext, rest, rfl, h7, h8, fun z hz => h9 z (List.mem_cons_of_mem _ hz), h10⟩

theorem forall₂_map {α β : Type} {f : α → β} {l : List α} {l' : List β} : List.Forall₂ (fun a b => f a = b) l l' ↔ l.map f = l' := by
  constructor
  · intro h
    induction h with
    | nil => rfl
    | cons h _ ih => rw [List.map_cons, h, ih]
  · rintro rfl
    induction l with
    | nil => exact .nil
    | cons a l ih => exact .cons rfl ih

theorem paths_iff {e : System} (hr : ∀ root, e.systemroot = some root → '\\' ∉ root) {dirs : List Str} : paths e = .ok dirs ↔ WindowsDirs e dirs := by
  unfold paths WindowsDirs
  cases hp : e.path with
  | none => simp
  | some path =>
    simp only [Option.some.injEq, semicolons_iff]
    have hall : ∀ all, (∃ raw, Py.split ';' path = raw ∧ (([] ∈ raw ∨ str!"." ∈ raw) ∧ all = raw ∨ [] ∉ raw ∧ str!"." ∉ raw ∧ all = raw ++ [str!"."])) ↔
        (if ((Py.split ';' path).contains [] || (Py.split ';' path).contains ['.']) = true then Py.split ';' path else Py.split ';' path ++ [['.']]) = all := by
      intro all
      by_cases hc : ((Py.split ';' path).contains [] || (Py.split ';' path).contains ['.']) = true
      · rw [if_pos hc]
        rw [Bool.or_eq_true, List.contains_iff_mem, List.contains_iff_mem] at hc
        constructor
        · rintro ⟨_, rfl, h | ⟨h1, h2, _⟩⟩
          · exact h.2.symm
          · exact absurd hc (fun h => h.elim h1 h2)
        · rintro rfl
          exact ⟨_, rfl, .inl ⟨hc, rfl⟩⟩
      · rw [if_neg hc]
        rw [Bool.or_eq_true, List.contains_iff_mem, List.contains_iff_mem] at hc
        constructor
        · rintro ⟨_, rfl, h | ⟨h1, h2, h⟩⟩
          · exact absurd h.1 hc
          · exact h.symm
        · rintro rfl
          exact ⟨_, rfl, .inr ⟨fun h => hc (.inl h), fun h => hc (.inr h), rfl⟩⟩
    generalize (if ((Py.split ';' path).contains [] || (Py.split ';' path).contains ['.']) = true then Py.split ';' path else Py.split ';' path ++ [['.']]) = l at hall ⊢
    have key : ∀ P : List Str → Prop, (∃ path' raw all, path = path' ∧ Py.split ';' path' = raw ∧
        (([] ∈ raw ∨ str!"." ∈ raw) ∧ all = raw ∨ [] ∉ raw ∧ str!"." ∉ raw ∧ all = raw ++ [str!"."]) ∧ P all) ↔ P l := by
      intro P
      constructor
      · rintro ⟨_, raw, all, rfl, h1, h2, h3⟩
        rw [(hall all).mp ⟨raw, h1, h2⟩]; exact h3
      · intro h
        obtain ⟨raw, h1, h2⟩ := (hall l).mpr rfl
        exact ⟨_, raw, l, rfl, h1, h2, h⟩
    rw [key]
    cases hs : e.systemroot with
    | none => simp [eq_comm]
    | some root =>
      simp only [template_plain (hr root hs)]
      have : (List.Forall₂ (Replaced (str!"%SystemRoot%") root) l dirs) ↔ l.map (replaceAux rootVar root 0) = dirs := by
        rw [← forall₂_map]
        have : (fun a b => replaceAux rootVar root 0 a = b) = Replaced (str!"%SystemRoot%") root := by
          funext a b
          exact propext (replaced_iff (old := rootVar) (by decide)).symm
        rw [this]
      simp [Except.map, this]

/-! ## Theorems -/

/-- C134, the part that holds: if Path and PATHEXT are set, and SYSTEMROOT has no backslash or is not set, then the file for a name is found if there is one.
Missing for the full claim: values of SYSTEMROOT with a backslash, see `C134_refuted`. -/
theorem C134_found_partial {e : System} (hpath : e.path ≠ none) (hext : e.pathext ≠ none) (hroot : ∀ root, e.systemroot = some root → '\\' ∉ root)
    (name : Str) : ∃ r, findExecutable e name = .ok r ∧ ∀ p, r = some p ↔ WindowsLocates e name p := by
  unfold findExecutable WindowsLocates
  cases ha : e.isabs name with
  | true =>
    refine ⟨_, rfl, fun p => ?_⟩
    simp only [Option.ite_none_right_eq_some, Option.some.injEq, true_and]
    constructor
    · rintro ⟨h, rfl⟩
      exact ⟨h, .inl rfl⟩
    · rintro ⟨h, rfl | ⟨h', _⟩⟩
      · exact ⟨h, rfl⟩
      · cases h'
  | false =>
    obtain ⟨dirs, hd⟩ : ∃ dirs, paths e = .ok dirs := by
      unfold paths
      cases hp : e.path with
      | none => exact absurd hp hpath
      | some path =>
        cases hs : e.systemroot with
        | none => exact ⟨_, rfl⟩
        | some root => simp only [template_plain (hroot root hs)]; exact ⟨_, rfl⟩
    obtain ⟨ext, hx⟩ := Option.ne_none_iff_exists'.mp hext
    have hexts : ∀ l, WindowsExts e l ↔ Py.split ';' ext ++ [[]] = l := by
      intro l
      unfold WindowsExts
      simp only [hx, Option.some.injEq, semicolons_iff]
      constructor
      · rintro ⟨_, _, rfl, rfl, rfl⟩; rfl
      · rintro rfl; exact ⟨_, _, rfl, rfl, rfl⟩
    rw [hd, hx]
    refine ⟨_, rfl, fun p => ?_⟩
    rw [winSearch_iff]
    simp only [Bool.false_eq_true, false_and, false_or, true_and]
    refine and_congr_right fun _ => ?_
    constructor
    · rintro ⟨before, dir, after, first, x, rest, h⟩
      exact ⟨_, _, before, dir, after, first, x, rest, (paths_iff hroot).mp hd, (hexts _).mpr rfl, h⟩
    · rintro ⟨dirs', exts', before, dir, after, first, x, rest, h1, h2, h⟩
      have h1 := (paths_iff hroot).mpr h1
      rw [hd] at h1
      cases h1
      rw [(hexts _).mp h2]
      exact ⟨before, dir, after, first, x, rest, h⟩

/-- C134: with a directory like `C:\WINDOWS` as SYSTEMROOT nothing is found: the text is taken as a pattern for replacement, and an exception is raised.
It is enough that the first backslash is followed by a letter which has no meaning there. -/
theorem C134_backslash {e : System} (hpath : e.path ≠ none) {pre post : Str} {c : Char} (hroot : e.systemroot = some (pre ++ '\\' :: c :: post))
    (hpre : '\\' ∉ pre) (hc : c.isAlpha = true) (hm : c ∉ ['a', 'b', 'f', 'g', 'n', 'r', 't', 'v']) {name : Str} (hn : e.isabs name = false) :
    findExecutable e name = .error .reError := by
  unfold findExecutable paths
  obtain ⟨path, hp⟩ := Option.ne_none_iff_exists'.mp hpath
  simp only [List.mem_cons, List.not_mem_nil, or_false, not_or] at hm
  have he : escapes.lookup c = none := by
    have h1 : c ≠ '\\' := fun h => by subst h; exact absurd hc (by decide)
    simp [escapes, List.lookup, beq_eq_false_iff_ne.mpr, hm, h1]
  rw [hn, hp, hroot]
  simp only [template_letter hpre hc hm.2.2.2.1 he]
  rfl

/-- a computer with Windows: gpg is in `C:\bin`, and the name of the system directory is given -/
def Concrete.windows (root : Str) : System where
  path := some (str!"%SystemRoot%;C:\\bin")
  systemroot := some root
  pathext := some (str!".COM;.EXE")
  isabs p := (p.drop 1).head? == some ':'
  join d n := d ++ '\\' :: n
  isfile p := p == str!"C:\\bin\\gpg.EXE"

/-- C134 does not hold of the code as it is: gpg is there but is not found. -/
theorem C134_refuted : ∃ e name p, WindowsLocates e name p ∧ findExecutable e name = .error .reError := by
  refine ⟨Concrete.windows (str!"C:\\WINDOWS"), str!"gpg", str!"C:\\bin\\gpg.EXE", ⟨by decide, .inr ⟨by decide, [str!"C:\\WINDOWS", str!"C:\\bin", str!"."],
    [str!".COM", str!".EXE", []], [str!"C:\\WINDOWS"], str!"C:\\bin", [str!"."], [str!".COM"], str!".EXE", [[]], ?_, ?_, rfl, rfl, by decide, by decide, by decide⟩⟩, ?_⟩
  · refine ⟨_, [str!"%SystemRoot%", str!"C:\\bin"], _, rfl, semicolons_iff.mpr (by decide), .inr ⟨by decide, by decide, rfl⟩, .inr ⟨_, rfl, ?_⟩⟩
    exact .cons ((replaced_iff (by decide)).mpr (by decide)) (.cons ((replaced_iff (by decide)).mpr (by decide)) (.cons ((replaced_iff (by decide)).mpr (by decide)) .nil))
  · exact ⟨_, [str!".COM", str!".EXE"], rfl, semicolons_iff.mpr (by decide), rfl⟩
  · exact C134_backslash (c := 'W') (pre := str!"C:") (post := str!"INDOWS") (by decide) rfl (by decide) (by decide) (by decide) (by decide)

/-- C134: with another value of SYSTEMROOT it is found -/
example : (Concrete.windows (str!"C:/WINDOWS")).path ≠ none ∧ (Concrete.windows (str!"C:/WINDOWS")).pathext ≠ none ∧
    findExecutable (Concrete.windows (str!"C:/WINDOWS")) (str!"gpg") = .ok (some (str!"C:\\bin\\gpg.EXE")) := by
  refine ⟨by decide, by decide, ?_⟩
  unfold findExecutable paths
  have : template rootVar (str!"C:/WINDOWS") = .ok (str!"C:/WINDOWS") := template_plain (by decide)
  simp only [Concrete.windows, this]
  decide

end Verif
