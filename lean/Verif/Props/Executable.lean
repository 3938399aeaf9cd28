import Verif.Model.Executable
import Verif.Props.GpgHome
import Verif.Props.AccountChanges
/-!
# Finding the gpg program: C106
-/
namespace Verif
open Executable

variable {K : Type}

/-! ## Specification -/

/-- the value of PATH stands for these directories -/
def PathDirs (path : Str) (dirs : List Str) : Prop :=
  dirs ≠ [] ∧ (∀ d ∈ dirs, ':' ∉ d) ∧ path = Py.join [':'] dirs

/-- the name of a file in a directory; an empty name stands for the current one -/
def FileIn (dir name p : Str) : Prop :=
  (dir = [] ∧ p = name) ∨ (∃ d, dir = d ++ ['/'] ∧ p = d ++ '/' :: name) ∨ (dir ≠ [] ∧ dir.getLast? ≠ some '/' ∧ p = dir ++ '/' :: name)

/-- `p` is the file for `name`: `name` itself if it is absolute, and otherwise the first one in the directories of PATH -/
def Locates (isfile : Str → Bool) (path name p : Str) : Prop :=
  isfile p = true ∧ ((∃ t, name = '/' :: t ∧ p = name) ∨
    ((∀ t, name ≠ '/' :: t) ∧ ∃ before dir after, PathDirs path (before ++ dir :: after) ∧ FileIn dir name p ∧
      ∀ d ∈ before, ∀ q, FileIn d name q → isfile q = false))

/-- the documentation of `BinGPG`: a path with separators which points to an existing file is used directly -/
def UsedDirectly (isfile : Str → Bool) (path name : Str) : Prop :=
  '/' ∈ name → isfile name = true → findExecutable isfile path name = some name

/-- the environment looks for programs in the directories of PATH -/
def SearchesPath (O : Oracle K) (isfile : K → Str → Bool) (path : Str) : Prop :=
  ∀ n k, (O.step (.findExecutable n) k).1 = findExecutable (isfile k) path n

/-! ## Proofs -/

theorem split_join {sep : Char} {ds : List Str} (hn : ds ≠ []) (hd : ∀ d ∈ ds, sep ∉ d) : Py.split sep (Py.join [sep] ds) = ds := by
  induction ds with
  | nil => exact absurd rfl hn
  | cons d ds ih =>
    cases ds with
    | nil => exact Py.split_of_not_mem (hd d (by simp))
    | cons e ds =>
      have : Py.join [sep] (d :: e :: ds) = d ++ sep :: Py.join [sep] (e :: ds) := by simp [Py.join]
      rw [this, Py.split_append, Py.split_of_not_mem (hd d (by simp)), ih (by simp) fun x hx => hd x (List.mem_cons_of_mem _ hx)]
      rfl

theorem join_split (sep : Char) (s : Str) : Py.join [sep] (Py.split sep s) = s := by
  induction s with
  | nil => rfl
  | cons c s ih =>
    simp only [Py.split]
    cases h : Py.split sep s with
    | nil => exact absurd h (Py.split_ne_nil _ _)
    | cons p ps =>
      rw [h] at ih
      split
      · rename_i hc
        subst hc
        simp [Py.join, ih]
      · cases ps with
        | nil => simpa [Py.join] using ih
        | cons q qs => simpa [Py.join] using ih

theorem pathDirs_iff {path : Str} {ds : List Str} : PathDirs path ds ↔ Py.split ':' path = ds := by
  constructor
  · rintro ⟨h1, h2, rfl⟩
    exact split_join h1 h2
  · rintro rfl
    exact ⟨Py.split_ne_nil _ _, fun d hd => Py.not_mem_of_mem_split hd, (join_split _ _).symm⟩

theorem isabs_iff {p : Str} : isabs p = true ↔ ∃ t, p = '/' :: t := by
  cases p with
  | nil => simp [isabs]
  | cons c t => simp [isabs]

theorem pathJoin_iff {d name p : Str} (hn : isabs name = false) : FileIn d name p ↔ p = pathJoin d name := by
  unfold FileIn pathJoin
  rw [hn]
  simp only [Bool.false_eq_true, if_false]
  rcases List.eq_nil_or_concat d with rfl | ⟨x, c, rfl⟩
  · simp
  · by_cases hc : c = '/'
    · subst hc
      simp
    · have h1 : (x ++ [c]).isEmpty = false := by simp
      simp [h1, hc]

theorem search_iff {isfile : Str → Bool} {name p : Str} {ds : List Str} : search isfile name ds = some p ↔
    ∃ before dir after, ds = before ++ dir :: after ∧ p = pathJoin dir name ∧ isfile p = true ∧ ∀ d ∈ before, isfile (pathJoin d name) = false := by
  induction ds with
  | nil => simp [search]
  | cons x xs ih =>
    simp only [search]
    split
    · rename_i hx
      constructor
      · intro h
        cases h
        exact ⟨[], x, xs, rfl, rfl, hx, by simp⟩
      · rintro ⟨before, dir, after, h1, rfl, h3, h4⟩
        cases before with
        | nil => cases h1; rfl
        | cons b before =>
          cases h1
          rw [h4 x (by simp)] at hx
          cases hx
    · rename_i hx
      rw [ih]
      constructor
      · rintro ⟨before, dir, after, rfl, h2, h3, h4⟩
        refine ⟨x :: before, dir, after, rfl, h2, h3, fun d hd => ?_⟩
        rcases List.mem_cons.mp hd with rfl | hd
        · simpa using hx
        · exact h4 d hd
      · rintro ⟨before, dir, after, h1, h2, h3, h4⟩
        cases before with
        | nil => cases h1; rw [h2] at h3; exact absurd h3 hx
        | cons b before =>
          cases h1
          exact ⟨before, dir, after, rfl, h2, h3, fun d hd => h4 d (List.mem_cons_of_mem _ hd)⟩

/-- C106: an absolute name is found if it is a file, and another one as the first file of this name in the directories of PATH -/
theorem C106_found {isfile : Str → Bool} {path name p : Str} : findExecutable isfile path name = some p ↔ Locates isfile path name p := by
  unfold findExecutable Locates
  cases ha : isabs name with
  | true =>
    obtain ⟨t, rfl⟩ := isabs_iff.mp ha
    simp only [if_true, Option.ite_none_right_eq_some, Option.some.injEq]
    constructor
    · rintro ⟨h, rfl⟩
      exact ⟨h, .inl ⟨t, rfl, rfl⟩⟩
    · rintro ⟨h, (⟨_, _, rfl⟩ | ⟨h', _⟩)⟩
      · exact ⟨h, rfl⟩
      · exact absurd rfl (h' t)
  | false =>
    have hn : ∀ t, name ≠ '/' :: t := fun t h => by rw [isabs_iff.mpr ⟨t, h⟩] at ha; cases ha
    simp only [Bool.false_eq_true, if_false, search_iff]
    constructor
    · rintro ⟨before, dir, after, h1, h2, h3, h4⟩
      refine ⟨h3, .inr ⟨hn, before, dir, after, pathDirs_iff.mpr h1, (pathJoin_iff ha).mpr h2, fun d hd q hq => ?_⟩⟩
      rw [(pathJoin_iff ha).mp hq]
      exact h4 d hd
    · rintro ⟨h3, (⟨t, h, -⟩ | ⟨-, before, dir, after, h1, h2, h4⟩)⟩
      · exact absurd h (hn t)
      · exact ⟨before, dir, after, pathDirs_iff.mp h1, (pathJoin_iff ha).mp h2, h3, fun d hd => h4 d hd _ ((pathJoin_iff ha).mpr rfl)⟩

/-- C106: no file is found only if there is none -/
theorem C106_none {isfile : Str → Bool} {path name : Str} : findExecutable isfile path name = none ↔ ∀ p, ¬ Locates isfile path name p := by
  simp only [← C106_found]
  cases findExecutable isfile path name <;> simp

/-- C106, the part which holds: absolute paths are used directly -/
theorem C106_direct_partial {isfile : Str → Bool} {path name : Str} (h : ∃ t, name = '/' :: t) : UsedDirectly isfile path name := by
  intro _ hf
  exact C106_found.mpr ⟨hf, .inl (by obtain ⟨t, rfl⟩ := h; exact ⟨t, rfl, rfl⟩)⟩

/-- C106 is false: a relative path with separators which points to an existing file isn't used, not even found -/
theorem C106_refuted : ∃ (isfile : Str → Bool) (path name : Str), '/' ∈ name ∧ isfile name = true ∧ findExecutable isfile path name = none ∧
    ¬ UsedDirectly isfile path name := by
  refine ⟨fun p => p == str!"bin/gpg", str!"/usr/bin:/bin", str!"bin/gpg", by decide, by decide, by decide, ?_⟩
  intro h
  exact absurd (h (by decide) (by decide)) (by decide)

/-- C106: every gpg command for an account runs a file which PATH, or the absolute path, gives for the configured program -/
theorem C106_account {O : Oracle K} {isfile : K → Str → Bool} {path : Str} (hO : SearchesPath O isfile path) (env : Env) (w w' : World Store K)
    (n bin : Str) (mode : GpgMode) (c : ApiCall) (hc : c.gpgAccount = some n)
    (hm : (∃ r k m, c = .addAccount n r k bin m ∧ ModeText mode m) ∨ ((∀ r k b m, c ≠ .addAccount n r k b m) ∧ Uses w n bin mode))
    {r : Except Exc Unit} (h : exec O (c.prog env) w = (r, w')) :
    ∃ new, w'.trace = new ++ w.trace ∧ ∀ ev ∈ new, ∀ argv stdin, ev.op = .gpg argv stdin → ∃ p k args, argv = p :: args ∧ Locates (isfile k) path bin p := by
  obtain ⟨new, h1, h2⟩ := C104_program O env w w' n bin mode c hc hm h
  refine ⟨new, h1, fun ev hev argv stdin he => ?_⟩
  obtain ⟨pre, post, rfl⟩ := List.append_of_mem hev
  have hr := h2 _ _ _ rfl
  rw [he] at hr
  obtain ⟨p, opts, args, hp, -, rfl, -⟩ := hr
  have ha := (run_answers (S := Store.impl) (O := O) (c.prog env) w).all (new := pre ++ ev :: post) (by
    rw [show (run Store.impl O (c.prog env) w).2 = w' from congrArg Prod.snd h, h1])
  obtain ⟨o, k, hk⟩ := ha _ (List.mem_append_right _ (List.mem_cons_of_mem _ hp))
  obtain ⟨rfl, hk⟩ := Event.mk.inj hk
  refine ⟨p, k, _, rfl, C106_found.mp ?_⟩
  rw [← hO, ← eq_of_heq hk]

/-! ## Concrete cases -/

/-- the second directory of PATH has the program, and the third one, too; a directory may end with a slash -/
example : findExecutable (fun p => p == str!"/usr/bin/gpg" || p == str!"/bin/gpg") (str!"/usr/local/bin:/usr/bin/:/bin") (str!"gpg") = some (str!"/usr/bin/gpg") := by
  decide

/-- an empty entry of PATH is the current directory -/
example : findExecutable (fun p => p == str!"gpg") (str!"/usr/bin::/bin") (str!"gpg") = some (str!"gpg") := by decide

section Examples
open Concrete

/-- all files below `/usr/bin/` exist -/
def binFiles (p : Str) : Bool := (str!"/usr/bin/").isPrefixOf p

/-- an environment with PATH -/
def pathOracle : Oracle Unit where
  step o k := match o with
    | .findExecutable n => (findExecutable binFiles (str!"/usr/local/bin:/usr/bin") n, k)
    | o => oracle.step o k

example : SearchesPath pathOracle (fun _ => binFiles) (str!"/usr/local/bin:/usr/bin") := fun _ _ => rfl

/-- gpg runs when an account is added -/
example : ((exec pathOracle (addA.prog env) world0).2.trace.filterMap fun ev => match ev.op with | .gpg argv _ => argv.head? | _ => none).eraseDups =
    [str!"/usr/bin/gpg"] := by decide +kernel

end Examples

end Verif
