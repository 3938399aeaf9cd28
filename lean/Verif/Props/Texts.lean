import Verif.Model.Texts
import Verif.Props.Text
/-!
# Texts for people: C131
-/
namespace Verif
open Texts

/-! ## Specification -/

/-- the text for some bytes: decoded as UTF-8 if they are that, and otherwise one character for each byte -/
def Displays (utf8 : Bytes → Except Exc Str) (b : Bytes) (s : Str) : Prop :=
  utf8 b = .ok s ∨ ((∃ e, utf8 b = .error e) ∧ s.length = b.length ∧ ∀ (i : Nat) (x : UInt8), b[i]? = some x → ∃ c : Char, s[i]? = some c ∧ c.toNat = x.toNat)

/-- the text has no line break in it -/
def OneLine (s : Str) : Prop := ∀ c ∈ s, Inline c

/-- the lines `ls` preceded by blanks -/
def shifted (ls : List Str) : List Str := ls.map (str!"  " ++ ·)

/-! ## Proofs -/

theorem byte_char (x : UInt8) : (Char.ofNat x.toNat).toNat = x.toNat := by
  have h : x.toNat < 256 := x.toNat_lt
  have : x.toNat.isValidChar := .inl (by omega)
  simp only [Char.ofNat, this, dif_pos, Char.toNat, Char.ofNatAux]
  show (UInt32.ofNatLT _ _).toNat = _
  simp

/-- **C131, names of attachments**: `make_displayable` raises nothing. It gives the empty text if there is nothing, a text as it is, and bytes as UTF-8 or,
if they are not that, byte by byte. -/
theorem C131_displayable (utf8 : Bytes → Except Exc Str) :
    makeDisplayable utf8 .none = .ok [] ∧ (∀ s, makeDisplayable utf8 (.text s) = .ok s) ∧
    ∀ b, ∃ s, makeDisplayable utf8 (.bytes b) = .ok s ∧ Displays utf8 b s := by
  refine ⟨rfl, fun _ => rfl, fun b => ?_⟩
  simp only [makeDisplayable, firstDecoded]
  cases h : utf8 b with
  | ok s => exact ⟨s, rfl, .inl h⟩
  | error e =>
    refine ⟨b.map fun x => Char.ofNat x.toNat, rfl, .inr ⟨⟨e, h⟩, by simp, fun i x hx => ⟨Char.ofNat x.toNat, ?_, byte_char x⟩⟩⟩
    rw [List.getElem?_map, hx]
    rfl

/-- **C131, short form of a value**: it has at most 50 characters. A text with at most 50 characters is left as it is; of a longer one, the first 23 and the
last 23 characters are left. -/
theorem C131_shortrepr (r : Str) : (shortrepr r).length ≤ 50 ∧ (r.length ≤ 50 → shortrepr r = r) ∧
    (50 < r.length → ∃ a m z, r = a ++ m ++ z ∧ a.length = 23 ∧ z.length = 23 ∧ shortrepr r = a ++ str!"..." ++ z) := by
  unfold shortrepr
  refine ⟨?_, fun h => if_neg (by omega), fun h => ?_⟩
  · split
    · simp only [List.length_append, List.length_take, List.length_drop, List.length_cons, List.length_nil]; omega
    · omega
  · refine ⟨r.take 23, (r.drop 23).take (r.length - 46), r.drop (r.length - 23), ?_, by simp; omega, by simp; omega, if_pos h⟩
    have h1 : r.drop (r.length - 23) = (r.drop 23).drop (r.length - 46) := by rw [List.drop_drop]; congr 1; omega
    rw [h1, List.append_assoc, List.take_append_drop, List.take_append_drop]

theorem lines_join (ls : List Str) (hl : ∀ l ∈ ls, OneLine l) (hn : ∀ l, ls.getLast? = some l → l ≠ []) : Lines (Py.join (str!"\n") ls) ls := by
  induction ls with
  | nil => exact .none
  | cons l ls ih =>
    cases ls with
    | nil => exact .last (hn l rfl) (hl l (by simp))
    | cons k ks =>
      have := ih (fun x hx => hl x (List.mem_cons_of_mem _ hx)) fun x hx => hn x (by rw [List.getLast?_cons_cons]; exact hx)
      exact .more (hl l (by simp)) (.inr ⟨'\n', rfl, by decide⟩) (fun h => by cases h) this

theorem Lines.oneLine {s : Str} {ls : List Str} (h : Lines s ls) : ∀ l ∈ ls, OneLine l := by
  induction h with
  | none => simp
  | last _ hs => exact fun l hl => by cases List.mem_singleton.mp hl; exact hs
  | more hs _ _ _ ih =>
    intro l hl
    rcases List.mem_cons.mp hl with rfl | hl
    · exact hs
    · exact ih l hl

theorem oneLine_append {a b : Str} (ha : OneLine a) (hb : OneLine b) : OneLine (a ++ b) := fun c hc =>
  (List.mem_append.mp hc).elim (ha c) (hb c)

theorem oneLine_of {s : Str} (h : s.all (fun c => !Py.isLineBreak c) = true) : OneLine s := fun c hc =>
  (inline_iff c).mpr (by simpa using List.all_eq_true.mp h c hc)

/-- **C131, failures of gpg**: the lines of the text are the command with its status, the lines of the output, those of the error output, and what is added to
it. Each line of both outputs is there, in its order. -/
theorem C131_failure (f : Failure) (outs errs : List Str) (ho : Lines f.out outs) (he : Lines f.err errs) (hc : OneLine f.cmd) (hr : OneLine f.ret)
    (hx : ∀ x, f.extrainfo = some x → OneLine x) :
    Lines f.str ([str!"GPG Command '" ++ f.cmd ++ str!"' retcode=" ++ f.ret] ++ [str!"stdout:"] ++ shifted outs ++ [str!"stderr:"] ++ shifted errs ++
      (f.extrainfo.filter (· ≠ [])).toList) := by
  have hi : ∀ ls : List Str, (∀ l ∈ ls, OneLine l) → ∀ l ∈ shifted ls, OneLine l ∧ l ≠ [] := fun ls h l hl => by
    obtain ⟨k, hk, rfl⟩ := List.mem_map.mp hl
    exact ⟨oneLine_append (oneLine_of rfl) (h k hk), by simp⟩
  have heq : f.str = Py.join (str!"\n") ([str!"GPG Command '" ++ f.cmd ++ str!"' retcode=" ++ f.ret] ++ [str!"stdout:"] ++ shifted outs ++ [str!"stderr:"] ++
      shifted errs ++ (f.extrainfo.filter (· ≠ [])).toList) := by
    unfold Failure.str Failure.part
    rw [(C110_splitlines _ _).mpr ho, (C110_splitlines _ _).mpr he]
    congr 1
    cases f.extrainfo with
    | none => simp [shifted]
    | some x => cases x <;> simp [shifted, Option.filter]
  rw [heq]
  have key : ∀ l ∈ [str!"GPG Command '" ++ f.cmd ++ str!"' retcode=" ++ f.ret] ++ [str!"stdout:"] ++ shifted outs ++ [str!"stderr:"] ++ shifted errs ++
      (f.extrainfo.filter (· ≠ [])).toList, OneLine l ∧ l ≠ [] := by
    intro l hl
    simp only [List.mem_append, List.mem_singleton] at hl
    rcases hl with ((((rfl | rfl) | hl) | rfl) | hl) | hl
    · exact ⟨oneLine_append (oneLine_append (oneLine_append (oneLine_of rfl) hc) (oneLine_of rfl)) hr, by simp⟩
    · exact ⟨oneLine_of rfl, by simp⟩
    · exact hi _ ho.oneLine l hl
    · exact ⟨oneLine_of rfl, by simp⟩
    · exact hi _ he.oneLine l hl
    · rw [Option.mem_toList, Option.filter_eq_some_iff] at hl
      exact ⟨hx l hl.1, by simpa using hl.2⟩
  exact lines_join _ (fun l hl => (key l hl).1) fun l hl => (key l (List.mem_of_getLast? hl)).2

/-! ## Examples -/

/-- a failure whose error output has two lines -/
def Concrete.failure : Failure := ⟨str!"2", str!"gpg --batch --import", [], str!"gpg: no valid data\r\ngpg: nothing processed\n", none⟩

open Concrete in
example : failure.str = str!"GPG Command 'gpg --batch --import' retcode=2\nstdout:\nstderr:\n  gpg: no valid data\n  gpg: nothing processed" ∧
    Py.splitlines failure.err = [str!"gpg: no valid data", str!"gpg: nothing processed"] := by decide +kernel

open Concrete in
example : Lines failure.out [] ∧ Lines failure.err [str!"gpg: no valid data", str!"gpg: nothing processed"] ∧ OneLine failure.cmd ∧ OneLine failure.ret ∧
    ∀ x, failure.extrainfo = some x → OneLine x :=
  ⟨(C110_splitlines _ _).mp (by decide +kernel), (C110_splitlines _ _).mp (by decide +kernel), oneLine_of (by decide +kernel), oneLine_of (by decide +kernel),
    fun _ h => by cases h⟩

/-- bytes which are not UTF-8 -/
example : (makeDisplayable (fun _ => .error .unicodeError) (.bytes [0xe4, 98])).toOption = some (str!"äb") := by decide +kernel

example : shortrepr (List.replicate 60 'x') = List.replicate 23 'x' ++ str!"..." ++ List.replicate 23 'x' := by decide +kernel

end Verif
