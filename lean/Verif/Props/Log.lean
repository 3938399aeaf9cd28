import Verif.Model.Log
/-!
# C65, C66: the bot's report
-/
namespace Verif

/-! ## C65 -/

/-- the lines of a text, each one indented by two spaces per open section; an empty text is one empty line -/
def indented (depth : Nat) (msg : Str) : List Str :=
  (match Py.splitlines msg with | [] => [[]] | l :: ls => l :: ls).map (fun l => List.replicate (2 * depth) ' ' ++ l)

/-- what a piece of code should add to a report, `depth` being the number of sections around it and `first`
telling that the report is still empty: each call gives its lines, a section is set off by empty lines, its
title stands outside, its body is one deeper, and a failure of the body which is not passed on is told outside -/
def reportLines (depth : Nat) (first : Bool) : SimpleLog.Script → List Str × Option Bool
  | .done => ([], none)
  | .raise base => ([], some base)
  | .call msg next =>
    let r := reportLines depth false next
    (indented depth msg ++ r.1, r.2)
  | .sect title raising tb body next =>
    let pre := (if first then [] else indented depth []) ++ indented depth title ++ indented depth []
    let b := reportLines (depth + 1) false body
    let r := reportLines depth false next
    match b.2 with
    | none => (pre ++ b.1 ++ indented depth [] ++ r.1, r.2)
    | some base =>
      if base = true ∨ raising = true then (pre ++ b.1, some base)
      else (pre ++ b.1 ++ indented depth tb ++ indented depth [] ++ r.1, r.2)

theorem flatten_replicate_spaces (n : Nat) : (List.replicate n (str!"  ")).flatten = List.replicate (2 * n) ' ' := by
  induction n with
  | zero => rfl
  | succ n ih => rw [List.replicate_succ, List.flatten_cons, ih, Nat.mul_succ]; rfl

theorem call_eq (l : SimpleLog) (msg : Str) : l.call msg = ⟨l.logs ++ indented l.indent msg, l.indent⟩ := by
  unfold SimpleLog.call indented SimpleLog.indentation
  rw [flatten_replicate_spaces]
  cases h : Py.splitlines msg <;> simp

theorem indented_ne (d : Nat) (msg : Str) : indented d msg ≠ [] := by
  unfold indented
  cases h : Py.splitlines msg <;> simp

/-- C65: whatever the log contained and however deep it was, running any code with any nesting of sections and
failures adds exactly the lines of `reportLines`, in which each line has two spaces per section around it, ends
with the exception expected and leaves the indentation as it was. -/
theorem C65_sections (c : SimpleLog.Script) (l : SimpleLog) :
    SimpleLog.run c l = ((reportLines l.indent l.logs.isEmpty c).2,
      ⟨l.logs ++ (reportLines l.indent l.logs.isEmpty c).1, l.indent⟩) := by
  induction c generalizing l with
  | done => simp [SimpleLog.run, reportLines]
  | raise b => simp [SimpleLog.run, reportLines]
  | call msg next ih =>
    simp only [SimpleLog.run, ih, call_eq, reportLines]
    have : (l.logs ++ indented l.indent msg).isEmpty = false := by
      have := indented_ne l.indent msg
      cases h : indented l.indent msg <;> simp_all
    simp [this, List.append_assoc]
  | sect title raising tb body next ihb ihn =>
    have hne : ∀ (a : List Str) (msg : Str), (a ++ indented l.indent msg).isEmpty = false := by
      intro a msg
      have := indented_ne l.indent msg
      cases h : indented l.indent msg <;> simp_all
    have hne' : ∀ (a b : List Str) (msg : Str), (a ++ (indented l.indent msg ++ b)).isEmpty = false := by
      intro a b msg
      have := indented_ne l.indent msg
      cases h : indented l.indent msg <;> simp_all
    simp only [SimpleLog.run, call_eq, ihb, ihn, reportLines]
    cases hl : l.logs with
    | nil =>
      simp only [List.isEmpty_nil, if_true, List.nil_append, hl]
      cases hb : (reportLines (l.indent + 1) (indented l.indent title ++ indented l.indent []).isEmpty body).2 with
      | none => rw [hne] at hb ⊢; simp [hb, hne, List.append_assoc, hne']
      | some base =>
        rw [hne] at hb ⊢
        by_cases hr : base = true ∨ raising = true
        · simp [hb, hr, hne]
        · simp [hb, hr, hne, List.append_assoc]
          have : base = false ∧ raising = false := by cases base <;> cases raising <;> simp_all
          simp [this, hne, hne', List.append_assoc]
    | cons x xs =>
      simp only [List.isEmpty_cons, Bool.false_eq_true, if_false]
      cases hb : (reportLines (l.indent + 1) ((l.logs ++ indented l.indent [] ++ indented l.indent title) ++ indented l.indent []).isEmpty body).2 with
      | none => rw [hne] at hb; simp [hb, List.append_assoc]
      | some base =>
        rw [hne] at hb
        by_cases hr : base = true ∨ raising = true
        · simp [hb, hr]
        · have : base = false ∧ raising = false := by cases base <;> cases raising <;> simp_all
          simp [hb, this, List.append_assoc]

/-- C65, the indentation alone -/
theorem C65_restored (c : SimpleLog.Script) (l : SimpleLog) : (SimpleLog.run c l).2.indent = l.indent := by
  rw [C65_sections]

/-- a report with nested sections, one of which fails -/
example : SimpleLog.run (.sect (str!"A") true [] (.call (str!"x\ny") (.sect (str!"B") false (str!"Traceback") (.call (str!"z") (.raise false))
      (.call (str!"w") .done))) (.call (str!"end") .done)) SimpleLog.new =
    (none, ⟨[str!"A", [], str!"  x", str!"  y", str!"  ", str!"  B", str!"  ", str!"    z", str!"  Traceback", str!"  ", str!"  w", [],
      str!"end"], 0⟩) := by decide +kernel

/-- an exception which leaves the sections -/
example : SimpleLog.run (.sect (str!"A") true [] (.call (str!"x") (.raise false)) .done) SimpleLog.new =
    (some false, ⟨[str!"A", [], str!"  x"], 0⟩) := by decide +kernel

/-! ## C66 -/

/-- C66: with a limit of at least 20 a text which is not longer than the limit is unchanged; a longer one becomes
a prefix of it, followed by the number, in decimal digits, of characters which are not in that prefix. -/
theorem C66_truncated (s : Str) (maxlen : Nat) (h : 20 ≤ maxlen) :
    (s.length ≤ maxlen → truncString s maxlen = s) ∧
    (maxlen < s.length → ∃ shown rest, s = shown ++ rest ∧ shown.length = maxlen - 20 ∧
      truncString s maxlen = shown ++ str!"[truncated " ++ (Nat.repr rest.length).toList ++ str!" chars]") := by
  refine ⟨fun hl => by simp [truncString, hl], fun hl => ⟨s.take (maxlen - 20), s.drop (maxlen - 20), by simp, by simp; omega, ?_⟩⟩
  have hr : s.length - (maxlen - 20) = s.length - maxlen + 20 := by omega
  rw [List.length_drop, hr]
  simp [truncString, Nat.not_le.mpr hl, Py.natToStr, h]

/-- a text of 25 characters with a limit of 22 -/
example : truncString (str!"abcdefghijklmnopqrstuvwxy") 22 = str!"ab[truncated 23 chars]" := by decide +kernel

end Verif
