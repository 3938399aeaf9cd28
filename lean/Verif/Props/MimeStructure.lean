import Verif.Model.Report
import Verif.Spec.Concrete
/-!
# The drawing of the structure of a message: C101
-/
namespace Verif
open Report

/-! ## Specification -/

/-- the branch which ends at a part: the last part of a message gets a corner -/
def corner (last : Bool) : Char := if last then '└' else '├'

/-- what stands below that branch: the line goes on if there are further parts -/
def trunk (last : Bool) : Char := if last then ' ' else '│'

/-- the description of a part with `n` bytes -/
def Description (re : ReportEnv) (m : Msg) (n : Nat) (t : Str) : Prop :=
  ∃ charset disp subject, t = m.contentType ++ charset ++ disp ++ str!" [" ++ re.filename m ++ str!"] " ++ Py.natToStr n ++ str!" bytes" ++ subject ∧
    (re.charset m = none ∧ charset = [] ∨ ∃ c, re.charset m = some c ∧ charset = str!" (" ++ c ++ str!")") ∧
    ((∀ d ∈ re.dispositions m, d ≠ str!"attachment" ∧ d ≠ str!"inline") ∧ disp = [] ∨
      ∃ pre d post, re.dispositions m = pre ++ d :: post ∧ (d = str!"attachment" ∨ d = str!"inline") ∧
        (∀ d ∈ post, d ≠ str!"attachment" ∧ d ≠ str!"inline") ∧ disp = ' ' :: d) ∧
    (m.getAll (str!"Subject") = [] ∧ subject = [] ∨ ∃ s l, m.getAll (str!"Subject") = s :: l ∧ subject = str!" (Subject: " ++ s ++ str!")")

mutual
/-- the lines for a message below `above`, depth first: one line for the message itself, and if it is a multipart those of its parts -/
inductive Drawn (re : ReportEnv) : Str → Bool → Msg → List Str → Prop
  | leaf (above last m s t) : m.payload = .text s → Description re m s.length t → Drawn re above last m [above ++ corner last :: str!"─╴" ++ t]
  | node (above last m parts n t ls) : m.payload = .multi parts → re.asStringLen m = .ok n → Description re m n t →
      DrawnParts re (above ++ [trunk last]) parts ls → Drawn re above last m ((above ++ corner last :: str!"┬╴" ++ t) :: ls)
/-- the lines for parts -/
inductive DrawnParts (re : ReportEnv) : Str → List Msg → List Str → Prop
  | last (above m ls) : Drawn re above true m ls → DrawnParts re above [m] ls
  | more (above m m' l ls ls') : Drawn re above false m ls → DrawnParts re above (m' :: l) ls' → DrawnParts re above (m :: m' :: l) (ls ++ ls')
end

/-- a message which can be drawn: every multipart has parts, everything else has text, and multiparts can be written as text -/
inductive Drawable (re : ReportEnv) : Msg → Prop
  | leaf (m s) : m.payload = .text s → Drawable re m
  | node (m parts n) : m.payload = .multi parts → parts ≠ [] → re.asStringLen m = .ok n → (∀ p ∈ parts, Drawable re p) → Drawable re m

/-! ## Lemmas -/

/-- the text ends with something which is not white space -/
def Solid (s : Str) : Prop := ∃ t c, s = t ++ [c] ∧ Py.isSpace c = false

theorem Solid.rstrip {s : Str} (h : Solid s) : Py.rstrip (s ++ str!"\n") = s := by
  obtain ⟨t, c, rfl, hc⟩ := h
  have : Py.isSpace '\n' = true := by decide
  simp [Py.rstrip, this, hc]

theorem Solid.append {s : Str} (h : Solid s) (t : Str) : Solid (t ++ s) := by
  obtain ⟨u, c, rfl, hc⟩ := h
  exact ⟨t ++ u, c, by simp, hc⟩

theorem partText_solid (re : ReportEnv) (m : Msg) (n : Nat) : Solid (partText re m n) := by
  unfold partText
  split <;> split
  all_goals first
    | exact Solid.append ⟨_, ')', rfl, by decide⟩ _
    | (rw [List.append_nil]; exact Solid.append ⟨str!" byte", 's', rfl, by decide⟩ _)

theorem disposition_spec (ds : List Str) (r : Str) : (∀ d ∈ ds, d ≠ str!"attachment" ∧ d ≠ str!"inline") ∧
      ds.foldl (fun r d => if d == str!"attachment" || d == str!"inline" then str!" " ++ d else r) r = r ∨
    ∃ pre d post, ds = pre ++ d :: post ∧ (d = str!"attachment" ∨ d = str!"inline") ∧ (∀ d ∈ post, d ≠ str!"attachment" ∧ d ≠ str!"inline") ∧
      ds.foldl (fun r d => if d == str!"attachment" || d == str!"inline" then str!" " ++ d else r) r = ' ' :: d := by
  induction ds generalizing r with
  | nil => exact .inl ⟨(fun d hd => by cases hd), rfl⟩
  | cons x ds ih =>
    rw [List.foldl_cons]
    rcases ih (if x == str!"attachment" || x == str!"inline" then str!" " ++ x else r) with ⟨h1, h2⟩ | ⟨pre, d, post, rfl, h2, h3, h4⟩
    · rw [h2]
      by_cases hx : x = str!"attachment" ∨ x = str!"inline"
      · refine .inr ⟨[], x, ds, rfl, hx, h1, ?_⟩
        rw [if_pos (by simpa using hx)]; rfl
      · rw [if_neg (by simpa using hx)]
        refine .inl ⟨fun d hd => ?_, rfl⟩
        cases hd with
        | head => exact not_or.mp hx
        | tail _ hd => exact h1 d hd
    · exact .inr ⟨x :: pre, d, post, rfl, h2, h3, h4⟩

theorem partText_spec (re : ReportEnv) (m : Msg) (n : Nat) (t : Str) : Description re m n t ↔ t = partText re m n := by
  have hs : ∀ sub, (m.getAll (str!"Subject") = [] ∧ sub = [] ∨ ∃ s l, m.getAll (str!"Subject") = s :: l ∧ sub = str!" (Subject: " ++ s ++ str!")") ↔
      sub = (match m.get (str!"subject") with | none => [] | some s => str!" (Subject: " ++ s ++ str!")") := by
    intro sub
    have : m.get (str!"subject") = (m.getAll (str!"Subject")).head? := rfl
    rw [this]
    cases m.getAll (str!"Subject") with
    | nil => simp
    | cons s l => simp
  have hc : ∀ cs, (re.charset m = none ∧ cs = [] ∨ ∃ c, re.charset m = some c ∧ cs = str!" (" ++ c ++ str!")") ↔
      cs = (match re.charset m with | none => [] | some c => str!" (" ++ c ++ str!")") := by
    intro cs
    cases re.charset m <;> simp
  have hd : ∀ d', ((∀ d ∈ re.dispositions m, d ≠ str!"attachment" ∧ d ≠ str!"inline") ∧ d' = [] ∨
      ∃ pre d post, re.dispositions m = pre ++ d :: post ∧ (d = str!"attachment" ∨ d = str!"inline") ∧
        (∀ d ∈ post, d ≠ str!"attachment" ∧ d ≠ str!"inline") ∧ d' = ' ' :: d) ↔ d' = disposition (re.dispositions m) := by
    intro d'
    constructor
    · intro h
      rcases disposition_spec (re.dispositions m) [] with ⟨h1, h2⟩ | ⟨pre, d, post, h1, h2, h3, h4⟩
      · rcases h with ⟨-, rfl⟩ | ⟨pre, d, post, g1, g2, g3, rfl⟩
        · exact h2.symm
        · have := h1 d (by rw [g1]; simp)
          rcases g2 with g2 | g2
          · exact absurd g2 this.1
          · exact absurd g2 this.2
      · rcases h with ⟨g1, -⟩ | ⟨pre', d₂, post', g1, g2, g3, rfl⟩
        · have := g1 d (by rw [h1]; simp)
          rcases h2 with h2 | h2
          · exact absurd h2 this.1
          · exact absurd h2 this.2
        · unfold disposition
          rw [h4]
          congr 1
          rw [h1] at g1
          rcases List.append_eq_append_iff.mp g1 with ⟨u, e1, e2⟩ | ⟨u, e1, e2⟩
          · cases u with
            | nil => rw [List.nil_append] at e2; exact (List.cons.inj e2).1.symm
            | cons y u =>
              rw [List.cons_append] at e2
              have : d₂ ∈ post := by rw [(List.cons.inj e2).2]; simp
              have := h3 _ this
              rcases g2 with g2 | g2
              · exact absurd g2 this.1
              · exact absurd g2 this.2
          · cases u with
            | nil => rw [List.nil_append] at e2; exact (List.cons.inj e2).1
            | cons y u =>
              rw [List.cons_append] at e2
              have : d ∈ post' := by rw [(List.cons.inj e2).2]; simp
              have := g3 _ this
              rcases h2 with h2 | h2
              · exact absurd h2 this.1
              · exact absurd h2 this.2
    · rintro rfl
      exact disposition_spec _ _
  unfold Description
  constructor
  · rintro ⟨cs, d, sub, rfl, h1, h2, h3⟩
    rw [(hc _).mp h1, (hd _).mp h2, (hs _).mp h3]
    unfold partText
    simp only [List.append_assoc, List.cons_append, List.nil_append]
    rfl
  · rintro rfl
    refine ⟨_, _, _, ?_, (hc _).mpr rfl, (hd _).mpr rfl, (hs _).mpr rfl⟩
    unfold partText
    simp only [List.append_assoc, List.cons_append, List.nil_append]
    rfl

theorem deeper_corner (above : Str) (last : Bool) : deeper (above ++ [corner last]) = above ++ [trunk last] := by
  cases last <;> simp [deeper, corner, trunk]

theorem join_cons {a : Str} {l : List Str} (h : l ≠ []) : Py.join (str!"\n") (a :: l) = a ++ str!"\n" ++ Py.join (str!"\n") l := by
  cases l with
  | nil => exact absurd rfl h
  | cons b l => rfl

theorem join_append {a b : List Str} (ha : a ≠ []) (hb : b ≠ []) :
    Py.join (str!"\n") (a ++ b) = Py.join (str!"\n") a ++ str!"\n" ++ Py.join (str!"\n") b := by
  induction a with
  | nil => exact absurd rfl ha
  | cons x a ih =>
    cases a with
    | nil => rw [List.cons_append, List.nil_append, join_cons hb]; rfl
    | cons y a =>
      rw [List.cons_append, join_cons (by simp), ih (by simp), join_cons (a := x) (by simp)]
      simp only [List.append_assoc]

theorem join_solid {l : List Str} (h : ∃ l' s, l = l' ++ [s] ∧ Solid s) : Solid (Py.join (str!"\n") l) := by
  obtain ⟨l', s, rfl, hs⟩ := h
  cases l' with
  | nil => exact hs
  | cons x l' => rw [join_append (by simp) (by simp)]; exact Solid.append hs _

mutual
theorem render_iff (re : ReportEnv) (above : Str) (last : Bool) (t : Str) : (m : Msg) →
    (render re (above ++ [corner last]) m = .ok t ↔ ∃ ls, Drawn re above last m ls ∧ t = Py.join (str!"\n") ls) ∧
      ∀ ls, Drawn re above last m ls → ∃ l' s, ls = l' ++ [s] ∧ Solid s
  | .mk hs p => by rw [render]; exact renderPayload_iff re above last t (.mk hs p) p rfl
theorem renderPayload_iff (re : ReportEnv) (above : Str) (last : Bool) (t : Str) (m : Msg) : (p : Payload Msg) → (hp : m.payload = p) →
    (renderPayload re (above ++ [corner last]) m p = .ok t ↔ ∃ ls, Drawn re above last m ls ∧ t = Py.join (str!"\n") ls) ∧
      ∀ ls, Drawn re above last m ls → ∃ l' s, ls = l' ++ [s] ∧ Solid s
  | .none, hp => by
    have : ∀ ls, ¬ Drawn re above last m ls := by
      intro ls h
      cases h with
      | leaf _ _ _ s u h => rw [hp] at h; cases h
      | node _ _ _ parts n u ls h => rw [hp] at h; cases h
    exact ⟨by rw [renderPayload]; exact ⟨(fun h => by cases h), fun ⟨ls, h, _⟩ => absurd h (this ls)⟩, fun ls h => absurd h (this ls)⟩
  | .text s, hp => by
    have hd : ∀ ls, Drawn re above last m ls ↔ ls = [above ++ corner last :: str!"─╴" ++ partText re m s.length] := by
      intro ls
      constructor
      · intro h
        cases h with
        | leaf _ _ _ s' u h1 h2 => rw [hp] at h1; cases h1; rw [(partText_spec ..).mp h2]
        | node _ _ _ parts n u ls h => rw [hp] at h; cases h
      · rintro rfl
        exact .leaf _ _ _ s _ hp ((partText_spec ..).mpr rfl)
    have hsol : Solid (above ++ corner last :: str!"─╴" ++ partText re m s.length) := (partText_solid ..).append _
    refine ⟨?_, fun ls h => ⟨[], _, (hd ls).mp h, hsol⟩⟩
    rw [renderPayload]
    have e : above ++ [corner last] ++ str!"─╴" ++ partText re m s.length = above ++ corner last :: str!"─╴" ++ partText re m s.length := by simp
    rw [e, hsol.rstrip]
    constructor
    · intro h; cases h; exact ⟨_, (hd _).mpr rfl, rfl⟩
    · rintro ⟨ls, h, rfl⟩; rw [(hd ls).mp h]; rfl
  | .multi parts, hp => by
    have ih := fun above t => renderParts_iff re above t parts
    have hd : ∀ ls, Drawn re above last m ls ↔ ∃ n l, re.asStringLen m = .ok n ∧ DrawnParts re (above ++ [trunk last]) parts l ∧
        ls = (above ++ corner last :: str!"┬╴" ++ partText re m n) :: l := by
      intro ls
      constructor
      · intro h
        cases h with
        | leaf _ _ _ s' u h1 h2 => rw [hp] at h1; cases h1
        | node _ _ _ parts' n u l h1 h2 h3 h4 => rw [hp] at h1; cases h1; rw [(partText_spec ..).mp h3]; exact ⟨n, l, h2, h4, rfl⟩
      · rintro ⟨n, l, h1, h2, rfl⟩
        exact .node _ _ _ parts n _ l hp h1 ((partText_spec ..).mpr rfl) h2
    refine ⟨?_, fun ls h => ?_⟩
    · rw [renderPayload, deeper_corner]
      cases hn : re.asStringLen m with
      | error e =>
        refine ⟨fun h => (nomatch h), fun ⟨ls, h, _⟩ => ?_⟩
        obtain ⟨n, l, h1, _⟩ := (hd ls).mp h
        rw [hn] at h1; cases h1
      | ok n =>
        dsimp only
        have e : ∀ s, above ++ [corner last] ++ str!"┬╴" ++ partText re m n ++ str!"\n" ++ s =
          (above ++ corner last :: str!"┬╴" ++ partText re m n) ++ str!"\n" ++ s := by intro s; simp
        constructor
        · intro h
          cases hr : renderParts re (above ++ [trunk last]) parts with
          | error e => rw [hr] at h; cases h
          | ok s =>
            rw [hr] at h
            obtain ⟨l, h1, rfl⟩ := (ih _ _).1.mp hr
            obtain ⟨l', x, h2, h3⟩ := (ih (above ++ [trunk last]) []).2 l h1
            refine ⟨_, (hd _).mpr ⟨n, l, hn, h1, rfl⟩, ?_⟩
            have h := Except.ok.inj h
            rw [← h, e, ← List.append_assoc, Solid.rstrip ((join_solid ⟨l', x, h2, h3⟩).append _), join_cons]
            rw [h2]; simp
        · rintro ⟨ls, h, rfl⟩
          obtain ⟨n', l, h1, h2, rfl⟩ := (hd ls).mp h
          rw [hn] at h1; cases h1
          obtain ⟨l', x, h3, h4⟩ := (ih (above ++ [trunk last]) []).2 l h2
          rw [(ih _ _).1.mpr ⟨l, h2, rfl⟩]
          dsimp only
          rw [e, ← List.append_assoc, Solid.rstrip ((join_solid ⟨l', x, h3, h4⟩).append _), join_cons]
          rw [h3]; simp
    · obtain ⟨n, l, h1, h2, rfl⟩ := (hd ls).mp h
      obtain ⟨l', x, rfl, h4⟩ := (ih (above ++ [trunk last]) []).2 l h2
      exact ⟨_ :: l', x, rfl, h4⟩
theorem renderParts_iff (re : ReportEnv) (above : Str) (t : Str) : (l : List Msg) →
    (renderParts re above l = .ok t ↔ ∃ ls, DrawnParts re above l ls ∧ t = Py.join (str!"\n") ls ++ str!"\n") ∧
      ∀ ls, DrawnParts re above l ls → ∃ l' s, ls = l' ++ [s] ∧ Solid s
  | [] => ⟨⟨(fun h => by rw [renderParts] at h; cases h), (fun ⟨ls, h, _⟩ => by cases h)⟩, (fun ls h => by cases h)⟩
  | m :: l => by
    have ih1 := fun last t => render_iff re above last t m
    have ih2 := fun t => renderParts_iff re above t l
    rw [renderParts]
    cases l with
    | nil =>
      have hd : ∀ ls, DrawnParts re above [m] ls ↔ Drawn re above true m ls := fun ls => ⟨fun h => by cases h; assumption, .last _ _ _⟩
      refine ⟨?_, fun ls h => (ih1 true []).2 ls ((hd ls).mp h)⟩
      constructor
      · intro h
        simp only [List.isEmpty_nil, if_true] at h
        cases hr : render re (above ++ str!"└") m with
        | error e => rw [hr] at h; cases h
        | ok s =>
          rw [hr] at h
          cases h
          obtain ⟨ls, h1, rfl⟩ := (ih1 true s).1.mp hr
          exact ⟨ls, (hd ls).mpr h1, rfl⟩
      · rintro ⟨ls, h, rfl⟩
        have := (ih1 true _).1.mpr ⟨ls, (hd ls).mp h, rfl⟩
        simp only [List.isEmpty_nil, if_true]
        rw [show str!"└" = [corner true] from rfl, this]
    | cons m' l =>
      have hd : ∀ ls, DrawnParts re above (m :: m' :: l) ls ↔ ∃ a b, Drawn re above false m a ∧ DrawnParts re above (m' :: l) b ∧ ls = a ++ b :=
        fun ls => ⟨fun h => by cases h with | more _ _ _ _ a b h1 h2 => exact ⟨a, b, h1, h2, rfl⟩, fun ⟨a, b, h1, h2, h3⟩ => h3 ▸ .more _ _ _ _ a b h1 h2⟩
      have hne : ∀ a b, Drawn re above false m a → DrawnParts re above (m' :: l) b → a ≠ [] ∧ b ≠ [] := by
        intro a b h1 h2
        obtain ⟨a', x, rfl, _⟩ := (ih1 false []).2 a h1
        obtain ⟨b', y, rfl, _⟩ := (ih2 []).2 b h2
        simp
      refine ⟨?_, fun ls h => ?_⟩
      · simp only [List.isEmpty_cons, Bool.false_eq_true, if_false]
        constructor
        · intro h
          cases hr : render re (above ++ str!"├") m with
          | error e => rw [hr] at h; cases h
          | ok s =>
            rw [hr] at h
            dsimp only at h
            cases hr2 : renderParts re above (m' :: l) with
            | error e => rw [hr2] at h; cases h
            | ok s2 =>
              rw [hr2] at h
              cases h
              obtain ⟨a, h1, rfl⟩ := (ih1 false s).1.mp hr
              obtain ⟨b, h2, rfl⟩ := (ih2 s2).1.mp hr2
              obtain ⟨n1, n2⟩ := hne a b h1 h2
              refine ⟨a ++ b, (hd _).mpr ⟨a, b, h1, h2, rfl⟩, ?_⟩
              rw [join_append n1 n2]
              simp only [List.append_assoc]
        · rintro ⟨ls, h, rfl⟩
          obtain ⟨a, b, h1, h2, rfl⟩ := (hd _).mp h
          obtain ⟨n1, n2⟩ := hne a b h1 h2
          have e1 := (ih1 false _).1.mpr ⟨a, h1, rfl⟩
          have e2 := (ih2 _).1.mpr ⟨b, h2, rfl⟩
          rw [show str!"├" = [corner false] from rfl, e1]
          dsimp only
          rw [e2]
          dsimp only
          rw [join_append n1 n2]
          simp only [List.append_assoc]
      · obtain ⟨a, b, h1, h2, rfl⟩ := (hd _).mp h
        obtain ⟨b', y, rfl, h3⟩ := (ih2 []).2 b h2
        exact ⟨a ++ b', y, by simp, h3⟩
end

/-! ## C101 -/

/-- C101: the structure of a message is drawn depth first, one line for each message in it, which shows where it belongs and its type, name,
size and subject. -/
theorem C101_drawn (re : ReportEnv) (m : Msg) (t : Str) :
    render re (str!"└") m = .ok t ↔ ∃ ls, Drawn re [] true m ls ∧ t = Py.join (str!"\n") ls :=
  (render_iff re [] true t m).1

/-- C101: every message which has text, or parts with text, is drawn -/
theorem C101_total {re : ReportEnv} {m : Msg} (h : Drawable re m) : ∃ t, render re (str!"└") m = .ok t := by
  suffices hs : ∀ above last, ∃ ls, Drawn re above last m ls by
    obtain ⟨ls, h⟩ := hs [] true
    exact ⟨_, (C101_drawn re m _).mpr ⟨ls, h, rfl⟩⟩
  induction h with
  | leaf m s h => exact fun above last => ⟨_, .leaf _ _ _ s _ h ((partText_spec ..).mpr rfl)⟩
  | node m parts n h1 h2 h3 h4 ih =>
    intro above last
    have key : ∀ above, ∃ ls, DrawnParts re above parts ls := by
      intro above
      clear h1 h4
      induction parts with
      | nil => exact absurd rfl h2
      | cons p l ihl =>
        cases l with
        | nil => obtain ⟨ls, h⟩ := ih p (.head _) above true; exact ⟨ls, .last _ _ _ h⟩
        | cons q l =>
          obtain ⟨a, ha⟩ := ih p (.head _) above false
          obtain ⟨b, hb⟩ := ihl (by simp) (fun x hx => ih x (.tail _ hx))
          exact ⟨_, .more _ _ _ _ a b ha hb⟩
    obtain ⟨ls, h⟩ := key (above ++ [trunk last])
    exact ⟨_, .node _ _ _ parts n _ ls h1 h3 ((partText_spec ..).mpr rfl) h⟩

namespace Concrete

/-- functions for reports -/
def reportEnv : ReportEnv where
  cmd := cmdEnv
  encodeText s := Py.b64encode (s.map fun c => c.toNat.toUInt8)
  traceback _ := str!"Traceback"
  filename m := if (m.get (str!"Content-Disposition")).isSome then str!"a.txt" else []
  charset _ := none
  dispositions m := if (m.get (str!"Content-Disposition")).isSome then [str!"attachment", str!"filename"] else []
  asStringLen _ := .ok 99

/-- a message with an attached message -/
def nested : Msg :=
  .mk [(str!"Content-Type", str!"multipart/mixed"), (str!"Subject", str!"s")] (.multi [
    .mk [(str!"Content-Type", str!"multipart/alternative")] (.multi [.mk [] (.text (str!"abc")), .mk [(str!"Content-Type", str!"text/html")] (.text [])]),
    .mk [(str!"Content-Disposition", str!"attachment; filename=a.txt")] (.text (str!"ab"))])

/-- C101 -/
example : (Report.render reportEnv (str!"└") nested).toOption = some (Py.join (str!"\n")
      [str!"└┬╴multipart/mixed [] 99 bytes (Subject: s)", str!" ├┬╴multipart/alternative [] 99 bytes", str!" │├─╴text/plain [] 3 bytes",
       str!" │└─╴text/html [] 0 bytes", str!" └─╴text/plain attachment [a.txt] 2 bytes"]) ∧
    Drawable reportEnv nested ∧ (Report.render reportEnv (str!"└") (.mk [] (.multi []))).toOption = none := by
  refine ⟨by decide +kernel, ?_, by decide +kernel⟩
  refine .node _ _ 99 rfl (by simp) rfl fun p hp => ?_
  simp only [List.mem_cons, List.not_mem_nil, or_false] at hp
  rcases hp with rfl | rfl
  · refine .node _ _ 99 rfl (by simp) rfl fun p hp => ?_
    simp only [List.mem_cons, List.not_mem_nil, or_false] at hp
    rcases hp with rfl | rfl
    · exact .leaf _ _ rfl
    · exact .leaf _ _ rfl
  · exact .leaf _ _ rfl

end Concrete

end Verif
