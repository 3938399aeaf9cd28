import Verif.Props.AnyTime
import Verif.Props.Cmdline

/-!
C129 for scans of directories (`cmdline.py:284-355`): with another clock a scan does the same if no mail gets another date by that and the same files
and mails count as recent.
-/
namespace Verif
open Mime

variable {K α β : Type}

/-- the same files and mails count as recent when the scan begins, with either clock -/
def SameAges (env : Env) (files : List Cmd.MailFile) (w w' : World Store K) : Prop :=
  ∀ f ∈ files, (Recent (w.clock w.tick) f.mtime ↔ Recent (w'.clock w'.tick) f.mtime) ∧
    ∀ d, DateOf env f.msg d → ∀ i, w.tick < i → (Recent (w.clock w.tick) (min d (w.clock i)) ↔ Recent (w'.clock w'.tick) (min d (w'.clock i)))

/-- states which are the same but for the clocks, which are these -/
structure Apart (env : Env) (ms : List Msg) (c c' : Nat → Time) (t : Nat) (w w' : World Store K) : Prop where
  other : OtherClock env ms w w'
  left : w.clock = c
  right : w'.clock = c'
  from_ : t ≤ w.tick

/-- two programs do the same from these states -/
def Alongside (O : Oracle K) (env : Env) (ms : List Msg) (c c' : Nat → Time) (t : Nat) (p p' : Prog α) (w w' : World Store K) : Prop :=
  (exec O p w).1 = (exec O p' w').1 ∧ Apart env ms c c' t (exec O p w).2 (exec O p' w').2

section
variable {O : Oracle K} {env : Env} {ms : List Msg} {c c' : Nat → Time} {t : Nat} {w w' : World Store K}

theorem Alongside.bind {p p' : Prog α} {f f' : α → Prog β} (h : Alongside O env ms c c' t p p' w w')
    (hf : ∀ a w w', Apart env ms c c' t w w' → Alongside O env ms c c' t (f a) (f' a) w w') : Alongside O env ms c c' t (p.bind f) (p'.bind f') w w' := by
  unfold Alongside exec at *
  rw [run_bind, run_bind]
  revert h hf
  rcases run Store.impl O p w with ⟨x, w1⟩
  rcases run Store.impl O p' w' with ⟨x', w1'⟩
  intro h hf
  obtain ⟨h1, h2⟩ := h
  dsimp only at h1 h2
  subst h1
  cases x with
  | error e => exact ⟨rfl, h2⟩
  | ok a => exact hf a _ _ h2

theorem Anytime.alongside {p : Prog α} (h : Anytime (LikeDates env ms) p) (hw : Apart env ms c c' t w w') : Alongside O env ms c c' t p p w w' := by
  obtain ⟨h1, h2⟩ := h.clock K O w w' hw.other
  exact ⟨h1, h2, (run_clock p w).1.trans hw.left, (run_clock p w').1.trans hw.right, Nat.le_trans hw.from_ (run_clock p w).2⟩

theorem anytime_scanRoutable (r : Bool) {m : Msg} (hm : m ∈ ms) : Anytime (LikeDates env ms) (Cmd.scanRoutable env r m) := by
  unfold Cmd.scanRoutable; simp only [bind_eq, pure_eq]
  refine .bind (.attempt (.of_looks (Manager.timeless_getMatchingAccount env m))) fun a => ?_
  cases a with
  | error e => dsimp only; split <;> trivial
  | ok a =>
    cases a with
    | none => trivial
    | some a =>
      refine .bind (.attempt (anytime_incoming env ms a m hm _ _)) fun x => ?_
      cases x with
      | error e => dsimp only; split <;> trivial
      | ok x =>
        cases x with
        | none => trivial
        | some x =>
          dsimp only
          cases x.pah.error with
          | some e => trivial
          | none => exact .of_looks (.bind (.chain trivial) fun _ => .pure _)

theorem alongside_scanFile (r : Bool) {now now' : Time} {f : Cmd.MailFile} (hm : f.msg ∈ ms) (h1 : Recent now f.mtime ↔ Recent now' f.mtime)
    (h2 : ∀ d, DateOf env f.msg d → ∀ i, t ≤ i → (Recent now (min d (c i)) ↔ Recent now' (min d (c' i)))) (hw : Apart env ms c c' t w w') :
    Alongside O env ms c c' t (Cmd.scanFile env r now f) (Cmd.scanFile env r now' f) w w' := by
  have hold : ∀ {x x'}, (Recent now x ↔ Recent now' x') → Cmd.isTooOld now x = Cmd.isTooOld now' x' := by
    intro x x' h
    cases hx : Cmd.isTooOld now x with
    | false => exact (isTooOld_false.mpr (h.mp (isTooOld_false.mp hx))).symm
    | true =>
      cases hx' : Cmd.isTooOld now' x' with
      | true => rfl
      | false => rw [isTooOld_false.mpr (h.mpr (isTooOld_false.mp hx'))] at hx; cases hx
  unfold Cmd.scanFile; simp only [bind_eq, pure_eq]
  rw [hold h1]
  split
  · exact ⟨rfl, hw⟩
  · split
    · exact ⟨rfl, hw⟩
    · cases hd : parseDateToFloat env (f.msg.get (str!"Date")) with
      | error e => exact ⟨rfl, hw⟩
      | ok d =>
        have hdd := parseDateToFloat_ok.mp hd
        have hnext : Apart env ms c c' t { w with tick := w.tick + 1 } { w' with tick := w'.tick + 1 } := by
          obtain ⟨⟨a1, a2, a3, a4, a5⟩, b, b', b''⟩ := hw
          exact ⟨⟨a1, by dsimp only; rw [a2], a3, a4, fun i hi => a5 i (Nat.le_of_succ_le hi)⟩, b, b', Nat.le_succ_of_le b''⟩
        have hage : Cmd.isTooOld now (min d (w.clock w.tick)) = Cmd.isTooOld now' (min d (w'.clock w'.tick)) := by
          rw [← hw.other.tick, hw.left, hw.right]; exact hold (h2 d hdd _ hw.from_)
        show Alongside O env ms c c' t
          (if Cmd.isTooOld now (min d (w.clock w.tick)) = true then Prog.pure Cmd.ScanResult.oldDate else Cmd.scanRoutable env r f.msg)
          (if Cmd.isTooOld now' (min d (w'.clock w'.tick)) = true then Prog.pure Cmd.ScanResult.oldDate else Cmd.scanRoutable env r f.msg) _ _
        rw [hage]
        split
        · exact ⟨rfl, hnext⟩
        · exact (anytime_scanRoutable r hm).alongside hnext

theorem alongside_scanFiles (ce : CmdEnv) (r : Bool) {now now' : Time} {files : List Cmd.MailFile} (hm : ∀ f ∈ files, f.msg ∈ ms)
    (hf : ∀ f ∈ files, (Recent now f.mtime ↔ Recent now' f.mtime) ∧
      ∀ d, DateOf env f.msg d → ∀ i, t ≤ i → (Recent now (min d (c i)) ↔ Recent now' (min d (c' i)))) (n : Nat) (hw : Apart env ms c c' t w w') :
    Alongside O env ms c c' t (Cmd.scanFiles ce env r now n files) (Cmd.scanFiles ce env r now' n files) w w' := by
  induction files generalizing n w w' with
  | nil => exact ⟨rfl, hw⟩
  | cons f fs ih =>
    unfold Cmd.scanFiles; simp only [bind_eq, pure_eq]
    obtain ⟨h1, h2⟩ := hf f List.mem_cons_self
    refine .bind (alongside_scanFile r (hm f List.mem_cons_self) h1 h2 hw) fun x w w' hw => ?_
    refine .bind (Anytime.alongside (.of_looks ?_) hw) fun _ w w' hw => ?_
    · unfold Cmd.sayOpt; split
      · exact Cmd.looks_say _
      · exact .pure _
    exact .bind (ih (fun x hx => hm x (List.mem_cons_of_mem _ hx)) (fun x hx => hf x (List.mem_cons_of_mem _ hx)) _ hw) fun _ w w' hw => ⟨rfl, hw⟩
end

/-- **C129, scans.** With another clock the scan of a directory finds, prints, runs and stores the same, if none of its mails gets another date by that and
the same files and mails count as recent. -/
theorem C129_scan (O : Oracle K) (ce : CmdEnv) (be : BotEnv) (env : Env) (r : Bool) (files : List Cmd.MailFile) {w w' : World Store K}
    (hw : OtherClock env (files.map (·.msg)) w w') (ha : SameAges env files w w') :
    (exec O (Cmd.scandir ce env r files) w).1 = (exec O (Cmd.scandir ce env r files) w').1 ∧
    (exec O ((Cmd.Command.scandir r files).prog ce be env) w).1 = (exec O ((Cmd.Command.scandir r files).prog ce be env) w').1 ∧
    OtherClock env (files.map (·.msg)) (exec O ((Cmd.Command.scandir r files).prog ce be env) w).2
      (exec O ((Cmd.Command.scandir r files).prog ce be env) w').2 := by
  have hnext : Apart env (files.map (·.msg)) w.clock w'.clock (w.tick + 1) { w with tick := w.tick + 1 } { w' with tick := w'.tick + 1 } := by
    obtain ⟨a1, a2, a3, a4, a5⟩ := hw
    exact ⟨⟨a1, by dsimp only; rw [a2], a3, a4, fun i hi => a5 i (Nat.le_of_succ_le hi)⟩, rfl, rfl, Nat.le_refl _⟩
  have hs : Alongside O env (files.map (·.msg)) w.clock w'.clock (w.tick + 1) (Cmd.scandir ce env r files) (Cmd.scandir ce env r files) w w' :=
    alongside_scanFiles (O := O) ce r (fun f hf => List.mem_map.mpr ⟨f, hf, rfl⟩) ha 0 hnext
  refine ⟨hs.1, ?_⟩
  have hb : Alongside O env (files.map (·.msg)) w.clock w'.clock (w.tick + 1) ((Cmd.Command.scandir r files).body ce be env)
      ((Cmd.Command.scandir r files).body ce be env) w w' :=
    .bind hs fun _ w w' hw => ⟨rfl, hw⟩
  have hc : Alongside O env (files.map (·.msg)) w.clock w'.clock (w.tick + 1) ((Cmd.Command.scandir r files).prog ce be env)
      ((Cmd.Command.scandir r files).prog ce be env) w w' := by
    unfold Cmd.Command.prog; simp only [bind_eq, pure_eq]
    refine .bind ?_ fun x w w' hw => ?_
    · unfold Alongside exec at hb ⊢
      rw [run_attempt, run_attempt]
      exact ⟨congrArg Except.ok hb.1, hb.2⟩
    · refine Anytime.alongside (.of_looks ?_) hw
      cases x with
      | ok x => exact .pure _
      | error e => looks [Cmd.looks_say]
  exact ⟨hc.1, hc.2.other⟩

open Concrete

/-- a directory with one mail -/
def Concrete.folder : List Cmd.MailFile := [{ name := str!"1", mtime := sec 100, msg := mail bob (str!"1") (str!"100") [7] }]

/-- the clock stands still -/
def Concrete.standing (t : Time) : World Store Unit := { after [addA] with clock := fun _ => t }

/-- an hour more or less makes no difference -/
example : OtherClock env (folder.map (·.msg)) (standing (sec 1000)) (standing (sec 5000)) ∧ SameAges env folder (standing (sec 1000)) (standing (sec 5000)) ∧
    (exec oracle (Cmd.scandir cmdEnv env false folder) (standing (sec 5000))).1.toOption = some [.found (str!"a") bob (str!"AAAAAAAAAAAA07") true] := by
  have date : ∀ d, DateOf env (mail bob (str!"1") (str!"100") [7]) d → d = sec 100 := by
    intro d hd
    rw [← parseDateToFloat_ok] at hd
    exact (Except.ok.inj (hd.symm.trans (show _ = Except.ok (sec 100) by rfl)))
  refine ⟨⟨rfl, rfl, rfl, rfl, fun i _ m hm d hd => ?_⟩, fun f hf => ?_, by decide +kernel⟩
  · cases List.mem_singleton.mp hm
    cases date d hd
    show min (sec 100) (sec 1000) = min (sec 100) (sec 5000)
    decide +kernel
  · cases List.mem_singleton.mp hf
    refine ⟨?_, fun d hd i _ => ?_⟩
    · show sec 1000 - sec 100 ≤ sec 7776000 ↔ sec 5000 - sec 100 ≤ sec 7776000
      decide +kernel
    · cases date d hd
      show sec 1000 - min (sec 100) (sec 1000) ≤ sec 7776000 ↔ sec 5000 - min (sec 100) (sec 5000) ≤ sec 7776000
      decide +kernel

/-- half a year does -/
example : (exec oracle (Cmd.scandir cmdEnv env false folder) (standing (sec 15000000))).1.toOption = some [.oldFile] := by
  decide +kernel

end Verif
