import Verif.Model.Store
/-!
# Lemmas about running programs
-/
namespace Verif

variable {σ K : Type} {α β : Type}

/-- runs over the abstract store -/
abbrev exec (O : Oracle K) (p : Prog α) (w : World Store K) : Except Exc α × World Store K :=
  run Store.impl O p w

@[simp] theorem bind_eq (p : Prog α) (f : α → Prog β) : p >>= f = p.bind f := rfl
@[simp] theorem pure_eq (a : α) : (pure a : Prog α) = .pure a := rfl

theorem run_bind (S : StoreImpl σ) (O : Oracle K) (p : Prog α) (f : α → Prog β) (w : World σ K) :
    run S O (p.bind f) w =
      match run S O p w with
      | (.ok a, w') => run S O (f a) w'
      | (.error e, w') => (.error e, w') := by
  induction p generalizing w with
  | pure a => rfl
  | raise e => rfl
  | op o k ih => simp only [Prog.bind, run]; rw [ih]

theorem run_tryCatch (S : StoreImpl σ) (O : Oracle K) (p : Prog α) (h : Exc → Prog α) (w : World σ K) :
    run S O (p.tryCatch h) w =
      match run S O p w with
      | (.ok a, w') => (.ok a, w')
      | (.error e, w') => run S O (h e) w' := by
  induction p generalizing w with
  | pure a => rfl
  | raise e => rfl
  | op o k ih => simp only [Prog.tryCatch, run]; rw [ih]

theorem run_attempt (S : StoreImpl σ) (O : Oracle K) (p : Prog α) (w : World σ K) :
    run S O p.attempt w = (.ok (run S O p w).1, (run S O p w).2) := by
  simp only [Prog.attempt, run_tryCatch, run_bind]
  rcases run S O p w with ⟨_ | _, _⟩ <;> rfl

@[simp] theorem run_pure (S : StoreImpl σ) (O : Oracle K) (a : α) (w : World σ K) :
    run S O (.pure a) w = (.ok a, w) := rfl
@[simp] theorem run_raise (S : StoreImpl σ) (O : Oracle K) (e : Exc) (w : World σ K) :
    run S O (.raise e : Prog α) w = (.error e, w) := rfl

@[simp] theorem run_ofExcept (S : StoreImpl σ) (O : Oracle K) (x : Except Exc α) (w : World σ K) :
    run S O (Prog.ofExcept x) w = (x, w) := by cases x <;> rfl

@[simp] theorem run_now (S : StoreImpl σ) (O : Oracle K) (w : World σ K) :
    run S O Prog.now w = (.ok (w.clock w.tick), { w with tick := w.tick + 1 }) := rfl

@[simp] theorem exec_chain (O : Oracle K) (h : Str) (w : World Store K) :
    exec O (Prog.chain h) w = (.ok (w.store.get h), w) := rfl

@[simp] theorem exec_append (O : Oracle K) (h : Str) (e : Entry) (w : World Store K) :
    exec O (Prog.append h e) w = (.ok (), { w with store := w.store.push h e, tick := w.tick + 1 }) := rfl

@[simp] theorem exec_heads (O : Oracle K) (w : World Store K) :
    exec O Prog.heads w = (.ok w.store.names, w) := rfl

@[simp] theorem exec_removeIf (O : Oracle K) (p : Str → Bool) (w : World Store K) :
    exec O (Prog.removeIf p) w = (.ok (), { w with store := w.store.removeIf p }) := rfl

theorem run_assert (S : StoreImpl σ) (O : Oracle K) (b : Bool) (w : World σ K) :
    run S O (Prog.assert b) w = if b then (.ok (), w) else (.error .assertionError, w) := by
  cases b <;> rfl

/-- `p` run from `w` ends normally with `a` in `w'` -/
theorem run_bind_ok {S : StoreImpl σ} {O : Oracle K} {p : Prog α} {f : α → Prog β} {w w' : World σ K} {b : β} :
    run S O (p.bind f) w = (.ok b, w') ↔
      ∃ a w1, run S O p w = (.ok a, w1) ∧ run S O (f a) w1 = (.ok b, w') := by
  rw [run_bind]
  rcases run S O p w with ⟨_ | a, w1⟩
  · simp
  · constructor
    · intro h; exact ⟨a, w1, rfl, h⟩
    · rintro ⟨a', w1', h1, h2⟩; cases h1; exact h2

/-- `p` run from `w` ends with an exception -/
theorem run_bind_error {S : StoreImpl σ} {O : Oracle K} {p : Prog α} {f : α → Prog β} {w w' : World σ K} {e : Exc} :
    run S O (p.bind f) w = (.error e, w') ↔
      run S O p w = (.error e, w') ∨ ∃ a w1, run S O p w = (.ok a, w1) ∧ run S O (f a) w1 = (.error e, w') := by
  rw [run_bind]
  rcases run S O p w with ⟨_ | a, w1⟩
  · simp
  · constructor
    · intro h; exact Or.inr ⟨a, w1, rfl, h⟩
    · rintro (h | ⟨a', w1', h1, h2⟩)
      · cases h
      · cases h1; exact h2

theorem run_gpg (S : StoreImpl σ) (O : Oracle K) (argv : List Str) (stdin : Option Bytes) (w : World σ K) :
    run S O (Prog.gpg argv stdin) w =
      (((O.step (.gpg argv stdin) w.env).1 : Except Exc GpgOut),
       { w with env := (O.step (.gpg argv stdin) w.env).2,
                trace := ⟨.gpg argv stdin, (O.step (.gpg argv stdin) w.env).1⟩ :: w.trace }) :=
  run_ofExcept ..

/-- the trace only grows -/
theorem run_trace {S : StoreImpl σ} {O : Oracle K} (p : Prog α) (w : World σ K) : w.trace <:+ (run S O p w).2.trace := by
  induction p generalizing w with
  | pure a => exact List.suffix_rfl
  | raise e => exact List.suffix_rfl
  | op o k ih =>
    simp only [run]
    refine List.IsSuffix.trans ?_ (ih _ _)
    cases o <;> first | exact List.suffix_rfl | exact List.suffix_cons _ _

theorem _root_.Except.eq_ok_of_toOption {ε : Type} {x : Except ε α} {a : α} (h : x.toOption = some a) : x = .ok a := by
  cases x <;> cases h; rfl

/-! ## Which operations a program can perform -/

/-- every operation which any run of the program can perform satisfies `P` -/
def Prog.AllOps (P : Op → Prop) : Prog α → Prop
  | .pure _ => True
  | .raise _ => True
  | .op o k => P o ∧ ∀ r, (k r).AllOps P

namespace Prog.AllOps
variable {P Q : Op → Prop}

@[simp] theorem pure (a : α) : (Prog.pure a).AllOps P := trivial
@[simp] theorem raise (e : Exc) : (Prog.raise e : Prog α).AllOps P := trivial

theorem bind {p : Prog α} {f : α → Prog β} (hp : p.AllOps P) (hf : ∀ a, (f a).AllOps P) :
    (p.bind f).AllOps P := by
  induction p with
  | pure a => exact hf a
  | raise e => trivial
  | op o k ih => exact ⟨hp.1, fun r => ih r (hp.2 r)⟩

theorem tryCatch {p : Prog α} {h : Exc → Prog α} (hp : p.AllOps P) (hh : ∀ e, (h e).AllOps P) :
    (p.tryCatch h).AllOps P := by
  induction p with
  | pure a => trivial
  | raise e => exact hh e
  | op o k ih => exact ⟨hp.1, fun r => ih r (hp.2 r)⟩

theorem attempt {p : Prog α} (hp : p.AllOps P) : p.attempt.AllOps P :=
  tryCatch (bind hp (fun _ => trivial)) (fun _ => trivial)

theorem finally_ {p : Prog α} {f : Prog Unit} (hp : p.AllOps P) (hf : f.AllOps P) :
    (p.finally_ f).AllOps P :=
  bind (attempt hp) (fun r => bind hf (fun _ => by cases r <;> trivial))

@[simp] theorem ofExcept (x : Except Exc α) : (Prog.ofExcept x).AllOps P := by cases x <;> trivial
@[simp] theorem assert (b : Bool) : (Prog.assert b).AllOps P := by cases b <;> trivial

theorem mono {p : Prog α} (h : ∀ o, P o → Q o) (hp : p.AllOps P) : p.AllOps Q := by
  induction p with
  | pure a => trivial
  | raise e => trivial
  | op o k ih => exact ⟨h o hp.1, fun r => ih r (hp.2 r)⟩

end Prog.AllOps

/-- an invariant of worlds which every allowed operation preserves holds after a run -/
theorem run_invariant {S : StoreImpl σ} {O : Oracle K} {P : Op → Prop} {I : World σ K → Prop}
    (hstep : ∀ o w, P o → I w → I (step S O o w).2)
    {p : Prog α} (hp : p.AllOps P) {w : World σ K} (hw : I w) : I (run S O p w).2 := by
  induction p generalizing w with
  | pure a => exact hw
  | raise e => exact hw
  | op o k ih => exact ih _ (hp.2 _) (hstep o w hp.1 hw)

end Verif
