import Verif.Props.HowMuch

/-!
C135 for calls and commands which are interrupted, and for histories: how many mails are sent and how many keys are made at most.
-/
namespace Verif

variable {K : Type}

/-- what was done by an interrupted program is done by the whole one first -/
theorem runFor_trace_run {σ : Type} (S : StoreImpl σ) (O : Oracle K) {α : Type} (p : Prog α) (n : Nat) (w : World σ K) :
    (runFor S O n p w).trace <:+ (run S O p w).2.trace := by
  induction p generalizing n w with
  | pure a => cases n <;> exact List.suffix_rfl
  | raise e => cases n <;> exact List.suffix_rfl
  | op o k ih =>
    cases n with
    | zero => exact run_trace _ _
    | succ n => exact ih _ n _

/-- C135: the limits for runs of gpg hold of calls which are interrupted, too. -/
theorem C135_killed (O : Oracle K) (env : Env) (c : ApiCall) (h1 : ∀ n m i d, c ≠ .processIncoming n m i d) (h2 : ∀ n a k p, c ≠ .importKey n a k p)
    (i : Nat) (w : World Store K) (u : GpgTask) (hu : u ≠ .version) :
    runsFor u (runFor Store.impl O i (c.prog env) w).trace ≤ runsFor u w.trace + c.gpgRuns.count u :=
  Nat.le_trans (runsFor_mono (runFor_trace_run _ _ _ _ _) u) ((C135_calls O env c h1 h2 w).1 u hu)

/-- this is a command which sends mail, interrupted or not -/
def Happening.sends : Happening K → Bool
  | .command _ _ c | .commandKilled _ _ c _ => c.sends
  | _ => false

/-- an account is added for which a key is made, by a call or a command, interrupted or not -/
def Happening.addsNew : Happening K → Bool
  | .call (.addAccount _ _ none _ _) | .killed (.addAccount _ _ none _ _) _ => true
  | .command _ _ (.addAccount _ _ none _ _) | .commandKilled _ _ (.addAccount _ _ none _ _) _ => true
  | _ => false

/-- what each step adds at most is added by all at most as often as there are such steps -/
theorem runHistory_count {O : Oracle K} {env : Env} {μ : List Event → Nat} {f : Happening K → Bool} {hist : List (Happening K)}
    (h : ∀ x : Happening K, ∀ w : World Store K, μ (x.after Store.impl O env w).trace ≤ μ w.trace + (if f x then 1 else 0)) (w : World Store K) :
    μ (runHistory Store.impl O env hist w).trace ≤ μ w.trace + hist.countP f := by
  induction hist generalizing w with
  | nil => exact Nat.le_refl _
  | cons x hist ih =>
    refine Nat.le_trans (ih _) ?_
    have := h x w
    rw [List.countP_cons]
    omega

/-- C135: whatever is done and wherever it is interrupted, there are at most as many mails as commands which send one. -/
theorem C135_history_mails (O : Oracle K) (env : Env) (hist : List (Happening K)) (w : World Store K) :
    mailsSent (runHistory Store.impl O env hist w).trace ≤ mailsSent w.trace + hist.countP Happening.sends := by
  refine runHistory_count (fun x w => ?_) w
  cases x with
  | call c => exact Nat.le_of_eq (C135_no_mail O env c w)
  | killed c n => exact Nat.le_trans (mailsSent_mono (runFor_trace_run _ _ _ _ _)) (Nat.le_of_eq (C135_no_mail O env c w))
  | command ce be c => exact C135_commands O ce be env c w
  | commandKilled ce be c n => exact Nat.le_trans (mailsSent_mono (runFor_trace_run _ _ _ _ _)) (C135_commands O ce be env c w)
  | outside k => exact Nat.le_refl _

theorem uses_generate {α : Type} {p : Prog α} {T : List GpgTask} (h : p.AllOps (Op.uses T)) (hT : GpgTask.generate ∉ T) {n : Nat} :
    p.AtMost (Op.cost (.run .generate)) n := by
  refine .free (h.mono fun o ho => ?_)
  cases o with
  | ext o =>
    cases o with
    | gpg argv stdin =>
      obtain ⟨u, hu, hr⟩ := ho
      show (if commandWord argv = some GpgTask.generate.word then 1 else 0) = 0
      rw [hr.word, if_neg]
      intro e
      have : u = .generate := by cases u <;> first | rfl | exact absurd e (by decide)
      exact hT (this ▸ hu)
    | _ => rfl
  | _ => rfl

theorem command_generate (K : Type) (ce : CmdEnv) (be : BotEnv) (env : Env) (c : Cmd.Command) :
    (c.prog ce be env).AtMost (Op.cost (.run .generate)) (if (Happening.command ce be c : Happening K).addsNew then 1 else 0) := by
  by_cases hg : GpgTask.generate ∈ c.tasks
  · obtain ⟨n, s, b, r, rfl⟩ : ∃ n s b r, c = .addAccount n s none b r := by
      cases c
      case addAccount n s k b r =>
        cases k with
        | none => exact ⟨n, s, b, r, rfl⟩
        | some k => exact absurd hg (by simp [Cmd.Command.tasks])
      case processIncoming n r nd m => cases nd <;> exact absurd hg (by simp [Cmd.Command.tasks])
      all_goals exact absurd hg (by simp [Cmd.Command.tasks])
    have hb : ((Cmd.Command.addAccount n s none b r).body ce be env).AtMost (Op.cost (.run .generate)) 1 := by
      have h1 := addAccount_takes env n r none b (if s then str!"system" else str!"own") (.run .generate) (by decide)
      refine Prog.AtMost.bind (n := 1) (m := 0) h1 fun a => ?_
      refine uses_generate (T := [.version, .listPublic]) ?_ (by decide)
      exact .bind (Cmd.say_uses _) fun _ => .bind (Cmd.statusAccount_uses ce env _ _) fun _ => trivial
    unfold Cmd.Command.prog; simp only [bind_eq, pure_eq]
    refine .bind (n := 1) (m := 0) hb.attempt fun r => ?_
    refine uses_generate (T := []) ?_ (by decide)
    split
    · trivial
    · split
      · exact .bind (Cmd.say_uses _) fun _ => trivial
      · trivial
  · exact uses_generate (command_uses ce be env c) hg

theorem call_generate (O : Oracle K) (env : Env) (c : ApiCall) (w : World Store K) :
    runsFor .generate (exec O (c.prog env) w).2.trace ≤ runsFor .generate w.trace + (if (Happening.call c : Happening K).addsNew then 1 else 0) := by
  by_cases hg : GpgTask.generate ∈ c.tasks
  · obtain ⟨n, r, b, m, rfl⟩ : ∃ n r b m, c = .addAccount n r none b m := by
      cases c
      case addAccount n r k b m =>
        cases k with
        | none => exact ⟨n, r, b, m, rfl⟩
        | some k => exact absurd hg (by simp [ApiCall.tasks])
      case processIncoming n m i nd => cases nd <;> exact absurd hg (by simp [ApiCall.tasks])
      all_goals exact absurd hg (by simp [ApiCall.tasks])
    exact (C135_calls O env _ (by intros; exact nofun) (by intros; exact nofun) w).1 .generate (by decide)
  · exact Nat.le_trans ((uses_generate (call_uses env c) hg (n := 0)).run_le (Item.step_le (.run .generate) O) w) (Nat.le_add_right ..)

/-- C135: whatever is done and wherever it is interrupted, gpg makes at most as many keys as accounts are added without a key of the user. -/
theorem C135_history_keys (O : Oracle K) (env : Env) (hist : List (Happening K)) (w : World Store K) :
    runsFor .generate (runHistory Store.impl O env hist w).trace ≤ runsFor .generate w.trace + hist.countP Happening.addsNew := by
  have hc : ∀ ce be (c : Cmd.Command) (w : World Store K), runsFor .generate (exec O (c.prog ce be env) w).2.trace ≤
      runsFor .generate w.trace + (if (Happening.command ce be c : Happening K).addsNew then 1 else 0) :=
    fun ce be c w => (command_generate K ce be env c).run_le (Item.step_le (.run .generate) O) w
  refine runHistory_count (fun x w => ?_) w
  cases x with
  | call c => exact call_generate O env c w
  | killed c n =>
    have h : (Happening.killed c n : Happening K).addsNew = (Happening.call c : Happening K).addsNew := by
      cases c with
      | addAccount _ _ k _ _ => cases k <;> rfl
      | _ => rfl
    rw [h]
    exact Nat.le_trans (runsFor_mono (runFor_trace_run _ _ _ _ _) _) (call_generate O env c w)
  | command ce be c => exact hc ce be c w
  | commandKilled ce be c n =>
    have h : (Happening.commandKilled ce be c n : Happening K).addsNew = (Happening.command ce be c : Happening K).addsNew := by
      cases c with
      | addAccount _ _ k _ _ => cases k <;> rfl
      | _ => rfl
    rw [h]
    exact Nat.le_trans (runsFor_mono (runFor_trace_run _ _ _ _ _) _) (hc ce be c w)
  | outside k => exact Nat.le_refl _

section
open Concrete

/-- two accounts are added, one of them by a command: the limit is reached. If adding dies before the key is made there is one less. -/
example :
    let add : Cmd.Command := .addAccount (str!"b") false none (str!"gpg") none
    let reply : Cmd.Command := .botReply botValues (some (str!"h,25")) none (botMail bob (str!"bot@x.org") [])
    let hist : List (Happening Unit) := [.call addA, .command cmdEnv botEnv add, .command cmdEnv botEnv reply]
    runsFor .generate (runHistory Store.impl oracle Concrete.env hist world0).trace = 2 ∧ hist.countP Happening.addsNew = 2 ∧
    hist.countP Happening.sends = 1 ∧
    runsFor .generate (runHistory Store.impl oracle Concrete.env [.killed addA 2, .command cmdEnv botEnv add] world0).trace = 1 := by
  decide +kernel

example : mailsSent (runHistory Store.impl oracle Concrete.env
    [.command cmdEnv botEnv (.botReply botValues (some (str!"h,25")) none (botMail bob (str!"bot@x.org") []))] recWorld).trace = mailsSent recWorld.trace + 1 := by
  decide +kernel

end

end Verif
