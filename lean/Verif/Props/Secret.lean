import Verif.Lemmas.SecretCmd
import Verif.Spec.Concrete
import Verif.Props.EveryRun
/-!
# C126: secret keys are shown by `export-secret-key` only

Two runs are compared, which start in states that are the same apart from recorded secret keys, in environments which behave in the same way
apart from the secret keys that gpg writes when it is told to write one. Everything that can be observed is the same in both runs.
-/
namespace Verif
variable {α K : Type}

/-- what a program gives and what it does outside doesn't depend on secret keys, and the states after it are again the same apart from them -/
def Discreet (p : Prog α) : Prop :=
  ∀ (K : Type) (O O' : Oracle K) (w w' : World Store K), OraclesLike O O' → WorldsLike w w' →
    (exec O p w).1 = (exec O' p w').1 ∧ (exec O p w).2.ops = (exec O' p w').2.ops ∧ WorldsLike (exec O p w).2 (exec O' p w').2

theorem WorldsLike.ops {w w' : World Store K} (h : WorldsLike w w') : w.ops = w'.ops := by
  unfold World.ops
  have := h.trace
  generalize w.trace = l at this
  generalize w'.trace = l' at this
  induction this with
  | nil => rfl
  | cons h _ ih =>
    obtain ⟨op, r, r', rfl, rfl, -⟩ := h
    exact congrArg (op :: ·) ih

theorem Same.discreet {p : Prog α} (h : Same p) : Discreet p := fun K O O' w w' hO hw => by
  obtain ⟨h1, h2⟩ := Like.run hO h hw
  refine ⟨?_, h2.ops, h2⟩
  rcases h1 with ⟨a, a', h3, h4, rfl⟩ | ⟨e, h3, h4⟩ <;> rw [h3, h4]

/-- **C126, calls.** -/
theorem C126_calls (env : Env) (c : ApiCall) : Discreet (c.prog env) := (same_call env c).discreet

/-- **C126, commands.** For every command but `export-secret-key`, the exit status (or the exception), the output, the messages sent, what
plugins get and what is passed to gpg don't depend on secret keys. -/
theorem C126_commands (ce : CmdEnv) (be : BotEnv) (env : Env) (c : Cmd.Command) (hc : ∀ n, c ≠ .exportSecretKey n) : Discreet (c.prog ce be env) :=
  (Cmd.same_command ce be env c hc).discreet

/-- **C126, results.** The same for what the calls return. -/
theorem C126_results (env : Env) (n : Str) :
    (∀ m, Discreet (Account.processOutgoing env n m)) ∧ (∀ m i d, Discreet (Account.processIncoming env n m i d)) ∧
    (∀ m l, Discreet (Account.encryptMime env n m l)) ∧ (∀ m, Discreet (Account.decryptMime env n m)) ∧
    (∀ a, Discreet (Account.makeAcHeader env n a)) ∧ (∀ k, Discreet (Account.exportPublicKey env n k)) ∧
    (∀ l r f, Discreet (Account.recommendation env n l r f)) ∧ (∀ a k p, Discreet (Account.importKeydataAsAutocrypt env n a k p)) ∧
    (∀ r k b m, Discreet (Manager.addAccount env n r k b m)) ∧ (∀ r k b p, Discreet (Manager.modAccount env n r k b p)) :=
  ⟨fun _ => (Account.same_processOutgoing ..).discreet, fun _ _ _ => (Account.same_processIncoming ..).discreet,
   fun _ _ => (Account.same_encryptMime ..).discreet, fun _ => (Account.same_decryptMime ..).discreet,
   fun _ => (Account.same_makeAcHeader ..).discreet, fun _ => (Account.same_exportPublicKey ..).discreet,
   fun _ _ _ => (Account.same_recommendation ..).discreet, fun _ _ _ => (Account.same_importKeydataAsAutocrypt ..).discreet,
   fun _ _ _ _ => (Manager.same_addAccount ..).discreet, fun _ _ _ _ => (Manager.same_modAccount ..).discreet⟩

/-- the command `export-secret-key`, interrupted or not -/
def Happening.exportsSecret : Happening K → Prop
  | .command _ _ (.exportSecretKey _) | .commandKilled _ _ (.exportSecretKey _) _ => True
  | _ => False

/-- **C126, histories.** Whatever calls and commands are made, interrupted or not: without `export-secret-key`, nothing that was ever done outside
depends on secret keys, and what is stored depends on them only where a key is recorded. -/
theorem C126_history (env : Env) (hist : List (Happening K)) (hh : ∀ h ∈ hist, ¬ h.exportsSecret) {O O' : Oracle K} (hO : OraclesLike O O')
    {w w' : World Store K} (hw : WorldsLike w w') :
    (runHistory Store.impl O env hist w).ops = (runHistory Store.impl O' env hist w').ops ∧
      WorldsLike (runHistory Store.impl O env hist w) (runHistory Store.impl O' env hist w') := by
  have : WorldsLike (runHistory Store.impl O env hist w) (runHistory Store.impl O' env hist w') := by
    induction hist generalizing w w' with
    | nil => exact hw
    | cons h hs ih =>
      refine ih (fun x hx => hh x (List.mem_cons_of_mem _ hx)) ?_
      have h0 := hh h List.mem_cons_self
      cases h with
      | call c => exact (Like.run hO (same_call env c) hw).2
      | killed c n => exact Like.runFor hO (same_call env c) hw n
      | command ce be c => exact (Like.run hO (Cmd.same_command ce be env c fun n hn => h0 (by subst hn; trivial)) hw).2
      | commandKilled ce be c n => exact Like.runFor hO (Cmd.same_command ce be env c fun n hn => h0 (by subst hn; trivial)) hw n
      | outside k => exact ⟨hw.store, hw.clock, hw.tick, rfl, hw.trace⟩
  exact ⟨this.ops, this⟩

/-! ## Examples -/
open Concrete

/-- an environment with another secret key -/
def Concrete.other : Oracle Unit where
  step o k := match o with
    | .gpg argv i => (if commandWord argv = some (str!"--export-secret-key") then .ok ⟨(gpg argv i).ret, bs (str!"another"), (gpg argv i).err⟩
        else .ok (gpg argv i), k)
    | o => oracle.step o k

/-- the environments are the same but for the key -/
theorem Concrete.other_like : OraclesLike oracle other := by
  intro o k
  cases o
  case gpg argv i =>
    refine ⟨rfl, ?_⟩
    show GpgLike argv (.ok (gpg argv i)) (if _ then _ else _)
    split
    · next h => exact .inr ⟨h, _, _, _, _, rfl, rfl⟩
    · exact .inl rfl
  all_goals exact ⟨rfl, rfl⟩

theorem Concrete.world0_like : WorldsLike world0 world0 := ⟨rfl, rfl, rfl, rfl, .nil⟩

/-- in the two environments different keys are recorded, and then `export-secret-key` writes different things -/
example : (exec oracle (addA.prog env) world0).2.store ≠ (exec other (addA.prog env) world0).2.store := by decide +kernel

/-- the data written for the user -/
def dataWritten (w : World Store Unit) : List Bytes := w.trace.filterMap fun ev => match ev.op with | .emit (.data b) => some b | _ => none

example :
    let w := (exec oracle (addA.prog env) world0).2
    let w' := (exec other (addA.prog env) world0).2
    let p := (Cmd.Command.exportSecretKey (str!"a")).prog cmdEnv botEnv env
    dataWritten (exec oracle p w).2 = [bs (str!"secret")] ∧ dataWritten (exec other p w').2 = [bs (str!"another")] := by decide +kernel

/-- so the hypothesis about the command can't be left out -/
example : ¬ Discreet ((Cmd.Command.exportSecretKey (str!"a")).prog cmdEnv botEnv env) := fun h => by
  have h1 := (h Unit _ _ _ _ other_like (C126_calls env addA Unit _ _ _ _ other_like world0_like).2.2).2.1
  have h2 := congrArg (fun l : List ExtOp => l.filterMap fun o => match o with | .emit (.data b) => some b | _ => none) h1
  exact absurd h2 (by decide +kernel)

/-- a history to which the theorem applies: an account is added, a message with a key comes, and mail is sent; gpg signs and encrypts -/
example : ((runHistory Store.impl other env [.call addA, .call (recv bob (str!"1") (str!"100") [7]),
    .command cmdEnv botEnv (.processOutgoing (.mk [(str!"From", str!"a@x.org"), (str!"To", bob), (str!"ENCRYPT", str!"yes")] (.text (str!"hi"))))]
    world0).ops.any fun o => match o with | .emit (.mail _) => true | _ => false) = true := by decide +kernel

end Verif
