import Verif.Lemmas.KeepsCmd
import Verif.Props.AnyhowIncoming
/-!
# C125: every run of gpg, also in calls and commands which fail, whatever happens meanwhile

The specification, `AllProper`, is in `Verif.Lemmas.Keeps`. As for C123 nothing is assumed about the answers of the store, of gpg and
of the file system.
-/
namespace Verif
open BinGPG

/-- C125: in a call of the API, each operation on gpg is right for the account of the call: a configuration of this account was read
before in this call; the program which was found for its `gpgbin` is run with the home which its `gpgmode` asks for; the home is made
only if it was found to be missing; and if gpg is told to use the secret key then the operation before is the successful question for the
version of this gpg, and the options for this version are given. -/
theorem C125_calls (env : Env) (c : ApiCall) {l : List Did} {r : Except Exc Unit} (h : (c.prog env).Path l r) :
    AllProper env (fun n => c.gpgAccount = some n) [] l :=
  keeps_call (gs := []) c [] (by simp) l r h

/-- C125: the same for commands, with the account which is named on the command line if there is one, else with one whose configuration
was read in this command -/
theorem C125_commands (ce : CmdEnv) (be : BotEnv) (env : Env) (c : Cmd.Command) {l : List Did} {r : Except Exc Int}
    (h : (c.prog ce be env).Path l r) : AllProper env c.On [] l :=
  Cmd.keeps_command (gs := []) c [] (by simp) l r h

/-- C125, C94: signing asks for the version and then, only if this succeeded, runs gpg with the options for this version -/
theorem C125_sign (env : Env) (g : BinGPG) (data : Bytes) (kh : Str) {l : List Did} {r : Except Exc Bytes} (h : (sign env g data kh).Path l r) :
    (∃ x, l = [Did.gpg (commandLine g [str!"--version"]) none x] ∧ ∀ s, r ≠ .ok s) ∨
    ∃ v np x, l = [Did.gpg (commandLine g [str!"--version"]) none (.ok v),
        Did.gpg (commandLine g (np ++ [str!"--detach-sign", str!"-u", kh])) (some data) x] ∧ v.ret = 0 ∧ Unlocks env v np := by
  unfold sign at h
  simp only [bind_eq, pure_eq] at h
  rcases Prog.Path.bind.mp h with ⟨np, l1, l2, ha, hb, rfl⟩ | ⟨e, ha, rfl⟩
  · obtain ⟨x, rfl, hx⟩ := nopassphrase_path ha
    obtain ⟨v, rfl, h0, hv⟩ := hx np rfl
    rcases Prog.Path.bind.mp hb with ⟨out, l3, l4, h3, h4, rfl⟩ | ⟨e, h3, rfl⟩
    · obtain ⟨y, rfl, -⟩ := gpgOuterr_path h3
      rw [h4.1]
      exact .inr ⟨v, np, y, rfl, h0, hv⟩
    · obtain ⟨y, rfl, -⟩ := gpgOuterr_path h3
      exact .inr ⟨v, np, y, rfl, h0, hv⟩
  · obtain ⟨x, rfl, -⟩ := nopassphrase_path ha
    exact .inl ⟨x, rfl, fun s hs => by cases hs⟩

/-- C125: whatever a run of a call or a command does, whatever other processes do between its operations, is such a list of operations -/
theorem C125_runs {σ K : Type} (S : StoreImpl σ) (O : Oracle K) (ce : CmdEnv) (be : BotEnv) (env : Env) (c : Cmd.Command) (a : ApiCall) (w : World σ K) :
    ((∃ l, AllProper env c.On [] l ∧ (c.prog ce be env).Path l (run S O (c.prog ce be env) w).1 ∧
      ∃ evs, (run S O (c.prog ce be env) w).2.trace = evs ++ w.trace ∧ ∀ ev, ev ∈ evs ↔ SeenIn l ev) ∧
    ∀ others k, ∃ l, AllProper env c.On [] l ∧ (c.prog ce be env).Path l (runAmid S O others (c.prog ce be env) k w).1) ∧
    (∃ l, AllProper env (fun n => a.gpgAccount = some n) [] l ∧ (a.prog env).Path l (run S O (a.prog env) w).1 ∧
      ∃ evs, (run S O (a.prog env) w).2.trace = evs ++ w.trace ∧ ∀ ev, ev ∈ evs ↔ SeenIn l ev) ∧
    ∀ others k, ∃ l, AllProper env (fun n => a.gpgAccount = some n) [] l ∧ (a.prog env).Path l (runAmid S O others (a.prog env) k w).1 := by
  refine ⟨⟨?_, fun others k => ?_⟩, ?_, fun others k => ?_⟩
  · obtain ⟨l, hl, h⟩ := run_path S O (c.prog ce be env) w
    exact ⟨l, C125_commands ce be env c hl, hl, h⟩
  · obtain ⟨l, hl⟩ := runAmid_path S O others (c.prog ce be env) k w
    exact ⟨l, C125_commands ce be env c hl, hl⟩
  · obtain ⟨l, hl, h⟩ := run_path S O (a.prog env) w
    exact ⟨l, C125_calls env a hl, hl, h⟩
  · obtain ⟨l, hl⟩ := runAmid_path S O others (a.prog env) k w
    exact ⟨l, C125_calls env a hl, hl⟩

/-! ## Examples -/
open Concrete

/-- a gpg command is among the operations which tells gpg to do this -/
def Tells (l : List Did) (word : Str) : Prop := (l.any fun d => match d.op with | .ext (.gpg argv _) => commandWord argv == some word | _ => false) = true

/-- nothing exists -/
def Concrete.bare : Oracle Unit where
  step o k := match o with
    | .pathExists _ => (false, k)
    | o => oracle.step o k

/-- adding an account: there is a path on which the home is made, a key generated and the secret key exported -/
example : ∃ l r, ((Cmd.Command.addAccount (str!"a") false none (str!"gpg") none).prog cmdEnv botEnv env).Path l r ∧ r.toOption.isSome ∧
    Tells l (str!"--gen-key") ∧ Tells l (str!"--export-secret-key") ∧
    (l.any fun d => match d.op with | .ext (.makedirs p) => p == gpgHome env (str!"a") | _ => false) :=
  ⟨_, _, didsOf_path Store.impl bare _ world0, by decide +kernel, by unfold Tells; decide +kernel, by unfold Tells; decide +kernel, by decide +kernel⟩

/-- an encrypted message: there is a path on which gpg decrypts -/
example : ∃ l r, ((Cmd.Command.processIncoming none false false (encMail (str!"1") (str!"100") [] [gossipField carol [5]])).prog cmdEnv botEnv env).Path l r ∧
    r.toOption.isSome ∧ Tells l (str!"--decrypt") ∧ Tells l (str!"--import") :=
  ⟨_, _, didsOf_path Store.impl oracle _ (after [addA]), by decide +kernel, by unfold Tells; decide +kernel, by unfold Tells; decide +kernel⟩

/-- a call which fails after gpg was used: the key can't be generated -/
example : ∃ l r, (addA.prog env).Path l r ∧ r.toOption = none ∧ Tells l (str!"--gen-key") :=
  ⟨_, _, didsOf_path Store.impl noKeygen _ world0, by decide +kernel, by unfold Tells; decide +kernel⟩

/-- the condition isn't met by everything: gpg without a configuration which was read -/
example : ¬ AllProper env (fun _ => True) [] [Did.gpg (commandLine ⟨none, str!"gpg"⟩ [str!"--version"]) none (.ok ⟨0, [], []⟩)] := by
  intro h
  obtain ⟨⟨n, c, -, ⟨es, hr, -⟩, -⟩, -⟩ := h [] _ [] rfl
  simp [ReadAs] at hr

end Verif
