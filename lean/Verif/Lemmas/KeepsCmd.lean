import Verif.Lemmas.KeepsCalls
/-!
# What precedes each operation on gpg: the commands
-/
namespace Verif
variable {ce : CmdEnv} {be : BotEnv} {env : Env} {N : Str → Prop} {gs : List BinGPG}

namespace Cmd
theorem keeps_say (s) : Minds env N gs (say s) := .emit _
theorem keeps_kecho (a b) : Minds env N gs (kecho a b) := .emit _
theorem keeps_processOutgoing (hall : ∀ n, N n) (m) : Minds env N gs (Cmd.processOutgoing env m) := by
  unfold Cmd.processOutgoing; simp only [bind_eq, pure_eq]
  keeps [hall, Manager.keeps_getAccountFromEmailadr, Account.keeps_processOutgoing]
theorem keeps_processIncoming (hall : ∀ n, N n) (a r d m) : Minds env N gs (Cmd.processIncoming env a r d m) := by
  unfold Cmd.processIncoming; simp only [bind_eq, pure_eq]
  keeps [hall, Manager.keeps_getMatchingAccount, Manager.keeps_getAccount, Account.keeps_processIncoming]
theorem keeps_sayReport (m r) : Minds env N gs (sayReport m r) := by
  unfold sayReport; simp only [bind_eq]; keeps [keeps_say]
theorem keeps_scanRoutable (hall : ∀ n, N n) (r m) : Minds env N gs (scanRoutable env r m) := by
  unfold scanRoutable; simp only [bind_eq, pure_eq]
  keeps [hall, Manager.keeps_getMatchingAccount, Account.keeps_processIncoming]
theorem keeps_scanFile (hall : ∀ n, N n) (r n f) : Minds env N gs (scanFile env r n f) := by
  unfold scanFile; simp only [bind_eq, pure_eq]; keeps [hall, Account.keeps_effectiveDate, keeps_scanRoutable]
theorem keeps_sayOpt (o) : Minds env N gs (sayOpt o) := by
  unfold sayOpt; simp only [pure_eq]; keeps [keeps_say]
theorem keeps_scanFiles (hall : ∀ n, N n) (r n i l) : Minds env N gs (scanFiles ce env r n i l) := by
  induction l generalizing i with
  | nil => exact .pure _
  | cons f fs ih => unfold scanFiles; simp only [bind_eq, pure_eq]; keeps [hall, keeps_scanFile, keeps_sayOpt, ih]
theorem keeps_scandir (hall : ∀ n, N n) (r l) : Minds env N gs (scandir ce env r l) := by
  unfold scandir; simp only [bind_eq]; keeps [hall, keeps_scanFiles]
theorem keeps_managerExists : Minds env N gs managerExists := by
  unfold managerExists; simp only [bind_eq, pure_eq]; keeps
theorem keeps_destroyAll (y) : Minds env N gs (destroyAll y) := by
  unfold destroyAll Manager.remove; simp only [bind_eq, pure_eq]; keeps [keeps_managerExists]
theorem keeps_peerstate (a b) : Minds env N gs (peerstate ce env a b) := by
  unfold peerstate; simp only [bind_eq]; keeps [keeps_say]
theorem keeps_sayUids (l) : Minds env N gs (sayUids l) := by
  induction l with
  | nil => exact .pure _
  | cons f fs ih => unfold sayUids; simp only [bind_eq]; keeps [keeps_say, keeps_kecho]
theorem keeps_sayPeers (a l) : Minds env N gs (sayPeers ce env a l) := by
  induction l with
  | nil => exact .pure _
  | cons f fs ih => unfold sayPeers; simp only [bind_eq]; keeps [keeps_say]
theorem keeps_statusAccount {a : Str} (hN : N a) (v) : Minds env N gs (statusAccount ce env a v) := by
  unfold statusAccount; simp only [bind_eq, pure_eq]
  keeps [keeps_say, keeps_kecho, Own.keeps_config, Account.keeps_ownKeyhandle, BinGPG.keeps_listPublicKeyinfos, keeps_sayUids,
    keeps_getPeernameList, keeps_sayPeers]
theorem keeps_statusAll (hall : ∀ n, N n) (v l) : Minds env N gs (statusAll ce env v l) := by
  induction l with
  | nil => exact .pure _
  | cons f fs ih => unfold statusAll; simp only [bind_eq]; keeps [hall, keeps_say, Manager.keeps_getAccount, keeps_statusAccount]
theorem keeps_status (hall : ∀ n, N n) (v) : Minds env N gs (status ce env v) := by
  unfold status; simp only [bind_eq]; keeps [hall, keeps_say, keeps_getAccountNames, keeps_statusAll]
theorem keeps_sayAddrs (l) : Minds env N gs (sayAddrs l) := by
  induction l with
  | nil => exact .pure _
  | cons f fs ih => unfold sayAddrs; simp only [bind_eq]; keeps [keeps_say]
theorem keeps_accountFor (a) : Minds env N gs (accountFor env a) := by
  unfold accountFor; simp only [bind_eq, pure_eq]; keeps [Manager.keeps_getAccountFromEmailadr]
theorem keeps_sendmail (hall : ∀ n, N n) (a m) : Minds env N gs (Cmd.sendmail ce env a m) := by
  unfold Cmd.sendmail; simp only [bind_eq, pure_eq]; keeps [hall, keeps_say, keeps_processOutgoing]
end Cmd

namespace Bot
open Account
theorem keeps_deliver (s r) : Minds env N gs (deliver env s r) := by
  unfold deliver; simp only [bind_eq]; keeps
theorem keeps_makeReply (hall : ∀ n, N n) (v a d f e m) : Minds env N gs (makeReply env be v a d f e m) := by
  unfold makeReply; simp only [bind_eq, pure_eq]; keeps [hall, keeps_makeAcHeader, keeps_encryptMime]
theorem keeps_replyNoFrom (hall : ∀ n, N n) (a d m) : Minds env N gs (replyNoFrom env be a d m) := by
  unfold replyNoFrom; simp only [bind_eq]; keeps [hall, keeps_makeAcHeader]
theorem keeps_keysOf (hall : ∀ n, N n) (a m) : Minds env N gs (keysOf env a m) := by
  unfold keysOf; simp only [bind_eq, pure_eq]; keeps [hall, keeps_decryptMime]
theorem keeps_recFor (a m) : Minds env N gs (recFor env a m) := by
  unfold recFor; simp only [bind_eq, pure_eq]; keeps [keeps_recommendation]
theorem keeps_processed (r m i) : Minds env N gs (Report.processed env r m i) := by
  unfold Report.processed; simp only [bind_eq, pure_eq]; keeps
theorem keeps_answer (hall : ∀ n, N n) (v s d a m r) : Minds env N gs (answer env be v s d a m r) := by
  unfold answer; simp only [bind_eq, pure_eq]
  keeps [hall, keeps_processed, keeps_keysOf, keeps_ownKeyhandle, keeps_recFor, keeps_replyNoFrom, keeps_makeReply, keeps_deliver]
theorem keeps_reply (hall : ∀ n, N n) (v s f m) : Minds env N gs (reply env be v s f m) := by
  unfold reply; simp only [bind_eq]
  keeps [hall, Manager.keeps_getAccountFromEmailadr, keeps_processIncoming, keeps_answer]
end Bot


/-- the account on which a command works, if it is named on the command line and no other one is looked at -/
def Cmd.Command.account : Cmd.Command → Option Str
  | .status a _ | .processIncoming a _ _ _ => a
  | .addAccount a _ _ _ _ | .modAccount a _ _ _ _ | .importPublicKey a _ _ _ | .peerstate a _ | .recommend a _ | .exportPublicKey a _ |
    .exportSecretKey a => some a
  | _ => none

namespace Cmd

theorem keeps_named {n : Str} {f : Str → Prog α} (h : Minds env N gs (f n)) : Minds env N gs ((Manager.getAccount env n true).bind f) :=
  .bindReturns (Manager.keeps_getAccount n _) (getAccount_returns env n true) fun a ha => by rw [ha]; exact h

theorem addAccount_returns (n r k b m) : (Manager.addAccount env n r k b m).Returns fun a => a = n := by
  unfold Manager.addAccount
  simp only [bind_eq, pure_eq]
  refine .bind (getAccount_returns env n false) fun a ha => ?_
  subst ha
  refine .bind (.trivially _) fun ex _ => ?_
  split
  · trivial
  · exact .bind (.trivially _) fun _ _ => rfl

theorem modAccount_returns (n r k b m) : (Manager.modAccount env n r k b m).Returns fun a => a.2 = n := by
  unfold Manager.modAccount
  simp only [bind_eq, pure_eq]
  refine .bind (getAccount_returns env n true) fun a ha => ?_
  subst ha
  exact .bind (.trivially _) fun _ _ => rfl

/-- accounts on which the command may work -/
def Command.On (cmd : Command) (n : Str) : Prop := ∀ a, cmd.account = some a → n = a

theorem keeps_body (cmd : Command) : Minds env cmd.On gs (cmd.body ce be env) := by
  have hall : cmd.account = none → ∀ n, cmd.On n := fun h n a ha => by rw [h] at ha; cases ha
  have hself : ∀ n, cmd.account = some n → cmd.On n := fun n h a ha => by rw [h] at ha; cases ha; rfl
  cases cmd with
  | status a v =>
    cases a with
    | none => exact .bind (keeps_status (hall rfl) v) fun _ => .pure _
    | some n => exact keeps_named (.bind (keeps_statusAccount (hself n rfl) v) fun _ => .pure _)
  | addAccount n sys key bin regex =>
    refine .bindReturns (Manager.keeps_addAccount (hself n rfl) _ _ _ _) (addAccount_returns _ _ _ _ _) fun a ha => ?_
    subst ha
    exact .bind (keeps_say _) fun _ => .bind (keeps_statusAccount (hself a rfl) _) fun _ => .pure _
  | modAccount n key bin regex pe =>
    refine .bindReturns (Manager.keeps_modAccount _ _ _ _ _) (modAccount_returns _ _ _ _ _) fun a ha => ?_
    subst ha
    exact .bind (keeps_say _) fun _ => .bind (keeps_statusAccount (hself a.2 rfl) _) fun _ => .pure _
  | delAccount n => exact .bind (Manager.keeps_delAccount _) fun _ => .bind (keeps_say _) fun _ => .bind (keeps_status (hall rfl) _) fun _ => .pure _
  | findAccount addr => exact .bind (keeps_accountFor _) fun _ => .bind (keeps_say _) fun _ => .pure _
  | processIncoming a reparse nd m =>
    refine .bind ?_ fun _ => .bind (keeps_sayReport _ _) fun _ => .pure _
    cases a with
    | none => exact keeps_processIncoming (hall rfl) _ _ _ _
    | some n =>
      unfold Cmd.processIncoming
      simp only [bind_eq, pure_eq]
      refine keeps_named (.bind (Account.keeps_processIncoming (hself n rfl) _ _ _) fun r => ?_)
      keeps
  | scandir r fs => exact .bind (keeps_scandir (hall rfl) _ _) fun _ => .pure _
  | importPublicKey n kd pe email =>
    exact keeps_named (.bind (Account.keeps_importKeydataAsAutocrypt (hself n rfl) _ _ _) fun _ => .bind (keeps_say _) fun _ =>
      .bind (keeps_sayAddrs _) fun _ => .pure _)
  | peerstate n addr => exact .bind (Manager.keeps_getAccount _ _) fun _ => .bind (keeps_peerstate _ _) fun _ => .pure _
  | recommend n addrs => exact .bind (Manager.keeps_getAccount _ _) fun _ => .bind (Account.keeps_recommendation _ _ _) fun _ => .bind (keeps_say _) fun _ => .pure _
  | processOutgoing m => exact .bind (keeps_processOutgoing (hall rfl) _) fun _ => .bind (.emit _) fun _ => .pure _
  | sendmail args m => exact keeps_sendmail (hall rfl) _ _
  | makeHeader addr val =>
    exact .bind (keeps_accountFor _) fun a => .bind (Account.keeps_makeAcHeader (hall rfl a) _) fun _ => .bind (keeps_say _) fun _ => .pure _
  | exportPublicKey n k =>
    exact keeps_named (.bind (Account.keeps_exportPublicKey (hself n rfl) _) fun _ => .bind (.emit _) fun _ => .pure _)
  | exportSecretKey n =>
    exact keeps_named (.bind (Account.keeps_exportSecretKey (hself n rfl)) fun _ => .bind (.emit _) fun _ => .pure _)
  | botReply v smtp fallback m => exact .bind (Bot.keeps_reply (hall rfl) _ _ _ _) fun _ => .pure _
  | destroyAll yes =>
    unfold Command.body
    simp only [bind_eq, pure_eq]
    keeps [keeps_say, keeps_managerExists, keeps_destroyAll]

theorem keeps_command (cmd : Command) : Minds env cmd.On gs (cmd.prog ce be env) := by
  unfold Command.prog; simp only [bind_eq, pure_eq]; keeps [keeps_body, keeps_say]
end Cmd
end Verif
