import Verif.Lemmas.Built
import Verif.Model.Commands
/-!
# How the commands are put together
-/
namespace Verif
variable (ce : CmdEnv) (be : BotEnv) (env : Env)

namespace Cmd
variable {c : Bool}

theorem built_say (s) : Built c (say s) := .emit _
theorem built_kecho (a b) : Built c (kecho a b) := .emit _
theorem built_processOutgoing (m) : Built c (Cmd.processOutgoing env m) := by
  unfold Cmd.processOutgoing; simp only [bind_eq, pure_eq]
  built [Manager.built_getAccountFromEmailadr, Account.built_processOutgoing]
theorem built_processIncoming (a r d m) : Built true (Cmd.processIncoming env a r d m) := by
  unfold Cmd.processIncoming; simp only [bind_eq, pure_eq]
  built [Manager.built_getMatchingAccount, Manager.built_getAccount, Account.built_processIncoming]
theorem built_sayReport (m r) : Built c (sayReport m r) := by
  unfold sayReport; simp only [bind_eq]; built [built_say]
theorem built_scanRoutable (r m) : Built true (scanRoutable env r m) := by
  unfold scanRoutable; simp only [bind_eq, pure_eq]
  built [Manager.built_getMatchingAccount, Account.built_processIncoming]
theorem built_scanFile (r n f) : Built true (scanFile env r n f) := by
  unfold scanFile; simp only [bind_eq, pure_eq]; built [Account.built_effectiveDate, built_scanRoutable]
theorem built_sayOpt (o) : Built c (sayOpt o) := by
  unfold sayOpt; simp only [pure_eq]; built [built_say]
theorem built_scanFiles (r n i l) : Built true (scanFiles ce env r n i l) := by
  induction l generalizing i with
  | nil => exact .pure _
  | cons f fs ih => unfold scanFiles; simp only [bind_eq, pure_eq]; built [built_scanFile, built_sayOpt, ih]
theorem built_scandir (r l) : Built true (scandir ce env r l) := by
  unfold scandir; simp only [bind_eq]; built [built_scanFiles]
theorem built_managerExists : Built c managerExists := by
  unfold managerExists; simp only [bind_eq, pure_eq]; built
theorem built_destroyAll (y) : Built c (destroyAll y) := by
  unfold destroyAll Manager.remove; simp only [bind_eq, pure_eq]; built [built_managerExists]
theorem built_peerstate (a b) : Built c (peerstate ce env a b) := by
  unfold peerstate; simp only [bind_eq]; built [built_say]
theorem built_sayUids (l) : Built c (sayUids l) := by
  induction l with
  | nil => exact .pure _
  | cons f fs ih => unfold sayUids; simp only [bind_eq]; built [built_say, built_kecho]
theorem built_sayPeers (a l) : Built c (sayPeers ce env a l) := by
  induction l with
  | nil => exact .pure _
  | cons f fs ih => unfold sayPeers; simp only [bind_eq]; built [built_say]
theorem built_statusAccount (a v) : Built c (statusAccount ce env a v) := by
  unfold statusAccount; simp only [bind_eq, pure_eq]
  built [built_say, built_kecho, Own.built_config, Account.built_bingpg, Account.built_ownKeyhandle, BinGPG.built_listPublicKeyinfos, built_sayUids,
    built_getPeernameList, built_sayPeers]
theorem built_statusAll (v l) : Built c (statusAll ce env v l) := by
  induction l with
  | nil => exact .pure _
  | cons f fs ih => unfold statusAll; simp only [bind_eq]; built [built_say, Manager.built_getAccount, built_statusAccount]
theorem built_status (v) : Built c (status ce env v) := by
  unfold status; simp only [bind_eq]; built [built_say, built_getAccountNames, built_statusAll]
theorem built_sayAddrs (l) : Built c (sayAddrs l) := by
  induction l with
  | nil => exact .pure _
  | cons f fs ih => unfold sayAddrs; simp only [bind_eq]; built [built_say]
theorem built_accountFor (a) : Built c (accountFor env a) := by
  unfold accountFor; simp only [bind_eq, pure_eq]; built [Manager.built_getAccountFromEmailadr]
theorem built_sendmail (a m) : Built c (Cmd.sendmail ce env a m) := by
  unfold Cmd.sendmail; simp only [bind_eq, pure_eq]; built [built_say, built_processOutgoing]
end Cmd

namespace Bot
open Account
variable {c : Bool}
theorem built_deliver (s r) : Built c (deliver env s r) := by
  unfold deliver; simp only [bind_eq]; built
theorem built_makeReply (v a d f e m) : Built c (makeReply env be v a d f e m) := by
  unfold makeReply; simp only [bind_eq, pure_eq]; built [built_makeAcHeader, built_encryptMime]
theorem built_replyNoFrom (a d m) : Built c (replyNoFrom env be a d m) := by
  unfold replyNoFrom; simp only [bind_eq]; built [built_makeAcHeader]
theorem built_keysOf (a m) : Built c (keysOf env a m) := by
  unfold keysOf; simp only [bind_eq, pure_eq]; built [built_decryptMime]
theorem built_recFor (a m) : Built c (recFor env a m) := by
  unfold recFor; simp only [bind_eq, pure_eq]; built [built_recommendation]
theorem built_processed (r m i) : Built true (Report.processed env r m i) := by
  unfold Report.processed; simp only [bind_eq, pure_eq]; built
theorem built_answer (v s d a m r) : Built true (answer env be v s d a m r) := by
  unfold answer; simp only [bind_eq, pure_eq]
  built [built_processed, built_keysOf, built_ownKeyhandle, built_recFor, built_replyNoFrom, built_makeReply, built_deliver]
theorem built_reply (v s f m) : Built true (reply env be v s f m) := by
  unfold reply; simp only [bind_eq]
  built [Manager.built_getAccountFromEmailadr, built_processIncoming, built_answer]
end Bot

namespace Cmd
theorem built_body (cmd : Command) : Built true (cmd.body ce be env) := by
  unfold Command.body Cmd.addAccount Cmd.modAccount; simp only [bind_eq, pure_eq]
  built [built_say, built_status, built_statusAccount, Manager.built_getAccount, Manager.built_addAccount, Manager.built_modAccount,
    Manager.built_delAccount, built_accountFor, built_processIncoming, built_sayReport, built_scandir,
    Account.built_importKeydataAsAutocrypt, built_sayAddrs, built_peerstate, Account.built_recommendation, built_processOutgoing, built_sendmail,
    Account.built_makeAcHeader, Account.built_exportPublicKey, Account.built_exportSecretKey, Bot.built_reply, built_managerExists, built_destroyAll]

theorem built_command (cmd : Command) : Built true (cmd.prog ce be env) := by
  unfold Command.prog; simp only [bind_eq, pure_eq]; built [built_body, built_say]
end Cmd
end Verif
