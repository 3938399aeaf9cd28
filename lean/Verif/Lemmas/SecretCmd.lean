import Verif.Lemmas.SecretCalls
import Verif.Model.Commands
/-!
# Two runs which differ in secret keys only: the commands
-/
namespace Verif
variable (ce : CmdEnv) (be : BotEnv) (env : Env)

namespace Cmd

theorem same_say (s) : Same (say s) := .emit _
theorem same_kecho (a b) : Same (kecho a b) := .emit _
theorem same_processOutgoing (m) : Same (Cmd.processOutgoing env m) := by
  unfold Cmd.processOutgoing; simp only [bind_eq, pure_eq]
  same [Manager.same_getAccountFromEmailadr, Account.same_processOutgoing]
theorem same_processIncoming (a r d m) : Same (Cmd.processIncoming env a r d m) := by
  unfold Cmd.processIncoming; simp only [bind_eq, pure_eq]
  same [Manager.same_getMatchingAccount, Manager.same_getAccount, Account.same_processIncoming]
theorem same_sayReport (m r) : Same (sayReport m r) := by
  unfold sayReport; simp only [bind_eq]; same [same_say]
theorem same_scanRoutable (r m) : Same (scanRoutable env r m) := by
  unfold scanRoutable; simp only [bind_eq, pure_eq]
  same [Manager.same_getMatchingAccount, Account.same_processIncoming]
theorem same_scanFile (r n f) : Same (scanFile env r n f) := by
  unfold scanFile; simp only [bind_eq, pure_eq]; same [Account.same_effectiveDate, same_scanRoutable]
theorem same_sayOpt (o) : Same (sayOpt o) := by
  unfold sayOpt; simp only [pure_eq]; same [same_say]
theorem same_scanFiles (r n i l) : Same (scanFiles ce env r n i l) := by
  induction l generalizing i with
  | nil => exact .pure _
  | cons f fs ih => unfold scanFiles; simp only [bind_eq, pure_eq]; same [same_scanFile, same_sayOpt, ih]
theorem same_scandir (r l) : Same (scandir ce env r l) := by
  unfold scandir; simp only [bind_eq]; same [same_scanFiles]
theorem same_managerExists : Same managerExists := by
  unfold managerExists; simp only [bind_eq, pure_eq]; same
theorem same_destroyAll (y) : Same (destroyAll y) := by
  unfold destroyAll Manager.remove; simp only [bind_eq, pure_eq]; same [same_managerExists]
theorem same_peerstate (a b) : Same (peerstate ce env a b) := by
  unfold peerstate; simp only [bind_eq]; same [same_say]
theorem same_sayUids (l) : Same (sayUids l) := by
  induction l with
  | nil => exact .pure _
  | cons f fs ih => unfold sayUids; simp only [bind_eq]; same [same_say, same_kecho]
theorem peerStatus_hide (es : List Entry) : peerStatus (es.map Entry.hide) = peerStatus es := by
  unfold peerStatus
  simp only [Peer.publicKeyhandle_hide, Peer.hasDirectKey_hide, Peer.lastSeen_hide, Peer.acTimestamp_hide, Peer.preferEncrypt_hide, Peer.latestMsg_hide,
    Peer.entryForEncryption_hide]
theorem same_sayPeers (a l) : Same (sayPeers ce env a l) := by
  induction l with
  | nil => exact .pure _
  | cons f fs ih =>
    unfold sayPeers
    simp only [bind_eq]
    refine .chainBind (fun es => ?_) fun es => ?_
    · simp only [peerStatus_hide, Peer.lastSeen_hide, Peer.publicKeyhandle_hide]
    · same [same_say]
theorem same_statusAccount (a v) : Same (statusAccount ce env a v) := by
  unfold statusAccount; simp only [bind_eq, pure_eq]
  same [same_say, same_kecho, Own.same_config, Account.same_bingpg, Account.same_ownKeyhandle, BinGPG.same_listPublicKeyinfos, same_sayUids,
    same_getPeernameList, same_sayPeers]
theorem same_statusAll (v l) : Same (statusAll ce env v l) := by
  induction l with
  | nil => exact .pure _
  | cons f fs ih => unfold statusAll; simp only [bind_eq]; same [same_say, Manager.same_getAccount, same_statusAccount]
theorem same_status (v) : Same (status ce env v) := by
  unfold status; simp only [bind_eq]; same [same_say, same_getAccountNames, same_statusAll]
theorem same_sayAddrs (l) : Same (sayAddrs l) := by
  induction l with
  | nil => exact .pure _
  | cons f fs ih => unfold sayAddrs; simp only [bind_eq]; same [same_say]
theorem same_accountFor (a) : Same (accountFor env a) := by
  unfold accountFor; simp only [bind_eq, pure_eq]; same [Manager.same_getAccountFromEmailadr]
theorem same_sendmail (a m) : Same (Cmd.sendmail ce env a m) := by
  unfold Cmd.sendmail; simp only [bind_eq, pure_eq]; same [same_say, same_processOutgoing]
end Cmd

namespace Bot
open Account
theorem same_deliver (s r) : Same (deliver env s r) := by
  unfold deliver; simp only [bind_eq]; same
theorem same_makeReply (v a d f e m) : Same (makeReply env be v a d f e m) := by
  unfold makeReply; simp only [bind_eq, pure_eq]; same [same_makeAcHeader, same_encryptMime]
theorem same_replyNoFrom (a d m) : Same (replyNoFrom env be a d m) := by
  unfold replyNoFrom; simp only [bind_eq]; same [same_makeAcHeader]
theorem same_keysOf (a m) : Same (keysOf env a m) := by
  unfold keysOf; simp only [bind_eq, pure_eq]; same [same_decryptMime]
theorem same_recFor (a m) : Same (recFor env a m) := by
  unfold recFor; simp only [bind_eq, pure_eq]; same [same_recommendation]
theorem same_processed (r m i) : Same (Report.processed env r m i) := by
  unfold Report.processed
  simp only [bind_eq, pure_eq]
  split
  · exact .pure _
  · refine Like.bind (Like.attempt (.chain _)) fun x x' hx => ?_
    rcases hx with ⟨es, es', rfl, rfl, h⟩ | ⟨e, rfl, rfl⟩
    · have h1 : Peer.publicKeyhandle es = Peer.publicKeyhandle es' := by rw [← Peer.publicKeyhandle_hide es, ← Peer.publicKeyhandle_hide es', h]
      have h2 : Peer.preferEncrypt es = Peer.preferEncrypt es' := by rw [← Peer.preferEncrypt_hide es, ← Peer.preferEncrypt_hide es', h]
      simp only [h1, h2]
      exact .pure rfl
    · exact .pure rfl
theorem same_answer (v s d a m r) : Same (answer env be v s d a m r) := by
  unfold answer; simp only [bind_eq, pure_eq]
  same [same_processed, same_keysOf, same_ownKeyhandle, same_recFor, same_replyNoFrom, same_makeReply, same_deliver]
theorem same_reply (v s f m) : Same (reply env be v s f m) := by
  unfold reply; simp only [bind_eq]
  same [Manager.same_getAccountFromEmailadr, same_processIncoming, same_answer]
end Bot

namespace Cmd
theorem same_body (cmd : Command) (hc : ∀ n, cmd ≠ .exportSecretKey n) : Same (cmd.body ce be env) := by
  unfold Command.body Cmd.addAccount Cmd.modAccount; simp only [bind_eq, pure_eq]
  same [same_say, same_status, same_statusAccount, Manager.same_getAccount, Manager.same_addAccount, Manager.same_modAccount,
    Manager.same_delAccount, same_accountFor, same_processIncoming, same_sayReport, same_scandir,
    Account.same_importKeydataAsAutocrypt, same_sayAddrs, same_peerstate, Account.same_recommendation, same_processOutgoing, same_sendmail,
    Account.same_makeAcHeader, Account.same_exportPublicKey, Bot.same_reply, same_managerExists, same_destroyAll]
  exact absurd rfl (hc _)

theorem same_command (cmd : Command) (hc : ∀ n, cmd ≠ .exportSecretKey n) : Same (cmd.prog ce be env) := by
  unfold Command.prog; simp only [bind_eq, pure_eq]; same [same_body ce be env cmd hc, same_say]
end Cmd
end Verif
