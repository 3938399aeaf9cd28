import Verif.Lemmas.SafeCalls
import Verif.Model.Commands
/-!
# Programs which send no mail
-/
namespace Verif

variable {σ K : Type} {α β : Type}

/-- operations which send no mail -/
def Op.noMail : Op → Prop
  | .ext (.sendmail ..) => False
  | .ext (.emit (.smtp ..)) => False
  | _ => True

/-- no run sends a mail -/
abbrev Mailless (p : Prog α) : Prop := p.AllOps Op.noMail

namespace Mailless
theorem pure (a : α) : Mailless (.pure a) := trivial
theorem raise (e : Exc) : Mailless (.raise e : Prog α) := trivial
theorem bind {p : Prog α} {f : α → Prog β} (hp : Mailless p) (hf : ∀ a, Mailless (f a)) : Mailless (p.bind f) := Prog.AllOps.bind hp hf
theorem attempt {p : Prog α} (hp : Mailless p) : Mailless p.attempt := Prog.AllOps.attempt hp
theorem ofExcept (x : Except Exc α) : Mailless (Prog.ofExcept x) := Prog.AllOps.ofExcept x
theorem assert (b : Bool) : Mailless (Prog.assert b) := Prog.AllOps.assert b
theorem void {p : Prog α} (h : Mailless p) : Mailless p.void := bind h fun _ => pure _
theorem gpg (env : Env) (g : BinGPG) (a : List Str) (i : Option Bytes) (s d : Bool) : Mailless (BinGPG.gpgOuterr env g a i s d) :=
  .bind ⟨trivial, fun _ => ofExcept _⟩ fun _ => ofExcept _
theorem temp (d : Bytes) (b : Str → Prog α) (h : ∀ n, Mailless (b n)) : Mailless (BinGPG.withTempFile d b) := by
  unfold BinGPG.withTempFile; simp only [bind_eq]
  exact .bind (.mkTemp trivial) fun n => .bind (.writeTemp trivial) fun _ => .finally_ (h n) (.rmTemp trivial)
theorem now : Mailless Prog.now := ⟨trivial, fun _ => trivial⟩
theorem chain (h) : Mailless (Prog.chain h) := ⟨trivial, fun _ => ofExcept _⟩
theorem append (h e) : Mailless (Prog.append h e) := ⟨trivial, fun _ => ofExcept _⟩
theorem heads : Mailless Prog.heads := ⟨trivial, fun _ => ofExcept _⟩
theorem removeIf (p) : Mailless (Prog.removeIf p) := ⟨trivial, fun _ => ofExcept _⟩
theorem findExecutable (a) : Mailless (Prog.findExecutable a) := ⟨trivial, fun _ => trivial⟩
theorem pathExists (a) : Mailless (Prog.pathExists a) := ⟨trivial, fun _ => trivial⟩
theorem makedirs (a) : Mailless (Prog.makedirs a) := ⟨trivial, fun _ => ofExcept _⟩
theorem writeFile (a b) : Mailless (Prog.writeFile a b) := ⟨trivial, fun _ => ofExcept _⟩
theorem uuid : Mailless Prog.uuid := ⟨trivial, fun _ => trivial⟩
theorem hookInstantiate (a) : Mailless (Prog.hookInstantiate a) := ⟨trivial, fun _ => ofExcept _⟩
theorem hookIncomingGossip (a b d) : Mailless (Prog.hookIncomingGossip a b d) := ⟨trivial, fun _ => ofExcept _⟩
theorem hookBeforeEnc (a b d e) : Mailless (Prog.hookBeforeEnc a b d e) := ⟨trivial, fun _ => ofExcept _⟩
theorem emit (a) (h : Op.noMail (.ext (.emit a))) : Mailless (Prog.emit a) := ⟨h, fun _ => ofExcept _⟩
theorem rmtree : Mailless Prog.rmtree := ⟨trivial, fun _ => ⟨trivial, fun _ => trivial⟩⟩
end Mailless

/-- decompose a goal `Mailless p` -/
syntax "mailless" ("[" term,* "]")? : tactic
macro_rules
  | `(tactic| mailless) => `(tactic| mailless [trivial])
  | `(tactic| mailless [$ts,*]) => do
    let alts ← ts.getElems.mapM fun t => `(tactic| with_reducible apply $t)
    `(tactic| repeat' (first
      | intro _
      | assumption
      $[| $alts:tactic]*
      | with_reducible apply Mailless.pure
      | with_reducible apply Mailless.raise
      | with_reducible apply Mailless.bind
      | with_reducible apply Mailless.void
      | with_reducible apply Mailless.gpg
      | with_reducible apply Mailless.temp
      | with_reducible apply Mailless.ofExcept
      | with_reducible apply Mailless.assert
      | with_reducible apply Mailless.now
      | with_reducible apply Mailless.chain
      | with_reducible apply Mailless.append
      | with_reducible apply Mailless.heads
      | with_reducible apply Mailless.removeIf
      | with_reducible apply Mailless.findExecutable
      | with_reducible apply Mailless.pathExists
      | with_reducible apply Mailless.makedirs
      | with_reducible apply Mailless.writeFile
      | with_reducible apply Mailless.uuid
      | with_reducible apply Mailless.hookInstantiate
      | with_reducible apply Mailless.hookIncomingGossip
      | with_reducible apply Mailless.hookBeforeEnc
      | (with_reducible apply Mailless.emit; trivial)
      | with_reducible apply Mailless.rmtree
      | with_reducible apply Mailless.attempt
      | split))

variable (env : Env)

namespace BinGPG
variable (g : BinGPG)
theorem mailless_gpgOutText (a i) : Mailless (gpgOutText env g a i) := by
  unfold gpgOutText; simp only [bind_eq]; mailless
theorem mailless_versionAtLeast (v) : Mailless (versionAtLeast env g v) := by
  unfold versionAtLeast versionInfo; simp only [bind_eq]; mailless [mailless_gpgOutText]
theorem mailless_ensureInit : Mailless (ensureInit env g) := by
  unfold ensureInit badDefaults; simp only [bind_eq, pure_eq]; mailless [mailless_versionAtLeast]
theorem mailless_create (h p) : Mailless (create env h p) := by
  unfold create; simp only [bind_eq, pure_eq]; mailless [mailless_ensureInit]
theorem mailless_nopassphrase : Mailless (nopassphrase env g) := by
  unfold nopassphrase; simp only [bind_eq, pure_eq]; mailless [mailless_versionAtLeast]
theorem mailless_parseList (a t) : Mailless (parseList env g a t) := by
  unfold parseList; simp only [bind_eq]; mailless [mailless_gpgOutText]
theorem mailless_listPublicKeyinfos (k) : Mailless (listPublicKeyinfos env g k) := mailless_parseList ..
theorem mailless_listSecretKeyinfos (k) : Mailless (listSecretKeyinfos env g k) := mailless_parseList ..
theorem mailless_getSecretKeyhandle (k) : Mailless (getSecretKeyhandle env g k) := by
  unfold getSecretKeyhandle; simp only [bind_eq, pure_eq]; mailless [mailless_listSecretKeyinfos]
theorem mailless_findKeyhandle (t) : Mailless (findKeyhandle env g t) := by
  unfold findKeyhandle; simp only [bind_eq, pure_eq]; mailless [mailless_listPublicKeyinfos]
theorem mailless_genSecretKey (e) : Mailless (genSecretKey env g e) := by
  unfold genSecretKey; simp only [bind_eq]; mailless [mailless_nopassphrase, mailless_findKeyhandle]
theorem mailless_getPublicKeydata (k a) : Mailless (getPublicKeydata env g k a) := by
  unfold getPublicKeydata; simp only [bind_eq, pure_eq]; mailless
theorem mailless_getSecretKeydata (k a) : Mailless (getSecretKeydata env g k a) := by
  unfold getSecretKeydata; simp only [bind_eq, pure_eq]; mailless [mailless_nopassphrase]
theorem mailless_encrypt (d r s t) : Mailless (encrypt env g d r s t) := by
  unfold encrypt; simp only [bind_eq, pure_eq]; mailless [mailless_nopassphrase]
theorem mailless_sign (d k) : Mailless (sign env g d k) := by
  unfold sign; simp only [bind_eq, pure_eq]; mailless [mailless_nopassphrase]
theorem mailless_verify (d k) : Mailless (verify env g d k) := by
  unfold verify; simp only [bind_eq]; mailless [mailless_findKeyhandle]
theorem mailless_decrypt (d) : Mailless (decrypt env g d) := by
  unfold decrypt; simp only [bind_eq, pure_eq]; mailless [mailless_nopassphrase]
theorem mailless_importKeydata (d m) : Mailless (importKeydata env g d m) := by
  unfold importKeydata; simp only [bind_eq, pure_eq]; mailless [mailless_findKeyhandle, mailless_getPublicKeydata]
end BinGPG

theorem Own.mailless_config (n) : Mailless (Own.config n) := by
  unfold Own.config; simp only [bind_eq, pure_eq]; mailless
theorem Own.mailless_keyhandle (n) : Mailless (Own.keyhandle n) := by
  unfold Own.keyhandle; simp only [bind_eq, pure_eq]; mailless
theorem Own.mailless_changeConfig (n k) : Mailless (Own.changeConfig n k) := by
  unfold Own.changeConfig; simp only [bind_eq, pure_eq]; mailless
theorem Peer.mailless_updateFromMsg (h u) : Mailless (Peer.updateFromMsg h u) := by
  unfold Peer.updateFromMsg; simp only [bind_eq, pure_eq]; mailless
theorem Peer.mailless_updateFromGossip (h u) : Mailless (Peer.updateFromGossip h u) := by
  unfold Peer.updateFromGossip; simp only [bind_eq, pure_eq]; mailless
theorem OOB.mailless_getVerification (n a) : Mailless (OOB.getVerification n a) := by
  unfold OOB.getVerification; simp only [bind_eq, pure_eq]; mailless
theorem mailless_getAccountNames : Mailless getAccountNames := by
  unfold getAccountNames; simp only [bind_eq, pure_eq]; mailless
theorem mailless_getPeernameList (n) : Mailless (getPeernameList n) := by
  unfold getPeernameList; simp only [bind_eq, pure_eq]; mailless

namespace Account
open BinGPG
variable (n : Str)
theorem mailless_effectiveDate (d) : Mailless (effectiveDate d) := by
  unfold effectiveDate; simp only [bind_eq, pure_eq]; mailless
theorem mailless_ownKeyhandle : Mailless (ownKeyhandle n) := by
  unfold ownKeyhandle; simp only [bind_eq, pure_eq]; mailless [Own.mailless_keyhandle]
theorem mailless_bingpg : Mailless (bingpg env n) := by
  unfold bingpg; simp only [bind_eq]; mailless [Own.mailless_config, mailless_create]
theorem mailless_exists_ : Mailless (exists_ n) := by
  unfold exists_; simp only [bind_eq, pure_eq]; mailless
theorem mailless_createKey (k) : Mailless (createKey env n k) := by
  unfold createKey; simp only [bind_eq, pure_eq]; mailless [mailless_bingpg, mailless_genSecretKey, mailless_getSecretKeyhandle]
theorem mailless_create (r k b m) : Mailless (create env n r k b m) := by
  unfold create Own.newConfig Own.appendKeygen; simp only [bind_eq, pure_eq]
  mailless [mailless_bingpg, mailless_createKey, mailless_getSecretKeydata]
theorem mailless_modify (r k b p) : Mailless (modify n r k b p) := Own.mailless_changeConfig ..
theorem mailless_makeAcHeader (a) : Mailless (makeAcHeader env n a) := by
  unfold makeAcHeader; simp only [bind_eq]
  mailless [mailless_bingpg, mailless_ownKeyhandle, mailless_getPublicKeydata, Own.mailless_config]
theorem mailless_exportPublicKey (k) : Mailless (exportPublicKey env n k) := by
  unfold exportPublicKey; simp only [bind_eq, pure_eq]
  mailless [mailless_bingpg, mailless_ownKeyhandle, mailless_getPublicKeydata]
theorem mailless_exportSecretKey : Mailless (exportSecretKey env n) := by
  unfold exportSecretKey; simp only [bind_eq]
  mailless [mailless_bingpg, mailless_ownKeyhandle, mailless_getSecretKeydata]
theorem mailless_importKey (k) : Mailless (importKey env n k) := by
  unfold importKey; simp only [bind_eq, pure_eq]
  mailless [mailless_bingpg, mailless_importKeydata]
theorem mailless_importPah (p) : Mailless (importPah env n p) := by
  unfold importPah; simp only [bind_eq, pure_eq]; mailless [mailless_importKey]
theorem mailless_processAutocryptHeader (m f h d i) : Mailless (processAutocryptHeader env n m f h d i) := by
  unfold processAutocryptHeader; simp only [bind_eq, pure_eq]; mailless [mailless_importPah, Peer.mailless_updateFromMsg]
theorem mailless_gossipLoop (x d i p l) : Mailless (gossipLoop env n x d i p l) := by
  induction l generalizing p with
  | nil => exact .pure _
  | cons r rs ih =>
    unfold gossipLoop; simp only [bind_eq]; mailless [mailless_importPah, Peer.mailless_updateFromGossip, ih]
theorem mailless_processGossipHeaders (m d i) : Mailless (processGossipHeaders env n m d i) := by
  unfold processGossipHeaders; simp only [bind_eq]; mailless [mailless_gossipLoop]
theorem mailless_decryptMime (m) : Mailless (decryptMime env n m) := by
  unfold decryptMime; simp only [bind_eq, pure_eq]; mailless [mailless_bingpg, mailless_decrypt]
theorem mailless_processIncoming (m a b) : Mailless (processIncoming env n m a b) := by
  unfold processIncoming; simp only [bind_eq, pure_eq]
  mailless [mailless_effectiveDate, mailless_processAutocryptHeader, mailless_decryptMime, mailless_processGossipHeaders, mailless_ownKeyhandle]
theorem mailless_readPeers (l) : Mailless (readPeers env n l) := by
  induction l with
  | nil => exact .pure _
  | cons r rs ih => unfold readPeers; simp only [bind_eq, pure_eq]; mailless
theorem mailless_recommendation (a r f) : Mailless (recommendation env n a r f) := by
  unfold recommendation; simp only [bind_eq]; mailless [Own.mailless_config, mailless_readPeers]
theorem mailless_encLoop (a l) : Mailless (encLoop env n a l) := by
  induction l generalizing a with
  | nil => exact .pure _
  | cons r rs ih => unfold encLoop; simp only [bind_eq]; mailless [Own.mailless_config, mailless_ownKeyhandle, ih]
theorem mailless_encryptMime (m a) : Mailless (encryptMime env n m a) := by
  unfold encryptMime; simp only [bind_eq, pure_eq]; mailless [mailless_encLoop, mailless_ownKeyhandle, mailless_bingpg, mailless_encrypt]
theorem mailless_outgoingBody (m e) : Mailless (outgoingBody env n m e) := by
  unfold outgoingBody; simp only [bind_eq, pure_eq]; mailless [mailless_recommendation, mailless_encryptMime]
theorem mailless_processOutgoing (m) : Mailless (processOutgoing env n m) := by
  unfold processOutgoing; simp only [bind_eq, pure_eq]; mailless [mailless_makeAcHeader, mailless_outgoingBody]
theorem mailless_importLoop (p k l) : Mailless (importLoop env n p k l) := by
  induction l with
  | nil => exact .pure _
  | cons r rs ih =>
    unfold importLoop; simp only [bind_eq]; mailless [mailless_bingpg, mailless_getPublicKeydata, Peer.mailless_updateFromMsg]
theorem mailless_importKeydataAsAutocrypt (a k p) : Mailless (importKeydataAsAutocrypt env n a k p) := by
  unfold importKeydataAsAutocrypt; simp only [bind_eq, pure_eq]
  mailless [mailless_bingpg, mailless_importKeydata, mailless_listPublicKeyinfos, mailless_importLoop, mailless_getPublicKeydata]
end Account

namespace Manager
open Account
variable (n : Str)
theorem mailless_init : Mailless Manager.init := by
  unfold Manager.init Mgr.setVersion; simp only [bind_eq]; mailless
theorem mailless_ensureInit : Mailless Manager.ensureInit := by
  unfold Manager.ensureInit; simp only [bind_eq, pure_eq]; mailless [mailless_init]
theorem mailless_account : Mailless (Manager.account env n) := .assert _
theorem mailless_getAccount (x) : Mailless (getAccount env n x) := by
  unfold getAccount; simp only [bind_eq, pure_eq]; mailless [mailless_ensureInit, mailless_account, mailless_exists_]
theorem mailless_addAccount (r k b m) : Mailless (addAccount env n r k b m) := by
  unfold addAccount; simp only [bind_eq, pure_eq]; mailless [mailless_getAccount, mailless_exists_, Account.mailless_create]
theorem mailless_modAccount (r k b m) : Mailless (modAccount env n r k b m) := by
  unfold modAccount; simp only [bind_eq, pure_eq]; mailless [mailless_getAccount, mailless_modify]
theorem mailless_delAccount : Mailless (delAccount env n) := by
  unfold delAccount removeAccount; simp only [bind_eq]; mailless [mailless_getAccount]
theorem mailless_firstMatch (a l) : Mailless (firstMatch env a l) := by
  induction l with
  | nil => exact .pure _
  | cons r rs ih => unfold firstMatch; simp only [bind_eq, pure_eq]; mailless [mailless_getAccount, Own.mailless_config]
theorem mailless_getAccountFromEmailadr (a r) : Mailless (getAccountFromEmailadr env a r) := by
  unfold getAccountFromEmailadr; simp only [bind_eq, pure_eq]; mailless [mailless_getAccountNames, mailless_firstMatch]
theorem mailless_patterns (l) : Mailless (patterns env l) := by
  induction l with
  | nil => exact .pure _
  | cons r rs ih => unfold patterns; simp only [bind_eq, pure_eq]; mailless [mailless_getAccount, Own.mailless_config]
theorem mailless_getMatchingAccount (m) : Mailless (getMatchingAccount env m) := by
  unfold getMatchingAccount; simp only [bind_eq, pure_eq]
  mailless [mailless_getAccountNames, mailless_patterns, mailless_getAccountFromEmailadr]
end Manager

theorem mailless_onAccount {p : Prog α} {n : Str} (h : Mailless p) : Mailless (onAccount env n p) :=
  .bind (.assert _) fun _ => .void h

theorem mailless_call (call : ApiCall) : Mailless (call.prog env) := by
  cases call with
  | init => exact Manager.mailless_init
  | getAccount => exact .void (Manager.mailless_getAccount ..)
  | addAccount => exact .void (Manager.mailless_addAccount ..)
  | modAccount => exact .void (Manager.mailless_modAccount ..)
  | delAccount => exact Manager.mailless_delAccount ..
  | listAccountNames => exact .void mailless_getAccountNames
  | accountFromEmailadr => exact .void (Manager.mailless_getAccountFromEmailadr ..)
  | matchingAccount => exact .void (Manager.mailless_getMatchingAccount ..)
  | removeAll => exact .rmtree
  | peernames => exact mailless_onAccount env (mailless_getPeernameList _)
  | recommendation => exact mailless_onAccount env (Account.mailless_recommendation ..)
  | makeAcHeader => exact mailless_onAccount env (Account.mailless_makeAcHeader ..)
  | exportPublicKey => exact mailless_onAccount env (Account.mailless_exportPublicKey ..)
  | exportSecretKey => exact mailless_onAccount env (Account.mailless_exportSecretKey ..)
  | processIncoming => exact mailless_onAccount env (Account.mailless_processIncoming ..)
  | processOutgoing => exact mailless_onAccount env (Account.mailless_processOutgoing ..)
  | encryptMime => exact mailless_onAccount env (Account.mailless_encryptMime ..)
  | decryptMime => exact mailless_onAccount env (Account.mailless_decryptMime ..)
  | importKey => exact mailless_onAccount env (Account.mailless_importKeydataAsAutocrypt ..)
  | peerMsg => exact mailless_onAccount env (Peer.mailless_updateFromMsg ..)
  | peerGossip => exact mailless_onAccount env (Peer.mailless_updateFromGossip ..)
  | verifySelf => exact mailless_onAccount env (.append ..)
  | verifyPeer => exact mailless_onAccount env (.append ..)
  | getVerification => exact mailless_onAccount env (OOB.mailless_getVerification ..)

variable (ce : CmdEnv) (be : BotEnv)

namespace Cmd

theorem mailless_say (s) : Mailless (say s) := .emit _ trivial
theorem mailless_kecho (a b) : Mailless (kecho a b) := .emit _ trivial
theorem mailless_processOutgoing (m) : Mailless (Cmd.processOutgoing env m) := by
  unfold Cmd.processOutgoing; simp only [bind_eq, pure_eq]
  mailless [Manager.mailless_getAccountFromEmailadr, Account.mailless_processOutgoing]
theorem mailless_processIncoming (a r d m) : Mailless (Cmd.processIncoming env a r d m) := by
  unfold Cmd.processIncoming; simp only [bind_eq, pure_eq]
  mailless [Manager.mailless_getMatchingAccount, Manager.mailless_getAccount, Account.mailless_processIncoming]
theorem mailless_sayReport (m r) : Mailless (sayReport m r) := by
  unfold sayReport; simp only [bind_eq]; mailless [mailless_say]
theorem mailless_scanRoutable (r m) : Mailless (scanRoutable env r m) := by
  unfold scanRoutable; simp only [bind_eq, pure_eq]
  mailless [Manager.mailless_getMatchingAccount, Account.mailless_processIncoming]
theorem mailless_scanFile (r n f) : Mailless (scanFile env r n f) := by
  unfold scanFile; simp only [bind_eq, pure_eq]; mailless [Account.mailless_effectiveDate, mailless_scanRoutable]
theorem mailless_sayOpt (o) : Mailless (sayOpt o) := by
  unfold sayOpt; simp only [pure_eq]; mailless [mailless_say]
theorem mailless_scanFiles (r n i l) : Mailless (scanFiles ce env r n i l) := by
  induction l generalizing i with
  | nil => exact .pure _
  | cons f fs ih => unfold scanFiles; simp only [bind_eq, pure_eq]; mailless [mailless_scanFile, mailless_sayOpt, ih]
theorem mailless_scandir (r l) : Mailless (scandir ce env r l) := by
  unfold scandir; simp only [bind_eq]; mailless [mailless_scanFiles]
theorem mailless_managerExists : Mailless managerExists := by
  unfold managerExists; simp only [bind_eq, pure_eq]; mailless
theorem mailless_destroyAll (y) : Mailless (destroyAll y) := by
  unfold destroyAll Manager.remove; simp only [bind_eq, pure_eq]; mailless [mailless_managerExists]
theorem mailless_peerstate (a b) : Mailless (peerstate ce env a b) := by
  unfold peerstate; simp only [bind_eq]; mailless [mailless_say]
theorem mailless_sayUids (l) : Mailless (sayUids l) := by
  induction l with
  | nil => exact .pure _
  | cons f fs ih => unfold sayUids; simp only [bind_eq]; mailless [mailless_say, mailless_kecho]
theorem mailless_sayPeers (a l) : Mailless (sayPeers ce env a l) := by
  induction l with
  | nil => exact .pure _
  | cons f fs ih => unfold sayPeers; simp only [bind_eq]; mailless [mailless_say]
theorem mailless_statusAccount (a v) : Mailless (statusAccount ce env a v) := by
  unfold statusAccount; simp only [bind_eq, pure_eq]
  mailless [mailless_say, mailless_kecho, Own.mailless_config, Account.mailless_bingpg, Account.mailless_ownKeyhandle, BinGPG.mailless_listPublicKeyinfos, mailless_sayUids,
    mailless_getPeernameList, mailless_sayPeers]
theorem mailless_statusAll (v l) : Mailless (statusAll ce env v l) := by
  induction l with
  | nil => exact .pure _
  | cons f fs ih => unfold statusAll; simp only [bind_eq]; mailless [mailless_say, Manager.mailless_getAccount, mailless_statusAccount]
theorem mailless_status (v) : Mailless (status ce env v) := by
  unfold status; simp only [bind_eq]; mailless [mailless_say, mailless_getAccountNames, mailless_statusAll]
theorem mailless_sayAddrs (l) : Mailless (sayAddrs l) := by
  induction l with
  | nil => exact .pure _
  | cons f fs ih => unfold sayAddrs; simp only [bind_eq]; mailless [mailless_say]
theorem mailless_accountFor (a) : Mailless (accountFor env a) := by
  unfold accountFor; simp only [bind_eq, pure_eq]; mailless [Manager.mailless_getAccountFromEmailadr]
end Cmd

namespace Bot
open Account
theorem mailless_makeReply (v a d f e m) : Mailless (makeReply env be v a d f e m) := by
  unfold makeReply; simp only [bind_eq, pure_eq]; mailless [mailless_makeAcHeader, mailless_encryptMime]
theorem mailless_replyNoFrom (a d m) : Mailless (replyNoFrom env be a d m) := by
  unfold replyNoFrom; simp only [bind_eq]; mailless [mailless_makeAcHeader]
theorem mailless_keysOf (a m) : Mailless (keysOf env a m) := by
  unfold keysOf; simp only [bind_eq, pure_eq]; mailless [mailless_decryptMime]
theorem mailless_recFor (a m) : Mailless (recFor env a m) := by
  unfold recFor; simp only [bind_eq, pure_eq]; mailless [mailless_recommendation]
theorem mailless_processed (r m i) : Mailless (Report.processed env r m i) := by
  unfold Report.processed; simp only [bind_eq, pure_eq]; mailless
end Bot

namespace Cmd
end Cmd
end Verif
