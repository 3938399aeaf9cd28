import Verif.Lemmas.SafeCalls
/-!
# How programs are put together

Every program of the model is made of plain operations, checked gpg commands, bodies with a temporary file and
handlers. Facts which hold of these parts and are kept by sequencing hold of every program.
-/
namespace Verif

variable {σ K : Type} {α β : Type}

/-- operations which neither run gpg nor handle a temporary file -/
def Op.plain : Op → Prop
  | .ext (.gpg _ _) | .ext .mkTemp | .ext (.writeTemp _ _) | .ext (.rmTemp _) => False
  | _ => True

/-- `Built c p`: `p` runs gpg only through `_gpg_outerr` and makes temporary files only through
`temp_written_file`; exceptions are handled only if `c` -/
inductive Built (c : Bool) : {α : Type} → Prog α → Prop
  | pure {α : Type} (a : α) : Built c (.pure a)
  | raise {α : Type} (e : Exc) : Built c (.raise e : Prog α)
  | op {α : Type} (o : Op) (k : o.Ret → Prog α) : o.plain → (∀ r, Built c (k r)) → Built c (.op o k)
  | bind {α β : Type} {p : Prog α} {f : α → Prog β} : Built c p → (∀ a, Built c (f a)) → Built c (p.bind f)
  | gpg (env : Env) (g : BinGPG) (a : List Str) (i : Option Bytes) (s d : Bool) : Built c (BinGPG.gpgOuterr env g a i s d)
  | temp {α : Type} (d : Bytes) (b : Str → Prog α) : (∀ n, Built c (b n)) → Built c (BinGPG.withTempFile d b)
  | attempt {α : Type} {p : Prog α} : c = true → Built c p → Built c p.attempt

namespace Built
variable {c : Bool}
theorem ofExcept (x : Except Exc α) : Built c (Prog.ofExcept x) := by cases x <;> constructor
theorem assert (b : Bool) : Built c (Prog.assert b) := by cases b <;> constructor
theorem void {p : Prog α} (h : Built c p) : Built c p.void := bind h fun _ => pure _
theorem now : Built c Prog.now := .op _ _ trivial fun _ => .pure _
theorem chain (h) : Built c (Prog.chain h) := .op _ _ trivial fun _ => ofExcept _
theorem append (h e) : Built c (Prog.append h e) := .op _ _ trivial fun _ => ofExcept _
theorem heads : Built c Prog.heads := .op _ _ trivial fun _ => ofExcept _
theorem removeIf (p) : Built c (Prog.removeIf p) := .op _ _ trivial fun _ => ofExcept _
theorem findExecutable (a) : Built c (Prog.findExecutable a) := .op _ _ trivial fun _ => .pure _
theorem pathExists (a) : Built c (Prog.pathExists a) := .op _ _ trivial fun _ => .pure _
theorem makedirs (a) : Built c (Prog.makedirs a) := .op _ _ trivial fun _ => ofExcept _
theorem writeFile (a b) : Built c (Prog.writeFile a b) := .op _ _ trivial fun _ => ofExcept _
theorem uuid : Built c Prog.uuid := .op _ _ trivial fun _ => .pure _
theorem hookInstantiate (a) : Built c (Prog.hookInstantiate a) := .op _ _ trivial fun _ => ofExcept _
theorem hookIncomingGossip (a b d) : Built c (Prog.hookIncomingGossip a b d) := .op _ _ trivial fun _ => ofExcept _
theorem hookBeforeEnc (a b d e) : Built c (Prog.hookBeforeEnc a b d e) := .op _ _ trivial fun _ => ofExcept _
theorem sendmail (a b) : Built c (Prog.sendmail a b) := .op _ _ trivial fun _ => ofExcept _
theorem emit (a) : Built c (Prog.emit a) := .op _ _ trivial fun _ => ofExcept _
theorem rmtree : Built c Prog.rmtree := .op _ _ trivial fun _ => .op _ _ trivial fun _ => .pure _
end Built

/-- decompose a goal `Built c p` -/
syntax "built" ("[" term,* "]")? : tactic
macro_rules
  | `(tactic| built) => `(tactic| built [trivial])
  | `(tactic| built [$ts,*]) => do
    let alts ← ts.getElems.mapM fun t => `(tactic| with_reducible apply $t)
    `(tactic| repeat' (first
      | intro _
      | assumption
      $[| $alts:tactic]*
      | with_reducible apply Built.pure
      | with_reducible apply Built.raise
      | with_reducible apply Built.bind
      | with_reducible apply Built.void
      | with_reducible apply Built.gpg
      | with_reducible apply Built.temp
      | with_reducible apply Built.ofExcept
      | with_reducible apply Built.assert
      | with_reducible apply Built.now
      | with_reducible apply Built.chain
      | with_reducible apply Built.append
      | with_reducible apply Built.heads
      | with_reducible apply Built.removeIf
      | with_reducible apply Built.findExecutable
      | with_reducible apply Built.pathExists
      | with_reducible apply Built.makedirs
      | with_reducible apply Built.writeFile
      | with_reducible apply Built.uuid
      | with_reducible apply Built.hookInstantiate
      | with_reducible apply Built.hookIncomingGossip
      | with_reducible apply Built.hookBeforeEnc
      | with_reducible apply Built.sendmail
      | with_reducible apply Built.emit
      | with_reducible apply Built.rmtree
      | with_reducible apply Built.attempt rfl
      | split))

variable {c : Bool} (env : Env)

namespace BinGPG
variable (g : BinGPG)
theorem built_gpgOutText (a i) : Built c (gpgOutText env g a i) := by
  unfold gpgOutText; simp only [bind_eq]; built
theorem built_versionAtLeast (v) : Built c (versionAtLeast env g v) := by
  unfold versionAtLeast versionInfo; simp only [bind_eq]; built [built_gpgOutText]
theorem built_ensureInit : Built c (ensureInit env g) := by
  unfold ensureInit badDefaults; simp only [bind_eq, pure_eq]; built [built_versionAtLeast]
theorem built_create (h p) : Built c (create env h p) := by
  unfold create; simp only [bind_eq, pure_eq]; built [built_ensureInit]
theorem built_nopassphrase : Built c (nopassphrase env g) := by
  unfold nopassphrase; simp only [bind_eq, pure_eq]; built [built_versionAtLeast]
theorem built_parseList (a t) : Built c (parseList env g a t) := by
  unfold parseList; simp only [bind_eq]; built [built_gpgOutText]
theorem built_listPublicKeyinfos (k) : Built c (listPublicKeyinfos env g k) := built_parseList ..
theorem built_listSecretKeyinfos (k) : Built c (listSecretKeyinfos env g k) := built_parseList ..
theorem built_getSecretKeyhandle (k) : Built c (getSecretKeyhandle env g k) := by
  unfold getSecretKeyhandle; simp only [bind_eq, pure_eq]; built [built_listSecretKeyinfos]
theorem built_findKeyhandle (t) : Built c (findKeyhandle env g t) := by
  unfold findKeyhandle; simp only [bind_eq, pure_eq]; built [built_listPublicKeyinfos]
theorem built_genSecretKey (e) : Built c (genSecretKey env g e) := by
  unfold genSecretKey; simp only [bind_eq]; built [built_nopassphrase, built_findKeyhandle]
theorem built_getPublicKeydata (k a) : Built c (getPublicKeydata env g k a) := by
  unfold getPublicKeydata; simp only [bind_eq, pure_eq]; built
theorem built_getSecretKeydata (k a) : Built c (getSecretKeydata env g k a) := by
  unfold getSecretKeydata; simp only [bind_eq, pure_eq]; built [built_nopassphrase]
theorem built_encrypt (d r s t) : Built c (encrypt env g d r s t) := by
  unfold encrypt; simp only [bind_eq, pure_eq]; built [built_nopassphrase]
theorem built_sign (d k) : Built c (sign env g d k) := by
  unfold sign; simp only [bind_eq, pure_eq]; built [built_nopassphrase]
theorem built_verify (d k) : Built c (verify env g d k) := by
  unfold verify; simp only [bind_eq]; built [built_findKeyhandle]
theorem built_decrypt (d) : Built c (decrypt env g d) := by
  unfold decrypt; simp only [bind_eq, pure_eq]; built [built_nopassphrase]
theorem built_importKeydata (d m) : Built c (importKeydata env g d m) := by
  unfold importKeydata; simp only [bind_eq, pure_eq]; built [built_findKeyhandle, built_getPublicKeydata]
end BinGPG

theorem Own.built_config (n) : Built c (Own.config n) := by
  unfold Own.config; simp only [bind_eq, pure_eq]; built
theorem Own.built_keyhandle (n) : Built c (Own.keyhandle n) := by
  unfold Own.keyhandle; simp only [bind_eq, pure_eq]; built
theorem Own.built_changeConfig (n k) : Built c (Own.changeConfig n k) := by
  unfold Own.changeConfig; simp only [bind_eq, pure_eq]; built
theorem Peer.built_updateFromMsg (h u) : Built c (Peer.updateFromMsg h u) := by
  unfold Peer.updateFromMsg; simp only [bind_eq, pure_eq]; built
theorem Peer.built_updateFromGossip (h u) : Built c (Peer.updateFromGossip h u) := by
  unfold Peer.updateFromGossip; simp only [bind_eq, pure_eq]; built
theorem OOB.built_getVerification (n a) : Built c (OOB.getVerification n a) := by
  unfold OOB.getVerification; simp only [bind_eq, pure_eq]; built
theorem built_getAccountNames : Built c getAccountNames := by
  unfold getAccountNames; simp only [bind_eq, pure_eq]; built
theorem built_getPeernameList (n) : Built c (getPeernameList n) := by
  unfold getPeernameList; simp only [bind_eq, pure_eq]; built

namespace Account
open BinGPG
variable (n : Str)
theorem built_effectiveDate (d) : Built c (effectiveDate d) := by
  unfold effectiveDate; simp only [bind_eq, pure_eq]; built
theorem built_ownKeyhandle : Built c (ownKeyhandle n) := by
  unfold ownKeyhandle; simp only [bind_eq, pure_eq]; built [Own.built_keyhandle]
theorem built_bingpg : Built c (bingpg env n) := by
  unfold bingpg; simp only [bind_eq]; built [Own.built_config, built_create]
theorem built_exists_ : Built c (exists_ n) := by
  unfold exists_; simp only [bind_eq, pure_eq]; built
theorem built_createKey (k) : Built c (createKey env n k) := by
  unfold createKey; simp only [bind_eq, pure_eq]; built [built_bingpg, built_genSecretKey, built_getSecretKeyhandle]
theorem built_create (r k b m) : Built c (create env n r k b m) := by
  unfold create Own.newConfig Own.appendKeygen; simp only [bind_eq, pure_eq]
  built [built_bingpg, built_createKey, built_getSecretKeydata]
theorem built_modify (r k b p) : Built c (modify n r k b p) := Own.built_changeConfig ..
theorem built_makeAcHeader (a) : Built c (makeAcHeader env n a) := by
  unfold makeAcHeader; simp only [bind_eq]
  built [built_bingpg, built_ownKeyhandle, built_getPublicKeydata, Own.built_config]
theorem built_exportPublicKey (k) : Built c (exportPublicKey env n k) := by
  unfold exportPublicKey; simp only [bind_eq, pure_eq]
  built [built_bingpg, built_ownKeyhandle, built_getPublicKeydata]
theorem built_exportSecretKey : Built c (exportSecretKey env n) := by
  unfold exportSecretKey; simp only [bind_eq]
  built [built_bingpg, built_ownKeyhandle, built_getSecretKeydata]
theorem built_importKey (k) : Built true (importKey env n k) := by
  unfold importKey; simp only [bind_eq, pure_eq]
  built [built_bingpg, built_importKeydata]
theorem built_importPah (p) : Built true (importPah env n p) := by
  unfold importPah; simp only [bind_eq, pure_eq]; built [built_importKey]
theorem built_processAutocryptHeader (m f h d i) : Built true (processAutocryptHeader env n m f h d i) := by
  unfold processAutocryptHeader; simp only [bind_eq, pure_eq]; built [built_importPah, Peer.built_updateFromMsg]
theorem built_gossipLoop (x d i p l) : Built true (gossipLoop env n x d i p l) := by
  induction l generalizing p with
  | nil => exact .pure _
  | cons r rs ih =>
    unfold gossipLoop; simp only [bind_eq]; built [built_importPah, Peer.built_updateFromGossip, ih]
theorem built_processGossipHeaders (m d i) : Built true (processGossipHeaders env n m d i) := by
  unfold processGossipHeaders; simp only [bind_eq]; built [built_gossipLoop]
theorem built_decryptMime (m) : Built c (decryptMime env n m) := by
  unfold decryptMime; simp only [bind_eq, pure_eq]; built [built_bingpg, built_decrypt]
theorem built_processIncoming (m a b) : Built true (processIncoming env n m a b) := by
  unfold processIncoming; simp only [bind_eq, pure_eq]
  built [built_effectiveDate, built_processAutocryptHeader, built_decryptMime, built_processGossipHeaders, built_ownKeyhandle]
theorem built_readPeers (l) : Built c (readPeers env n l) := by
  induction l with
  | nil => exact .pure _
  | cons r rs ih => unfold readPeers; simp only [bind_eq, pure_eq]; built
theorem built_recommendation (a r f) : Built c (recommendation env n a r f) := by
  unfold recommendation; simp only [bind_eq]; built [Own.built_config, built_readPeers]
theorem built_encLoop (a l) : Built c (encLoop env n a l) := by
  induction l generalizing a with
  | nil => exact .pure _
  | cons r rs ih => unfold encLoop; simp only [bind_eq]; built [Own.built_config, built_ownKeyhandle, ih]
theorem built_encryptMime (m a) : Built c (encryptMime env n m a) := by
  unfold encryptMime; simp only [bind_eq, pure_eq]; built [built_encLoop, built_ownKeyhandle, built_bingpg, built_encrypt]
theorem built_outgoingBody (m e) : Built c (outgoingBody env n m e) := by
  unfold outgoingBody; simp only [bind_eq, pure_eq]; built [built_recommendation, built_encryptMime]
theorem built_processOutgoing (m) : Built c (processOutgoing env n m) := by
  unfold processOutgoing; simp only [bind_eq, pure_eq]; built [built_makeAcHeader, built_outgoingBody]
theorem built_importLoop (p k l) : Built c (importLoop env n p k l) := by
  induction l with
  | nil => exact .pure _
  | cons r rs ih =>
    unfold importLoop; simp only [bind_eq]; built [built_bingpg, built_getPublicKeydata, Peer.built_updateFromMsg]
theorem built_importKeydataAsAutocrypt (a k p) : Built c (importKeydataAsAutocrypt env n a k p) := by
  unfold importKeydataAsAutocrypt; simp only [bind_eq, pure_eq]
  built [built_bingpg, built_importKeydata, built_listPublicKeyinfos, built_importLoop, built_getPublicKeydata]
end Account

namespace Manager
open Account
variable (n : Str)
theorem built_init : Built c Manager.init := by
  unfold Manager.init Mgr.setVersion; simp only [bind_eq]; built
theorem built_ensureInit : Built c Manager.ensureInit := by
  unfold Manager.ensureInit; simp only [bind_eq, pure_eq]; built [built_init]
theorem built_account : Built c (Manager.account env n) := .assert _
theorem built_getAccount (x) : Built c (getAccount env n x) := by
  unfold getAccount; simp only [bind_eq, pure_eq]; built [built_ensureInit, built_account, built_exists_]
theorem built_addAccount (r k b m) : Built c (addAccount env n r k b m) := by
  unfold addAccount; simp only [bind_eq, pure_eq]; built [built_getAccount, built_exists_, Account.built_create]
theorem built_modAccount (r k b m) : Built c (modAccount env n r k b m) := by
  unfold modAccount; simp only [bind_eq, pure_eq]; built [built_getAccount, built_modify]
theorem built_delAccount : Built c (delAccount env n) := by
  unfold delAccount removeAccount; simp only [bind_eq]; built [built_getAccount]
theorem built_firstMatch (a l) : Built c (firstMatch env a l) := by
  induction l with
  | nil => exact .pure _
  | cons r rs ih => unfold firstMatch; simp only [bind_eq, pure_eq]; built [built_getAccount, Own.built_config]
theorem built_getAccountFromEmailadr (a r) : Built c (getAccountFromEmailadr env a r) := by
  unfold getAccountFromEmailadr; simp only [bind_eq, pure_eq]; built [built_getAccountNames, built_firstMatch]
theorem built_patterns (l) : Built c (patterns env l) := by
  induction l with
  | nil => exact .pure _
  | cons r rs ih => unfold patterns; simp only [bind_eq, pure_eq]; built [built_getAccount, Own.built_config]
theorem built_getMatchingAccount (m) : Built c (getMatchingAccount env m) := by
  unfold getMatchingAccount; simp only [bind_eq, pure_eq]
  built [built_getAccountNames, built_patterns, built_getAccountFromEmailadr]
end Manager

/-- calls during which exceptions are handled: only processing incoming mail does so -/
def ApiCall.handles : ApiCall → Bool
  | .processIncoming .. => true
  | _ => false

theorem built_onAccount {p : Prog α} {n : Str} (h : Built c p) : Built c (onAccount env n p) :=
  .bind (.assert _) fun _ => .void h

theorem built_call (call : ApiCall) : Built call.handles (call.prog env) := by
  cases call with
  | init => exact Manager.built_init
  | getAccount => exact .void (Manager.built_getAccount ..)
  | addAccount => exact .void (Manager.built_addAccount ..)
  | modAccount => exact .void (Manager.built_modAccount ..)
  | delAccount => exact Manager.built_delAccount ..
  | listAccountNames => exact .void built_getAccountNames
  | accountFromEmailadr => exact .void (Manager.built_getAccountFromEmailadr ..)
  | matchingAccount => exact .void (Manager.built_getMatchingAccount ..)
  | removeAll => exact .rmtree
  | peernames => exact built_onAccount env (built_getPeernameList _)
  | recommendation => exact built_onAccount env (Account.built_recommendation ..)
  | makeAcHeader => exact built_onAccount env (Account.built_makeAcHeader ..)
  | exportPublicKey => exact built_onAccount env (Account.built_exportPublicKey ..)
  | exportSecretKey => exact built_onAccount env (Account.built_exportSecretKey ..)
  | processIncoming => exact built_onAccount env (Account.built_processIncoming ..)
  | processOutgoing => exact built_onAccount env (Account.built_processOutgoing ..)
  | encryptMime => exact built_onAccount env (Account.built_encryptMime ..)
  | decryptMime => exact built_onAccount env (Account.built_decryptMime ..)
  | importKey => exact built_onAccount env (Account.built_importKeydataAsAutocrypt ..)
  | peerMsg => exact built_onAccount env (Peer.built_updateFromMsg ..)
  | peerGossip => exact built_onAccount env (Peer.built_updateFromGossip ..)
  | verifySelf => exact built_onAccount env (.append ..)
  | verifyPeer => exact built_onAccount env (.append ..)
  | getVerification => exact built_onAccount env (OOB.built_getVerification ..)

end Verif
