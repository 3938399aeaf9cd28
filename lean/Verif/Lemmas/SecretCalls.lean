import Verif.Lemmas.Secret
/-!
# Two runs which differ in secret keys only: the programs of the model
-/
namespace Verif
open BinGPG
variable {α β : Type}

/-- decompose a goal `Same p` -/
syntax "same" ("[" term,* "]")? : tactic
macro_rules
  | `(tactic| same) => `(tactic| same [trivial])
  | `(tactic| same [$ts,*]) => do
    let alts ← ts.getElems.mapM fun t => `(tactic| with_reducible apply $t)
    `(tactic| repeat' (first
      | with_reducible intro _
      | assumption
      $[| $alts:tactic]*
      | with_reducible apply Same.pure
      | with_reducible apply Same.raise
      | (with_reducible refine Same.chainBind (fun es => ?_) (fun es => ?_)
         · simp only [Peer.latestMsg_hide, Peer.lastSeen_hide, Peer.acTimestamp_hide, Peer.hasDirectKey_hide, Peer.entryForEncryption_hide,
             Peer.publicKeyhandle_hide, Peer.publicKeydata_hide, Peer.preferEncrypt_hide, Peer.hasMessage_hide, Peer.updateEntry_hide,
             Peer.gossipEntry_hide, Own.latestConfig_hide, Own.isConfigured_hide, OOB.lookup_hide, Mgr.version_hide])
      | with_reducible apply Same.bind
      | with_reducible apply Same.void
      | with_reducible apply Same.temp
      | with_reducible apply Same.ofExcept
      | with_reducible apply Same.assert
      | with_reducible apply Same.now
      | with_reducible apply Same.append
      | with_reducible apply Same.heads
      | with_reducible apply Same.removeIf
      | with_reducible apply Same.findExecutable
      | with_reducible apply Same.pathExists
      | with_reducible apply Same.makedirs
      | with_reducible apply Same.writeFile
      | with_reducible apply Same.uuid
      | with_reducible apply Same.hookInstantiate
      | with_reducible apply Same.hookIncomingGossip
      | with_reducible apply Same.hookBeforeEnc
      | with_reducible apply Same.sendmail
      | with_reducible apply Same.emit
      | with_reducible apply Same.rmtree
      | with_reducible apply Same.attempt
      | split))

variable (env : Env)

namespace BinGPG
variable (g : BinGPG)
theorem same_versionAtLeast (v) : Same (versionAtLeast env g v) := by
  unfold versionAtLeast versionInfo gpgOutText
  simp only [bind_eq]
  exact .bind (.bind (.gpg (u := .version) ⟨rfl, rfl⟩ (by decide) _ _) fun _ => .ofExcept _) fun _ => .ofExcept _
theorem same_ensureInit : Same (ensureInit env g) := by
  unfold ensureInit badDefaults; simp only [bind_eq, pure_eq]; same [same_versionAtLeast]
theorem same_create (h p) : Same (create env h p) := by
  unfold create; simp only [bind_eq, pure_eq]; same [same_ensureInit]
theorem same_nopass {f : List Str → Prog α} (h : ∀ np, Unasked np → Same (f np)) : Same ((nopassphrase env g).bind f) := by
  unfold nopassphrase
  simp only [bind_eq, pure_eq, Prog.bind_assoc]
  refine .bind (same_versionAtLeast env g _) fun b => h _ ?_
  cases b
  exacts [.inl rfl, .inr rfl]
theorem same_listPublicKeyinfos (k) : Same (listPublicKeyinfos env g (some k)) := by
  unfold listPublicKeyinfos parseList gpgOutText
  simp only [bind_eq]
  exact .bind (.bind (.gpg (u := .listPublic) ⟨k, rfl, rfl⟩ (by decide) _ _) fun _ => .ofExcept _) fun _ => .ofExcept _
theorem same_getSecretKeyhandle (k) : Same (getSecretKeyhandle env g k) := by
  unfold getSecretKeyhandle listSecretKeyinfos parseList gpgOutText
  simp only [bind_eq, pure_eq]
  exact .bind (.bind (.bind (.gpg (u := .listSecret) ⟨k, rfl, rfl⟩ (by decide) _ _) fun _ => .ofExcept _) fun _ => .ofExcept _) fun _ => .pure _
theorem same_findKeyhandle (t) : Same (findKeyhandle env g t) := by
  unfold findKeyhandle; simp only [bind_eq, pure_eq]; same [same_listPublicKeyinfos]
theorem same_genSecretKey (e) : Same (genSecretKey env g e) := by
  unfold genSecretKey
  simp only [bind_eq]
  exact .bind (.temp fun fn => same_nopass env g fun np hnp => .gpg (u := .generate) ⟨np, fn, hnp, rfl, rfl⟩ (by decide) _ _) fun _ =>
    same_findKeyhandle env g _
theorem same_getPublicKeydata (k a) : Same (getPublicKeydata env g k a) := by
  unfold getPublicKeydata
  simp only [bind_eq, pure_eq]
  exact .bind (.gpg (u := .exportPublic) ⟨_, k, by cases a <;> simp, rfl, rfl⟩ (by decide) _ _) fun _ => .pure _
theorem same_encrypt (d r s) : Same (encrypt env g d r s true) := by
  unfold encrypt
  simp only [bind_eq, pure_eq]
  refine same_nopass env g fun np hnp => .bind (.gpg (u := .encrypt) ⟨np, r, if s.isEmpty then [] else [str!"--sign", str!"-u", s], hnp, ?_, ?_, rfl⟩
    (by decide) _ _) fun _ => .pure _
  · cases s
    · exact .inl rfl
    · exact .inr ⟨_, rfl⟩
  · simp [encryptOpts, List.flatMap]
theorem same_decrypt (d) : Same (decrypt env g d) := by
  unfold decrypt
  simp only [bind_eq, pure_eq]
  exact same_nopass env g fun np hnp => .bind (.gpg (u := .decrypt) ⟨np, hnp, rfl, rfl⟩ (by decide) _ _) fun _ => .bind (.ofExcept _) fun _ => .pure _
theorem same_import (d) : Same (gpgOuterr env g [str!"--skip-verify", str!"--import"] (some d)) :=
  .gpg (u := .importKeys) ⟨rfl, rfl⟩ (by decide) _ _
theorem same_delete (k) : Same (gpgOuterr env g [str!"--yes", str!"--delete-key", k]) :=
  .gpg (u := .delete) ⟨k, rfl, rfl⟩ (by decide) _ _
theorem same_importKeydata (d m) : Same (importKeydata env g d m) := by
  unfold importKeydata; simp only [bind_eq, pure_eq]
  same [same_import, same_delete, same_findKeyhandle, same_getPublicKeydata]
/-- the bytes written may differ -/
theorem like_getSecretKeydata (k a) : Like (fun _ _ => True) (getSecretKeydata env g k a) (getSecretKeydata env g k a) := by
  unfold getSecretKeydata nopassphrase
  simp only [bind_eq, pure_eq, Prog.bind_assoc]
  refine .bind (same_versionAtLeast env g _) fun b b' hb => ?_
  rw [hb]
  exact .bind (R := Eq) (.pure rfl) fun np np' hnp => by rw [hnp]; exact .bind (Like.gpgAny _) fun _ _ _ => .pure trivial
end BinGPG

theorem Own.same_config (n) : Same (Own.config n) := by
  unfold Own.config; simp only [bind_eq, pure_eq]; same
theorem Own.same_keyhandle (n) : Same (Own.keyhandle n) := by
  unfold Own.keyhandle
  simp only [bind_eq, pure_eq]
  refine .chainBind (fun es => ?_) fun es => ?_
  · simp only [Own.latestKeygen_hide]
    cases Own.latestKeygen es <;> rfl
  · same
theorem Own.same_changeConfig (n k) : Same (Own.changeConfig n k) := by
  unfold Own.changeConfig; simp only [bind_eq, pure_eq]; same
theorem Peer.same_updateFromMsg (h u) : Same (Peer.updateFromMsg h u) := by
  unfold Peer.updateFromMsg; simp only [bind_eq, pure_eq]; same
theorem Peer.same_updateFromGossip (h u) : Same (Peer.updateFromGossip h u) := by
  unfold Peer.updateFromGossip; simp only [bind_eq, pure_eq]; same
theorem OOB.same_getVerification (n a) : Same (OOB.getVerification n a) := by
  unfold OOB.getVerification; simp only [bind_eq, pure_eq]; same
theorem same_getAccountNames : Same getAccountNames := by
  unfold getAccountNames; simp only [bind_eq, pure_eq]; same
theorem same_getPeernameList (n) : Same (getPeernameList n) := by
  unfold getPeernameList; simp only [bind_eq, pure_eq]; same

namespace Account
open BinGPG
variable (n : Str)
theorem same_effectiveDate (d) : Same (effectiveDate d) := by
  unfold effectiveDate; simp only [bind_eq, pure_eq]; same
theorem same_ownKeyhandle : Same (ownKeyhandle n) := by
  unfold ownKeyhandle; simp only [bind_eq, pure_eq]; same [Own.same_keyhandle]
theorem same_bingpg : Same (bingpg env n) := by
  unfold bingpg; simp only [bind_eq]; same [Own.same_config, same_create]
theorem same_exists_ : Same (exists_ n) := by
  unfold exists_; simp only [bind_eq, pure_eq]; same
theorem same_createKey (k) : Same (createKey env n k) := by
  unfold createKey; simp only [bind_eq, pure_eq]; same [same_bingpg, same_genSecretKey, same_getSecretKeyhandle]
theorem same_create (r k b m) : Same (create env n r k b m) := by
  unfold create Own.newConfig Own.appendKeygen
  simp only [bind_eq, pure_eq]
  refine .bind (by same) fun mode => .bind (.append _ _) fun _ => .bind (same_createKey env n k) fun kh => .bind (same_bingpg env n) fun g => ?_
  exact Like.bind (like_getSecretKeydata env g kh _) fun kd kd' _ => .keygen rfl fun r => .ofExcept (fun _ => rfl) r
theorem same_modify (r k b p) : Same (modify n r k b p) := Own.same_changeConfig ..
theorem same_makeAcHeader (a) : Same (makeAcHeader env n a) := by
  unfold makeAcHeader; simp only [bind_eq]
  same [same_bingpg, same_ownKeyhandle, same_getPublicKeydata, Own.same_config]
theorem same_exportPublicKey (k) : Same (exportPublicKey env n k) := by
  unfold exportPublicKey; simp only [bind_eq, pure_eq]
  same [same_bingpg, same_ownKeyhandle, same_getPublicKeydata]
/-- the bytes written may differ -/
theorem like_exportSecretKey : Like (fun _ _ => True) (exportSecretKey env n) (exportSecretKey env n) := by
  unfold exportSecretKey
  simp only [bind_eq]
  refine .bind (same_bingpg env n) fun g g' hg => ?_
  rw [hg]
  refine .bind (same_ownKeyhandle n) fun k k' hk => ?_
  rw [hk]
  exact like_getSecretKeydata env g' k' _
theorem same_importKey (k) : Same (importKey env n k) := by
  unfold importKey; simp only [bind_eq, pure_eq]
  same [same_bingpg, same_importKeydata]
theorem same_importPah (p) : Same (importPah env n p) := by
  unfold importPah; simp only [bind_eq, pure_eq]; same [same_importKey]
theorem same_processAutocryptHeader (m f h d i) : Same (processAutocryptHeader env n m f h d i) := by
  unfold processAutocryptHeader; simp only [bind_eq, pure_eq]; same [same_importPah, Peer.same_updateFromMsg]
theorem same_gossipLoop (x d i p l) : Same (gossipLoop env n x d i p l) := by
  induction l generalizing p with
  | nil => exact .pure _
  | cons r rs ih =>
    unfold gossipLoop; simp only [bind_eq]; same [same_importPah, Peer.same_updateFromGossip, ih]
theorem same_processGossipHeaders (m d i) : Same (processGossipHeaders env n m d i) := by
  unfold processGossipHeaders; simp only [bind_eq]; same [same_gossipLoop]
theorem same_decryptMime (m) : Same (decryptMime env n m) := by
  unfold decryptMime; simp only [bind_eq, pure_eq]; same [same_bingpg, same_decrypt]
theorem same_processIncoming (m a b) : Same (processIncoming env n m a b) := by
  unfold processIncoming; simp only [bind_eq, pure_eq]
  same [same_effectiveDate, same_processAutocryptHeader, same_decryptMime, same_processGossipHeaders, same_ownKeyhandle]
theorem like_readPeers (l) : Like (List.Forall₂ LogsLike) (readPeers env n l) (readPeers env n l) := by
  induction l with
  | nil => exact .pure .nil
  | cons r rs ih =>
    unfold readPeers
    simp only [bind_eq, pure_eq]
    exact .bind (.chain _) fun es es' h => .bind ih fun l l' hl => .pure (.cons h hl)
theorem peerUi_like {es es' : List Entry} (h : LogsLike es es') (o r) : Rec.peerUi es o r = Rec.peerUi es' o r := by
  have : ∀ es, Rec.peerUi (es.map Entry.hide) o r = Rec.peerUi es o r := fun es => by
    unfold Rec.peerUi Rec.preliminary
    simp only [Peer.publicKeyhandle_hide, Peer.hasDirectKey_hide, Peer.lastSeen_hide, Peer.acTimestamp_hide, Peer.preferEncrypt_hide, Peer.latestMsg_hide]
  rw [← this es, ← this es', h]
theorem peerUis_like {l l' : List (List Entry)} (h : List.Forall₂ LogsLike l l') (o r) : Rec.peerUis o r l = Rec.peerUis o r l' := by
  induction h with
  | nil => rfl
  | cons h _ ih => unfold Rec.peerUis; rw [peerUi_like h, ih]
theorem same_recommendation (a r f) : Same (recommendation env n a r f) := by
  unfold recommendation
  simp only [bind_eq]
  refine .bind (Own.same_config n) fun c => Like.bind (like_readPeers env n _) fun l l' hl => ?_
  unfold Rec.ui
  rw [peerUis_like hl]
  exact .ofExcept (fun _ => rfl) _
theorem same_encLoop (a l) : Same (encLoop env n a l) := by
  induction l generalizing a with
  | nil => exact .pure _
  | cons r rs ih => unfold encLoop; simp only [bind_eq]; same [Own.same_config, same_ownKeyhandle, ih]
theorem same_encryptMime (m a) : Same (encryptMime env n m a) := by
  unfold encryptMime; simp only [bind_eq, pure_eq]; same [same_encLoop, same_ownKeyhandle, same_bingpg, same_encrypt]
theorem same_outgoingBody (m e) : Same (outgoingBody env n m e) := by
  unfold outgoingBody; simp only [bind_eq, pure_eq]; same [same_recommendation, same_encryptMime]
theorem same_processOutgoing (m) : Same (processOutgoing env n m) := by
  unfold processOutgoing; simp only [bind_eq, pure_eq]; same [same_makeAcHeader, same_outgoingBody]
theorem same_importLoop (p k l) : Same (importLoop env n p k l) := by
  induction l with
  | nil => exact .pure _
  | cons r rs ih =>
    unfold importLoop; simp only [bind_eq]; same [same_bingpg, same_getPublicKeydata, Peer.same_updateFromMsg]
theorem same_importKeydataAsAutocrypt (a k p) : Same (importKeydataAsAutocrypt env n a k p) := by
  unfold importKeydataAsAutocrypt; simp only [bind_eq, pure_eq]
  same [same_bingpg, same_importKeydata, same_listPublicKeyinfos, same_importLoop, same_getPublicKeydata]
end Account

namespace Manager
open Account
variable (n : Str)
theorem same_init : Same Manager.init := by
  unfold Manager.init Mgr.setVersion; simp only [bind_eq]; same
theorem same_ensureInit : Same Manager.ensureInit := by
  unfold Manager.ensureInit; simp only [bind_eq, pure_eq]; same [same_init]
theorem same_account : Same (Manager.account env n) := .assert _
theorem same_getAccount (x) : Same (getAccount env n x) := by
  unfold getAccount; simp only [bind_eq, pure_eq]; same [same_ensureInit, same_account, same_exists_]
theorem same_addAccount (r k b m) : Same (addAccount env n r k b m) := by
  unfold addAccount; simp only [bind_eq, pure_eq]; same [same_getAccount, same_exists_, Account.same_create]
theorem same_modAccount (r k b m) : Same (modAccount env n r k b m) := by
  unfold modAccount; simp only [bind_eq, pure_eq]; same [same_getAccount, same_modify]
theorem same_delAccount : Same (delAccount env n) := by
  unfold delAccount removeAccount; simp only [bind_eq]; same [same_getAccount]
theorem same_firstMatch (a l) : Same (firstMatch env a l) := by
  induction l with
  | nil => exact .pure _
  | cons r rs ih => unfold firstMatch; simp only [bind_eq, pure_eq]; same [same_getAccount, Own.same_config]
theorem same_getAccountFromEmailadr (a r) : Same (getAccountFromEmailadr env a r) := by
  unfold getAccountFromEmailadr; simp only [bind_eq, pure_eq]; same [same_getAccountNames, same_firstMatch]
theorem same_patterns (l) : Same (patterns env l) := by
  induction l with
  | nil => exact .pure _
  | cons r rs ih => unfold patterns; simp only [bind_eq, pure_eq]; same [same_getAccount, Own.same_config]
theorem same_getMatchingAccount (m) : Same (getMatchingAccount env m) := by
  unfold getMatchingAccount; simp only [bind_eq, pure_eq]
  same [same_getAccountNames, same_patterns, same_getAccountFromEmailadr]
end Manager

theorem same_onAccount {p : Prog α} {n : Str} (h : Same p) : Same (onAccount env n p) :=
  .bind (.assert _) fun _ => .void h

theorem same_call (call : ApiCall) : Same (call.prog env) := by
  cases call with
  | init => exact Manager.same_init
  | getAccount => exact .void (Manager.same_getAccount ..)
  | addAccount => exact .void (Manager.same_addAccount ..)
  | modAccount => exact .void (Manager.same_modAccount ..)
  | delAccount => exact Manager.same_delAccount ..
  | listAccountNames => exact .void same_getAccountNames
  | accountFromEmailadr => exact .void (Manager.same_getAccountFromEmailadr ..)
  | matchingAccount => exact .void (Manager.same_getMatchingAccount ..)
  | removeAll => exact .rmtree
  | peernames => exact same_onAccount env (same_getPeernameList _)
  | recommendation => exact same_onAccount env (Account.same_recommendation ..)
  | makeAcHeader => exact same_onAccount env (Account.same_makeAcHeader ..)
  | exportPublicKey => exact same_onAccount env (Account.same_exportPublicKey ..)
  | exportSecretKey =>
    exact .bind (.assert _) fun _ => Like.bind (Account.like_exportSecretKey env _) fun _ _ _ => .pure rfl
  | processIncoming => exact same_onAccount env (Account.same_processIncoming ..)
  | processOutgoing => exact same_onAccount env (Account.same_processOutgoing ..)
  | encryptMime => exact same_onAccount env (Account.same_encryptMime ..)
  | decryptMime => exact same_onAccount env (Account.same_decryptMime ..)
  | importKey => exact same_onAccount env (Account.same_importKeydataAsAutocrypt ..)
  | peerMsg => exact same_onAccount env (Peer.same_updateFromMsg ..)
  | peerGossip => exact same_onAccount env (Peer.same_updateFromGossip ..)
  | verifySelf => exact same_onAccount env (.append ..)
  | verifyPeer => exact same_onAccount env (.append ..)
  | getVerification => exact same_onAccount env (OOB.same_getVerification ..)

end Verif
