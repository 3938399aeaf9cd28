import Verif.Lemmas.Keeps
/-!
# What precedes each operation on gpg: the programs of the model
-/
namespace Verif
open BinGPG
variable {α β : Type} {env : Env} {N : Str → Prop} {gs : List BinGPG}

/-- decompose a goal `Minds env N gs p` -/
syntax "keeps" ("[" term,* "]")? : tactic
macro_rules
  | `(tactic| keeps) => `(tactic| keeps [trivial])
  | `(tactic| keeps [$ts,*]) => do
    let alts ← ts.getElems.mapM fun t => `(tactic| with_reducible apply $t)
    `(tactic| repeat' (first
      | with_reducible intro _
      | assumption
      | exact List.mem_cons_self
      | exact List.mem_cons_of_mem _ List.mem_cons_self
      $[| $alts:tactic]*
      | with_reducible apply Minds.pure
      | with_reducible apply Minds.raise
      | with_reducible apply Minds.withGpg
      | with_reducible apply Minds.withAttempt
      | with_reducible apply Minds.bingpg
      | with_reducible apply Minds.bind
      | with_reducible apply Minds.void
      | with_reducible apply Minds.temp
      | with_reducible apply Minds.ofExcept
      | with_reducible apply Minds.assert
      | with_reducible apply Minds.now
      | with_reducible apply Minds.chain
      | with_reducible apply Minds.append
      | with_reducible apply Minds.heads
      | with_reducible apply Minds.removeIf
      | with_reducible apply Minds.findExecutable
      | with_reducible apply Minds.pathExists
      | with_reducible apply Minds.uuid
      | with_reducible apply Minds.hookInstantiate
      | with_reducible apply Minds.hookIncomingGossip
      | with_reducible apply Minds.hookBeforeEnc
      | with_reducible apply Minds.sendmail
      | with_reducible apply Minds.emit
      | with_reducible apply Minds.rmtree
      | with_reducible apply Minds.attempt
      | exact trivial
      | split))

namespace BinGPG
variable {g : BinGPG} (hg : g ∈ gs)
include hg
theorem keeps_listPublicKeyinfos (k) : Minds env N gs (listPublicKeyinfos env g (some k)) := by
  unfold listPublicKeyinfos parseList gpgOutText
  simp only [bind_eq]
  exact .bind (.bind (.gpg (u := .listPublic) hg ⟨k, rfl, rfl⟩ (by decide) _ _) fun _ => .ofExcept _) fun _ => .ofExcept _
theorem keeps_getSecretKeyhandle (k) : Minds env N gs (getSecretKeyhandle env g k) := by
  unfold getSecretKeyhandle listSecretKeyinfos parseList gpgOutText
  simp only [bind_eq, pure_eq]
  exact .bind (.bind (.bind (.gpg (u := .listSecret) hg ⟨k, rfl, rfl⟩ (by decide) _ _) fun _ => .ofExcept _) fun _ => .ofExcept _) fun _ => .pure _
theorem keeps_findKeyhandle (t) : Minds env N gs (findKeyhandle env g t) := by
  unfold findKeyhandle; simp only [bind_eq, pure_eq]; keeps [keeps_listPublicKeyinfos]
theorem keeps_genSecretKey (e) : Minds env N gs (genSecretKey env g e) := by
  unfold genSecretKey
  simp only [bind_eq]
  refine .bind (.temp _ _ fun fn => .secret (u := .generate) hg (fun np hnp => ⟨⟨np, fn, hnp, rfl, rfl⟩, [], _, by simp; rfl⟩) _ _) fun _ => keeps_findKeyhandle hg _
theorem keeps_getPublicKeydata (k a) : Minds env N gs (getPublicKeydata env g k a) := by
  unfold getPublicKeydata
  simp only [bind_eq, pure_eq]
  exact .bind (.gpg (u := .exportPublic) hg ⟨_, k, by cases a <;> simp, rfl, rfl⟩ (by decide) _ _) fun _ => .pure _
theorem keeps_getSecretKeydata (k a) : Minds env N gs (getSecretKeydata env g k a) := by
  unfold getSecretKeydata
  simp only [bind_eq, pure_eq]
  rw [← Prog.bind_assoc]
  exact .bind (.secret (u := .exportSecret) hg (fun np hnp => ⟨⟨_, np, k, by cases a <;> simp, hnp, rfl, rfl⟩, _, _, rfl⟩) _ _) fun _ => .pure _
theorem keeps_encrypt (d r s) : Minds env N gs (encrypt env g d r s true) := by
  unfold encrypt
  simp only [bind_eq, pure_eq]
  rw [← Prog.bind_assoc]
  refine .bind (.secret (u := .encrypt) hg (fun np hnp => ⟨⟨np, r, if s.isEmpty then [] else [str!"--sign", str!"-u", s], hnp, ?_, ?_, rfl⟩, ?_⟩) _ _) fun _ => .pure _
  · cases s
    · exact .inl rfl
    · exact .inr ⟨_, rfl⟩
  · simp [encryptOpts, List.flatMap]
  · exact ⟨[], _, by simp [encryptOpts]; rfl⟩
theorem keeps_decrypt (d) : Minds env N gs (decrypt env g d) := by
  unfold decrypt
  simp only [bind_eq, pure_eq]
  rw [← Prog.bind_assoc]
  exact .bind (.secret (u := .decrypt) hg (fun np hnp => ⟨⟨np, hnp, rfl, rfl⟩, [], _, by simp; rfl⟩) _ _) fun _ => .bind (.ofExcept _) fun _ => .pure _
theorem keeps_import (d) : Minds env N gs (gpgOuterr env g [str!"--skip-verify", str!"--import"] (some d)) :=
  .gpg (u := .importKeys) hg ⟨rfl, rfl⟩ (by decide) _ _
theorem keeps_delete (k) : Minds env N gs (gpgOuterr env g [str!"--yes", str!"--delete-key", k]) :=
  .gpg (u := .delete) hg ⟨k, rfl, rfl⟩ (by decide) _ _
theorem keeps_importKeydata (d m) : Minds env N gs (importKeydata env g d m) := by
  unfold importKeydata; simp only [bind_eq, pure_eq]
  keeps [keeps_import, keeps_delete, keeps_findKeyhandle, keeps_getPublicKeydata]
end BinGPG

theorem Own.keeps_config (n) : Minds env N gs (Own.config n) := by
  unfold Own.config; simp only [bind_eq, pure_eq]; keeps
theorem Own.keeps_keyhandle (n) : Minds env N gs (Own.keyhandle n) := by
  unfold Own.keyhandle; simp only [bind_eq, pure_eq]; keeps
theorem Own.keeps_changeConfig (n k) : Minds env N gs (Own.changeConfig n k) := by
  unfold Own.changeConfig; simp only [bind_eq, pure_eq]; keeps
theorem Peer.keeps_updateFromMsg (h u) : Minds env N gs (Peer.updateFromMsg h u) := by
  unfold Peer.updateFromMsg; simp only [bind_eq, pure_eq]; keeps
theorem Peer.keeps_updateFromGossip (h u) : Minds env N gs (Peer.updateFromGossip h u) := by
  unfold Peer.updateFromGossip; simp only [bind_eq, pure_eq]; keeps
theorem OOB.keeps_getVerification (n a) : Minds env N gs (OOB.getVerification n a) := by
  unfold OOB.getVerification; simp only [bind_eq, pure_eq]; keeps
theorem keeps_getAccountNames : Minds env N gs getAccountNames := by
  unfold getAccountNames; simp only [bind_eq, pure_eq]; keeps
theorem keeps_getPeernameList (n) : Minds env N gs (getPeernameList n) := by
  unfold getPeernameList; simp only [bind_eq, pure_eq]; keeps

namespace Account
open BinGPG
variable (n : Str)
theorem keeps_effectiveDate (d) : Minds env N gs (effectiveDate d) := by
  unfold effectiveDate; simp only [bind_eq, pure_eq]; keeps
theorem keeps_ownKeyhandle : Minds env N gs (ownKeyhandle n) := by
  unfold ownKeyhandle; simp only [bind_eq, pure_eq]; keeps [Own.keeps_keyhandle]
theorem keeps_exists_ : Minds env N gs (exists_ n) := by
  unfold exists_; simp only [bind_eq, pure_eq]; keeps
variable {n} (hN : N n)
include hN
theorem keeps_createKey (k) : Minds env N gs (createKey env n k) := by
  unfold createKey; simp only [bind_eq, pure_eq]; keeps [keeps_genSecretKey, keeps_getSecretKeyhandle]
theorem keeps_create (r k b m) : Minds env N gs (create env n r k b m) := by
  unfold create Own.newConfig Own.appendKeygen; simp only [bind_eq, pure_eq]
  keeps [keeps_createKey, keeps_getSecretKeydata]
omit hN in
theorem keeps_modify (r k b p) : Minds env N gs (modify n r k b p) := Own.keeps_changeConfig _ _
theorem keeps_makeAcHeader (a) : Minds env N gs (makeAcHeader env n a) := by
  unfold makeAcHeader; simp only [bind_eq]
  keeps [keeps_ownKeyhandle, keeps_getPublicKeydata, Own.keeps_config]
theorem keeps_exportPublicKey (k) : Minds env N gs (exportPublicKey env n k) := by
  unfold exportPublicKey; simp only [bind_eq, pure_eq]
  keeps [keeps_ownKeyhandle, keeps_getPublicKeydata]
theorem keeps_exportSecretKey : Minds env N gs (exportSecretKey env n) := by
  unfold exportSecretKey; simp only [bind_eq]
  keeps [keeps_ownKeyhandle, keeps_getSecretKeydata]
theorem keeps_importKey (k) : Minds env N gs (importKey env n k) := by
  unfold importKey; simp only [bind_eq, pure_eq]
  keeps [keeps_importKeydata]
theorem keeps_importPah (p) : Minds env N gs (importPah env n p) := by
  unfold importPah; simp only [bind_eq, pure_eq]; keeps [keeps_importKey]
theorem keeps_processAutocryptHeader (m f h d i) : Minds env N gs (processAutocryptHeader env n m f h d i) := by
  unfold processAutocryptHeader; simp only [bind_eq, pure_eq]; keeps [keeps_importPah, Peer.keeps_updateFromMsg]
theorem keeps_gossipLoop (x d i p l) : Minds env N gs (gossipLoop env n x d i p l) := by
  induction l generalizing p with
  | nil => exact .pure _
  | cons r rs ih =>
    unfold gossipLoop; simp only [bind_eq]; keeps [keeps_importPah, Peer.keeps_updateFromGossip, ih]
theorem keeps_processGossipHeaders (m d i) : Minds env N gs (processGossipHeaders env n m d i) := by
  unfold processGossipHeaders; simp only [bind_eq]; keeps [keeps_gossipLoop]
theorem keeps_decryptMime (m) : Minds env N gs (decryptMime env n m) := by
  unfold decryptMime; simp only [bind_eq, pure_eq]; keeps [keeps_decrypt]
theorem keeps_processIncoming (m a b) : Minds env N gs (processIncoming env n m a b) := by
  unfold processIncoming; simp only [bind_eq, pure_eq]
  keeps [keeps_effectiveDate, keeps_processAutocryptHeader, keeps_decryptMime, keeps_processGossipHeaders, keeps_ownKeyhandle]
omit hN in
theorem keeps_readPeers (l) : Minds env N gs (readPeers env n l) := by
  induction l with
  | nil => exact .pure _
  | cons r rs ih => unfold readPeers; simp only [bind_eq, pure_eq]; keeps
omit hN in
theorem keeps_recommendation (a r f) : Minds env N gs (recommendation env n a r f) := by
  unfold recommendation; simp only [bind_eq]; keeps [Own.keeps_config, keeps_readPeers]
omit hN in
theorem keeps_encLoop (a l) : Minds env N gs (encLoop env n a l) := by
  induction l generalizing a with
  | nil => exact .pure _
  | cons r rs ih => unfold encLoop; simp only [bind_eq]; keeps [Own.keeps_config, keeps_ownKeyhandle, ih]
theorem keeps_encryptMime (m a) : Minds env N gs (encryptMime env n m a) := by
  unfold encryptMime; simp only [bind_eq, pure_eq]; keeps [keeps_encLoop, keeps_ownKeyhandle, keeps_encrypt]
theorem keeps_outgoingBody (m e) : Minds env N gs (outgoingBody env n m e) := by
  unfold outgoingBody; simp only [bind_eq, pure_eq]; keeps [keeps_recommendation, keeps_encryptMime]
theorem keeps_processOutgoing (m) : Minds env N gs (processOutgoing env n m) := by
  unfold processOutgoing; simp only [bind_eq, pure_eq]; keeps [keeps_makeAcHeader, keeps_outgoingBody]
theorem keeps_importLoop (p k l) : Minds env N gs (importLoop env n p k l) := by
  induction l generalizing gs with
  | nil => exact .pure _
  | cons r rs ih =>
    unfold importLoop; simp only [bind_eq]; keeps [keeps_getPublicKeydata, Peer.keeps_updateFromMsg, ih]
theorem keeps_importKeydataAsAutocrypt (a k p) : Minds env N gs (importKeydataAsAutocrypt env n a k p) := by
  unfold importKeydataAsAutocrypt; simp only [bind_eq, pure_eq]
  keeps [keeps_importKeydata, keeps_listPublicKeyinfos, keeps_importLoop, keeps_getPublicKeydata]
end Account

namespace Manager
open Account
variable (n : Str)
theorem keeps_init : Minds env N gs Manager.init := by
  unfold Manager.init Mgr.setVersion; simp only [bind_eq]; keeps
theorem keeps_ensureInit : Minds env N gs Manager.ensureInit := by
  unfold Manager.ensureInit; simp only [bind_eq, pure_eq]; keeps [keeps_init]
theorem keeps_account : Minds env N gs (Manager.account env n) := .assert _
theorem keeps_getAccount (x) : Minds env N gs (getAccount env n x) := by
  unfold getAccount; simp only [bind_eq, pure_eq]; keeps [keeps_ensureInit, keeps_account, keeps_exists_]
theorem keeps_addAccount {n : Str} (hN : N n) (r k b m) : Minds env N gs (addAccount env n r k b m) := by
  unfold addAccount; simp only [bind_eq, pure_eq]
  refine .bindReturns (keeps_getAccount n _) (getAccount_returns env n false) fun a ha => ?_
  subst ha
  keeps [keeps_exists_, Account.keeps_create]
theorem keeps_modAccount (r k b m) : Minds env N gs (modAccount env n r k b m) := by
  unfold modAccount; simp only [bind_eq, pure_eq]; keeps [keeps_getAccount, keeps_modify]
theorem keeps_delAccount : Minds env N gs (delAccount env n) := by
  unfold delAccount removeAccount; simp only [bind_eq]; keeps [keeps_getAccount]
theorem keeps_firstMatch (a l) : Minds env N gs (firstMatch env a l) := by
  induction l with
  | nil => exact .pure _
  | cons r rs ih => unfold firstMatch; simp only [bind_eq, pure_eq]; keeps [keeps_getAccount, Own.keeps_config]
theorem keeps_getAccountFromEmailadr (a r) : Minds env N gs (getAccountFromEmailadr env a r) := by
  unfold getAccountFromEmailadr; simp only [bind_eq, pure_eq]; keeps [keeps_getAccountNames, keeps_firstMatch]
theorem keeps_patterns (l) : Minds env N gs (patterns env l) := by
  induction l with
  | nil => exact .pure _
  | cons r rs ih => unfold patterns; simp only [bind_eq, pure_eq]; keeps [keeps_getAccount, Own.keeps_config]
theorem keeps_getMatchingAccount (m) : Minds env N gs (getMatchingAccount env m) := by
  unfold getMatchingAccount; simp only [bind_eq, pure_eq]
  keeps [keeps_getAccountNames, keeps_patterns, keeps_getAccountFromEmailadr]
end Manager


/-- with the gpg of an account whose name `N` admits -/
theorem keeps_onAccount {p : Prog α} {n : Str} (h : Minds env N gs p) : Minds env N gs (onAccount env n p) :=
  .bind (.assert _) fun _ => .void h

theorem keeps_call (call : ApiCall) : Minds env (fun n => call.gpgAccount = some n) gs (call.prog env) := by
  cases call with
  | init => exact Manager.keeps_init
  | getAccount => exact .void (by apply Manager.keeps_getAccount)
  | addAccount => exact .void (by apply Manager.keeps_addAccount; rfl)
  | modAccount => exact .void (by apply Manager.keeps_modAccount)
  | delAccount => apply Manager.keeps_delAccount
  | listAccountNames => exact .void keeps_getAccountNames
  | accountFromEmailadr => exact .void (by apply Manager.keeps_getAccountFromEmailadr)
  | matchingAccount => exact .void (by apply Manager.keeps_getMatchingAccount)
  | removeAll => exact .rmtree
  | peernames => exact keeps_onAccount (keeps_getPeernameList _)
  | recommendation => exact keeps_onAccount (by apply Account.keeps_recommendation)
  | makeAcHeader => exact keeps_onAccount (by apply Account.keeps_makeAcHeader; rfl)
  | exportPublicKey => exact keeps_onAccount (by apply Account.keeps_exportPublicKey; rfl)
  | exportSecretKey => exact keeps_onAccount (by apply Account.keeps_exportSecretKey; rfl)
  | processIncoming => exact keeps_onAccount (by apply Account.keeps_processIncoming; rfl)
  | processOutgoing => exact keeps_onAccount (by apply Account.keeps_processOutgoing; rfl)
  | encryptMime => exact keeps_onAccount (by apply Account.keeps_encryptMime; rfl)
  | decryptMime => exact keeps_onAccount (by apply Account.keeps_decryptMime; rfl)
  | importKey => exact keeps_onAccount (by apply Account.keeps_importKeydataAsAutocrypt; rfl)
  | peerMsg => exact keeps_onAccount (by apply Peer.keeps_updateFromMsg)
  | peerGossip => exact keeps_onAccount (by apply Peer.keeps_updateFromGossip)
  | verifySelf => exact keeps_onAccount (.append _ _)
  | verifyPeer => exact keeps_onAccount (.append _ _)
  | getVerification => exact keeps_onAccount (by apply OOB.keeps_getVerification)

end Verif
