import Verif.Lemmas.BuiltCmd
import Verif.Props.GpgHome
/-!
# Programs which look at one account only

`Blind n p`: of the store, `p` reads only what belongs to account `n` and to the manager.
-/
namespace Verif
open BinGPG
variable {α β K : Type} {n : Str}

/-! ## Specification -/

/-- the names of the logs of account `n` and of the manager -/
def ours (n h : Str) : Bool := h == str!"." || h == str!"own:" ++ n || h == str!"oob:" ++ n || Py.startsWith (str!"peer:" ++ n ++ str!":") h

/-- what account `n` can see of a store -/
def viewOf (n : Str) (s : Store) : Store := s.filter fun c => ours n c.1

/-- states which are the same for account `n` -/
structure WorldsSeen (n : Str) (w w' : World Store K) : Prop where
  store : viewOf n w.store = viewOf n w'.store
  clock : w.clock = w'.clock
  tick : w.tick = w'.tick
  env : w.env = w'.env
  trace : w.trace = w'.trace

/-! ## Programs -/

/-- only logs of account `n` and of the manager are read, and of the list of names only those matter -/
def Blind (n : Str) : Prog α → Prop
  | .pure _ | .raise _ => True
  | .op (.chain h) k => ours n h = true ∧ ∀ r, Blind n (k r)
  | .op .heads k => (∀ l l' : List Str, l.filter (ours n) = l'.filter (ours n) → k (.ok l) = k (.ok l')) ∧ ∀ r, Blind n (k r)
  | .op _ k => ∀ r, Blind n (k r)

/-- operations about which there is nothing to show -/
def Op.easy : Op → Prop
  | .chain _ | .heads => False
  | _ => True

theorem ours_manager : ours n managerHead = true := by simp [ours, managerHead]
theorem ours_own : ours n (ownHead n) = true := by simp [ours, ownHead]
theorem ours_oob : ours n (oobHead n) = true := by simp [ours, oobHead]
theorem ours_peer (a : Str) : ours n (peerHead n a) = true := by
  simp [ours, peerHead, Py.startsWith]
theorem ours_peerOf (env : Env) (a : Str) : ours n (Account.peerHeadOf env n a) = true := ours_peer _

namespace Blind
theorem pure (a : α) : Blind n (.pure a) := trivial
theorem raise (e : Exc) : Blind n (.raise e : Prog α) := trivial
theorem op {o : Op} {k : o.Ret → Prog α} (h : o.easy) (hk : ∀ r, Blind n (k r)) : Blind n (.op o k) := by
  cases o
  case chain => exact h.elim
  case heads => exact h.elim
  all_goals exact hk
theorem inner {o : Op} {k : o.Ret → Prog α} (h : Blind n (.op o k)) (r : o.Ret) : Blind n (k r) := by
  cases o
  case chain => exact h.2 r
  case heads => exact h.2 r
  all_goals exact h r
theorem bind {p : Prog α} {f : α → Prog β} (h : Blind n p) (hf : ∀ a, Blind n (f a)) : Blind n (p.bind f) := by
  induction p with
  | pure a => exact hf a
  | raise e => trivial
  | op o k ih =>
    have h' := fun r => ih r (h.inner r)
    cases o
    case chain => exact ⟨h.1, h'⟩
    case heads => exact ⟨fun l l' hl => congrArg (fun q : Prog α => q.bind f) (h.1 l l' hl), h'⟩
    all_goals exact h'
theorem bindReturns {p : Prog α} {Q : α → Prop} {f : α → Prog β} (h : Blind n p) (hq : p.Returns Q) (hf : ∀ a, Q a → Blind n (f a)) : Blind n (p.bind f) := by
  induction p with
  | pure a => exact hf a hq
  | raise e => trivial
  | op o k ih =>
    have h' := fun r => ih r (h.inner r) (hq r)
    cases o
    case chain => exact ⟨h.1, h'⟩
    case heads => exact ⟨fun l l' hl => congrArg (fun q : Prog α => q.bind f) (h.1 l l' hl), h'⟩
    all_goals exact h'
theorem tryCatch {p : Prog α} {f : Exc → Prog α} (h : Blind n p) (hf : ∀ e, Blind n (f e)) : Blind n (p.tryCatch f) := by
  induction p with
  | pure a => trivial
  | raise e => exact hf e
  | op o k ih =>
    have h' := fun r => ih r (h.inner r)
    cases o
    case chain => exact ⟨h.1, h'⟩
    case heads => exact ⟨fun l l' hl => congrArg (fun q : Prog α => q.tryCatch f) (h.1 l l' hl), h'⟩
    all_goals exact h'
theorem attempt {p : Prog α} (h : Blind n p) : Blind n p.attempt := tryCatch (bind h fun _ => pure _) fun _ => pure _
theorem ofExcept (x : Except Exc α) : Blind n (Prog.ofExcept x) := by cases x <;> trivial
theorem assert (b : Bool) : Blind n (Prog.assert b) := by cases b <;> trivial
theorem void {p : Prog α} (h : Blind n p) : Blind n p.void := bind h fun _ => pure _
theorem now : Blind n Prog.now := op trivial fun _ => pure _
theorem chain {h : Str} (hh : ours n h = true) : Blind n (Prog.chain h) := ⟨hh, fun _ => ofExcept _⟩
theorem append (h e) : Blind n (Prog.append h e) := op trivial fun _ => ofExcept _
theorem removeIf (p) : Blind n (Prog.removeIf p) := op trivial fun _ => ofExcept _
theorem findExecutable (a) : Blind n (Prog.findExecutable a) := op trivial fun _ => pure _
theorem pathExists (a) : Blind n (Prog.pathExists a) := op trivial fun _ => pure _
theorem makedirs (a) : Blind n (Prog.makedirs a) := op trivial fun _ => ofExcept _
theorem writeFile (a b) : Blind n (Prog.writeFile a b) := op trivial fun _ => ofExcept _
theorem mkTemp : Blind n Prog.mkTemp := op trivial fun _ => ofExcept _
theorem writeTemp (a b) : Blind n (Prog.writeTemp a b) := op trivial fun _ => ofExcept _
theorem rmTemp (a) : Blind n (Prog.rmTemp a) := op trivial fun _ => ofExcept _
theorem uuid : Blind n Prog.uuid := op trivial fun _ => pure _
theorem hookInstantiate (a) : Blind n (Prog.hookInstantiate a) := op trivial fun _ => ofExcept _
theorem hookIncomingGossip (a b d) : Blind n (Prog.hookIncomingGossip a b d) := op trivial fun _ => ofExcept _
theorem hookBeforeEnc (a b d e) : Blind n (Prog.hookBeforeEnc a b d e) := op trivial fun _ => ofExcept _
theorem sendmail (a b) : Blind n (Prog.sendmail a b) := op trivial fun _ => ofExcept _
theorem emit (a) : Blind n (Prog.emit a) := op trivial fun _ => ofExcept _
theorem gpg (env : Env) (g : BinGPG) (a i s d) : Blind n (gpgOuterr env g a i s d) :=
  bind (op trivial fun _ => ofExcept _) fun _ => ofExcept _
theorem temp (d : Bytes) (b : Str → Prog α) (h : ∀ s, Blind n (b s)) : Blind n (withTempFile d b) := by
  unfold withTempFile Prog.finally_
  simp only [bind_eq]
  refine bind mkTemp fun s => bind (writeTemp _ _) fun _ => bind (h s).attempt fun r => bind (rmTemp _) fun _ => ?_
  cases r
  · exact raise _
  · exact pure _
end Blind

/-- decompose a goal `Blind n p` -/
syntax "blind" ("[" term,* "]")? : tactic
macro_rules
  | `(tactic| blind) => `(tactic| blind [trivial])
  | `(tactic| blind [$ts,*]) => do
    let alts ← ts.getElems.mapM fun t => `(tactic| with_reducible apply $t)
    `(tactic| repeat' (first
      | with_reducible intro _
      | assumption
      $[| $alts:tactic]*
      | with_reducible apply Blind.pure
      | with_reducible apply Blind.raise
      | with_reducible apply Blind.bind
      | with_reducible apply Blind.void
      | with_reducible apply Blind.gpg
      | with_reducible apply Blind.temp
      | with_reducible apply Blind.ofExcept
      | with_reducible apply Blind.assert
      | with_reducible apply Blind.now
      | with_reducible apply Blind.chain
      | with_reducible apply ours_manager
      | with_reducible apply ours_own
      | with_reducible apply ours_oob
      | with_reducible apply ours_peerOf
      | with_reducible apply Blind.append
      | with_reducible apply Blind.removeIf
      | with_reducible apply Blind.findExecutable
      | with_reducible apply Blind.pathExists
      | with_reducible apply Blind.makedirs
      | with_reducible apply Blind.writeFile
      | with_reducible apply Blind.uuid
      | with_reducible apply Blind.hookInstantiate
      | with_reducible apply Blind.hookIncomingGossip
      | with_reducible apply Blind.hookBeforeEnc
      | with_reducible apply Blind.sendmail
      | with_reducible apply Blind.emit
      | with_reducible apply Blind.attempt
      | split))

variable (env : Env)

namespace BinGPG
variable (g : BinGPG)
theorem blind_gpgOutText (a i) : Blind n (gpgOutText env g a i) := by
  unfold gpgOutText; simp only [bind_eq]; blind
theorem blind_versionAtLeast (v) : Blind n (versionAtLeast env g v) := by
  unfold versionAtLeast versionInfo; simp only [bind_eq]; blind [blind_gpgOutText]
theorem blind_ensureInit : Blind n (ensureInit env g) := by
  unfold ensureInit badDefaults; simp only [bind_eq, pure_eq]; blind [blind_versionAtLeast]
theorem blind_create (h p) : Blind n (create env h p) := by
  unfold create; simp only [bind_eq, pure_eq]; blind [blind_ensureInit]
theorem blind_nopassphrase : Blind n (nopassphrase env g) := by
  unfold nopassphrase; simp only [bind_eq, pure_eq]; blind [blind_versionAtLeast]
theorem blind_parseList (a t) : Blind n (parseList env g a t) := by
  unfold parseList; simp only [bind_eq]; blind [blind_gpgOutText]
theorem blind_listPublicKeyinfos (k) : Blind n (listPublicKeyinfos env g k) := by apply blind_parseList
theorem blind_listSecretKeyinfos (k) : Blind n (listSecretKeyinfos env g k) := by apply blind_parseList
theorem blind_getSecretKeyhandle (k) : Blind n (getSecretKeyhandle env g k) := by
  unfold getSecretKeyhandle; simp only [bind_eq, pure_eq]; blind [blind_listSecretKeyinfos]
theorem blind_findKeyhandle (t) : Blind n (findKeyhandle env g t) := by
  unfold findKeyhandle; simp only [bind_eq, pure_eq]; blind [blind_listPublicKeyinfos]
theorem blind_genSecretKey (e) : Blind n (genSecretKey env g e) := by
  unfold genSecretKey; simp only [bind_eq]; blind [blind_nopassphrase, blind_findKeyhandle]
theorem blind_getPublicKeydata (k a) : Blind n (getPublicKeydata env g k a) := by
  unfold getPublicKeydata; simp only [bind_eq, pure_eq]; blind
theorem blind_getSecretKeydata (k a) : Blind n (getSecretKeydata env g k a) := by
  unfold getSecretKeydata; simp only [bind_eq, pure_eq]; blind [blind_nopassphrase]
theorem blind_encrypt (d r s t) : Blind n (encrypt env g d r s t) := by
  unfold encrypt; simp only [bind_eq, pure_eq]; blind [blind_nopassphrase]
theorem blind_sign (d k) : Blind n (sign env g d k) := by
  unfold sign; simp only [bind_eq, pure_eq]; blind [blind_nopassphrase]
theorem blind_verify (d k) : Blind n (verify env g d k) := by
  unfold verify; simp only [bind_eq]; blind [blind_findKeyhandle]
theorem blind_decrypt (d) : Blind n (decrypt env g d) := by
  unfold decrypt; simp only [bind_eq, pure_eq]; blind [blind_nopassphrase]
theorem blind_importKeydata (d m) : Blind n (importKeydata env g d m) := by
  unfold importKeydata; simp only [bind_eq, pure_eq]; blind [blind_findKeyhandle, blind_getPublicKeydata]
end BinGPG

theorem Own.blind_config (n) : Blind n (Own.config n) := by
  unfold Own.config; simp only [bind_eq, pure_eq]; blind
theorem Own.blind_keyhandle (n) : Blind n (Own.keyhandle n) := by
  unfold Own.keyhandle; simp only [bind_eq, pure_eq]; blind
theorem Own.blind_changeConfig (n k) : Blind n (Own.changeConfig n k) := by
  unfold Own.changeConfig; simp only [bind_eq, pure_eq]; blind
theorem Peer.blind_updateFromMsg {h} (hh : ours n h = true) (u) : Blind n (Peer.updateFromMsg h u) := by
  unfold Peer.updateFromMsg; simp only [bind_eq, pure_eq]; blind
theorem Peer.blind_updateFromGossip {h} (hh : ours n h = true) (u) : Blind n (Peer.updateFromGossip h u) := by
  unfold Peer.updateFromGossip; simp only [bind_eq, pure_eq]; blind
theorem OOB.blind_getVerification (n a) : Blind n (OOB.getVerification n a) := by
  unfold OOB.getVerification; simp only [bind_eq, pure_eq]; blind
theorem blind_getPeernameList (n) : Blind n (getPeernameList n) := by
  unfold getPeernameList
  simp only [bind_eq, pure_eq]
  refine ⟨fun l l' hl => ?_, fun r => .bind (.ofExcept _) fun _ => .pure _⟩
  have key : ∀ l : List Str, l.filter (Py.startsWith (peerHead n [])) = (l.filter (ours n)).filter (Py.startsWith (peerHead n [])) := fun l => by
    rw [List.filter_filter]
    congr 1
    funext h
    by_cases hp : Py.startsWith (peerHead n []) h = true
    · have : ours n h = true := by
        unfold peerHead at hp
        rw [List.append_nil] at hp
        unfold ours
        rw [hp, Bool.or_true]
      simp [hp, this]
    · simp [hp]
  show Prog.pure _ = Prog.pure _
  unfold stripPrefix
  rw [key l, key l', hl]
namespace Account
open BinGPG
variable (n)
theorem blind_effectiveDate (d) : Blind n (effectiveDate d) := by
  unfold effectiveDate; simp only [bind_eq, pure_eq]; blind
theorem blind_ownKeyhandle : Blind n (ownKeyhandle n) := by
  unfold ownKeyhandle; simp only [bind_eq, pure_eq]; blind [Own.blind_keyhandle]
theorem blind_bingpg : Blind n (bingpg env n) := by
  unfold bingpg; simp only [bind_eq]; blind [Own.blind_config, blind_create]
theorem blind_exists_ : Blind n (exists_ n) := by
  unfold exists_; simp only [bind_eq, pure_eq]; blind
theorem blind_createKey (k) : Blind n (createKey env n k) := by
  unfold createKey; simp only [bind_eq, pure_eq]; blind [blind_bingpg, blind_genSecretKey, blind_getSecretKeyhandle]
theorem blind_create (r k b m) : Blind n (create env n r k b m) := by
  unfold create Own.newConfig Own.appendKeygen; simp only [bind_eq, pure_eq]
  blind [blind_bingpg, blind_createKey, blind_getSecretKeydata]
theorem blind_modify (r k b p) : Blind n (modify n r k b p) := by apply Own.blind_changeConfig
theorem blind_makeAcHeader (a) : Blind n (makeAcHeader env n a) := by
  unfold makeAcHeader; simp only [bind_eq]
  blind [blind_bingpg, blind_ownKeyhandle, blind_getPublicKeydata, Own.blind_config]
theorem blind_exportPublicKey (k) : Blind n (exportPublicKey env n k) := by
  unfold exportPublicKey; simp only [bind_eq, pure_eq]
  blind [blind_bingpg, blind_ownKeyhandle, blind_getPublicKeydata]
theorem blind_exportSecretKey : Blind n (exportSecretKey env n) := by
  unfold exportSecretKey; simp only [bind_eq]
  blind [blind_bingpg, blind_ownKeyhandle, blind_getSecretKeydata]
theorem blind_importKey (k) : Blind n (importKey env n k) := by
  unfold importKey; simp only [bind_eq, pure_eq]
  blind [blind_bingpg, blind_importKeydata]
theorem blind_importPah (p) : Blind n (importPah env n p) := by
  unfold importPah; simp only [bind_eq, pure_eq]; blind [blind_importKey]
theorem blind_processAutocryptHeader (m f d i) {h} (hh : ours n h = true) : Blind n (processAutocryptHeader env n m f h d i) := by
  unfold processAutocryptHeader; simp only [bind_eq, pure_eq]; blind [blind_importPah, Peer.blind_updateFromMsg]
theorem blind_gossipLoop (x d i p l) : Blind n (gossipLoop env n x d i p l) := by
  induction l generalizing p with
  | nil => exact .pure _
  | cons r rs ih =>
    unfold gossipLoop; simp only [bind_eq]; blind [blind_importPah, Peer.blind_updateFromGossip, ih]
theorem blind_processGossipHeaders (m d i) : Blind n (processGossipHeaders env n m d i) := by
  unfold processGossipHeaders; simp only [bind_eq]; blind [blind_gossipLoop]
theorem blind_decryptMime (m) : Blind n (decryptMime env n m) := by
  unfold decryptMime; simp only [bind_eq, pure_eq]; blind [blind_bingpg, blind_decrypt]
theorem blind_processIncoming (m a b) : Blind n (processIncoming env n m a b) := by
  unfold processIncoming; simp only [bind_eq, pure_eq]
  blind [blind_effectiveDate, blind_processAutocryptHeader, blind_decryptMime, blind_processGossipHeaders, blind_ownKeyhandle]
theorem blind_readPeers (l) : Blind n (readPeers env n l) := by
  induction l with
  | nil => exact .pure _
  | cons r rs ih => unfold readPeers; simp only [bind_eq, pure_eq]; blind
theorem blind_recommendation (a r f) : Blind n (recommendation env n a r f) := by
  unfold recommendation; simp only [bind_eq]; blind [Own.blind_config, blind_readPeers]
theorem blind_encLoop (a l) : Blind n (encLoop env n a l) := by
  induction l generalizing a with
  | nil => exact .pure _
  | cons r rs ih => unfold encLoop; simp only [bind_eq]; blind [Own.blind_config, blind_ownKeyhandle, ih]
theorem blind_encryptMime (m a) : Blind n (encryptMime env n m a) := by
  unfold encryptMime; simp only [bind_eq, pure_eq]; blind [blind_encLoop, blind_ownKeyhandle, blind_bingpg, blind_encrypt]
theorem blind_outgoingBody (m e) : Blind n (outgoingBody env n m e) := by
  unfold outgoingBody; simp only [bind_eq, pure_eq]; blind [blind_recommendation, blind_encryptMime]
theorem blind_processOutgoing (m) : Blind n (processOutgoing env n m) := by
  unfold processOutgoing; simp only [bind_eq, pure_eq]; blind [blind_makeAcHeader, blind_outgoingBody]
theorem blind_importLoop (p k l) : Blind n (importLoop env n p k l) := by
  induction l with
  | nil => exact .pure _
  | cons r rs ih =>
    unfold importLoop; simp only [bind_eq]; blind [blind_bingpg, blind_getPublicKeydata, Peer.blind_updateFromMsg]
theorem blind_importKeydataAsAutocrypt (a k p) : Blind n (importKeydataAsAutocrypt env n a k p) := by
  unfold importKeydataAsAutocrypt; simp only [bind_eq, pure_eq]
  blind [blind_bingpg, blind_importKeydata, blind_listPublicKeyinfos, blind_importLoop, blind_getPublicKeydata]
end Account

namespace Manager
open Account
variable (n)
theorem blind_init : Blind n Manager.init := by
  unfold Manager.init Mgr.setVersion; simp only [bind_eq]; blind
theorem blind_ensureInit : Blind n Manager.ensureInit := by
  unfold Manager.ensureInit; simp only [bind_eq, pure_eq]; blind [blind_init]
theorem blind_account : Blind n (Manager.account env n) := .assert _
theorem blind_getAccount (x) : Blind n (getAccount env n x) := by
  unfold getAccount; simp only [bind_eq, pure_eq]; blind [blind_ensureInit, blind_account, blind_exists_]
theorem blind_addAccount (r k b m) : Blind n (addAccount env n r k b m) := by
  unfold addAccount
  simp only [bind_eq, pure_eq]
  refine .bindReturns (by apply blind_getAccount) (getAccount_returns env n _) fun a ha => ?_
  subst ha
  blind [blind_exists_, Account.blind_create]
theorem blind_modAccount (r k b m) : Blind n (modAccount env n r k b m) := by
  unfold modAccount
  simp only [bind_eq, pure_eq]
  refine .bindReturns (by apply blind_getAccount) (getAccount_returns env n _) fun a ha => ?_
  subst ha
  blind [blind_modify]
theorem blind_delAccount : Blind n (delAccount env n) := by
  unfold delAccount removeAccount; simp only [bind_eq]; blind [blind_getAccount]
end Manager

end Verif
