import Verif.Lemmas.BuiltCmd
import Verif.Props.GpgHome
import Verif.Props.Recommendation
import Verif.Props.OutgoingCourse
/-!
# Programs which look at some logs only

`Looks V p`: of the store and the clock, `p` reads only what is in `V`.
-/
namespace Verif
open BinGPG
variable {α β K : Type}

/-! ## Specification -/

/-- states which are the same apart from logs whose names are not in `V` -/
structure SameIn (V : Str → Prop) (w w' : World Store K) : Prop where
  logs : ∀ h, V h → w.log h = w'.log h
  clock : w.clock = w'.clock
  tick : w.tick = w'.tick
  env : w.env = w'.env
  trace : w.trace = w'.trace

/-! ## Programs -/

/-- what a program may look at: the logs with some names, perhaps the clock and the list of all names -/
structure Scope where
  logs : Str → Prop
  clock : Prop
  names : Prop
instance : CoeFun Scope fun _ => Str → Prop := ⟨Scope.logs⟩
/-- some logs and the clock -/
abbrev Scope.of (V : Str → Prop) : Scope := ⟨V, True, False⟩
variable {V : Scope}

/-- operations which read nothing else -/
def Op.within (V : Scope) : Op → Prop
  | .chain h => V h
  | .heads => V.names
  | .now => V.clock
  | _ => True

/-- the logs of an account and of the manager are among those which may be read -/
structure Sees (V : Scope) (n : Str) : Prop where
  manager : V managerHead
  own : V (ownHead n)
  oob : V (oobHead n)

/-- nothing but what is in `V` is looked at -/
def Looks (V : Scope) (p : Prog α) : Prop := p.AllOps (Op.within V)

namespace Looks
theorem pure (a : α) : Looks V (.pure a) := trivial
theorem raise (e : Exc) : Looks V (.raise e : Prog α) := trivial
theorem op {o : Op} {k : o.Ret → Prog α} (h : o.within V) (hk : ∀ r, Looks V (k r)) : Looks V (.op o k) := ⟨h, hk⟩
theorem bind {p : Prog α} {f : α → Prog β} (h : Looks V p) (hf : ∀ a, Looks V (f a)) : Looks V (p.bind f) := Prog.AllOps.bind h hf
theorem bindReturns {p : Prog α} {Q : α → Prop} {f : α → Prog β} (h : Looks V p) (hq : p.Returns Q) (hf : ∀ a, Q a → Looks V (f a)) : Looks V (p.bind f) := by
  induction p with
  | pure a => exact hf a hq
  | raise e => trivial
  | op o k ih => exact ⟨h.1, fun r => ih r (h.2 r) (hq r)⟩
theorem tryCatch {p : Prog α} {f : Exc → Prog α} (h : Looks V p) (hf : ∀ e, Looks V (f e)) : Looks V (p.tryCatch f) := Prog.AllOps.tryCatch h hf
theorem attempt {p : Prog α} (h : Looks V p) : Looks V p.attempt := tryCatch (bind h fun _ => pure _) fun _ => pure _
theorem ofExcept (x : Except Exc α) : Looks V (Prog.ofExcept x) := by cases x <;> trivial
theorem assert (b : Bool) : Looks V (Prog.assert b) := by cases b <;> trivial
theorem void {p : Prog α} (h : Looks V p) : Looks V p.void := bind h fun _ => pure _
theorem now (h : V.clock) : Looks V Prog.now := op h fun _ => pure _
theorem chain {h : Str} (hh : V h) : Looks V (Prog.chain h) := ⟨hh, fun _ => ofExcept _⟩
theorem heads (h : V.names) : Looks V Prog.heads := ⟨h, fun _ => ofExcept _⟩
theorem append (h e) : Looks V (Prog.append h e) := op trivial fun _ => ofExcept _
theorem removeIf (p) : Looks V (Prog.removeIf p) := op trivial fun _ => ofExcept _
theorem findExecutable (a) : Looks V (Prog.findExecutable a) := op trivial fun _ => pure _
theorem pathExists (a) : Looks V (Prog.pathExists a) := op trivial fun _ => pure _
theorem makedirs (a) : Looks V (Prog.makedirs a) := op trivial fun _ => ofExcept _
theorem writeFile (a b) : Looks V (Prog.writeFile a b) := op trivial fun _ => ofExcept _
theorem mkTemp : Looks V Prog.mkTemp := op trivial fun _ => ofExcept _
theorem writeTemp (a b) : Looks V (Prog.writeTemp a b) := op trivial fun _ => ofExcept _
theorem rmTemp (a) : Looks V (Prog.rmTemp a) := op trivial fun _ => ofExcept _
theorem uuid : Looks V Prog.uuid := op trivial fun _ => pure _
theorem hookInstantiate (a) : Looks V (Prog.hookInstantiate a) := op trivial fun _ => ofExcept _
theorem hookIncomingGossip (a b d) : Looks V (Prog.hookIncomingGossip a b d) := op trivial fun _ => ofExcept _
theorem hookBeforeEnc (a b d e) : Looks V (Prog.hookBeforeEnc a b d e) := op trivial fun _ => ofExcept _
theorem sendmail (a b) : Looks V (Prog.sendmail a b) := op trivial fun _ => ofExcept _
theorem emit (a) : Looks V (Prog.emit a) := op trivial fun _ => ofExcept _
theorem gpg (env : Env) (g : BinGPG) (a i s d) : Looks V (gpgOuterr env g a i s d) :=
  bind (op trivial fun _ => ofExcept _) fun _ => ofExcept _
theorem temp (d : Bytes) (b : Str → Prog α) (h : ∀ s, Looks V (b s)) : Looks V (withTempFile d b) := by
  unfold withTempFile Prog.finally_
  simp only [bind_eq]
  refine bind mkTemp fun s => bind (writeTemp _ _) fun _ => bind (h s).attempt fun r => bind (rmTemp _) fun _ => ?_
  cases r
  · exact raise _
  · exact pure _
end Looks

/-- decompose a goal `Looks V p` -/
syntax "looks" ("[" term,* "]")? : tactic
macro_rules
  | `(tactic| looks) => `(tactic| looks [trivial])
  | `(tactic| looks [$ts,*]) => do
    let alts ← ts.getElems.mapM fun t => `(tactic| with_reducible apply $t)
    `(tactic| repeat' (first
      | with_reducible intro _
      | assumption
      $[| $alts:tactic]*
      | with_reducible apply Looks.pure
      | with_reducible apply Looks.raise
      | with_reducible apply Looks.bind
      | with_reducible apply Looks.void
      | with_reducible apply Looks.gpg
      | with_reducible apply Looks.temp
      | with_reducible apply Looks.ofExcept
      | with_reducible apply Looks.assert
      | with_reducible apply Looks.now
      | with_reducible apply Looks.chain
      | with_reducible apply Looks.heads
      | with_reducible apply Sees.manager
      | with_reducible apply Sees.own
      | with_reducible apply Sees.oob
      | with_reducible apply Looks.append
      | with_reducible apply Looks.removeIf
      | with_reducible apply Looks.findExecutable
      | with_reducible apply Looks.pathExists
      | with_reducible apply Looks.makedirs
      | with_reducible apply Looks.writeFile
      | with_reducible apply Looks.uuid
      | with_reducible apply Looks.hookInstantiate
      | with_reducible apply Looks.hookIncomingGossip
      | with_reducible apply Looks.hookBeforeEnc
      | with_reducible apply Looks.sendmail
      | with_reducible apply Looks.emit
      | with_reducible apply Looks.attempt
      | split))

variable (env : Env)

namespace BinGPG
variable (g : BinGPG)
theorem looks_gpgOutText (a i) : Looks V (gpgOutText env g a i) := by
  unfold gpgOutText; simp only [bind_eq]; looks
theorem looks_versionAtLeast (v) : Looks V (versionAtLeast env g v) := by
  unfold versionAtLeast versionInfo; simp only [bind_eq]; looks [looks_gpgOutText]
theorem looks_ensureInit : Looks V (ensureInit env g) := by
  unfold ensureInit badDefaults; simp only [bind_eq, pure_eq]; looks [looks_versionAtLeast]
theorem looks_create (h p) : Looks V (create env h p) := by
  unfold create; simp only [bind_eq, pure_eq]; looks [looks_ensureInit]
theorem looks_nopassphrase : Looks V (nopassphrase env g) := by
  unfold nopassphrase; simp only [bind_eq, pure_eq]; looks [looks_versionAtLeast]
theorem looks_parseList (a t) : Looks V (parseList env g a t) := by
  unfold parseList; simp only [bind_eq]; looks [looks_gpgOutText]
theorem looks_listPublicKeyinfos (k) : Looks V (listPublicKeyinfos env g k) := by apply looks_parseList
theorem looks_listSecretKeyinfos (k) : Looks V (listSecretKeyinfos env g k) := by apply looks_parseList
theorem looks_getSecretKeyhandle (k) : Looks V (getSecretKeyhandle env g k) := by
  unfold getSecretKeyhandle; simp only [bind_eq, pure_eq]; looks [looks_listSecretKeyinfos]
theorem looks_findKeyhandle (t) : Looks V (findKeyhandle env g t) := by
  unfold findKeyhandle; simp only [bind_eq, pure_eq]; looks [looks_listPublicKeyinfos]
theorem looks_genSecretKey (e) : Looks V (genSecretKey env g e) := by
  unfold genSecretKey; simp only [bind_eq]; looks [looks_nopassphrase, looks_findKeyhandle]
theorem looks_getPublicKeydata (k a) : Looks V (getPublicKeydata env g k a) := by
  unfold getPublicKeydata; simp only [bind_eq, pure_eq]; looks
theorem looks_getSecretKeydata (k a) : Looks V (getSecretKeydata env g k a) := by
  unfold getSecretKeydata; simp only [bind_eq, pure_eq]; looks [looks_nopassphrase]
theorem looks_encrypt (d r s t) : Looks V (encrypt env g d r s t) := by
  unfold encrypt; simp only [bind_eq, pure_eq]; looks [looks_nopassphrase]
theorem looks_sign (d k) : Looks V (sign env g d k) := by
  unfold sign; simp only [bind_eq, pure_eq]; looks [looks_nopassphrase]
theorem looks_verify (d k) : Looks V (verify env g d k) := by
  unfold verify; simp only [bind_eq]; looks [looks_findKeyhandle]
theorem looks_decrypt (d) : Looks V (decrypt env g d) := by
  unfold decrypt; simp only [bind_eq, pure_eq]; looks [looks_nopassphrase]
theorem looks_importKeydata (d m) : Looks V (importKeydata env g d m) := by
  unfold importKeydata; simp only [bind_eq, pure_eq]; looks [looks_findKeyhandle, looks_getPublicKeydata]
end BinGPG

theorem Peer.looks_updateFromMsg {h} (hh : V h) (u) : Looks V (Peer.updateFromMsg h u) := by
  unfold Peer.updateFromMsg; simp only [bind_eq, pure_eq]; looks
theorem Peer.looks_updateFromGossip {h} (hh : V h) (u) : Looks V (Peer.updateFromGossip h u) := by
  unfold Peer.updateFromGossip; simp only [bind_eq, pure_eq]; looks
variable {n : Str} (hs : Sees V n)
include hs

theorem Own.looks_config : Looks V (Own.config n) := by
  unfold Own.config; simp only [bind_eq, pure_eq]; looks
theorem Own.looks_keyhandle : Looks V (Own.keyhandle n) := by
  unfold Own.keyhandle; simp only [bind_eq, pure_eq]; looks
theorem Own.looks_changeConfig (k) : Looks V (Own.changeConfig n k) := by
  unfold Own.changeConfig; simp only [bind_eq, pure_eq]; looks
theorem OOB.looks_getVerification (a) : Looks V (OOB.getVerification n a) := by
  unfold OOB.getVerification; simp only [bind_eq, pure_eq]; looks
namespace Account
open BinGPG
theorem looks_effectiveDate (hc : V.clock) (d) : Looks V (effectiveDate d) := by
  unfold effectiveDate; simp only [bind_eq, pure_eq]; looks
theorem looks_ownKeyhandle : Looks V (ownKeyhandle n) := by
  unfold ownKeyhandle; simp only [bind_eq, pure_eq]; looks [Own.looks_keyhandle]
theorem looks_bingpg : Looks V (bingpg env n) := by
  unfold bingpg; simp only [bind_eq]; looks [Own.looks_config, looks_create]
theorem looks_exists_ : Looks V (exists_ n) := by
  unfold exists_; simp only [bind_eq, pure_eq]; looks
theorem looks_createKey (k) : Looks V (createKey env n k) := by
  unfold createKey; simp only [bind_eq, pure_eq]; looks [looks_bingpg, looks_genSecretKey, looks_getSecretKeyhandle]
theorem looks_create (r k b m) : Looks V (create env n r k b m) := by
  unfold create Own.newConfig Own.appendKeygen; simp only [bind_eq, pure_eq]
  looks [looks_bingpg, looks_createKey, looks_getSecretKeydata]
theorem looks_modify (r k b p) : Looks V (modify n r k b p) := Own.looks_changeConfig hs _
theorem looks_makeAcHeader (a) : Looks V (makeAcHeader env n a) := by
  unfold makeAcHeader; simp only [bind_eq]
  looks [looks_bingpg, looks_ownKeyhandle, looks_getPublicKeydata, Own.looks_config]
theorem looks_exportPublicKey (k) : Looks V (exportPublicKey env n k) := by
  unfold exportPublicKey; simp only [bind_eq, pure_eq]
  looks [looks_bingpg, looks_ownKeyhandle, looks_getPublicKeydata]
theorem looks_exportSecretKey : Looks V (exportSecretKey env n) := by
  unfold exportSecretKey; simp only [bind_eq]
  looks [looks_bingpg, looks_ownKeyhandle, looks_getSecretKeydata]
theorem looks_importKey (k) : Looks V (importKey env n k) := by
  unfold importKey; simp only [bind_eq, pure_eq]
  looks [looks_bingpg, looks_importKeydata]
theorem looks_importPah (p) : Looks V (importPah env n p) := by
  unfold importPah; simp only [bind_eq, pure_eq]; looks [looks_importKey]
theorem looks_processAutocryptHeader (m f d i) {h} (hh : V h) : Looks V (processAutocryptHeader env n m f h d i) := by
  unfold processAutocryptHeader; simp only [bind_eq, pure_eq]; looks [looks_importPah, Peer.looks_updateFromMsg]
theorem looks_gossipLoop (x d i p l) (hl : ∀ a ∈ l, V (peerHeadOf env n a)) : Looks V (gossipLoop env n x d i p l) := by
  induction l generalizing p with
  | nil => exact .pure _
  | cons r rs ih =>
    have h0 := hl r List.mem_cons_self
    replace ih := fun p => ih p fun a ha => hl a (List.mem_cons_of_mem _ ha)
    unfold gossipLoop; simp only [bind_eq]; looks [looks_importPah, Peer.looks_updateFromGossip, ih]
theorem looks_processGossipHeaders (m d i) (hl : ∀ a ∈ Mime.getTargetEmailadr env m, V (peerHeadOf env n a)) :
    Looks V (processGossipHeaders env n m d i) := by
  unfold processGossipHeaders; simp only [bind_eq]; looks [looks_gossipLoop, hl]
theorem looks_decryptMime (m) : Looks V (decryptMime env n m) := by
  unfold decryptMime; simp only [bind_eq, pure_eq]; looks [looks_bingpg, looks_decrypt]
theorem looks_incomingRest (m a b d) (hf : V (peerHeadOf env n (Mime.parseEmailAddr env (m.get (str!"From")))))
    (hl : b = false → Mime.isEncrypted m = .ok true → ∀ dec, ∀ a ∈ Mime.getTargetEmailadr env (Mime.transferNonContentHeaders m (env.messageFromBytes dec)),
      V (peerHeadOf env n a)) :
    Looks V (incomingRest env n m a b d) := by
  unfold incomingRest; simp only [bind_eq, pure_eq]
  refine .bind (by looks) fun known => ?_
  split
  · exact .pure _
  refine .bind (looks_processAutocryptHeader env hs _ _ _ _ hf) fun pah => ?_
  refine .bindReturns (Q := fun x => x = true → b = false ∧ Mime.isEncrypted m = .ok true) (by looks) ?_ fun enc he => ?_
  · cases b
    · exact Prog.Returns.ofExcept.mono fun x hx h => ⟨rfl, h ▸ hx⟩
    · exact fun h => by cases h
  · refine .bind ?_ fun _ => .pure _
    split
    · rename_i h
      obtain ⟨h1, h2⟩ := he h
      refine .bindReturns (looks_decryptMime env hs m) (decryptMime_returns env n m) fun r hr => ?_
      obtain ⟨dec, hr⟩ := hr
      refine .bind (looks_processGossipHeaders env hs _ _ _ ?_) fun g => .bind (looks_ownKeyhandle hs) fun _ => .bind (.hookIncomingGossip ..) fun _ => .pure _
      rw [hr]
      exact hl h1 h2 dec
    · exact .pure _
omit hs in
theorem processIncoming_clock (m i d) : processIncoming env n m i d = (Prog.ofExcept (parseDateToFloat env (m.get (str!"Date")))).bind fun x =>
    Prog.now.bind fun t => incomingRest env n m i d (min x t) := by
  unfold processIncoming incomingRest effectiveDate
  simp only [bind_eq, pure_eq]
  cases parseDateToFloat env (m.get (str!"Date")) <;> rfl
theorem looks_processIncoming (hc : V.clock) (m a b) (hf : V (peerHeadOf env n (Mime.parseEmailAddr env (m.get (str!"From")))))
    (hl : b = false → Mime.isEncrypted m = .ok true → ∀ dec, ∀ a ∈ Mime.getTargetEmailadr env (Mime.transferNonContentHeaders m (env.messageFromBytes dec)),
      V (peerHeadOf env n a)) :
    Looks V (processIncoming env n m a b) := by
  rw [processIncoming_clock]
  exact .bind (.ofExcept _) fun d => .bind (.now hc) fun t => looks_incomingRest env hs m a b _ hf hl
theorem looks_readPeers (l) (hl : ∀ a ∈ l, V (peerHeadOf env n a)) : Looks V (readPeers env n l) := by
  induction l with
  | nil => exact .pure _
  | cons r rs ih =>
    have h0 := hl r List.mem_cons_self
    replace ih := ih fun a ha => hl a (List.mem_cons_of_mem _ ha)
    unfold readPeers; simp only [bind_eq, pure_eq]; looks
theorem looks_recommendation (a r f) (hl : ∀ x ∈ peerAddrs env a f, V (peerHeadOf env n x)) : Looks V (recommendation env n a r f) := by
  unfold recommendation; simp only [bind_eq]; looks [Own.looks_config, looks_readPeers, hl]
theorem looks_encLoop (a l) (hl : ∀ a ∈ l, V (peerHeadOf env n a)) : Looks V (encLoop env n a l) := by
  induction l generalizing a with
  | nil => exact .pure _
  | cons r rs ih =>
    have h0 := hl r List.mem_cons_self
    replace ih := fun p => ih p fun a ha => hl a (List.mem_cons_of_mem _ ha)
    unfold encLoop; simp only [bind_eq]; looks [Own.looks_config, looks_ownKeyhandle, ih]
theorem looks_encryptMime (m a) (hl : ∀ x ∈ a.map (fun a => Mime.parseEmailAddr env (some a)), V (peerHeadOf env n x)) : Looks V (encryptMime env n m a) := by
  unfold encryptMime; simp only [bind_eq, pure_eq]; looks [looks_encLoop, looks_ownKeyhandle, looks_bingpg, looks_encrypt, hl]
theorem looks_outgoingBody (m e) (hr : ∀ x ∈ Mime.getTargetEmailadr env m, V (peerHeadOf env n (Mime.parseEmailAddr env (some x))))
    (hf : ∀ f, m.getAll (str!"From") = [f] → V (peerHeadOf env n (Mime.parseEmailAddr env (some (Mime.parseEmailAddr env (some f)))))) :
    Looks V (outgoingBody env n m e) := by
  unfold outgoingBody; simp only [bind_eq, pure_eq]
  refine .bind (.ofExcept _) fun b => ?_
  split
  · exact .pure _
  split
  · rename_i f h
    refine .bind (looks_recommendation env hs _ _ _ fun x hx => ?_) fun r => ?_
    · obtain ⟨y, hy, rfl, _⟩ := mem_peerAddrs.mp hx
      exact hr y hy
    · have h1 : ∀ x ∈ (if (Mime.getTargetEmailadr env m).contains (Mime.parseEmailAddr env (some f)) = true then Mime.getTargetEmailadr env m
          else Mime.getTargetEmailadr env m ++ [Mime.parseEmailAddr env (some f)]).map (fun a => Mime.parseEmailAddr env (some a)), V (peerHeadOf env n x) := by
        intro x hx
        obtain ⟨y, hy, rfl⟩ := List.mem_map.mp hx
        split at hy
        · exact hr y hy
        · rcases List.mem_append.mp hy with hy | hy
          · exact hr y hy
          · cases List.mem_singleton.mp hy
            exact hf f h
      split
      · split
        · exact .bind (looks_encryptMime env hs _ _ h1) fun _ => .pure _
        · split
          · exact .raise _
          · exact .pure _
      · exact .pure _
  · exact .raise _
theorem looks_processOutgoing (m) (hr : ∀ x ∈ Mime.getTargetEmailadr env m, V (peerHeadOf env n (Mime.parseEmailAddr env (some x))))
    (hf : ∀ f, m.getAll (str!"From") = [f] → V (peerHeadOf env n (Mime.parseEmailAddr env (some (Mime.parseEmailAddr env (some f)))))) :
    Looks V (processOutgoing env n m) := by
  unfold processOutgoing; simp only [bind_eq, pure_eq]
  refine .bind (.ofExcept _) fun enc => ?_
  refine .bindReturns (Q := fun x => ∀ k : Str, Py.lower k ≠ Py.lower (str!"ENCRYPT") → Py.lower k ≠ Py.lower (str!"Autocrypt") → x.1.getAll k = m.getAll k)
    (by looks [looks_makeAcHeader]) ?_ fun x hx => ?_
  · split
    · exact fun k h1 h2 => getAll_del _ (Ne.symm h1)
    · exact Prog.Returns.bind (Prog.Returns.trivially _) fun v _ k h1 h2 => by
        show ((m.del _).add _ _).getAll k = _
        rw [getAll_add, if_neg (Ne.symm h2), List.append_nil]
        exact getAll_del _ (Ne.symm h1)
  · obtain ⟨m2, added⟩ := x
    have ht : Mime.getTargetEmailadr env m2 = Mime.getTargetEmailadr env m := by
      unfold Mime.getTargetEmailadr
      rw [hx _ (by decide) (by decide), hx _ (by decide) (by decide)]
    refine .bind (looks_outgoingBody env hs m2 enc (by rw [ht]; exact hr) fun f h => hf f ?_) fun _ => .pure _
    rw [← h]
    exact (hx _ (by decide) (by decide)).symm
theorem looks_importLoop (hc : V.clock) (p k l) (hl : ∀ a ∈ l, V (peerHeadOf env n a)) : Looks V (importLoop env n p k l) := by
  induction l with
  | nil => exact .pure _
  | cons r rs ih =>
    have h0 := hl r List.mem_cons_self
    replace ih := ih fun a ha => hl a (List.mem_cons_of_mem _ ha)
    unfold importLoop; simp only [bind_eq]; looks [looks_bingpg, looks_getPublicKeydata, Peer.looks_updateFromMsg]
theorem looks_importKeydataAsAutocrypt (hc : V.clock) (a k p) (h : ∀ x, a = some x → V (peerHeadOf env n (Mime.parseEmailAddr env (some x))))
    (h0 : a = none → ∀ x, V (peerHeadOf env n x)) : Looks V (importKeydataAsAutocrypt env n a k p) := by
  unfold importKeydataAsAutocrypt; simp only [bind_eq, pure_eq]
  refine .bind (looks_bingpg env hs) fun g => .bind (by apply looks_importKeydata) fun kh => ?_
  refine .bindReturns (Q := fun l => ∀ x ∈ l, V (peerHeadOf env n x)) (by looks [looks_bingpg, looks_listPublicKeyinfos]) ?_ fun l hl => ?_
  · split
    · exact fun x hx => by cases List.mem_singleton.mp hx; exact h _ rfl
    · exact Prog.Returns.mono (Prog.Returns.trivially _) fun _ _ x _ => h0 rfl x
  · looks [looks_bingpg, looks_importKeydata, looks_importLoop, looks_getPublicKeydata]
    exact hl _ (by assumption)
end Account

namespace Manager
open Account
theorem looks_init : Looks V Manager.init := by
  unfold Manager.init Mgr.setVersion; simp only [bind_eq]; looks
theorem looks_ensureInit : Looks V Manager.ensureInit := by
  unfold Manager.ensureInit; simp only [bind_eq, pure_eq]; looks [looks_init]
theorem looks_account : Looks V (Manager.account env n) := .assert _
theorem looks_getAccount (x) : Looks V (getAccount env n x) := by
  unfold getAccount; simp only [bind_eq, pure_eq]; looks [looks_ensureInit, looks_account, looks_exists_]
theorem looks_addAccount (r k b m) : Looks V (addAccount env n r k b m) := by
  unfold addAccount
  simp only [bind_eq, pure_eq]
  refine .bindReturns (by apply looks_getAccount; exact hs) (getAccount_returns env n _) fun a ha => ?_
  subst ha
  looks [looks_exists_, Account.looks_create]
theorem looks_modAccount (r k b m) : Looks V (modAccount env n r k b m) := by
  unfold modAccount
  simp only [bind_eq, pure_eq]
  refine .bindReturns (by apply looks_getAccount; exact hs) (getAccount_returns env n _) fun a ha => ?_
  subst ha
  looks [looks_modify]
theorem looks_delAccount : Looks V (delAccount env n) := by
  unfold delAccount removeAccount; simp only [bind_eq]; looks [looks_getAccount]
end Manager

omit hs in
theorem looks_getAccountNames (hn : V.names) : Looks V getAccountNames := by
  unfold getAccountNames; simp only [bind_eq, pure_eq]; looks
omit hs in
theorem looks_getPeernameList (hn : V.names) (n) : Looks V (getPeernameList n) := by
  unfold getPeernameList; simp only [bind_eq, pure_eq]; looks

end Verif
