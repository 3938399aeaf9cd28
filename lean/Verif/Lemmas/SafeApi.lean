import Verif.Lemmas.Safe
/-!
# Updates performed by each API call
-/
namespace Verif

namespace Prog.AllOps
variable {P : Op → Prop} {α β : Type}
theorem now (h : P .now) : Prog.now.AllOps P := ⟨h, fun _ => trivial⟩
theorem chain {n : Str} (h : P (.chain n)) : (Prog.chain n).AllOps P := ⟨h, fun _ => ofExcept _⟩
theorem append {n : Str} {e : Entry} (h : P (.append n e)) : (Prog.append n e).AllOps P := ⟨h, fun _ => ofExcept _⟩
theorem heads (h : P .heads) : Prog.heads.AllOps P := ⟨h, fun _ => ofExcept _⟩
theorem gpg {a b} (h : P (.ext (.gpg a b))) : (Prog.gpg a b).AllOps P := ⟨h, fun _ => ofExcept _⟩
theorem findExecutable {a} (h : P (.ext (.findExecutable a))) : (Prog.findExecutable a).AllOps P := ⟨h, fun _ => trivial⟩
theorem pathExists {a} (h : P (.ext (.pathExists a))) : (Prog.pathExists a).AllOps P := ⟨h, fun _ => trivial⟩
theorem makedirs {a} (h : P (.ext (.makedirs a))) : (Prog.makedirs a).AllOps P := ⟨h, fun _ => ofExcept _⟩
theorem writeFile {a b} (h : P (.ext (.writeFile a b))) : (Prog.writeFile a b).AllOps P := ⟨h, fun _ => ofExcept _⟩
theorem mkTemp (h : P (.ext .mkTemp)) : Prog.mkTemp.AllOps P := ⟨h, fun _ => ofExcept _⟩
theorem writeTemp {a b} (h : P (.ext (.writeTemp a b))) : (Prog.writeTemp a b).AllOps P := ⟨h, fun _ => ofExcept _⟩
theorem rmTemp {a} (h : P (.ext (.rmTemp a))) : (Prog.rmTemp a).AllOps P := ⟨h, fun _ => ofExcept _⟩
theorem uuid (h : P (.ext .uuid)) : (Prog.uuid).AllOps P := ⟨h, fun _ => trivial⟩
theorem hookInstantiate {a} (h : P (.ext (.hookInstantiate a))) : (Prog.hookInstantiate a).AllOps P := ⟨h, fun _ => ofExcept _⟩
theorem hookIncomingGossip {a b c} (h : P (.ext (.hookIncomingGossip a b c))) :
    (Prog.hookIncomingGossip a b c).AllOps P := ⟨h, fun _ => ofExcept _⟩
theorem hookBeforeEnc {a b c d} (h : P (.ext (.hookBeforeEnc a b c d))) :
    (Prog.hookBeforeEnc a b c d).AllOps P := ⟨h, fun _ => ofExcept _⟩
theorem sendmail {a b} (h : P (.ext (.sendmail a b))) : (Prog.sendmail a b).AllOps P := ⟨h, fun _ => ofExcept _⟩
theorem emit {a} (h : P (.ext (.emit a))) : (Prog.emit a).AllOps P := ⟨h, fun _ => ofExcept _⟩
theorem void {p : Prog α} (h : p.AllOps P) : p.void.AllOps P := bind h (fun _ => trivial)
end Prog.AllOps

/-- structural search for `AllOps` goals; leaves the goals about single operations to `trivial` -/
macro "allops" : tactic => `(tactic|
  repeat' (first
    | exact trivial
    | assumption
    | intro _
    | with_reducible apply Prog.AllOps.bind
    | with_reducible apply Prog.AllOps.attempt
    | with_reducible apply Prog.AllOps.finally_
    | with_reducible apply Prog.AllOps.ofExcept
    | with_reducible apply Prog.AllOps.assert
    | with_reducible apply Prog.AllOps.now
    | with_reducible apply Prog.AllOps.chain
    | with_reducible apply Prog.AllOps.heads
    | with_reducible apply Prog.AllOps.gpg
    | with_reducible apply Prog.AllOps.findExecutable
    | with_reducible apply Prog.AllOps.pathExists
    | with_reducible apply Prog.AllOps.makedirs
    | with_reducible apply Prog.AllOps.writeFile
    | with_reducible apply Prog.AllOps.mkTemp
    | with_reducible apply Prog.AllOps.writeTemp
    | with_reducible apply Prog.AllOps.rmTemp
    | with_reducible apply Prog.AllOps.uuid
    | with_reducible apply Prog.AllOps.hookInstantiate
    | with_reducible apply Prog.AllOps.hookIncomingGossip
    | with_reducible apply Prog.AllOps.hookBeforeEnc
    | with_reducible apply Prog.AllOps.sendmail
    | with_reducible apply Prog.AllOps.emit
    | with_reducible apply Prog.AllOps.void
    | split))

/-- external operations apart from output, the removal of everything and the hook for incoming gossip -/
def ExtOp.internal : ExtOp → Bool
  | .emit _ | .sendmail _ _ | .rmtree | .hookIncomingGossip _ _ _ => false
  | _ => true

/-- a predicate which all reads and internal external operations satisfy -/
def Permissive (P : Op → Prop) : Prop := P .now ∧ (∀ h, P (.chain h)) ∧ P .heads ∧ ∀ o : ExtOp, o.internal = true → P (.ext o)

theorem permissive_readOnly : Permissive Op.readOnly := ⟨trivial, fun _ => trivial, trivial, fun _ _ => trivial⟩

namespace BinGPG
variable {P : Op → Prop} (hP : ∀ o : ExtOp, o.internal = true → P (.ext o)) (env : Env) (g : BinGPG)
include hP

theorem gpgOuterr_ops (a b c d) : (gpgOuterr env g a b c d).AllOps P := by
  unfold gpgOuterr; simp only [bind_eq]; allops; exact hP _ rfl
theorem gpgOutText_ops (a b) : (gpgOutText env g a b).AllOps P := by
  unfold gpgOutText; simp only [bind_eq]
  exact .bind (gpgOuterr_ops hP env g _ _ _ _) (fun _ => .ofExcept _)
theorem versionAtLeast_ops (v) : (versionAtLeast env g v).AllOps P := by
  unfold versionAtLeast; simp only [bind_eq]
  exact .bind (gpgOutText_ops hP env g _ _) (fun _ => .ofExcept _)
theorem ensureInit_ops : (ensureInit env g).AllOps P := by
  unfold ensureInit badDefaults
  split
  · trivial
  · simp only [bind_eq, pure_eq]
    have := versionAtLeast_ops hP env g
    allops <;> first | exact hP _ rfl | exact this _
theorem create_ops (h p) : (create env h p).AllOps P := by
  unfold create; simp only [bind_eq, pure_eq]
  have := fun g => ensureInit_ops hP env g
  allops <;> first | exact hP _ rfl | exact this _
theorem nopassphrase_ops : (nopassphrase env g).AllOps P := by
  unfold nopassphrase; simp only [bind_eq, pure_eq]
  have := versionAtLeast_ops hP env g
  allops <;> first | exact hP _ rfl | exact this _
theorem withTempFile_ops {α} (d) (b : Str → Prog α) (hb : ∀ s, (b s).AllOps P) : (withTempFile d b).AllOps P := by
  unfold withTempFile; simp only [bind_eq]
  allops <;> first | exact hP _ rfl | exact hb _
theorem parseList_ops (a t) : (parseList env g a t).AllOps P := by
  unfold parseList; simp only [bind_eq]
  exact .bind (gpgOutText_ops hP env g _ _) (fun _ => .ofExcept _)
theorem listPublicKeyinfos_ops (k) : (listPublicKeyinfos env g k).AllOps P := parseList_ops hP env g _ _
theorem listSecretKeyinfos_ops (k) : (listSecretKeyinfos env g k).AllOps P := parseList_ops hP env g _ _
theorem getSecretKeyhandle_ops (k) : (getSecretKeyhandle env g k).AllOps P :=
  .bind (parseList_ops hP env g _ _) (fun _ => trivial)
theorem findKeyhandle_ops (t) : (findKeyhandle env g t).AllOps P := by
  unfold findKeyhandle; simp only [bind_eq, pure_eq]
  have := listPublicKeyinfos_ops hP env g
  allops <;> first | exact hP _ rfl | exact this _
theorem genSecretKey_ops (e) : (genSecretKey env g e).AllOps P := by
  unfold genSecretKey; simp only [bind_eq]
  have h1 := nopassphrase_ops hP env g
  have h2 := gpgOuterr_ops hP env g
  have h3 := findKeyhandle_ops hP env g
  exact .bind (withTempFile_ops hP _ _ (fun _ => .bind h1 (fun _ => h2 _ _ _ _))) (fun _ => h3 _)
theorem getPublicKeydata_ops (k a) : (getPublicKeydata env g k a).AllOps P :=
  .bind (gpgOuterr_ops hP env g _ _ _ _) (fun _ => trivial)
theorem getSecretKeydata_ops (k a) : (getSecretKeydata env g k a).AllOps P :=
  .bind (nopassphrase_ops hP env g) (fun _ => .bind (gpgOuterr_ops hP env g _ _ _ _) (fun _ => trivial))
theorem encrypt_ops (d r s t) : (encrypt env g d r s t).AllOps P :=
  .bind (nopassphrase_ops hP env g) (fun _ => .bind (gpgOuterr_ops hP env g _ _ _ _) (fun _ => trivial))
theorem sign_ops (d k) : (sign env g d k).AllOps P :=
  .bind (nopassphrase_ops hP env g) (fun _ => .bind (gpgOuterr_ops hP env g _ _ _ _) (fun _ => trivial))
theorem verify_ops (d s) : (verify env g d s).AllOps P :=
  .bind (withTempFile_ops hP _ _ (fun _ => gpgOuterr_ops hP env g _ _ _ _)) (fun _ => findKeyhandle_ops hP env g _)
theorem decrypt_ops (d) : (decrypt env g d).AllOps P :=
  .bind (nopassphrase_ops hP env g) (fun _ => .bind (gpgOuterr_ops hP env g _ _ _ _) (fun _ =>
    .bind (.ofExcept _) (fun _ => trivial)))
theorem importKeydata_ops (d m) : (importKeydata env g d m).AllOps P := by
  unfold importKeydata; simp only [bind_eq, pure_eq]
  have h1 := gpgOuterr_ops hP env g
  have h2 := findKeyhandle_ops hP env g
  have h3 := getPublicKeydata_ops hP env g
  allops <;> first | exact hP _ rfl | exact h1 _ _ _ _ | exact h2 _ | exact h3 _ _

end BinGPG

namespace Account
variable {P : Op → Prop} (hP : Permissive P) (env : Env) (n : Str)
include hP

theorem config_ops : (Own.config n).AllOps P := by
  unfold Own.config; simp only [bind_eq, pure_eq]; allops; exact hP.2.1 _
theorem keyhandle_ops : (Own.keyhandle n).AllOps P := by
  unfold Own.keyhandle; simp only [bind_eq, pure_eq]; allops; exact hP.2.1 _
theorem ownKeyhandle_ops : (ownKeyhandle n).AllOps P := by
  unfold ownKeyhandle; simp only [bind_eq, pure_eq]
  have := keyhandle_ops hP n
  allops
theorem bingpg_ops : (bingpg env n).AllOps P := by
  unfold bingpg; simp only [bind_eq]
  refine .bind (config_ops hP n) (fun c => ?_)
  split
  · trivial
  · exact BinGPG.create_ops hP.2.2.2 env _ _
theorem exists_ops : (exists_ n).AllOps P := by
  unfold exists_; simp only [bind_eq, pure_eq]; allops; exact hP.2.1 _
theorem createKey_ops (k) : (createKey env n k).AllOps P := by
  unfold createKey
  have h1 := bingpg_ops hP env n
  split
  · simp only [bind_eq]
    exact .bind (.uuid (hP.2.2.2 _ rfl)) (fun _ => .bind h1 (fun _ => BinGPG.genSecretKey_ops hP.2.2.2 env _ _))
  · simp only [bind_eq, pure_eq]
    refine .bind h1 (fun _ => .bind (BinGPG.getSecretKeyhandle_ops hP.2.2.2 env _ _) (fun _ => ?_))
    split <;> trivial
theorem makeAcHeader_ops (a) : (makeAcHeader env n a).AllOps P := by
  unfold makeAcHeader; simp only [bind_eq]
  exact .bind (bingpg_ops hP env n) fun _ => .bind (ownKeyhandle_ops hP n) fun _ =>
    .bind (BinGPG.getPublicKeydata_ops hP.2.2.2 env _ _ _) fun _ => .bind (config_ops hP n) fun _ => .ofExcept _
theorem exportPublicKey_ops (k) : (exportPublicKey env n k).AllOps P := by
  unfold exportPublicKey; simp only [bind_eq]
  refine .bind ?_ (fun _ => .bind (bingpg_ops hP env n) (fun _ => BinGPG.getPublicKeydata_ops hP.2.2.2 env _ _ _))
  split
  · trivial
  · exact ownKeyhandle_ops hP n
theorem exportSecretKey_ops : (exportSecretKey env n).AllOps P := by
  unfold exportSecretKey; simp only [bind_eq]
  exact .bind (bingpg_ops hP env n) fun _ => .bind (ownKeyhandle_ops hP n) fun _ =>
    BinGPG.getSecretKeydata_ops hP.2.2.2 env _ _ _
theorem importKey_ops (k) : (importKey env n k).AllOps P := by
  unfold importKey; simp only [bind_eq, pure_eq]
  have h1 := bingpg_ops hP env n
  have h2 := fun g => BinGPG.importKeydata_ops hP.2.2.2 env g k false
  allops <;> exact h2 _
theorem importPah_ops (p) : (importPah env n p).AllOps P := by
  unfold importPah; simp only [bind_eq, pure_eq]
  have h1 := importKey_ops hP env n (p.keydata.getD [])
  allops
theorem decryptMime_ops (m) : (decryptMime env n m).AllOps P := by
  unfold decryptMime; simp only [bind_eq, pure_eq]
  exact .bind (.ofExcept _) fun _ => .bind (bingpg_ops hP env n) fun _ =>
    .bind (BinGPG.decrypt_ops hP.2.2.2 env _ _) fun _ => trivial
theorem readPeers_ops (l) : (readPeers env n l).AllOps P := by
  induction l with
  | nil => trivial
  | cons a l ih =>
    unfold readPeers; simp only [bind_eq, pure_eq]
    exact .bind (.chain (hP.2.1 _)) fun _ => .bind ih fun _ => trivial
theorem recommendation_ops (a r f) : (recommendation env n a r f).AllOps P := by
  unfold recommendation; simp only [bind_eq]
  exact .bind (config_ops hP n) fun _ => .bind (readPeers_ops hP env n _) fun _ => .ofExcept _
theorem encLoop_ops (acc l) : (encLoop env n acc l).AllOps P := by
  induction l generalizing acc with
  | nil => trivial
  | cons a l ih =>
    unfold encLoop; simp only [bind_eq]
    have h1 := config_ops hP n
    have h2 := ownKeyhandle_ops hP n
    allops <;> first | exact hP.2.1 _ | exact ih _
theorem encryptMime_ops (m a) : (encryptMime env n m a).AllOps P := by
  unfold encryptMime; simp only [bind_eq, pure_eq]
  exact .bind (.assert _) fun _ => .bind (encLoop_ops hP env n _ _) fun _ => .bind (ownKeyhandle_ops hP n) fun _ =>
    .bind (.hookBeforeEnc (hP.2.2.2 _ rfl)) fun _ => .bind (.ofExcept _) fun _ => .bind (bingpg_ops hP env n) fun _ =>
    .bind (ownKeyhandle_ops hP n) fun _ => .bind (BinGPG.encrypt_ops hP.2.2.2 env _ _ _ _ _) fun _ => trivial
theorem outgoingBody_ops (m e) : (outgoingBody env n m e).AllOps P := by
  unfold outgoingBody; simp only [bind_eq, pure_eq]
  have h1 := recommendation_ops hP env n
  have h2 := encryptMime_ops hP env n
  allops <;> first | exact h1 _ _ _ | exact h2 _ _
theorem processOutgoing_ops (m) : (processOutgoing env n m).AllOps P := by
  unfold processOutgoing; simp only [bind_eq, pure_eq]
  refine .bind (.ofExcept _) fun _ => .bind ?_ fun _ => .bind (outgoingBody_ops hP env n _ _) fun _ => trivial
  split
  · trivial
  · exact .bind (makeAcHeader_ops hP env n _) fun _ => trivial
end Account

/-! ## Safe -/

/-- updates of the own state of one account -/
def OwnAct (n : Str) : Act → Prop
  | .cfg n' c => n' = n ∧ c.name = n
  | .keygen n' k => n' = n ∧ k.keyhandle.isSome
  | _ => False
/-- configuration changes -/
def CfgAct (n : Str) : Act → Prop
  | .cfg n' _ => n' = n
  | _ => False
/-- initialisation -/
def InitAct : Act → Prop
  | .setVersion => True
  | _ => False

theorem safe_readOnly {α : Type} {A : Act → Prop} {p : Prog α}
    (h : ∀ P, Permissive P → p.AllOps P) : Safe A p := .ro (h _ permissive_readOnly)

theorem Safe.msg {A : Act → Prop} {n a u} (h : A (.msg n a u)) : Safe A (Peer.updateFromMsg (peerHead n a) u) :=
  .act (.msg n a u) h
theorem Safe.gossip {A : Act → Prop} {n a u} (h : A (.gossip n a u)) :
    Safe A (Peer.updateFromGossip (peerHead n a) u) := .act (.gossip n a u) h

namespace Account
open Mime
variable (env : Env) (n : Str)

/-- the updates which processing the Autocrypt header of a message from `f` can make -/
def HeaderAct (m : Msg) (f : Str) (d : Time) : Act → Prop
  | .msg n' a u => n' = n ∧ a = parseEmailAddr env (some f) ∧ u.msgId = messageId m ∧ u.date = d ∧
      ∃ r, parseOneAcHeaderFromMsg env m [f] = .ok r ∧ u.keydata = r.keydata ∧ u.pe = r.pe ∧
        (r.error.isSome → u.keyhandle = none)
  | _ => False

/-- the updates which processing the gossip headers of the decrypted message `dec` can make -/
def GossipAct (dec : Msg) (i : Str) (d : Time) : Act → Prop
  | .gossip n' a u => n' = n ∧ u.msgId = i ∧ u.date = d ∧
      ∃ dict r pah, getGossipHeadersFromMsg env dec = .ok dict ∧ r ∈ getTargetEmailadr env dec ∧
        dictGet dict r = some pah ∧ a = parseEmailAddr env (some r) ∧ u.keydata = pah.keydata
  | _ => False

theorem importPah_returns (pah : ACResult) :
    (importPah env n pah).Returns fun r => r.2.keydata = pah.keydata ∧ r.2.pe = pah.pe := by
  unfold importPah; simp only [bind_eq, pure_eq]
  refine .bind (.trivially _) fun x _ => ?_
  cases x <;> exact ⟨rfl, rfl⟩

theorem safe_processAutocryptHeader {A : Act → Prop} (m f d)
    (hA : ∀ a, HeaderAct env n m f d a → A a) :
    Safe A (processAutocryptHeader env n m f (peerHeadOf env n f) d (messageId m)) := by
  unfold processAutocryptHeader peerHeadOf; simp only [bind_eq, pure_eq]
  refine .ofExcept_bind fun pah hpah => ?_
  refine .bindQ (fun r => r.2.keydata = pah.keydata ∧ r.2.pe = pah.pe ∧ (pah.error.isSome → r.1 = none)) ?_ ?_ ?_
  · split
    · exact .pure _
    · exact .ro (importPah_ops permissive_readOnly env n _)
  · split
    · exact ⟨rfl, rfl, fun _ => rfl⟩
    · rename_i h
      exact (importPah_returns env n pah).mono fun a ha => ⟨ha.1, ha.2, fun hh => absurd hh h⟩
  · rintro ⟨kh, pah'⟩ ⟨h1, h2, h3⟩
    exact .bind (.msg (hA _ ⟨rfl, rfl, rfl, rfl, pah, hpah, h1, h2, h3⟩)) fun _ => .pure _

theorem safe_gossipLoop {A : Act → Prop} (dict : List (Str × ACResult)) (dt i pr l)
    (hA : ∀ r pah u, r ∈ l → dictGet dict r = some pah → u.msgId = i → u.date = dt → u.keydata = pah.keydata →
      A (.gossip n (parseEmailAddr env (some r)) u)) :
    Safe A (gossipLoop env n dict dt i pr l) := by
  induction l generalizing pr with
  | nil => exact .pure _
  | cons r rs ih =>
    have ih' := fun pr => ih pr fun r' pah u hr => hA r' pah u (List.mem_cons_of_mem _ hr)
    unfold gossipLoop
    split
    · exact ih' _
    · rename_i pah hpah
      simp only [bind_eq, peerHeadOf]
      refine .bindQ _ (.ro (importPah_ops permissive_readOnly env n _)) (importPah_returns env n pah) ?_
      rintro ⟨kh, pah'⟩ ⟨h1, h2⟩
      exact .bind (.gossip (hA r pah _ (List.mem_cons_self ..) hpah rfl rfl h1)) fun _ => ih' _

theorem safe_processGossipHeaders {A : Act → Prop} (m d i)
    (hA : ∀ a, GossipAct env n m i d a → A a) :
    Safe A (processGossipHeaders env n m d i) := by
  unfold processGossipHeaders; simp only [bind_eq]
  refine .ofExcept_bind fun dict hd => safe_gossipLoop env n dict d i [] _ ?_
  intro r pah u hr hp h1 h2 h3
  exact hA _ ⟨rfl, h1, h2, dict, r, pah, hd, hr, hp, rfl, h3⟩

/-- `process_incoming` after the effective date is known, account.py:333-356 -/
def incomingRest (m : Msg) (ignoreExisting noDecrypt : Bool) (date : Time) : Prog (Option IncomingResult) := do
  let from_ := parseEmailAddr env (m.get (str!"From"))
  let head := peerHeadOf env n from_
  let msgId := messageId m
  let known ← (if ignoreExisting then do
      let es ← Prog.chain head
      return Peer.hasMessage es msgId
    else return false : Prog Bool)
  if known then return none
  else do
    let pah ← processAutocryptHeader env n m from_ head date msgId
    let enc ← (if noDecrypt then pure false else Prog.ofExcept (isEncrypted m) : Prog Bool)
    let gossip ← (if enc then do
        let r ← decryptMime env n m
        let gossip ← processGossipHeaders env n r.decMsg date msgId
        let key ← ownKeyhandle n
        Prog.hookIncomingGossip (gossip.map (·.1)) key r.decMsg
        return gossip
      else return [] : Prog (List (Str × ACResult)))
    return some { msgId, date, peer := head, account := n, pah, gossip }

/-- `process_incoming` reads the date, then the clock once, then does the rest -/
theorem run_processIncoming {σ K : Type} (S : StoreImpl σ) (O : Oracle K) (m : Msg) (i nd : Bool) (w : World σ K) :
    run S O (processIncoming env n m i nd) w =
      match parseDateToFloat env (m.get (str!"Date")) with
      | .error e => (.error e, w)
      | .ok d => run S O (incomingRest env n m i nd (min d (w.clock w.tick))) { w with tick := w.tick + 1 } := by
  unfold processIncoming incomingRest effectiveDate
  simp only [bind_eq, pure_eq, run_bind, run_ofExcept, run_now, run_pure]
  cases parseDateToFloat env (m.get (str!"Date")) <;> rfl

/-- the updates which `process_incoming` can make -/
def IncomingAct (m : Msg) (d : Time) (a : Act) : Prop :=
  HeaderAct env n m (parseEmailAddr env (m.get (str!"From"))) d a ∨
  ∃ dec, isEncrypted m = .ok true ∧ GossipAct env n (transferNonContentHeaders m (env.messageFromBytes dec)) (messageId m) d a

theorem decryptMime_returns (m : Msg) : (decryptMime env n m).Returns fun r =>
    ∃ dec, r.decMsg = transferNonContentHeaders m (env.messageFromBytes dec) := by
  unfold decryptMime; simp only [bind_eq, pure_eq]
  exact .bind (.trivially _) fun _ _ => .bind (.trivially _) fun _ _ => .bind (.trivially _) fun x _ => ⟨x.1, rfl⟩

theorem safe_incomingRest (m i nd d) : Safe (IncomingAct env n m d) (incomingRest env n m i nd d) := by
  unfold incomingRest; simp only [bind_eq, pure_eq]
  refine .bind ?_ fun _ => ?_
  · split
    · exact .ro (.bind (.chain trivial) fun _ => trivial)
    · exact .pure _
  · split
    · exact .pure _
    · refine .bind (safe_processAutocryptHeader env n _ _ _ fun a ha => Or.inl ha) fun _ => ?_
      refine .bindQ (fun b => b = true → isEncrypted m = .ok true) ?_ ?_ fun enc henc => .bind ?_ fun _ => .pure _
      · split
        · exact .pure _
        · exact .ro (.ofExcept _)
      · split
        · intro h; cases h
        · exact Prog.Returns.ofExcept.mono fun a ha hh => by rw [ha, hh]
      · split
        · rename_i he
          refine .bindQ _ (.ro (decryptMime_ops permissive_readOnly env n _)) (decryptMime_returns env n m) ?_
          rintro r ⟨dec, hdec⟩
          exact .bind (safe_processGossipHeaders env n _ _ _ fun a ha => Or.inr ⟨dec, henc he, hdec ▸ ha⟩) fun _ =>
            .bind (.ro (ownKeyhandle_ops permissive_readOnly n)) fun _ =>
            .bind (.ro (.hookIncomingGossip trivial)) fun _ => .pure _
        · exact .pure _

theorem safe_processIncoming (m i nd) : Safe (fun a => ∃ d, IncomingAct env n m d a) (processIncoming env n m i nd) := by
  have : processIncoming env n m i nd = (Prog.ofExcept (parseDateToFloat env (m.get (str!"Date")))).bind fun d =>
      (effectiveDate d).bind fun d => incomingRest env n m i nd d := rfl
  rw [this]
  exact .bind (.ro (.ofExcept _)) fun d => .bind (.ro (.bind (.now trivial) fun _ => trivial)) fun d =>
    (safe_incomingRest env n m i nd d).mono fun a ha => ⟨d, ha⟩

/-- the updates which importing a key can make -/
def ImportAct (pe : Str) : Act → Prop
  | .msg n' _ u => n' = n ∧ u.msgId = [] ∧ u.pe = some pe ∧ u.keydata.isSome ∧ u.keyhandle.isSome
  | _ => False

theorem safe_importLoop (p k l) : Safe (ImportAct n p) (importLoop env n p k l) := by
  induction l with
  | nil => exact .pure _
  | cons a l ih =>
    unfold importLoop peerHeadOf; simp only [bind_eq]
    exact .bind (.ro (.now trivial)) fun _ => .bind (.ro (bingpg_ops permissive_readOnly env n)) fun _ =>
      .bind (.ro (BinGPG.getPublicKeydata_ops permissive_readOnly.2.2.2 env _ _ _)) fun _ =>
      .bind (.msg ⟨rfl, rfl, rfl, rfl, rfl⟩) fun _ => ih

theorem safe_import (a k p) : Safe (ImportAct n p) (importKeydataAsAutocrypt env n a k p) := by
  unfold importKeydataAsAutocrypt; simp only [bind_eq, pure_eq]
  have h1 := bingpg_ops permissive_readOnly env n
  have h2 := fun g k b => BinGPG.importKeydata_ops permissive_readOnly.2.2.2 env g k b
  refine .bind (.ro h1) fun _ => .bind (.ro (h2 _ _ _)) fun _ => .bind (.ro ?_) fun _ => .bind (.ro h1) fun _ =>
    .bind (.ro (h2 _ _ _)) fun _ => .bind (safe_importLoop env n _ _ _) fun _ => .bind (.ro h1) fun _ =>
    .bind (.ro (BinGPG.getPublicKeydata_ops permissive_readOnly.2.2.2 env _ _ _)) fun _ => .pure _
  split
  · trivial
  · exact .bind h1 fun _ => .bind (BinGPG.listPublicKeyinfos_ops permissive_readOnly.2.2.2 env _ _) fun _ => trivial

theorem safe_create (r k b m) : Safe (OwnAct n) (create env n r k b m) := by
  unfold create Own.newConfig Own.appendKeygen; simp only [bind_eq, pure_eq]
  refine .bind ?_ fun _ => .bind (.act (.cfg n _) ⟨rfl, rfl⟩) fun _ =>
    .bind (.ro (createKey_ops permissive_readOnly env n _)) fun _ => .bind (.ro (bingpg_ops permissive_readOnly env n)) fun _ =>
    .bind (.ro (BinGPG.getSecretKeydata_ops permissive_readOnly.2.2.2 env _ _ _)) fun _ =>
      .act (.keygen n _) ⟨rfl, rfl⟩
  split
  · exact .pure _
  split
  · exact .pure _
  · exact .raise _

theorem safe_modify (r k b p) : Safe (CfgAct n) (modify n r k b p) := by
  unfold modify Own.changeConfig; simp only [bind_eq, pure_eq]
  refine .bind (.ro (.chain trivial)) fun _ => ?_
  split
  · exact .raise _
  · refine .bind (.ro (.ofExcept _)) fun _ => ?_
    split
    · exact .bind (.act (.cfg n _) rfl) fun _ => .pure _
    · exact .pure _

end Account

namespace Manager
variable (env : Env)

theorem safe_init {A : Act → Prop} (hA : A .setVersion) : Safe A init := by
  unfold init; simp only [bind_eq]
  exact .bind (.ro (.chain trivial)) fun _ => .bind (.ro (.assert _)) fun _ => .act .setVersion hA

theorem safe_ensureInit {A : Act → Prop} (hA : A .setVersion) : Safe A ensureInit := by
  unfold ensureInit; simp only [bind_eq, pure_eq]
  refine .bind (.ro (.chain trivial)) fun _ => ?_
  split
  · exact .pure _
  · exact safe_init hA

theorem safe_getAccount {A : Act → Prop} (hA : A .setVersion) (n c) : Safe A (getAccount env n c) := by
  unfold getAccount account; simp only [bind_eq, pure_eq]
  refine .bind (safe_ensureInit hA) fun _ => .bind (.ro (.assert _)) fun _ => .bind ?_ fun _ => ?_
  · split
    · exact .ro (Account.exists_ops permissive_readOnly n)
    · exact .pure _
  · split
    · exact .bind (.ro (.hookInstantiate trivial)) fun _ => .pure _
    · exact .raise _

end Manager
end Verif
