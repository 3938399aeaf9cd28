import Verif.Model.Faults
import Verif.Props.CommandFailures
/-!
# Errors while files of the store are read or written (C115)
-/
namespace Verif

variable {K : Type} {c : Codec}

/-! ## Programs which give up -/

/-- operations which do not write to the store -/
def Op.noWrite : Op → Prop
  | .append _ _ | .removeIf _ | .wipe => False
  | _ => True

namespace Prog
variable {G T : Exc → Prop} {α β : Type}

/-- the program writes nothing to the store and can only end with an exception in `G` -/
def Stops (G : Exc → Prop) : Prog α → Prop
  | .pure _ => False
  | .raise e => G e
  | .op o k => o.noWrite ∧ ∀ r, Stops G (k r)

/-- after an error of the store the program writes nothing more and can only end with an exception in `G` -/
def GivesUp (G : Exc → Prop) : Prog α → Prop
  | .pure _ => True
  | .raise _ => True
  | .op .now k => ∀ r, GivesUp G (k r)
  | .op (.chain _) k => (∀ r, GivesUp G (k r)) ∧ Stops G (k (.error .osError))
  | .op (.append _ _) k => (∀ r, GivesUp G (k r)) ∧ Stops G (k (.error .osError))
  | .op .heads k => (∀ r, GivesUp G (k r)) ∧ Stops G (k (.error .osError))
  | .op (.removeIf _) k => (∀ r, GivesUp G (k r)) ∧ Stops G (k (.error .osError))
  | .op .wipe k => ∀ r, GivesUp G (k r)
  | .op (.ext _) k => ∀ r, GivesUp G (k r)

theorem GivesUp.cont {o : Op} {k : o.Ret → Prog α} (h : GivesUp G (.op o k)) (r : o.Ret) : GivesUp G (k r) := by
  cases o with
  | now => exact h r
  | wipe => exact h r
  | ext o => exact h r
  | chain _ => exact h.1 r
  | append _ _ => exact h.1 r
  | heads => exact h.1 r
  | removeIf _ => exact h.1 r

theorem Stops.bind {p : Prog α} (h : Stops G p) (f : α → Prog β) : Stops G (p.bind f) := by
  induction p with
  | pure a => exact h.elim
  | raise e => exact h
  | op o k ih => exact ⟨h.1, fun r => ih r (h.2 r)⟩

theorem Stops.mono {p : Prog α} (h : Stops G p) (hG : ∀ e, G e → T e) : Stops T p := by
  induction p with
  | pure a => exact h.elim
  | raise e => exact hG e h
  | op o k ih => exact ⟨h.1, fun r => ih r (h.2 r)⟩

theorem GivesUp.bind {p : Prog α} {f : α → Prog β} (hp : GivesUp G p) (hf : ∀ a, GivesUp G (f a)) : GivesUp G (p.bind f) := by
  induction p with
  | pure a => exact hf a
  | raise e => trivial
  | op o k ih =>
    cases o with
    | now => exact fun r => ih r (hp r)
    | wipe => exact fun r => ih r (hp r)
    | ext o => exact fun r => ih r (hp r)
    | chain _ => exact ⟨fun r => ih r (hp.1 r), hp.2.bind f⟩
    | append _ _ => exact ⟨fun r => ih r (hp.1 r), hp.2.bind f⟩
    | heads => exact ⟨fun r => ih r (hp.1 r), hp.2.bind f⟩
    | removeIf _ => exact ⟨fun r => ih r (hp.1 r), hp.2.bind f⟩

theorem GivesUp.mono {p : Prog α} (hp : GivesUp G p) (hG : ∀ e, G e → T e) : GivesUp T p := by
  induction p with
  | pure a => trivial
  | raise e => trivial
  | op o k ih =>
    cases o with
    | now => exact fun r => ih r (hp r)
    | wipe => exact fun r => ih r (hp r)
    | ext o => exact fun r => ih r (hp r)
    | chain _ => exact ⟨fun r => ih r (hp.1 r), hp.2.mono hG⟩
    | append _ _ => exact ⟨fun r => ih r (hp.1 r), hp.2.mono hG⟩
    | heads => exact ⟨fun r => ih r (hp.1 r), hp.2.mono hG⟩
    | removeIf _ => exact ⟨fun r => ih r (hp.1 r), hp.2.mono hG⟩

theorem Stops.attempt {p : Prog α} (h : Stops G p) {f : Except Exc α → Prog β} (hf : ∀ e, G e → Stops T (f (.error e))) :
    Stops T (p.attempt.bind f) := by
  induction p with
  | pure a => exact h.elim
  | raise e => exact hf e h
  | op o k ih => exact ⟨h.1, fun r => ih r (h.2 r)⟩

theorem GivesUp.attempt {p : Prog α} {f : Except Exc α → Prog β} (hp : GivesUp G p) (hok : ∀ r, GivesUp T (f r))
    (herr : ∀ e, G e → Stops T (f (.error e))) : GivesUp T (p.attempt.bind f) := by
  induction p with
  | pure a => exact hok _
  | raise e => exact hok _
  | op o k ih =>
    cases o with
    | now => exact fun r => ih r (hp r)
    | wipe => exact fun r => ih r (hp r)
    | ext o => exact fun r => ih r (hp r)
    | chain _ => exact ⟨fun r => ih r (hp.1 r), hp.2.attempt herr⟩
    | append _ _ => exact ⟨fun r => ih r (hp.1 r), hp.2.attempt herr⟩
    | heads => exact ⟨fun r => ih r (hp.1 r), hp.2.attempt herr⟩
    | removeIf _ => exact ⟨fun r => ih r (hp.1 r), hp.2.attempt herr⟩

/-- something which does not write, and then an exception -/
theorem Stops.after {p : Prog α} {q : α → Prog β} (hp : p.AllOps Op.noWrite) (hq : ∀ a, Stops (fun _ => True) (q a)) :
    Stops (fun _ => True) (p.bind q) := by
  induction p with
  | pure a => exact hq a
  | raise e => trivial
  | op o k ih => exact ⟨hp.1, fun r => ih r (hp.2 r)⟩

theorem GivesUp.ofExcept (x : Except Exc α) : GivesUp G (Prog.ofExcept x) := by cases x <;> trivial
theorem GivesUp.assert (b : Bool) : GivesUp G (Prog.assert b) := by cases b <;> trivial

/-- programs which do not use the store -/
theorem GivesUp.ext {p : Prog α} (h : p.AllOps fun o => match o with | .ext _ | .now => True | _ => False) : GivesUp G p := by
  induction p with
  | pure a => trivial
  | raise e => trivial
  | op o k ih =>
    cases o with
    | now => exact fun r => ih r (h.2 r)
    | ext o => exact fun r => ih r (h.2 r)
    | _ => exact h.1.elim
end Prog

/-- structural search for `GivesUp` goals -/
macro "givesup" : tactic => `(tactic|
  repeat' (first
    | exact trivial
    | assumption
    | with_reducible apply Prog.GivesUp.bind
    | with_reducible apply Prog.GivesUp.ofExcept
    | with_reducible apply Prog.GivesUp.assert
    | with_reducible intro _
    | split))

/-- neither reads nor writes the store -/
def Op.outside : Op → Prop
  | .ext _ | .now => True
  | _ => False

theorem outside_all : ∀ o : ExtOp, o.internal = true → Op.outside (.ext o) := fun _ _ => trivial

theorem permissive_noWrite : Permissive Op.noWrite := ⟨trivial, fun _ => trivial, trivial, fun _ _ => trivial⟩

section parts
variable {G : Exc → Prop} (hG : G .osError)

theorem Prog.AllOps.givesUp {α : Type} {p : Prog α} (h : p.AllOps Op.outside) : p.GivesUp G :=
  .ext (h.mono fun o ho => by cases o <;> first | trivial | exact ho.elim)

include hG

theorem givesUp_chain (h : Str) : (Prog.chain h).GivesUp G := ⟨fun _ => .ofExcept _, hG⟩
theorem givesUp_append (h : Str) (e : Entry) : (Prog.append h e).GivesUp G := ⟨fun _ => .ofExcept _, hG⟩
theorem givesUp_heads : Prog.heads.GivesUp G := ⟨fun _ => .ofExcept _, hG⟩
theorem givesUp_removeIf (q : Str → Bool) : (Prog.removeIf q).GivesUp G := ⟨fun _ => .ofExcept _, hG⟩

theorem givesUp_config (n : Str) : (Own.config n).GivesUp G := by
  have h1 := givesUp_chain hG
  unfold Own.config; simp only [bind_eq, pure_eq]; givesup; exact h1 _

theorem givesUp_ownKeyhandle (n : Str) : (Account.ownKeyhandle n).GivesUp G := by
  have h1 := givesUp_chain hG
  unfold Account.ownKeyhandle Own.keyhandle; simp only [bind_eq, pure_eq]; givesup; exact h1 _

theorem givesUp_updateFromMsg (h u) : (Peer.updateFromMsg h u).GivesUp G := by
  have h1 := givesUp_chain hG
  have h2 := givesUp_append hG
  unfold Peer.updateFromMsg; simp only [bind_eq, pure_eq]; givesup <;> first | exact h1 _ | exact h2 _ _

theorem givesUp_updateFromGossip (h u) : (Peer.updateFromGossip h u).GivesUp G := by
  have h1 := givesUp_chain hG
  have h2 := givesUp_append hG
  unfold Peer.updateFromGossip; simp only [bind_eq, pure_eq]; givesup <;> first | exact h1 _ | exact h2 _ _

variable (env : Env)

theorem givesUp_bingpg (n : Str) : (Account.bingpg env n).GivesUp G := by
  have h1 := givesUp_config hG n
  have h2 := fun a b => (BinGPG.create_ops outside_all env a b).givesUp (G := G)
  unfold Account.bingpg; simp only [bind_eq, pure_eq]
  givesup <;> exact h2 _ _

theorem givesUp_with (n : Str) {α : Type} {f : BinGPG → Prog α} (hf : ∀ g, (f g).GivesUp G) : ((Account.bingpg env n).bind f).GivesUp G :=
  .bind (givesUp_bingpg hG env n) hf

theorem givesUp_makeAcHeader (n a) : (Account.makeAcHeader env n a).GivesUp G :=
  givesUp_with hG env n fun g => .bind (givesUp_ownKeyhandle hG n) fun _ => .bind (BinGPG.getPublicKeydata_ops outside_all env g _ _).givesUp fun _ =>
    .bind (givesUp_config hG n) fun _ => .ofExcept _

theorem givesUp_exportPublicKey (n k) : (Account.exportPublicKey env n k).GivesUp G := by
  refine .bind ?_ fun _ => givesUp_with hG env n fun g => (BinGPG.getPublicKeydata_ops outside_all env g _ _).givesUp
  split
  · trivial
  · exact givesUp_ownKeyhandle hG n

theorem givesUp_exportSecretKey (n) : (Account.exportSecretKey env n).GivesUp G :=
  givesUp_with hG env n fun g => .bind (givesUp_ownKeyhandle hG n) fun _ => (BinGPG.getSecretKeydata_ops outside_all env g _ _).givesUp

theorem givesUp_decryptMime (n m) : (Account.decryptMime env n m).GivesUp G :=
  .bind (.ofExcept _) fun _ => givesUp_with hG env n fun g => .bind (BinGPG.decrypt_ops outside_all env g _).givesUp fun _ => trivial

theorem givesUp_importLoop (n pe kh l) : (Account.importLoop env n pe kh l).GivesUp G := by
  induction l with
  | nil => trivial
  | cons a l ih =>
    exact .bind (fun _ => trivial) fun _ => givesUp_with hG env n fun g => .bind (BinGPG.getPublicKeydata_ops outside_all env g _ _).givesUp fun _ =>
      Prog.GivesUp.bind (givesUp_updateFromMsg hG _ _) fun _ => ih

theorem givesUp_import (n a k p) : (Account.importKeydataAsAutocrypt env n a k p).GivesUp G := by
  refine givesUp_with hG env n fun g => .bind (BinGPG.importKeydata_ops outside_all env g _ _).givesUp fun _ => .bind ?_ fun _ => givesUp_with hG env n fun g =>
    .bind (BinGPG.importKeydata_ops outside_all env g _ _).givesUp fun _ => .bind (givesUp_importLoop hG env n _ _ _) fun _ => givesUp_with hG env n fun g =>
    .bind (BinGPG.getPublicKeydata_ops outside_all env g _ _).givesUp fun _ => trivial
  split
  · trivial
  · exact givesUp_with hG env n fun g => .bind (BinGPG.listPublicKeyinfos_ops outside_all env g _).givesUp fun _ => trivial

theorem givesUp_readPeers (n l) : (Account.readPeers env n l).GivesUp G := by
  induction l with
  | nil => trivial
  | cons a l ih => exact .bind (givesUp_chain hG _) fun _ => .bind ih fun _ => trivial

theorem givesUp_recommendation (n a r f) : (Account.recommendation env n a r f).GivesUp G :=
  .bind (givesUp_config hG n) fun _ => .bind (givesUp_readPeers hG env n _) fun _ => .ofExcept _

theorem givesUp_encLoop (n acc l) : (Account.encLoop env n acc l).GivesUp G := by
  induction l generalizing acc with
  | nil => trivial
  | cons a l ih =>
    have h1 := givesUp_config hG n
    have h2 := givesUp_ownKeyhandle hG n
    have h3 := givesUp_chain hG
    unfold Account.encLoop; simp only [bind_eq, pure_eq]
    givesup <;> first | exact ih _ | exact h3 _

theorem givesUp_encryptMime (n m a) : (Account.encryptMime env n m a).GivesUp G :=
  .bind (.assert _) fun _ => .bind (givesUp_encLoop hG env n _ _) fun _ => .bind (givesUp_ownKeyhandle hG n) fun _ =>
    .bind (fun _ => .ofExcept _) fun _ => .bind (.ofExcept _) fun _ => givesUp_with hG env n fun g => .bind (givesUp_ownKeyhandle hG n) fun _ =>
    .bind (BinGPG.encrypt_ops outside_all env g _ _ _ _).givesUp fun _ => trivial

theorem givesUp_processOutgoing (n m) : (Account.processOutgoing env n m).GivesUp G := by
  have h1 := givesUp_makeAcHeader hG env n
  have h2 := givesUp_recommendation hG env n
  have h3 := givesUp_encryptMime hG env n
  unfold Account.processOutgoing Account.outgoingBody; simp only [bind_eq, pure_eq]
  givesup <;> first | exact h1 _ | exact h2 _ _ _ | exact h3 _ _

theorem givesUp_createKey (n k) : (Account.createKey env n k).GivesUp G := by
  unfold Account.createKey; simp only [bind_eq, pure_eq]
  split
  · exact .bind (fun r => trivial) fun _ => givesUp_with hG env n fun g => (BinGPG.genSecretKey_ops outside_all env g _).givesUp
  · refine givesUp_with hG env n fun g => .bind (BinGPG.getSecretKeyhandle_ops outside_all env g _).givesUp fun x => ?_
    cases x <;> trivial

theorem givesUp_create (n re k b m) : (Account.create env n re k b m).GivesUp G := by
  have h1 := givesUp_createKey hG env n
  have h2 := givesUp_bingpg hG env n
  have h3 := fun g a b => (BinGPG.getSecretKeydata_ops outside_all env g a b).givesUp (G := G)
  have h4 := givesUp_chain hG
  have h5 := givesUp_append hG
  unfold Account.create Own.newConfig Own.appendKeygen; simp only [bind_eq, pure_eq]
  givesup <;> first | exact h1 _ | exact h3 _ _ _ | exact h4 _ | exact h5 _ _

theorem givesUp_setVersion (v) : (Mgr.setVersion v).GivesUp G := by
  have h4 := givesUp_chain hG
  have h5 := givesUp_append hG
  unfold Mgr.setVersion; simp only [bind_eq]
  givesup <;> first | exact h4 _ | exact h5 _ _

theorem givesUp_init : Manager.init.GivesUp G := by
  have h4 := givesUp_chain hG
  have h5 := givesUp_setVersion hG
  unfold Manager.init; simp only [bind_eq]
  givesup <;> first | exact h4 _ | exact h5 _

theorem givesUp_ensureInit : Manager.ensureInit.GivesUp G := by
  have h4 := givesUp_chain hG
  have h5 := givesUp_init hG
  unfold Manager.ensureInit; simp only [bind_eq, pure_eq]
  givesup; exact h4 _

theorem givesUp_exists (n) : (Account.exists_ n).GivesUp G := by
  have h4 := givesUp_chain hG
  unfold Account.exists_; simp only [bind_eq, pure_eq]
  givesup; exact h4 _

theorem givesUp_getAccount (n b) : (Manager.getAccount env n b).GivesUp G := by
  have h1 := givesUp_ensureInit hG
  have h2 := givesUp_exists hG
  have h3 : ∀ d, (Prog.hookInstantiate d).GivesUp G := fun _ _ => .ofExcept _
  unfold Manager.getAccount Manager.account; simp only [bind_eq, pure_eq]
  givesup <;> first | exact h2 _ | exact h3 _

theorem givesUp_firstMatch (a l) : (Manager.firstMatch env a l).GivesUp G := by
  induction l with
  | nil => trivial
  | cons n l ih =>
    have h1 := givesUp_getAccount hG env
    have h2 := givesUp_config hG
    unfold Manager.firstMatch; simp only [bind_eq, pure_eq]
    givesup <;> first | exact h1 _ _ | exact h2 _

theorem givesUp_names : getAccountNames.GivesUp G := by
  have h1 := givesUp_heads hG
  unfold getAccountNames; simp only [bind_eq, pure_eq]; givesup

theorem givesUp_fromEmailadr (a b) : (Manager.getAccountFromEmailadr env a b).GivesUp G := by
  have h1 := givesUp_firstMatch hG env a
  have h2 := givesUp_names hG
  unfold Manager.getAccountFromEmailadr; simp only [bind_eq, pure_eq]
  givesup <;> exact h1 _

theorem givesUp_patterns (l) : (Manager.patterns env l).GivesUp G := by
  induction l with
  | nil => trivial
  | cons n l ih =>
    have h1 := givesUp_getAccount hG env
    have h2 := givesUp_config hG
    unfold Manager.patterns; simp only [bind_eq, pure_eq]
    givesup <;> first | exact h1 _ _ | exact h2 _

theorem givesUp_matching (m) : (Manager.getMatchingAccount env m).GivesUp G := by
  have h1 := givesUp_patterns hG env
  have h2 := givesUp_fromEmailadr hG env
  have h3 := givesUp_names hG
  unfold Manager.getMatchingAccount; simp only [bind_eq, pure_eq]
  givesup <;> first | exact h1 _ | exact h2 _ _

theorem givesUp_onAccount (n : Str) {α : Type} {p : Prog α} (hp : p.GivesUp G) : (onAccount env n p).GivesUp G :=
  .bind (.assert _) fun _ => .bind hp fun _ => trivial

end parts

/-! ## Incoming mail -/

/-- an error of the store while gpg is set up is not taken for a failed import -/
theorem givesUp_importKey (env : Env) (n : Str) (k : Bytes) : (Account.importKey env n k).GivesUp fun _ => True := by
  refine .attempt (givesUp_bingpg (G := (· = .osError)) rfl env n) (fun x => ?_) fun e he =>
    .after (Account.bingpg_ops permissive_noWrite env n) fun _ => ?_
  · cases x with
    | ok g =>
      refine .attempt (G := fun _ => False) (BinGPG.importKeydata_ops outside_all env g _ _).givesUp (fun y => ?_) fun _ h => h.elim
      cases y with
      | ok _ => trivial
      | error e => dsimp only; split <;> trivial
    | error e =>
      refine .bind (givesUp_bingpg trivial env n) fun _ => ?_
      split <;> trivial
  · subst he
    rw [if_neg (by decide)]
    trivial

theorem givesUp_importPah (env : Env) (n : Str) (p) : (Account.importPah env n p).GivesUp fun _ => True := by
  refine .bind (givesUp_importKey env n _) fun x => ?_
  cases x <;> trivial

theorem givesUp_gossipLoop (env : Env) (n : Str) (dict dt i pr l) : (Account.gossipLoop env n dict dt i pr l).GivesUp fun _ => True := by
  induction l generalizing pr with
  | nil => trivial
  | cons a l ih =>
    have h1 := givesUp_importPah env n
    have h2 := givesUp_updateFromGossip (G := fun _ => True) trivial
    have h3 := givesUp_chain (G := fun _ => True) trivial
    unfold Account.gossipLoop; simp only [bind_eq, pure_eq]
    givesup <;> first | exact h1 _ | exact h2 _ _ | exact h3 _ | exact ih _

theorem givesUp_processIncoming (env : Env) (n : Str) (m i d) : (Account.processIncoming env n m i d).GivesUp fun _ => True := by
  have h1 := givesUp_importPah env n
  have h2 := givesUp_updateFromMsg (G := fun _ => True) trivial
  have h3 := givesUp_gossipLoop env n
  have h4 := fun m => givesUp_decryptMime (G := fun _ => True) trivial env n m
  have h5 := givesUp_ownKeyhandle (G := fun _ => True) trivial n
  have h6 : ∀ a k m, (Prog.hookIncomingGossip a k m).GivesUp fun _ => True := fun _ _ _ _ => .ofExcept _
  have h7 := givesUp_chain (G := fun _ => True) trivial
  have h8 : Prog.now.GivesUp fun _ => True := fun _ => trivial
  unfold Account.processIncoming Account.processAutocryptHeader Account.processGossipHeaders effectiveDate; simp only [bind_eq, pure_eq]
  givesup <;> first | exact h1 _ | exact h2 _ _ | exact h3 _ _ _ _ _ | exact h4 _ | exact h6 _ _ _ | exact h7 _

/-! ## Calls -/

theorem givesUp_calls (env : Env) (c : ApiCall) : (c.prog env).GivesUp fun _ => True := by
  have hG : (fun _ : Exc => True) .osError := trivial
  have h1 := givesUp_getAccount (G := fun _ => True) hG env
  have ch := givesUp_chain (G := fun _ => True) hG
  have ap := givesUp_append (G := fun _ => True) hG
  have ex := givesUp_exists (G := fun _ => True) hG
  cases c
  case init => exact givesUp_init hG
  case getAccount n b => exact .bind (h1 _ _) fun _ => trivial
  case addAccount n r k b m =>
    have h2 := givesUp_create (G := fun _ => True) hG env
    unfold ApiCall.prog Manager.addAccount Prog.void; simp only [bind_eq, pure_eq]
    givesup <;> first | exact h1 _ _ | exact h2 _ _ _ _ _ | exact ex _
  case modAccount n r k b p =>
    unfold ApiCall.prog Manager.modAccount Account.modify Own.changeConfig Prog.void; simp only [bind_eq, pure_eq]
    have cf := givesUp_config (G := fun _ => True) hG
    givesup <;> first | exact h1 _ _ | exact ch _ | exact ap _ _ | exact cf _
  case delAccount n =>
    unfold ApiCall.prog Manager.delAccount removeAccount; simp only [bind_eq, pure_eq]
    exact .bind (h1 _ _) fun _ => givesUp_removeIf hG _
  case listAccountNames => exact .bind (.bind (givesUp_heads hG) fun _ => trivial) fun _ => trivial
  case accountFromEmailadr a b => exact .bind (givesUp_fromEmailadr hG env a b) fun _ => trivial
  case matchingAccount m => exact .bind (givesUp_matching hG env m) fun _ => trivial
  case removeAll => exact fun _ _ => trivial
  case peernames n => exact givesUp_onAccount hG env n (.bind (givesUp_heads hG) fun _ => trivial)
  case recommendation n as r f => exact givesUp_onAccount hG env n (givesUp_recommendation hG env n _ _ _)
  case makeAcHeader n a => exact givesUp_onAccount hG env n (givesUp_makeAcHeader hG env n _)
  case exportPublicKey n k => exact givesUp_onAccount hG env n (givesUp_exportPublicKey hG env n _)
  case exportSecretKey n => exact givesUp_onAccount hG env n (givesUp_exportSecretKey hG env n)
  case processIncoming n m i d => exact givesUp_onAccount hG env n (givesUp_processIncoming env n m i d)
  case processOutgoing n m => exact givesUp_onAccount hG env n (givesUp_processOutgoing hG env n _)
  case encryptMime n m as => exact givesUp_onAccount hG env n (givesUp_encryptMime hG env n _ _)
  case decryptMime n m => exact givesUp_onAccount hG env n (givesUp_decryptMime hG env n _)
  case importKey n a k p => exact givesUp_onAccount hG env n (givesUp_import hG env n _ _ _)
  case peerMsg n a u => exact givesUp_onAccount hG env n (givesUp_updateFromMsg hG _ _)
  case peerGossip n a u => exact givesUp_onAccount hG env n (givesUp_updateFromGossip hG _ _)
  case verifySelf n a k => exact givesUp_onAccount hG env n (ap _ _)
  case verifyPeer n a k => exact givesUp_onAccount hG env n (ap _ _)
  case getVerification n a =>
    refine givesUp_onAccount hG env n ?_
    unfold OOB.getVerification; simp only [bind_eq, pure_eq]
    givesup; exact ch _

/-! ## Runs with errors -/

section runs
variable {O : Oracle K} {α β : Type}

/-- a run without errors -/
theorem Faulty.run (p : Prog α) (w : World Disk K) : Faulty c O p w (run (Disk.impl c) O p w).1 (run (Disk.impl c) O p w).2 false := by
  induction p generalizing w with
  | pure a => exact .pure a w
  | raise e => exact .raise e w
  | op o k ih => exact .step (ih _ _)

theorem step_noWrite {o : Op} (h : o.noWrite) (w : World Disk K) : (step (Disk.impl c) O o w).2.store = w.store := by
  cases o <;> first | rfl | exact h.elim

/-- a program which gives up -/
theorem Prog.Stops.faulty {G : Exc → Prop} {p : Prog α} (hp : p.Stops G) {w w' : World Disk K} {r : Except Exc α} {b : Bool}
    (h : Faulty c O p w r w' b) : (∃ e, r = .error e ∧ G e) ∧ w'.store = w.store := by
  induction h with
  | pure a w => exact hp.elim
  | raise e w => exact ⟨⟨e, rfl, hp⟩, rfl⟩
  | step h ih =>
    obtain ⟨h1, h2⟩ := ih (hp.2 _)
    exact ⟨h1, h2.trans (step_noWrite hp.1 _)⟩
  | chain h ih => exact ih (hp.2 _)
  | heads h ih => exact ih (hp.2 _)
  | append d t hc h ih => exact hp.1.elim
  | removeIf d hc h ih => exact hp.1.elim

/-- after an error the program ends with an exception, and the files are as if the process had died then -/
theorem Prog.GivesUp.faulty {G : Exc → Prop} {p : Prog α} (hp : p.GivesUp G) {w w' : World Disk K} {r : Except Exc α} {b : Bool}
    (h : Faulty c O p w r w' b) (hb : b = true) : (∃ e, r = .error e ∧ G e) ∧ p.Crash c O w w'.store := by
  induction h with
  | pure a w => cases hb
  | raise e w => cases hb
  | step h ih =>
    obtain ⟨h1, h2⟩ := ih (hp.cont _) hb
    exact ⟨h1, .inr (.inr h2)⟩
  | chain h ih =>
    obtain ⟨h1, h2⟩ := hp.2.faulty h
    exact ⟨h1, .inl h2⟩
  | heads h ih =>
    obtain ⟨h1, h2⟩ := hp.2.faulty h
    exact ⟨h1, .inl h2⟩
  | append d t hc h ih =>
    obtain ⟨h1, h2⟩ := hp.2.faulty h
    exact ⟨h1, .inr (.inl (by rw [h2]; exact hc))⟩
  | removeIf d hc h ih =>
    obtain ⟨h1, h2⟩ := hp.2.faulty h
    exact ⟨h1, .inr (.inl (by rw [h2]; exact hc))⟩

/-- the other way round: a disk which a dying process can leave is one between operations, or an error can leave it -/
theorem Prog.GivesUp.of_crash {G : Exc → Prop} {p : Prog α} (hp : p.GivesUp G) (hn : p.AllOps Op.notWipe) {w : World Disk K} {d : Disk}
    (h : p.Crash c O w d) : (∃ n, d = (runFor (Disk.impl c) O n p w).store) ∨ ∃ r w', Faulty c O p w r w' true ∧ w'.store = d := by
  induction p generalizing w with
  | pure a => exact .inl ⟨0, h⟩
  | raise e => exact .inl ⟨0, h⟩
  | op o k ih =>
    rcases h with h | h | h
    · exact .inl ⟨0, h⟩
    · cases o with
      | append n e =>
        have hf := Faulty.run (c := c) (O := O) (k (.error .osError)) { w with store := d }
        exact .inr ⟨_, _, .append d w.tick h hf, (hp.2.faulty hf).2⟩
      | removeIf q =>
        have hf := Faulty.run (c := c) (O := O) (k (.error .osError)) { w with store := d }
        exact .inr ⟨_, _, .removeIf d h hf, (hp.2.faulty hf).2⟩
      | wipe => exact hn.1.elim
      | now => exact .inl ⟨0, h⟩
      | chain _ => exact .inl ⟨0, h⟩
      | heads => exact .inl ⟨0, h⟩
      | ext _ => exact .inl ⟨0, h⟩
    · rcases ih _ (hp.cont _) (hn.2 _) h with ⟨n, h⟩ | ⟨r, w', h, hs⟩
      · exact .inl ⟨n + 1, h⟩
      · exact .inr ⟨r, w', .step h, hs⟩

theorem Faulty.attempt {p : Prog α} {f : Except Exc α → Prog β} {w w' : World Disk K} {r : Except Exc β} {b : Bool}
    (h : Faulty c O (p.attempt.bind f) w r w' b) :
    ∃ r1 w1 b1 b2, Faulty c O p w r1 w1 b1 ∧ Faulty c O (f r1) w1 r w' b2 ∧ b = (b1 || b2) := by
  induction p generalizing w r w' b with
  | pure a => exact ⟨_, w, false, b, .pure a w, h, by simp⟩
  | raise e => exact ⟨_, w, false, b, .raise e w, h, by simp⟩
  | op o k ih =>
    replace h : Faulty c O (.op o fun x => (k x).attempt.bind f) w r w' b := h
    cases h with
    | step h =>
      obtain ⟨r1, w1, b1, b2, h1, h2, h3⟩ := ih _ h
      exact ⟨r1, w1, b1, b2, .step h1, h2, h3⟩
    | chain h =>
      obtain ⟨r1, w1, b1, b2, h1, h2, h3⟩ := ih _ h
      exact ⟨r1, w1, true, b2, .chain h1, h2, by simp⟩
    | heads h =>
      obtain ⟨r1, w1, b1, b2, h1, h2, h3⟩ := ih _ h
      exact ⟨r1, w1, true, b2, .heads h1, h2, by simp⟩
    | append d t hc h =>
      obtain ⟨r1, w1, b1, b2, h1, h2, h3⟩ := ih _ h
      exact ⟨r1, w1, true, b2, .append d t hc h1, h2, by simp⟩
    | removeIf d hc h =>
      obtain ⟨r1, w1, b1, b2, h1, h2, h3⟩ := ih _ h
      exact ⟨r1, w1, true, b2, .removeIf d hc h1, h2, by simp⟩

theorem crash_attempt {p : Prog α} {f : Except Exc α → Prog β} {w : World Disk K} {d : Disk} (h : p.Crash c O w d) :
    (p.attempt.bind f).Crash c O w d := by
  have start : ∀ (q : Prog β) (w : World Disk K), q.Crash c O w w.store := by
    intro q w
    cases q with
    | pure a => exact rfl
    | raise e => exact rfl
    | op o k => exact .inl rfl
  induction p generalizing w with
  | pure a => rw [show d = w.store from h]; exact start _ _
  | raise e => rw [show d = w.store from h]; exact start _ _
  | op o k ih =>
    rcases h with h | h | h
    · exact .inl h
    · exact .inr (.inl h)
    · exact .inr (.inr (ih _ h))

theorem runFor_not_collided (O : Oracle K) (p : Prog α) (n : Nat) (w : World Disk K)
    (h : (run (Disk.impl c) O p w).2.store.collided = false) : (runFor (Disk.impl c) O n p w).store.collided = false := by
  induction p generalizing n w with
  | pure a => cases n <;> exact h
  | raise a => cases n <;> exact h
  | op o k ih =>
    cases n with
    | zero => exact run_collided O _ _ h
    | succ n => exact ih _ n _ h

/-- programs which do not use the store meet no errors of it -/
theorem Faulty.outside {p : Prog α} (hp : p.AllOps Op.outside) {w w' : World Disk K} {r : Except Exc α} {b : Bool}
    (h : Faulty c O p w r w' b) : b = false ∧ w'.store = w.store := by
  induction h with
  | pure a w => exact ⟨rfl, rfl⟩
  | raise e w => exact ⟨rfl, rfl⟩
  | @step o k _ _ _ _ h ih =>
    obtain ⟨h1, h2⟩ := ih (hp.2 _)
    refine ⟨h1, h2.trans ?_⟩
    have := hp.1
    cases o <;> first | rfl | exact this.elim
  | chain h ih => exact hp.1.elim
  | heads h ih => exact hp.1.elim
  | append d t hc h ih => exact hp.1.elim
  | removeIf d hc h ih => exact hp.1.elim

end runs

/-! ## Commands -/

namespace Cmd

local notation "Gu" p => Prog.GivesUp (fun _ => True) p

theorem givesUp_say (s) : Gu (say s) := fun _ => .ofExcept _
theorem givesUp_emit (s) : Gu (Prog.emit s) := fun _ => .ofExcept _
theorem givesUp_kecho (s t) : Gu (kecho s t) := fun _ => .ofExcept _
theorem givesUp_find (n) : Gu (Prog.findExecutable n) := fun _ => trivial

variable (ce : CmdEnv) (be : BotEnv) (env : Env)

theorem givesUp_getAccount (n b) : Gu (Manager.getAccount env n b) := Verif.givesUp_getAccount (G := fun _ => True) trivial env n b

theorem givesUp_processOutgoing (m) : Gu (Cmd.processOutgoing env m) := by
  have h1 := Verif.givesUp_fromEmailadr (G := fun _ => True) trivial env
  have h2 := fun a => Verif.givesUp_processOutgoing (G := fun _ => True) trivial env a m
  unfold Cmd.processOutgoing; simp only [bind_eq, pure_eq]
  givesup <;> first | exact h1 _ _ | exact h2 _

theorem givesUp_accountFor (a) : Gu (accountFor env a) := by
  have h1 := Verif.givesUp_fromEmailadr (G := fun _ => True) trivial env
  unfold accountFor; simp only [bind_eq, pure_eq]
  givesup
  exact h1 _ _

theorem givesUp_peerstate (a b) : Gu (peerstate ce env a b) := by
  have h1 := givesUp_say
  have h2 := givesUp_chain (G := fun _ => True) trivial
  unfold peerstate; simp only [bind_eq]
  givesup <;> first | exact h1 _ | exact h2 _

theorem givesUp_sayUids (l) : Gu (sayUids l) := by
  induction l with
  | nil => trivial
  | cons a l ih => exact .bind (givesUp_kecho _ _) fun _ => ih

theorem givesUp_sayAddrs (l) : Gu (sayAddrs l) := by
  induction l with
  | nil => trivial
  | cons a l ih => exact .bind (givesUp_say _) fun _ => ih

theorem givesUp_sayPeers (a l) : Gu (sayPeers ce env a l) := by
  have h1 := givesUp_say
  have h2 := givesUp_chain (G := fun _ => True) trivial
  induction l with
  | nil => trivial
  | cons b l ih =>
    unfold sayPeers; simp only [bind_eq]
    givesup <;> first | exact h1 _ | exact h2 _

theorem givesUp_statusAccount (a v) : Gu (statusAccount ce env a v) := by
  have h1 := givesUp_say
  have h2 := givesUp_kecho
  have h3 := givesUp_find
  have h4 := givesUp_bingpg (G := fun _ => True) trivial env a
  have h5 := fun g k => (BinGPG.listPublicKeyinfos_ops outside_all env g k).givesUp (G := fun _ => True)
  have h6 := givesUp_sayUids
  have h7 := givesUp_sayPeers ce env
  have h8 := givesUp_config (G := fun _ => True) trivial a
  have h9 := givesUp_ownKeyhandle (G := fun _ => True) trivial a
  have h10 := givesUp_heads (G := fun _ => True) trivial
  unfold statusAccount getPeernameList; simp only [bind_eq, pure_eq]
  givesup <;> first | exact h1 _ | exact h2 _ _ | exact h3 _ | exact h5 _ _ | exact h6 _ | exact h7 _ _

theorem givesUp_statusAll (v l) : Gu (statusAll ce env v l) := by
  have h1 := givesUp_say
  have h2 := givesUp_statusAccount ce env
  have h3 := givesUp_getAccount env
  induction l with
  | nil => trivial
  | cons b l ih =>
    unfold statusAll; simp only [bind_eq]
    givesup <;> first | exact h1 _ | exact h2 _ _ | exact h3 _ _

theorem givesUp_status (v) : Gu (status ce env v) := by
  have h1 := givesUp_say
  have h2 := givesUp_statusAll ce env
  have h3 := givesUp_names (G := fun _ => True) trivial
  have h4 := givesUp_chain (G := fun _ => True) trivial
  unfold status; simp only [bind_eq]
  givesup <;> first | exact h1 _ | exact h2 _ _ | exact h4 _

theorem givesUp_sendmail (a m) : Gu (Cmd.sendmail ce env a m) := by
  have h1 := givesUp_say
  have h2 := givesUp_processOutgoing env
  have h3 := givesUp_find
  have h4 : ∀ a r, Gu (Prog.sendmail a r) := fun _ _ _ => .ofExcept _
  unfold Cmd.sendmail; simp only [bind_eq, pure_eq]
  givesup <;> first | exact h1 _ | exact h2 _ | exact h3 _ | exact h4 _ _

theorem givesUp_managerExists : Gu managerExists := by
  have h2 := givesUp_chain (G := fun _ => True) trivial
  unfold managerExists; simp only [bind_eq, pure_eq]; givesup; exact h2 _

theorem givesUp_destroyAll (y) : Gu (destroyAll y) := by
  have h1 := givesUp_managerExists
  have h2 : Gu Manager.remove := fun _ _ => trivial
  unfold destroyAll; simp only [bind_eq, pure_eq]; givesup

theorem givesUp_sayReport (m r) : Gu (sayReport m r) := by
  have h1 := givesUp_say
  have h2 := givesUp_chain (G := fun _ => True) trivial
  unfold sayReport; simp only [bind_eq]
  givesup <;> first | exact h1 _ | exact h2 _

theorem givesUp_body (cmd : Command) (h2 : ∀ i l, cmd ≠ .scandir i l) (h3 : ∀ v s f m, cmd ≠ .botReply v s f m) :
    Gu (cmd.body ce be env) := by
  have say := givesUp_say
  have em := givesUp_emit
  have stA := givesUp_statusAccount ce env
  have st := givesUp_status ce env
  have acc := givesUp_getAccount env
  have accf := givesUp_accountFor env
  have ch := givesUp_chain (G := fun _ => True) trivial
  have ap := givesUp_append (G := fun _ => True) trivial
  cases cmd
  case status n v =>
    cases n
    · exact .bind (st _) fun _ => trivial
    · exact .bind (acc _ _) fun _ => .bind (stA _ _) fun _ => trivial
  case addAccount n sys key bin regex =>
    have h : Gu (Cmd.addAccount env n sys key bin regex) := by
      have h2 := givesUp_create (G := fun _ => True) trivial env
      have ex := givesUp_exists (G := fun _ => True) trivial
      unfold Cmd.addAccount Manager.addAccount; simp only [bind_eq, pure_eq]
      givesup <;> first | exact acc _ _ | exact h2 _ _ _ _ _ | exact ex _
    exact .bind h fun _ => .bind (say _) fun _ => .bind (stA _ _) fun _ => trivial
  case modAccount n key bin regex pe =>
    have h : Gu (Cmd.modAccount env n key bin regex pe) := by
      have cf := givesUp_config (G := fun _ => True) trivial
      unfold Cmd.modAccount Manager.modAccount Account.modify Own.changeConfig; simp only [bind_eq, pure_eq]
      givesup <;> first | exact acc _ _ | exact ch _ | exact ap _ _ | exact cf _
    exact .bind h fun _ => .bind (say _) fun _ => .bind (stA _ _) fun _ => trivial
  case delAccount n =>
    have h : Gu (Manager.delAccount env n) := by
      unfold Manager.delAccount removeAccount; simp only [bind_eq]
      exact .bind (acc _ _) fun _ => givesUp_removeIf trivial _
    exact .bind h fun _ => .bind (say _) fun _ => .bind (st _) fun _ => trivial
  case findAccount a => exact .bind (accf _) fun _ => .bind (say _) fun _ => trivial
  case processIncoming n i d m =>
    have mt := givesUp_matching (G := fun _ => True) trivial env
    have inc := givesUp_processIncoming env
    have rp := givesUp_sayReport
    unfold Command.body Cmd.processIncoming; simp only [bind_eq, pure_eq]
    givesup <;> first | exact acc _ _ | exact mt _ | exact inc _ _ _ _ | exact rp _ _ | exact ch _
  case scandir i l => exact absurd rfl (h2 i l)
  case importPublicKey n kd pe email =>
    exact .bind (acc _ _) fun _ => .bind (givesUp_import trivial env _ _ _ _) fun _ => .bind (say _) fun _ =>
      .bind (givesUp_sayAddrs _) fun _ => trivial
  case peerstate n a => exact .bind (acc _ _) fun _ => .bind (givesUp_peerstate ce env _ _) fun _ => trivial
  case recommend n as => exact .bind (acc _ _) fun _ => .bind (givesUp_recommendation trivial env _ _ _ _) fun _ => .bind (say _) fun _ => trivial
  case processOutgoing m => exact .bind (givesUp_processOutgoing env _) fun _ => .bind (em _) fun _ => trivial
  case sendmail a m => exact givesUp_sendmail ce env _ _
  case makeHeader a v =>
    exact .bind (accf _) fun _ => .bind (givesUp_makeAcHeader trivial env _ _) fun _ => .bind (say _) fun _ => trivial
  case exportPublicKey n k =>
    exact .bind (acc _ _) fun _ => .bind (givesUp_exportPublicKey trivial env _ _) fun _ => .bind (em _) fun _ => trivial
  case exportSecretKey n =>
    exact .bind (acc _ _) fun _ => .bind (givesUp_exportSecretKey trivial env _) fun _ => .bind (em _) fun _ => trivial
  case botReply v s f m => exact absurd rfl (h3 v s f m)
  case destroyAll y =>
    have d := givesUp_destroyAll y
    have ex := givesUp_managerExists
    unfold Command.body; simp only [bind_eq]
    givesup <;> exact say _

end Cmd

/-! ## The property -/

/-- C115: a call during which a file of the store could not be read or written raises, and writes nothing afterwards: the files are as if
the process had died at the time of the (first) error. -/
theorem C115_raises (O : Oracle K) (env : Env) (call : ApiCall) {w w' : World Disk K} {r : Except Exc Unit}
    (h : Faulty c O (call.prog env) w r w' true) : (∃ e, r = .error e) ∧ (call.prog env).Crash c O w w'.store := by
  obtain ⟨⟨e, h1, -⟩, h2⟩ := (givesUp_calls env call).faulty h rfl
  exact ⟨⟨e, h1⟩, h2⟩

/-- C115, the part that holds: the next call reads what was stored after some of the operations of the call, or the file which could not be
written was the heads file or a block file which existed before. Missing, and false (`C115_refuted`): the other cases do not occur. -/
theorem C115_files_partial (hl : c.Lawful) (O : Oracle K) (env : Env) (call : ApiCall) {w w' : World Disk K}
    {v : World Store K} (hw : SameWorld c w v) (hnc : (run (Disk.impl c) O (call.prog env) w).2.store.collided = false) {r : Except Exc Unit}
    (h : Faulty c O (call.prog env) w r w' true) :
    (∃ n, ReadsAs c w'.store (runFor Store.impl O n (call.prog env) v).store) ∨ TornHeads c w'.store ∨
    (∃ n, TornBlock (runFor (Disk.impl c) O n (call.prog env) w).store w'.store) := by
  rcases C97_call_partial hl O env call hw hnc (C115_raises O env call h).2 with h1 | h1 | h1 | ⟨h1, -⟩
  · exact .inl h1
  · exact .inr (.inl h1)
  · exact .inr (.inr h1)
  · subst h1
    cases h with
    | step h => cases h with
      | step h => cases h

/-- C115 is false, in every state and for every call which changes what is stored: the heads file may be emptied and its new content not
written, because the disk is full, and then nothing can be read any more. -/
theorem C115_refuted (hl : c.Lawful) (ht : c.RejectsTruncated) (hne : ∀ hs, c.dumpDict hs ≠ []) (O : Oracle K) (env : Env) (call : ApiCall)
    (hcall : call ≠ .removeAll) {w : World Disk K} {v : World Store K} (hw : SameWorld c w v)
    (hnc : (run (Disk.impl c) O (call.prog env) w).2.store.collided = false)
    (hch : (run Store.impl O (call.prog env) v).2.store ≠ v.store) :
    ∃ r w', Faulty c O (call.prog env) w r w' true ∧ ∀ name, ∃ e, (Disk.impl c).chain w'.store name = .error e := by
  obtain ⟨d, h1, h2⟩ := C97_refuted hl ht hne O env call hcall hw hnc hch
  rcases (givesUp_calls env call).of_crash (call_notWipe env call hcall) h1 with ⟨n, h⟩ | ⟨r, w', h, hs⟩
  · exfalso
    subst h
    have hs := runFor_same hl O (call.prog env) n hw (runFor_not_collided O _ n _ hnc)
    obtain ⟨e, he⟩ := h2 []
    rw [(hs.store.readsAs hl).2] at he
    cases he
  · exact ⟨r, w', h, by rw [hs]; exact h2⟩

/-- C115 for the command line: a command during which a file of the store could not be read or written does not exit with 0, and writes
nothing to the store afterwards. `scandir-incoming` and `bot-reply` are left out: the bot reports if it cannot read the state of the sender,
and `scandir-incoming` goes on with the next message if gpg fails, too, after the error. -/
theorem C115_commands (O : Oracle K) (ce : CmdEnv) (be : BotEnv) (env : Env) (cmd : Cmd.Command) (h2 : ∀ i l, cmd ≠ .scandir i l)
    (h3 : ∀ v s f m, cmd ≠ .botReply v s f m) {w w' : World Disk K} {r : Except Exc Int}
    (h : Faulty c O (cmd.prog ce be env) w r w' true) : r ≠ .ok 0 ∧ (cmd.prog ce be env).Crash c O w w'.store := by
  unfold Cmd.Command.prog at h ⊢
  simp only [bind_eq, pure_eq] at h ⊢
  obtain ⟨r1, w1, b1, b2, g1, g2, g3⟩ := Faulty.attempt h
  have hout : ∀ x : Except Exc Int, ((match x with
      | .ok r => Prog.pure r
      | .error e => if (Cmd.isAccountExc e || e == .clickError) = true then (Cmd.say (ce.excText e)).bind fun _ => .pure 1 else .raise e) :
        Prog Int).AllOps Op.outside := by
    intro x
    cases x with
    | ok r => trivial
    | error e =>
      dsimp only
      split
      · exact .bind ⟨trivial, fun _ => .ofExcept _⟩ fun _ => trivial
      · trivial
  obtain ⟨g4, g5⟩ := Faulty.outside (hout r1) g2
  subst g4
  have g6 : b1 = true := by simpa using g3.symm
  obtain ⟨⟨e, rfl, -⟩, g7⟩ := (Cmd.givesUp_body ce be env cmd h2 h3).faulty g1 g6
  refine ⟨?_, by rw [g5]; exact crash_attempt g7⟩
  rintro rfl
  clear * - g2
  dsimp only at g2
  split at g2
  · have : ∀ (x : Except Exc Unit), ¬ ∃ w1 b, Faulty c O ((Prog.ofExcept x).bind fun _ => .pure (1 : Int)) w1 (.ok 0) w' b := by
      rintro x ⟨w1, b, h⟩
      cases x <;> cases h
    cases g2 with
    | step h => exact this _ ⟨_, _, h⟩
  · cases g2

/-- C115 is false in another way, in every state: if `os.path.exists` cannot look at the files while an entry is appended then this is no
error, and all other names are lost. -/
theorem C115_refuted_unseen (hl : c.Lawful) (d : Disk) (name : Str) (e : Entry) (t : Time) :
    ∃ d', (Chainstore.appendEntry c name e).runUnseen c t (fun _ => true) 0 d = (.ok (), d') ∧ (Disk.impl c).heads d' = .ok [name] := by
  refine ⟨_, rfl, ?_⟩
  have := run_getheads (c := c) (t := 0) (d := ((Chainstore.appendEntry c name e).runUnseen c t (fun _ => true) 0 d).2)
    (.inr ⟨_, rfl, hl.load_dump_dict _ (by simp [Chainstore.setHead])⟩)
  exact congrArg (fun x => Except.map (fun hs => hs.map (·.1)) x.1) this

section examples
open Concrete

/-- the hypotheses of `C115_refuted` and `C115_files_partial` are met: a message from Bob -/
example : ∃ r w', Faulty codec oracle ((recv bob (str!"4") (str!"400") [9]).prog env)
    (runHistory (Disk.impl codec) oracle env withInterruption disk0) r w' true ∧ ∀ name, ∃ e, (Disk.impl codec).chain w'.store name = .error e :=
  C115_refuted codec_lawful codec_rejectsTruncated codec_dumpDict_ne oracle env _ (by simp [recv]) (C01_interrupted codec_lawful oracle env _ disk0_same withInterruption_ok)
    (by decide +kernel) (by
      intro h
      exact absurd (congrArg (fun s => s.get (peerHead (str!"a") bob)) h) (by decide +kernel))

/-- an error while a command reads -/
example (w : World Disk Unit) : ∃ r w', Faulty codec oracle ((Cmd.Command.peerstate (str!"a") bob).prog cmdEnv botEnv env) w r w' true :=
  ⟨_, _, Faulty.chain (h := managerHead) (b := false) (Faulty.run _ _)⟩

end examples

end Verif
