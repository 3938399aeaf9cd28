import Verif.Props.AnyOrder
import Verif.Props.AccountHistory
/-!
# C132: what is known about a person, and what is recommended, changes only by what concerns that person
-/
namespace Verif
variable {α β K : Type}

/-! ## Specification -/

/-- the call may change what the account `n` knows about the address `a`: a mail which concerns `a`, the import of a key for `a`, or of one for whatever
addresses it names, or a direct update -/
def ApiCall.Informs (O : Oracle K) (env : Env) (n a : Str) : ApiCall → Prop
  | .processIncoming n' m i nd => n' = n ∧ Arrival.Concerns O env ⟨m, i, nd⟩ a
  | .importKey n' none _ _ => n' = n
  | .importKey n' (some x) _ _ => n' = n ∧ a = address env (some (address env (some x)))
  | .peerMsg n' x _ | .peerGossip n' x _ => n' = n ∧ a = address env (some x)
  | _ => False

/-- the call may change the settings of the account `n`, or remove it -/
def ApiCall.Sets (n : Str) : ApiCall → Prop
  | .addAccount n' .. | .modAccount n' .. | .delAccount n' => n' = n
  | .removeAll => True
  | _ => False

/-- the addresses which a recommendation is about: those asked for but not that of the sender -/
def Asked (env : Env) (addrs : List Str) (sender : Option Str) (a : Str) : Prop :=
  ∃ x ∈ addrs, sender ≠ some (address env (some x)) ∧ a = address env (some (address env (some x)))

/-! ## Programs -/

/-- with the answers of `O`, only logs in `W` are written, by additions -/
def Writes (O : Oracle K) (W : Str → Prop) : Prog α → Prop
  | .pure _ => True
  | .raise _ => True
  | .op (.append h _) k => W h ∧ ∀ r, Writes O W (k r)
  | .op (.removeIf _) _ => False
  | .op .wipe _ => False
  | .op (.ext o) k => ∀ e, Writes O W (k (O.step o e).1)
  | .op .now k => ∀ r, Writes O W (k r)
  | .op (.chain _) k => ∀ r, Writes O W (k r)
  | .op .heads k => ∀ r, Writes O W (k r)

namespace Writes
variable {O : Oracle K} {R W : Str → Prop}

theorem of_footprint {p : Prog α} (h : Footprint O R W p) : Writes O W p := by
  induction p with
  | pure a => trivial
  | raise e => trivial
  | op o k ih =>
    cases o with
    | chain x => exact fun r => ih r (h.2 r)
    | append x y => exact ⟨h.1, fun r => ih r (h.2 r)⟩
    | ext o => exact fun e => ih _ (h e)
    | now => exact h.elim
    | heads => exact h.elim
    | removeIf _ => exact h.elim
    | wipe => exact h.elim

theorem ro {p : Prog α} (h : p.AllOps Op.readOnly) : Writes O W p := by
  induction p with
  | pure a => trivial
  | raise e => trivial
  | op o k ih =>
    cases o with
    | chain x => exact fun r => ih r (h.2 r)
    | append x y => exact h.1.elim
    | ext o => exact fun e => ih _ (h.2 _)
    | now => exact fun r => ih r (h.2 r)
    | heads => exact fun r => ih r (h.2 r)
    | removeIf _ => exact h.1.elim
    | wipe => exact h.1.elim

theorem bindReturns {p : Prog α} {Q : α → Prop} {f : α → Prog β} (h : Writes O W p) (hq : p.Returns Q) (hf : ∀ a, Q a → Writes O W (f a)) :
    Writes O W (p.bind f) := by
  induction p with
  | pure a => exact hf a hq
  | raise e => trivial
  | op o k ih =>
    cases o with
    | chain x => exact fun r => ih r (h r) (hq r)
    | append x y => exact ⟨h.1, fun r => ih r (h.2 r) (hq r)⟩
    | ext o => exact fun e => ih _ (h e) (hq _)
    | now => exact fun r => ih r (h r) (hq r)
    | heads => exact fun r => ih r (h r) (hq r)
    | removeIf _ => exact h.elim
    | wipe => exact h.elim

theorem bind {p : Prog α} {f : α → Prog β} (h : Writes O W p) (hf : ∀ a, Writes O W (f a)) : Writes O W (p.bind f) :=
  bindReturns h (.trivially _) fun a _ => hf a

/-- logs which are not written stay the same, wherever the program is interrupted -/
theorem killed {p : Prog α} (h : Writes O W p) (i : Nat) (w : World Store K) {x : Str} (hx : ¬ W x) :
    (runFor Store.impl O i p w).log x = w.log x := by
  induction p generalizing i w with
  | pure a => cases i <;> rfl
  | raise e => cases i <;> rfl
  | op o k ih =>
    cases i with
    | zero => rfl
    | succ i =>
      cases o with
      | chain _ => exact ih _ (h _) i _
      | append y e =>
        refine (ih _ (h.2 _) i (step Store.impl O (.append y e) w).2).trans ?_
        show (w.store.push y e).get x = w.store.get x
        rw [Store.get_push, if_neg fun hy => hx (by rw [hy]; exact h.1)]
      | ext o => exact ih _ (h _) i _
      | now => exact ih _ (h _) i _
      | heads => exact ih _ (h _) i _
      | removeIf _ => exact h.elim
      | wipe => exact h.elim

end Writes

section
variable (O : Oracle K) (env : Env) (n : Str)

theorem writes_processIncoming (x : Arrival) :
    Writes O (x.writes O env n) (Account.processIncoming env n x.msg x.ignoreExisting x.noDecrypt) := by
  show Writes O _ ((Prog.ofExcept (parseDateToFloat env (x.msg.get (str!"Date")))).bind fun d =>
      (effectiveDate d).bind fun d => Account.incomingRest env n x.msg x.ignoreExisting x.noDecrypt d)
  exact .bind (.ro (.ofExcept _)) fun d => .bind (.ro (.bind (.now trivial) fun _ => trivial)) fun d => .of_footprint (incomingRest_footprint x d)

theorem writes_importLoop (p k l) : Writes O (fun h => ∃ a ∈ l, h = Account.peerHeadOf env n a) (Account.importLoop env n p k l) := by
  have : ∀ (W : Str → Prop) (l : List Str), (∀ a ∈ l, W (Account.peerHeadOf env n a)) → Writes O W (Account.importLoop env n p k l) := by
    intro W l hl
    induction l with
    | nil => exact .ro trivial
    | cons a l ih =>
      unfold Account.importLoop
      simp only [bind_eq]
      exact .bind (.ro (.now trivial)) fun _ => .bind (.ro (Account.bingpg_ops permissive_readOnly env n)) fun _ =>
        .bind (.ro (BinGPG.getPublicKeydata_ops permissive_readOnly.2.2.2 env _ _ _)) fun _ =>
        .bind (.of_footprint (updateFromMsg_footprint (R := fun _ => True) trivial (hl a List.mem_cons_self) _)) fun _ =>
          ih fun a ha => hl a (List.mem_cons_of_mem _ ha)
  exact this _ l fun a ha => ⟨a, ha, rfl⟩

theorem writes_import (x : Str) (k p) : Writes O (fun h => h = peerHead n (address env (some (address env (some x)))))
    (Account.importKeydataAsAutocrypt env n (some x) k p) := by
  unfold Account.importKeydataAsAutocrypt
  simp only [bind_eq, pure_eq]
  have h1 := Account.bingpg_ops permissive_readOnly env n
  have h2 := fun g k b => BinGPG.importKeydata_ops permissive_readOnly.2.2.2 env g k b
  refine .bind (.ro h1) fun _ => .bind (.ro (h2 _ _ _)) fun _ => ?_
  show Writes O _ ((Account.bingpg env n).bind _)
  refine .bind (.ro h1) fun _ => .bind (.ro (h2 _ _ _)) fun kh => .bind ?_ fun _ => .bind (.ro h1) fun _ =>
    .bind (.ro (BinGPG.getPublicKeydata_ops permissive_readOnly.2.2.2 env _ _ _)) fun _ => .ro trivial
  have := writes_importLoop O env n p kh [address env (some x)]
  simp only [List.mem_singleton, exists_eq_left] at this
  exact this

/-- a call on an account, interrupted -/
theorem runFor_onAccount (p : Prog α) (i : Nat) (w : World Store K) :
    runFor Store.impl O i (onAccount env n p) w = w ∨ runFor Store.impl O i (onAccount env n p) w = runFor Store.impl O i p w := by
  unfold onAccount Manager.account
  rw [Prog.assert_bind]
  split
  · exact .inr (runFor_void ..)
  · exact .inl (by cases i <;> rfl)

end

/-- what is read for an address or for the account itself -/
theorem call_frame (O : Oracle K) {env : Env} {n : Str} (hn : env.isalnum n = true) (c : ApiCall) (i : Nat) (w : World Store K) :
    (¬ c.Sets n → (runFor Store.impl O i (c.prog env) w).log (ownHead n) = w.log (ownHead n)) ∧
    (∀ a, ¬ c.Sets n → ¬ c.Informs O env n a → (runFor Store.impl O i (c.prog env) w).log (peerHead n a) = w.log (peerHead n a)) := by
  have away : c ≠ .removeAll → c.target ≠ some n → ∀ h, (h = ownHead n ∨ h = oobHead n ∨ ∃ p, h = peerHead n p) →
      (runFor Store.impl O i (c.prog env) w).log h = w.log h := by
    intro hr ht h hh
    refine (safe_call env c).respects_killed (R := fun w w' => w'.log h = w.log h) (fun _ _ _ h1 h2 => h2.trans h1)
      (fun w w' hs _ _ _ => by simp only [World.log]; rw [hs]) ?_ i w
    intro a ha w
    refine act_other O (colon_not_mem_of_isalnum hn) ?_ ?_ ?_ w h hh
    · intro h1; exact ht (act_account ha n h1).1
    · intro m h1; exact colon_not_mem_of_isalnum (act_account ha m h1).2
    · intro h1; exact hr ((act_of_call ha).2 h1)
  have near : ∀ {W : Str → Prop} {α : Type} {p : Prog α}, Writes O W p → ∀ {h}, ¬ W h →
      (runFor Store.impl O i (onAccount env n p) w).log h = w.log h := by
    intro W α p hp h hh
    rcases runFor_onAccount O env n p i w with h1 | h1 <;> rw [h1]
    exact hp.killed i w hh
  by_cases ht : c.target = some n
  · cases c <;> simp only [ApiCall.target, Option.some.injEq, reduceCtorEq] at ht
    case addAccount => exact ⟨fun h => (h ht).elim, fun _ h => (h ht).elim⟩
    case modAccount => exact ⟨fun h => (h ht).elim, fun _ h => (h ht).elim⟩
    case delAccount => exact ⟨fun h => (h ht).elim, fun _ h => (h ht).elim⟩
    case processIncoming n' m i' d =>
      subst ht
      have hw := writes_processIncoming O env n' ⟨m, i', d⟩
      refine ⟨fun _ => near hw ?_, fun a _ ha => near hw ?_⟩
      · rintro ⟨_, _, h⟩; exact ownHead_ne_peerHead _ _ _ h
      · rintro ⟨b, hb, h⟩; cases peerHead_inj_addr.mp h; exact ha ⟨rfl, hb⟩
    case importKey n' x k p =>
      subst ht
      cases x with
      | none =>
        refine ⟨fun _ => ?_, fun a _ ha => (ha rfl).elim⟩
        refine (safe_call env (.importKey n' none k p)).respects_killed (R := fun w w' => w'.log (ownHead n') = w.log (ownHead n'))
          (fun _ _ _ h1 h2 => h2.trans h1) (fun w w' hs _ _ _ => by simp only [World.log]; rw [hs]) (fun a ha w => act_frame O a w _ ?_) i w
        obtain ⟨-, ha⟩ := ha
        cases a <;> simp only [Account.ImportAct] at ha
        exact ownHead_ne_peerHead _ _ _
      | some x =>
        have hw := writes_import O env n' x k p
        exact ⟨fun _ => near hw (ownHead_ne_peerHead _ _ _), fun a _ ha => near hw fun h => ha ⟨rfl, peerHead_inj_addr.mp h⟩⟩
    case peerMsg n' x u =>
      subst ht
      have hw : Writes O _ (Peer.updateFromMsg (peerHead n' (address env (some x))) u) :=
        .of_footprint (updateFromMsg_footprint (R := fun _ => True) (W := fun h => h = peerHead n' (address env (some x))) trivial rfl u)
      exact ⟨fun _ => near hw (ownHead_ne_peerHead _ _ _), fun a _ ha => near hw fun h => ha ⟨rfl, peerHead_inj_addr.mp h⟩⟩
    case peerGossip n' x u =>
      subst ht
      have hw : Writes O _ (Peer.updateFromGossip (peerHead n' (address env (some x))) u) :=
        .of_footprint (updateFromGossip_footprint (R := fun _ => True) (W := fun h => h = peerHead n' (address env (some x))) trivial rfl u)
      exact ⟨fun _ => near hw (ownHead_ne_peerHead _ _ _), fun a _ ha => near hw fun h => ha ⟨rfl, peerHead_inj_addr.mp h⟩⟩
    case verifySelf n' x k =>
      subst ht
      have hw : Writes O (fun h => h = oobHead n') (Prog.append (oobHead n') (.oob ⟨x, k, .self⟩)) :=
        ⟨rfl, fun _ => .ro (.ofExcept _)⟩
      exact ⟨fun _ => near hw (ownHead_ne_oobHead _ _), fun a _ ha => near hw (oobHead_ne_peerHead _ _ _).symm⟩
    case verifyPeer n' x k =>
      subst ht
      have hw : Writes O (fun h => h = oobHead n') (Prog.append (oobHead n') (.oob ⟨x, k, .peer⟩)) :=
        ⟨rfl, fun _ => .ro (.ofExcept _)⟩
      exact ⟨fun _ => near hw (ownHead_ne_oobHead _ _), fun a _ ha => near hw (oobHead_ne_peerHead _ _ _).symm⟩
  · have hr : ¬ c.Sets n → c ≠ .removeAll := by rintro h rfl; exact h trivial
    exact ⟨fun h => away (hr h) ht _ (.inl rfl), fun a h _ => away (hr h) ht _ (.inr (.inr ⟨a, rfl⟩))⟩

/-- only these logs are read, and nothing else is asked for -/
def OnlyReads (V : Str → Prop) : Prog α → Prop := Prog.AllOps fun o => ∃ h, o = .chain h ∧ V h

theorem OnlyReads.same {V : Str → Prop} {p : Prog α} (h : OnlyReads V p) (O : Oracle K) {w w' : World Store K} (hw : ∀ x, V x → w.log x = w'.log x) :
    (exec O p w).1 = (exec O p w').1 := by
  induction p with
  | pure a => rfl
  | raise e => rfl
  | op o k ih =>
    obtain ⟨⟨x, rfl, hx⟩, h2⟩ := h
    show (exec O (k (.ok (w.log x))) w).1 = (exec O (k (.ok (w'.log x))) w').1
    rw [hw x hx]
    exact ih _ (h2 _)

theorem reads_recommendation (env : Env) (n : Str) (addrs : List Str) (r : Bool) (f : Option Str) :
    OnlyReads (fun h => h = ownHead n ∨ ∃ a, Asked env addrs f a ∧ h = peerHead n a) (Account.recommendation env n addrs r f) := by
  have key : ∀ (V : Str → Prop) (l : List Str), (∀ a ∈ l, V (Account.peerHeadOf env n a)) → OnlyReads V (Account.readPeers env n l) := by
    intro V l hl
    induction l with
    | nil => trivial
    | cons a l ih =>
      unfold Account.readPeers
      simp only [bind_eq, pure_eq]
      exact .bind (.chain ⟨_, rfl, hl a List.mem_cons_self⟩) fun _ => .bind (ih fun a ha => hl a (List.mem_cons_of_mem _ ha)) fun _ => trivial
  unfold Account.recommendation
  simp only [bind_eq]
  refine .bind ?_ fun _ => .bind (key _ _ fun a ha => ?_) fun _ => .ofExcept _
  · unfold Own.config
    simp only [bind_eq, pure_eq]
    refine .bind (.chain ⟨_, rfl, .inl rfl⟩) fun _ => ?_
    split <;> trivial
  · obtain ⟨x, hx, rfl, hf⟩ := mem_peerAddrs.mp ha
    exact .inr ⟨_, ⟨x, hx, hf, rfl⟩, rfl⟩

/-! ## C132 -/

/-- **C132, knowledge**: whatever happens, all that an account has stored about an address is the same as before if no call that is made concerns that address
or the settings of the account. -/
theorem C132_knowledge (O : Oracle K) {env : Env} {n : Str} (hn : env.isalnum n = true) (a : Str) (hist : List (Happening K))
    (h : ∀ c ∈ callsMade hist, ¬ c.Sets n ∧ ¬ c.Informs O env n a) (w : World Store K) :
    (runHistory Store.impl O env hist w).log (peerHead n a) = w.log (peerHead n a) :=
  runHistory_ind (P := fun w' => w'.log (peerHead n a) = w.log (peerHead n a)) hist
    (fun _ _ ⟨hs, _⟩ he => by simp only [World.log] at he ⊢; rw [hs]; exact he)
    (fun c hc i w1 he => ((call_frame O hn c i w1).2 a (h c hc).1 (h c hc).2).trans he) w rfl

/-- **C132, settings**: the settings and the key of an account change only by calls which set them. -/
theorem C132_settings (O : Oracle K) {env : Env} {n : Str} (hn : env.isalnum n = true) (hist : List (Happening K))
    (h : ∀ c ∈ callsMade hist, ¬ c.Sets n) (w : World Store K) :
    (runHistory Store.impl O env hist w).log (ownHead n) = w.log (ownHead n) :=
  runHistory_ind (P := fun w' => w'.log (ownHead n) = w.log (ownHead n)) hist
    (fun _ _ ⟨hs, _⟩ he => by simp only [World.log] at he ⊢; rw [hs]; exact he)
    (fun c hc i w1 he => ((call_frame O hn c i w1).1 (h c hc)).trans he) w rfl

/-- **C132**: whatever happens, the recommendation for some addresses is the same as before if no call that is made concerns one of these addresses or the
settings of the account. -/
theorem C132_recommendation (O : Oracle K) {env : Env} {n : Str} (hn : env.isalnum n = true) (addrs : List Str) (reply : Bool) (sender : Option Str)
    (hist : List (Happening K)) (h : ∀ c ∈ callsMade hist, ¬ c.Sets n ∧ ∀ a, Asked env addrs sender a → ¬ c.Informs O env n a) (w : World Store K) :
    (exec O (Account.recommendation env n addrs reply sender) (runHistory Store.impl O env hist w)).1 =
      (exec O (Account.recommendation env n addrs reply sender) w).1 := by
  refine (reads_recommendation env n addrs reply sender).same O ?_
  rintro x (rfl | ⟨a, ha, rfl⟩)
  · exact C132_settings O hn hist (fun c hc => (h c hc).1) w
  · exact C132_knowledge O hn a hist (fun c hc => ⟨(h c hc).1, (h c hc).2 a ha⟩) w

/-! ## Examples -/
open Concrete

/-- Bob's mail with Carol's key, processed twice, the second time until the process dies, and a look at the accounts -/
def Concrete.bobWrites : List (Happening Unit) :=
  [.call (.processIncoming (str!"a") fromBob.msg false false), .killed (.processIncoming (str!"a") fromBob.msg false false) 9, .call .listAccountNames]

/-- the hypotheses hold: what is recommended for Dave, whose key is known, is as before -/
example : (exec decrypting (Account.recommendation env (str!"a") [str!"Dave@x.org"] false none)
      (runHistory Store.impl decrypting env bobWrites (after [addA, recv (str!"dave@x.org") (str!"2") (str!"90") [9]]))).1 =
    (exec decrypting (Account.recommendation env (str!"a") [str!"Dave@x.org"] false none) (after [addA, recv (str!"dave@x.org") (str!"2") (str!"90") [9]])).1 := by
  refine C132_recommendation decrypting (by decide +kernel) _ _ _ _ ?_ _
  have hd : ∀ a, Asked env [str!"Dave@x.org"] none a → fromDave.Concerns decrypting env a := by
    rintro a ⟨x, hx, _, rfl⟩
    cases List.mem_singleton.mp hx
    exact .inl (by decide +kernel)
  rintro c ⟨h, hh, hc⟩
  simp only [bobWrites, List.mem_cons, List.not_mem_nil, or_false] at hh
  rcases hh with rfl | rfl | rfl <;> cases hc
  · exact ⟨id, fun a ha h => bob_dave a ⟨h.2, hd a ha⟩⟩
  · exact ⟨id, fun a ha h => bob_dave a ⟨h.2, hd a ha⟩⟩
  · exact ⟨id, fun _ _ => id⟩

/-- encryption to Dave is possible in this state; what is recommended for Carol changes by this mail, which brings her key -/
example :
    (exec decrypting (Account.recommendation env (str!"a") [str!"Dave@x.org"] false none) (after [addA, recv (str!"dave@x.org") (str!"2") (str!"90") [9]])).1.toOption
      = some .available ∧
    (exec decrypting (Account.recommendation env (str!"a") [carol] false none) (after [addA])).1.toOption = some .disable ∧
    (exec decrypting (Account.recommendation env (str!"a") [carol] false none) (runHistory Store.impl decrypting env bobWrites (after [addA]))).1.toOption
      = some .discourage := by decide +kernel

end Verif
