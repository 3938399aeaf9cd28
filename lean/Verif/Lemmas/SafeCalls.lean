import Verif.Lemmas.SafeApi
/-!
# Updates performed by each API call: the table
-/
namespace Verif

/-- the account whose state a call may change -/
def ApiCall.target : ApiCall → Option Str
  | .addAccount n .. | .modAccount n .. | .delAccount n | .processIncoming n .. | .importKey n ..
  | .peerMsg n .. | .peerGossip n .. | .verifySelf n .. | .verifyPeer n .. => some n
  | _ => none

/-- the updates which a call may perform -/
def ApiCall.acts (env : Env) (c : ApiCall) (a : Act) : Prop :=
  match c with
  | .init | .getAccount .. | .accountFromEmailadr .. | .matchingAccount _ => InitAct a
  | .addAccount n .. => InitAct a ∨ (env.isalnum n = true ∧ OwnAct n a)
  | .modAccount n .. => InitAct a ∨ (env.isalnum n = true ∧ CfgAct n a)
  | .delAccount n => InitAct a ∨ (env.isalnum n = true ∧ a = .removeAccount n)
  | .removeAll => a = .wipe
  | .processIncoming n m .. => env.isalnum n = true ∧ ∃ d, Account.IncomingAct env n m d a
  | .importKey n _ _ p => env.isalnum n = true ∧ Account.ImportAct n p a
  | .peerMsg n ad u => env.isalnum n = true ∧ a = .msg n (Mime.parseEmailAddr env (some ad)) u
  | .peerGossip n ad u => env.isalnum n = true ∧ a = .gossip n (Mime.parseEmailAddr env (some ad)) u
  | .verifySelf n ad k => env.isalnum n = true ∧ a = .oob n ⟨ad, k, .self⟩
  | .verifyPeer n ad k => env.isalnum n = true ∧ a = .oob n ⟨ad, k, .peer⟩
  | _ => False

theorem Safe.void {A : Act → Prop} {α : Type} {p : Prog α} (h : Safe A p) : Safe A p.void :=
  .bind h fun _ => .pure _

theorem Prog.assert_bind {α : Type} (b : Bool) (f : Unit → Prog α) :
    (Prog.assert b).bind f = if b then f () else .raise .assertionError := by cases b <;> rfl

theorem safe_onAccount {A : Act → Prop} {α : Type} {env : Env} {n : Str} {p : Prog α}
    (h : env.isalnum n = true → Safe A p) : Safe A (onAccount env n p) := by
  unfold onAccount Manager.account
  rw [Prog.assert_bind]
  split
  · rename_i hn; exact (h hn).void
  · exact .raise _

theorem Prog.bind_assoc {α β γ : Type} (p : Prog α) (q : α → Prog β) (f : β → Prog γ) :
    (p.bind q).bind f = p.bind (fun x => (q x).bind f) := by
  induction p with
  | pure a => rfl
  | raise e => rfl
  | op o k ih => simp only [Prog.bind]; congr 1; funext r; exact ih r

/-- after `get_account` the name is known to be alphanumeric -/
theorem safe_getAccount_bind {A : Act → Prop} {β : Type} (env : Env) (hA : A .setVersion) (n : Str) (c : Bool)
    (f : Str → Prog β) (hf : env.isalnum n = true → Safe A (f n)) :
    Safe A ((Manager.getAccount env n c).bind f) := by
  unfold Manager.getAccount Manager.account
  simp only [bind_eq, pure_eq, Prog.bind_assoc]
  refine .bind (Manager.safe_ensureInit hA) fun _ => ?_
  rw [Prog.assert_bind]
  split
  · rename_i hn
    refine .bind ?_ fun ok => ?_
    · split
      · exact .ro (Account.exists_ops permissive_readOnly n)
      · exact .pure _
    · split
      · rw [Prog.bind_assoc]
        exact .bind (.ro (.hookInstantiate trivial)) fun _ => hf hn
      · exact .raise _
  · exact .raise _

namespace Manager

theorem safe_firstMatch {A : Act → Prop} (env : Env) (hA : A .setVersion) (a : Str) (l : List Str) : Safe A (firstMatch env a l) := by
  induction l with
  | nil => exact .pure _
  | cons x l ih =>
    unfold firstMatch; simp only [bind_eq, pure_eq]
    refine .bind (safe_getAccount env hA x true) fun _ =>
      .bind (.ro (Account.config_ops permissive_readOnly _)) fun _ => .bind (.ro (.ofExcept _)) fun _ => ?_
    split
    · exact .pure _
    · exact ih

theorem safe_patterns {A : Act → Prop} (env : Env) (hA : A .setVersion) (l : List Str) : Safe A (patterns env l) := by
  induction l with
  | nil => exact .pure _
  | cons x l ih =>
    unfold patterns; simp only [bind_eq, pure_eq]
    exact .bind (safe_getAccount env hA x true) fun _ =>
      .bind (.ro (Account.config_ops permissive_readOnly _)) fun _ => .bind ih fun _ => .pure _

theorem safe_getAccountFromEmailadr {A : Act → Prop} (env : Env) (hA : A .setVersion) (a : Str) (r : Bool) :
    Safe A (getAccountFromEmailadr env a r) := by
  unfold getAccountFromEmailadr; simp only [bind_eq, pure_eq]
  refine .bind (.ro (.bind (.heads trivial) fun _ => trivial)) fun _ => .bind (safe_firstMatch env hA _ _) fun _ => ?_
  split
  · exact .pure _
  · split
    · exact .raise _
    · exact .pure _

theorem safe_getMatchingAccount {A : Act → Prop} (env : Env) (hA : A .setVersion) (m : Msg) : Safe A (getMatchingAccount env m) := by
  unfold getMatchingAccount; simp only [bind_eq, pure_eq]
  refine .bind (.ro (.bind (.heads trivial) fun _ => trivial)) fun _ => .bind (safe_patterns env hA _) fun _ =>
    .bind (.ro (.ofExcept _)) fun _ => ?_
  split
  · exact .pure _
  · exact .bind (.ro (.ofExcept _)) fun _ => safe_getAccountFromEmailadr env hA _ _

end Manager

theorem safe_call (env : Env) (c : ApiCall) : Safe (c.acts env) (c.prog env) := by
  cases c with
  | init => exact Manager.safe_init trivial
  | getAccount n c => exact (Manager.safe_getAccount env trivial n c).void
  | addAccount n r k b m =>
    show Safe _ (Prog.void (Manager.addAccount env n r k b m))
    unfold Manager.addAccount Prog.void; simp only [bind_eq, pure_eq]
    rw [Prog.bind_assoc]
    refine safe_getAccount_bind env (Or.inl trivial) n false _ fun hn => ?_
    refine Safe.void ?_
    refine .bind (.ro (Account.exists_ops permissive_readOnly n)) fun _ => ?_
    split
    · exact .raise _
    · exact .bind ((Account.safe_create env n _ _ _ _).mono fun a ha => Or.inr ⟨hn, ha⟩) fun _ => .pure _
  | modAccount n r k b p =>
    show Safe _ (Prog.void (Manager.modAccount env n r k b p))
    unfold Manager.modAccount Prog.void; simp only [bind_eq, pure_eq]
    rw [Prog.bind_assoc]
    refine safe_getAccount_bind env (Or.inl trivial) n true _ fun hn => ?_
    exact Safe.void (.bind ((Account.safe_modify n _ _ _ _).mono fun a ha => Or.inr ⟨hn, ha⟩) fun _ => .pure _)
  | delAccount n =>
    show Safe _ (Manager.delAccount env n)
    unfold Manager.delAccount; simp only [bind_eq]
    exact safe_getAccount_bind env (Or.inl trivial) n true _ fun hn => .act (.removeAccount n) (Or.inr ⟨hn, rfl⟩)
  | listAccountNames => exact .ro (.void (.bind (.heads trivial) fun _ => trivial))
  | accountFromEmailadr a r => exact (Manager.safe_getAccountFromEmailadr env trivial a r).void
  | matchingAccount m => exact (Manager.safe_getMatchingAccount env trivial m).void
  | removeAll => exact .act .wipe rfl
  | peernames n => exact safe_onAccount fun _ => .ro (.bind (.heads trivial) fun _ => trivial)
  | recommendation n as r f => exact safe_onAccount fun _ => .ro (Account.recommendation_ops permissive_readOnly env n _ _ _)
  | makeAcHeader n a => exact safe_onAccount fun _ => .ro (Account.makeAcHeader_ops permissive_readOnly env n _)
  | exportPublicKey n k => exact safe_onAccount fun _ => .ro (Account.exportPublicKey_ops permissive_readOnly env n _)
  | exportSecretKey n => exact safe_onAccount fun _ => .ro (Account.exportSecretKey_ops permissive_readOnly env n)
  | processIncoming n m i d => exact safe_onAccount fun hn => (Account.safe_processIncoming env n m i d).mono fun a ha => ⟨hn, ha⟩
  | processOutgoing n m => exact safe_onAccount fun _ => .ro (Account.processOutgoing_ops permissive_readOnly env n _)
  | encryptMime n m as => exact safe_onAccount fun _ => .ro (Account.encryptMime_ops permissive_readOnly env n _ _)
  | decryptMime n m => exact safe_onAccount fun _ => .ro (Account.decryptMime_ops permissive_readOnly env n _)
  | importKey n a k p => exact safe_onAccount fun hn => (Account.safe_import env n a k p).mono fun a ha => ⟨hn, ha⟩
  | peerMsg n a u => exact safe_onAccount fun hn => .msg ⟨hn, rfl⟩
  | peerGossip n a u => exact safe_onAccount fun hn => .gossip ⟨hn, rfl⟩
  | verifySelf n a k => exact safe_onAccount fun hn => .act (.oob n ⟨a, k, .self⟩) ⟨hn, rfl⟩
  | verifyPeer n a k => exact safe_onAccount fun hn => .act (.oob n ⟨a, k, .peer⟩) ⟨hn, rfl⟩
  | getVerification n a => exact safe_onAccount fun _ => .ro (.bind (.chain trivial) fun _ => trivial)

/-- relations preserved by reads and by all updates of the calls are preserved by the history -/
theorem runCalls_respects {K : Type} {O : Oracle K} {env : Env} {R : World Store K → World Store K → Prop}
    (htrans : ∀ a b c, R a b → R b c → R a c)
    (hro : ∀ w w' : World Store K, w'.store = w.store → w'.clock = w.clock → w.tick ≤ w'.tick →
      (∃ l, w'.trace = l ++ w.trace) → R w w')
    (calls : List ApiCall)
    (hact : ∀ c ∈ calls, ∀ a, c.acts env a → ∀ w, R w (exec O a.prog w).2) :
    ∀ w, R w (runCalls Store.impl O env calls w) := by
  induction calls with
  | nil => intro w; exact hro _ _ rfl rfl (Nat.le_refl _) ⟨[], rfl⟩
  | cons c cs ih =>
    intro w
    exact htrans _ _ _ ((safe_call env c).respects htrans hro (hact c (by simp)) w)
      (ih (fun c' hc' => hact c' (by simp [hc'])) _)

end Verif
