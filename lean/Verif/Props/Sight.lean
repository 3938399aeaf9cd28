import Verif.Lemmas.Blind
import Verif.Lemmas.KeepsCmd
import Verif.Props.Cmdline
import Verif.Spec.Concrete
/-!
# C127: an account does not see the others

Two runs start in states which are the same apart from what is stored about other accounts: their settings, keys, peers, verifications and
even their existence. Calls on an account and commands which name one do the same in both.
-/
namespace Verif
open BinGPG
variable {α K : Type} {n : Str}

/-! ## Specification -/

/-- the account on which a call is made, if it is one -/
def ApiCall.on : ApiCall → Option Str
  | .init | .listAccountNames | .accountFromEmailadr .. | .matchingAccount _ | .removeAll => none
  | .getAccount n _ | .addAccount n .. | .modAccount n .. | .delAccount n | .peernames n | .recommendation n .. | .makeAcHeader n _ |
    .exportPublicKey n _ | .exportSecretKey n | .processIncoming n .. | .processOutgoing n _ | .encryptMime n .. | .decryptMime n _ |
    .importKey n .. | .peerMsg n .. | .peerGossip n .. | .verifySelf n .. | .verifyPeer n .. | .getVerification n _ => some n

/-- what a program gives and all it does outside is the same in states which are the same for account `n`, and the states after it are again the
same for the account -/
def SeesOnly (n : Str) (p : Prog α) : Prop :=
  ∀ (K : Type) (O : Oracle K) (w w' : World Store K), WorldsSeen n w w' →
    (exec O p w).1 = (exec O p w').1 ∧ WorldsSeen n (exec O p w).2 (exec O p w').2

/-! ## Runs -/

theorem get_view (s : Store) {h : Str} (hh : ours n h = true) : (viewOf n s).get h = s.get h := by
  induction s with
  | nil => rfl
  | cons c s ih =>
    obtain ⟨m, l⟩ := c
    unfold viewOf at ih ⊢
    by_cases hm : m = h
    · subst hm
      simp [hh, Store.get]
    · by_cases ho : ours n m = true
      · simp [ho, Store.get, hm, ih]
      · simp [ho, Store.get, hm, ih]

theorem push_view (s : Store) (h : Str) (e : Entry) : viewOf n (s.push h e) = if ours n h = true then (viewOf n s).push h e else viewOf n s := by
  induction s with
  | nil => by_cases hh : ours n h = true <;> simp [Store.push, viewOf, hh]
  | cons c s ih =>
    obtain ⟨m, l⟩ := c
    unfold viewOf at ih ⊢
    by_cases hm : m = h
    · subst hm
      by_cases hh : ours n m = true <;> simp [hh, Store.push]
    · by_cases hh : ours n h = true <;> by_cases ho : ours n m = true <;> simp [hh, ho, Store.push, hm] at ih ⊢ <;> exact ih

theorem names_view (s : Store) : (viewOf n s).names = s.names.filter (ours n) := by
  simp [viewOf, Store.names, List.filter_map, Function.comp_def]

theorem removeIf_view (s : Store) (p : Str → Bool) : viewOf n (s.removeIf p) = (viewOf n s).removeIf p := by
  simp [viewOf, Store.removeIf, List.filter_filter, Bool.and_comm]

/-- one operation which isn't the reading of a log or of the names -/
theorem step_seen {O : Oracle K} {o : Op} (ho : o.easy) {w w' : World Store K} (hw : WorldsSeen n w w') :
    (step Store.impl O o w).1 = (step Store.impl O o w').1 ∧ WorldsSeen n (step Store.impl O o w).2 (step Store.impl O o w').2 := by
  obtain ⟨s, c, t, k, tr⟩ := w
  obtain ⟨s', c', t', k', tr'⟩ := w'
  obtain ⟨hs, rfl, rfl, rfl, rfl⟩ := hw
  cases o with
  | now => exact ⟨rfl, hs, rfl, rfl, rfl, rfl⟩
  | chain => exact ho.elim
  | append h e =>
    refine ⟨rfl, ?_, rfl, rfl, rfl, rfl⟩
    show viewOf n (s.push h e) = viewOf n (s'.push h e)
    simp only at hs
    rw [push_view, push_view, hs]
  | heads => exact ho.elim
  | removeIf p =>
    refine ⟨rfl, ?_, rfl, rfl, rfl, rfl⟩
    show viewOf n (s.removeIf p) = viewOf n (s'.removeIf p)
    simp only at hs
    rw [removeIf_view, removeIf_view, hs]
  | wipe => exact ⟨rfl, rfl, rfl, rfl, rfl, rfl⟩
  | ext o => exact ⟨rfl, hs, rfl, rfl, rfl, rfl⟩

theorem Blind.first {o : Op} {k : o.Ret → Prog α} (h : Blind n (.op o k)) {O : Oracle K} {w w' : World Store K} (hw : WorldsSeen n w w') :
    k (step Store.impl O o w).1 = k (step Store.impl O o w').1 ∧ WorldsSeen n (step Store.impl O o w).2 (step Store.impl O o w').2 := by
  cases o with
  | chain x =>
    refine ⟨?_, hw⟩
    show k (.ok (w.store.get x)) = k (.ok (w'.store.get x))
    rw [← get_view w.store h.1, ← get_view w'.store h.1, hw.store]
  | heads =>
    refine ⟨h.1 _ _ ?_, hw⟩
    rw [← names_view, ← names_view, hw.store]
  | _ => exact ⟨congrArg k (step_seen (by exact trivial) hw).1, (step_seen (by exact trivial) hw).2⟩

theorem Blind.sees {p : Prog α} (h : Blind n p) : SeesOnly n p := fun K O w w' hw => by
  induction p generalizing w w' with
  | pure a => exact ⟨rfl, hw⟩
  | raise e => exact ⟨rfl, hw⟩
  | op o k ih =>
    obtain ⟨h1, h2⟩ := h.first (O := O) hw
    show (exec O (k (step Store.impl O o w).1) _).1 = (exec O (k (step Store.impl O o w').1) _).1 ∧
      WorldsSeen n (exec O (k (step Store.impl O o w).1) _).2 (exec O (k (step Store.impl O o w').1) _).2
    rw [← h1]
    exact ih _ (h.inner _) _ _ h2

theorem Blind.killed {p : Prog α} (h : Blind n p) {O : Oracle K} {w w' : World Store K} (hw : WorldsSeen n w w') (i : Nat) :
    WorldsSeen n (runFor Store.impl O i p w) (runFor Store.impl O i p w') := by
  induction p generalizing w w' i with
  | pure a => cases i <;> exact hw
  | raise e => cases i <;> exact hw
  | op o k ih =>
    cases i with
    | zero => exact hw
    | succ i =>
      obtain ⟨h1, h2⟩ := h.first (O := O) hw
      show WorldsSeen n (runFor Store.impl O i (k (step Store.impl O o w).1) _) (runFor Store.impl O i (k (step Store.impl O o w').1) _)
      rw [← h1]
      exact ih _ (h.inner _) h2 i

/-! ## Calls and commands -/

theorem blind_onAccount {env : Env} {p : Prog α} {m : Str} (h : Blind n p) : Blind n (onAccount env m p) := .bind (.assert _) fun _ => .void h

theorem blind_call (env : Env) (c : ApiCall) (hc : c.on = some n) : Blind n (c.prog env) := by
  cases c <;> simp only [ApiCall.on, reduceCtorEq] at hc <;> cases hc
  case getAccount => exact .void (by apply Manager.blind_getAccount)
  case addAccount => exact .void (by apply Manager.blind_addAccount)
  case modAccount => exact .void (by apply Manager.blind_modAccount)
  case delAccount => exact by apply Manager.blind_delAccount
  case peernames => exact blind_onAccount (blind_getPeernameList _)
  case recommendation => exact blind_onAccount (by apply Account.blind_recommendation)
  case makeAcHeader => exact blind_onAccount (by apply Account.blind_makeAcHeader)
  case exportPublicKey => exact blind_onAccount (by apply Account.blind_exportPublicKey)
  case exportSecretKey => exact blind_onAccount (by apply Account.blind_exportSecretKey)
  case processIncoming => exact blind_onAccount (by apply Account.blind_processIncoming)
  case processOutgoing => exact blind_onAccount (by apply Account.blind_processOutgoing)
  case encryptMime => exact blind_onAccount (by apply Account.blind_encryptMime)
  case decryptMime => exact blind_onAccount (by apply Account.blind_decryptMime)
  case importKey => exact blind_onAccount (by apply Account.blind_importKeydataAsAutocrypt)
  case peerMsg => exact blind_onAccount (Peer.blind_updateFromMsg (ours_peerOf _ _) _)
  case peerGossip => exact blind_onAccount (Peer.blind_updateFromGossip (ours_peerOf _ _) _)
  case verifySelf => exact blind_onAccount (by apply Blind.append)
  case verifyPeer => exact blind_onAccount (by apply Blind.append)
  case getVerification => exact blind_onAccount (by apply OOB.blind_getVerification)

namespace Cmd
variable (ce : CmdEnv) (be : BotEnv) (env : Env)
theorem blind_say (s) : Blind n (say s) := .emit _
theorem blind_kecho (a b) : Blind n (kecho a b) := .emit _
theorem blind_peerstate (b) : Blind n (peerstate ce env n b) := by
  unfold peerstate; simp only [bind_eq]; blind [blind_say]
theorem blind_sayUids (l) : Blind n (sayUids l) := by
  induction l with
  | nil => exact .pure _
  | cons f fs ih => unfold sayUids; simp only [bind_eq]; blind [blind_say, blind_kecho]
theorem blind_sayPeers (l) : Blind n (sayPeers ce env n l) := by
  induction l with
  | nil => exact .pure _
  | cons f fs ih => unfold sayPeers; simp only [bind_eq]; blind [blind_say]
theorem blind_statusAccount (v) : Blind n (statusAccount ce env n v) := by
  unfold statusAccount; simp only [bind_eq, pure_eq]
  blind [blind_say, blind_kecho, Own.blind_config, Account.blind_bingpg, Account.blind_ownKeyhandle, BinGPG.blind_listPublicKeyinfos, blind_sayUids,
    blind_getPeernameList, blind_sayPeers]
theorem blind_sayAddrs (l) : Blind n (sayAddrs l) := by
  induction l with
  | nil => exact .pure _
  | cons f fs ih => unfold sayAddrs; simp only [bind_eq]; blind [blind_say]
theorem blind_named {f : Str → Prog α} (h : Blind n (f n)) : Blind n ((Manager.getAccount env n true).bind f) :=
  .bindReturns (by apply Manager.blind_getAccount) (getAccount_returns env n true) fun a ha => by rw [ha]; exact h
theorem blind_incoming (r d m) : Blind n ((Cmd.processIncoming env (some n) r d m).bind fun x => (sayReport m x).bind fun _ => .pure (0 : Int)) := by
  unfold Cmd.processIncoming
  simp only [bind_eq, pure_eq, Prog.bind_assoc]
  refine blind_named env (.bindReturns (by apply Account.blind_processIncoming) (processIncoming_returns env n m _ _) fun o ho => ?_)
  cases o with
  | none => exact .bind (p := sayReport m .known) (by apply blind_say) fun _ => .pure _
  | some x =>
    have hp := ours_peer (n := n) (senderAddr env m)
    rw [← (ho x rfl).1] at hp
    simp only [Prog.bind_assoc]
    refine .bind (.chain hp) fun es => ?_
    split
    · refine .bind (p := sayReport m (.found x.account x.peer)) ?_ fun _ => .pure _
      exact .bind (.chain hp) fun _ => by apply blind_say
    · exact .bind (p := sayReport m (.noHeader x.account)) (by apply blind_say) fun _ => .pure _

theorem blind_body (cmd : Command) (hc : cmd.account = some n) : Blind n (cmd.body ce be env) := by
  cases cmd <;> simp only [Command.account, reduceCtorEq, Option.some.injEq] at hc <;> subst hc
  case status v => exact blind_named env (.bind (blind_statusAccount ce env v) fun _ => .pure _)
  case addAccount sys key bin regex =>
    refine .bindReturns (by apply Manager.blind_addAccount) (addAccount_returns _ _ _ _ _) fun a ha => ?_
    subst ha
    exact .bind (blind_say _) fun _ => .bind (blind_statusAccount ce env _) fun _ => .pure _
  case modAccount key bin regex pe =>
    refine .bindReturns (by apply Manager.blind_modAccount) (modAccount_returns _ _ _ _ _) fun a ha => ?_
    rw [ha]
    exact .bind (blind_say _) fun _ => .bind (blind_statusAccount ce env _) fun _ => .pure _
  case processIncoming reparse nd m => exact blind_incoming env _ _ _
  case importPublicKey kd pe email =>
    exact blind_named env (.bind (by apply Account.blind_importKeydataAsAutocrypt) fun _ => .bind (blind_say _) fun _ => .bind (blind_sayAddrs _) fun _ => .pure _)
  case peerstate addr => exact blind_named env (.bind (blind_peerstate ce env _) fun _ => .pure _)
  case recommend addrs => exact blind_named env (.bind (by apply Account.blind_recommendation) fun _ => .bind (blind_say _) fun _ => .pure _)
  case exportPublicKey k => exact blind_named env (.bind (by apply Account.blind_exportPublicKey) fun _ => .bind (.emit _) fun _ => .pure _)
  case exportSecretKey => exact blind_named env (.bind (by apply Account.blind_exportSecretKey) fun _ => .bind (.emit _) fun _ => .pure _)

theorem blind_command (cmd : Command) (hc : cmd.account = some n) : Blind n (cmd.prog ce be env) := by
  unfold Command.prog; simp only [bind_eq, pure_eq]; blind [blind_body ce be env cmd hc, blind_say]
end Cmd

/-- **C127, calls.** A call on an account does the same, whatever is stored about other accounts. -/
theorem C127_calls (env : Env) (c : ApiCall) (hc : c.on = some n) : SeesOnly n (c.prog env) := (blind_call env c hc).sees

/-- **C127, commands.** The same for a command which names an account: exit status, output and all else that it does. -/
theorem C127_commands (ce : CmdEnv) (be : BotEnv) (env : Env) (c : Cmd.Command) (hc : c.account = some n) : SeesOnly n (c.prog ce be env) :=
  (Cmd.blind_command ce be env c hc).sees

/-- **C127, results.** The same for what the calls return. -/
theorem C127_results (env : Env) (n : Str) :
    (∀ m, SeesOnly n (Account.processOutgoing env n m)) ∧ (∀ m i d, SeesOnly n (Account.processIncoming env n m i d)) ∧
    (∀ m l, SeesOnly n (Account.encryptMime env n m l)) ∧ (∀ m, SeesOnly n (Account.decryptMime env n m)) ∧
    (∀ a, SeesOnly n (Account.makeAcHeader env n a)) ∧ (∀ k, SeesOnly n (Account.exportPublicKey env n k)) ∧
    SeesOnly n (Account.exportSecretKey env n) ∧ (∀ a, SeesOnly n (OOB.getVerification n a)) ∧ SeesOnly n (getPeernameList n) ∧
    (∀ l r f, SeesOnly n (Account.recommendation env n l r f)) ∧ (∀ a k p, SeesOnly n (Account.importKeydataAsAutocrypt env n a k p)) ∧
    (∀ r k b m, SeesOnly n (Manager.addAccount env n r k b m)) ∧ (∀ r k b p, SeesOnly n (Manager.modAccount env n r k b p)) := by
  refine ⟨fun _ => ?_, fun _ _ _ => ?_, fun _ _ => ?_, fun _ => ?_, fun _ => ?_, fun _ => ?_, ?_, fun _ => ?_, ?_, fun _ _ _ => ?_, fun _ _ _ => ?_,
    fun _ _ _ _ => ?_, fun _ _ _ _ => ?_⟩ <;> apply Blind.sees
  · apply Account.blind_processOutgoing
  · apply Account.blind_processIncoming
  · apply Account.blind_encryptMime
  · apply Account.blind_decryptMime
  · apply Account.blind_makeAcHeader
  · apply Account.blind_exportPublicKey
  · apply Account.blind_exportSecretKey
  · apply OOB.blind_getVerification
  · apply blind_getPeernameList
  · apply Account.blind_recommendation
  · apply Account.blind_importKeydataAsAutocrypt
  · apply Manager.blind_addAccount
  · apply Manager.blind_modAccount

/-- what happens concerns account `n`: calls on it and commands which name it, interrupted or not -/
def Happening.concerns (n : Str) : Happening K → Prop
  | .call c | .killed c _ => c.on = some n
  | .command _ _ c | .commandKilled _ _ c _ => c.account = some n
  | .outside _ => True

/-- **C127, histories.** -/
theorem C127_history (O : Oracle K) (env : Env) (hist : List (Happening K)) (hh : ∀ h ∈ hist, h.concerns n) {w w' : World Store K}
    (hw : WorldsSeen n w w') : WorldsSeen n (runHistory Store.impl O env hist w) (runHistory Store.impl O env hist w') := by
  induction hist generalizing w w' with
  | nil => exact hw
  | cons h hs ih =>
    refine ih (fun x hx => hh x (List.mem_cons_of_mem _ hx)) ?_
    have h0 := hh h List.mem_cons_self
    cases h with
    | call c => exact ((blind_call env c h0).sees K O _ _ hw).2
    | killed c i => exact (blind_call env c h0).killed hw i
    | command ce be c => exact ((Cmd.blind_command ce be env c h0).sees K O _ _ hw).2
    | commandKilled ce be c i => exact (Cmd.blind_command ce be env c h0).killed hw i
    | outside k => exact ⟨hw.store, hw.clock, hw.tick, rfl, hw.trace⟩

/-! ## Examples -/
open Concrete

/-- a state in which there is another account as well, with a peer -/
def Concrete.beside : World Store Unit :=
  { after [addA, recv bob (str!"1") (str!"100") [7]] with
    store := (after [.addAccount (str!"b") none none (str!"gpg") (str!"own"), .processIncoming (str!"b") (mail carol (str!"1") (str!"100") [9]) false false]).store.filter
      (fun c => c.1 ≠ str!".") ++ (after [addA, recv bob (str!"1") (str!"100") [7]]).store }

example : beside.store.names = [str!"own:b", peerHead (str!"b") carol, str!".", str!"own:a", peerHead (str!"a") bob] := by decide +kernel

/-- it is the same for account `a` -/
theorem Concrete.beside_seen : WorldsSeen (str!"a") (after [addA, recv bob (str!"1") (str!"100") [7]]) beside :=
  ⟨by decide +kernel, rfl, rfl, rfl, rfl⟩

/-- so the listing of peers, for example, is the same -/
example : (exec oracle (getPeernameList (str!"a")) beside).1.toOption = some [bob] := by decide +kernel

/-- the list of accounts is not a call on an account, and differs -/
example : ¬ SeesOnly (str!"a") getAccountNames := fun h => by
  have := congrArg Except.toOption (h Unit oracle _ _ beside_seen).1
  exact absurd this (by decide +kernel)

/-- and so may a lookup by address, which takes the first account that matches -/
example : ¬ SeesOnly (str!"b") (Manager.getAccountFromEmailadr env (str!"a@x.org") false) := fun h => by
  have hw : WorldsSeen (str!"b") beside { beside with store := beside.store.filter fun c => c.1 ≠ str!"own:a" } := ⟨by decide +kernel, rfl, rfl, rfl, rfl⟩
  have := congrArg Except.toOption (h Unit oracle _ _ hw).1
  exact absurd this (by decide +kernel)

end Verif
