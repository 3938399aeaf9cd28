import Verif.Lemmas.Looks
import Verif.Lemmas.KeepsCmd
import Verif.Props.Cmdline
import Verif.Props.Sight
import Verif.Spec.Mail
/-!
# C128: what is known about other people does not matter

Two runs start in states which are the same apart from what is stored about people whom a call does not concern. It does the same in both.
-/
namespace Verif
open BinGPG
variable {α K : Type} {n : Str}

/-! ## Specification -/

/-- the address in a field, and the address in that one again: addresses are taken apart more than once -/
inductive Spelled (env : Env) (x : Option Str) : Str → Prop
  | field : Spelled env x (address env x)
  | again {a : Str} : Spelled env x a → Spelled env x (address env (some a))

/-- the logs that matter: those of the manager and of the account itself, and those of the people in `P` -/
def About (env : Env) (n : Str) (P : Option Str → Prop) (h : Str) : Prop :=
  h = managerHead ∨ h = ownHead n ∨ h = oobHead n ∨ ∃ x a, P x ∧ Spelled env x a ∧ h = peerHead n a

/-- the people a mail coming in concerns: the sender; if it is to be decrypted also those to whom the message in it is written -/
def incomingPeople (env : Env) (m : Msg) (noDecrypt : Bool) (x : Option Str) : Prop :=
  x = m.get (str!"From") ∨ (noDecrypt = false ∧ PgpMime m ∧ ∃ dec r, r ∈ decRecipients env m dec ∧ x = some r)

/-- the people a mail going out concerns: those to whom it is written and the sender -/
def outgoingPeople (env : Env) (m : Msg) (x : Option Str) : Prop :=
  (∃ r ∈ recipients env m, x = some r) ∨ ∃ f, m.getAll (str!"From") = [f] ∧ x = some f

/-- those whose key is imported: the one named; if nobody is, it may be anybody, as the key says -/
def importPeople (addr : Option Str) (x : Option Str) : Prop := addr = none ∨ x = addr

/-- the people a call on an account concerns; `peernames` is about all of them -/
def ApiCall.people (env : Env) : ApiCall → Option Str → Prop
  | .recommendation _ addrs _ _, x => ∃ a ∈ addrs, x = some a
  | .processIncoming _ m _ nd, x => incomingPeople env m nd x
  | .processOutgoing _ m, x => outgoingPeople env m x
  | .encryptMime _ _ addrs, x => ∃ a ∈ addrs, x = some a
  | .importKey _ addr _ _, x => importPeople addr x
  | .peerMsg _ addr _, x | .peerGossip _ addr _, x => x = some addr
  | .peernames _, _ => True
  | _, _ => False

/-- the people a command concerns; a verbose status is about all of them -/
def Cmd.Command.people (env : Env) : Cmd.Command → Option Str → Prop
  | .processIncoming _ _ nd m, x => incomingPeople env m nd x
  | .importPublicKey _ _ _ addr, x => importPeople addr x
  | .peerstate _ addr, x => x = some addr
  | .recommend _ addrs, x => ∃ a ∈ addrs, x = some a
  | .status _ v, _ => v = true
  | _, _ => False

/-- what a program gives and all it does outside is the same in states which are the same in what the logs in `V` say, and the states after it are
again the same -/
def DependsOn (V : Str → Prop) (p : Prog α) : Prop :=
  ∀ (K : Type) (O : Oracle K) (w w' : World Store K), SameIn V w w' →
    (exec O p w).1 = (exec O p w').1 ∧ SameIn V (exec O p w).2 (exec O p w').2

/-! ## Runs -/

theorem Looks.first {V : Str → Prop} {o : Op} (h : o.within (.of V)) {O : Oracle K} {w w' : World Store K} (hw : SameIn V w w') :
    (step Store.impl O o w).1 = (step Store.impl O o w').1 ∧ SameIn V (step Store.impl O o w).2 (step Store.impl O o w').2 := by
  obtain ⟨s, c, t, k, tr⟩ := w
  obtain ⟨s', c', t', k', tr'⟩ := w'
  obtain ⟨hs, rfl, rfl, rfl, rfl⟩ := hw
  cases o with
  | now => exact ⟨rfl, hs, rfl, rfl, rfl, rfl⟩
  | chain x => exact ⟨congrArg Except.ok (hs x h), hs, rfl, rfl, rfl, rfl⟩
  | append x e =>
    refine ⟨rfl, fun y hy => ?_, rfl, rfl, rfl, rfl⟩
    show (s.push x e).get y = (s'.push x e).get y
    rw [Store.get_push, Store.get_push, show s.get y = s'.get y from hs y hy]
  | heads => exact h.elim
  | removeIf p =>
    refine ⟨rfl, fun y hy => ?_, rfl, rfl, rfl, rfl⟩
    show (s.removeIf p).get y = (s'.removeIf p).get y
    rw [Store.get_removeIf, Store.get_removeIf, show s.get y = s'.get y from hs y hy]
  | wipe => exact ⟨rfl, fun _ _ => rfl, rfl, rfl, rfl, rfl⟩
  | ext o => exact ⟨rfl, hs, rfl, rfl, rfl, rfl⟩

theorem Looks.depends {V : Str → Prop} {p : Prog α} (h : Looks (.of V) p) : DependsOn V p := fun K O w w' hw => by
  induction p generalizing w w' with
  | pure a => exact ⟨rfl, hw⟩
  | raise e => exact ⟨rfl, hw⟩
  | op o k ih =>
    obtain ⟨h1, h2⟩ := Looks.first h.1 (O := O) hw
    show (exec O (k (step Store.impl O o w).1) _).1 = (exec O (k (step Store.impl O o w').1) _).1 ∧
      SameIn V (exec O (k (step Store.impl O o w).1) _).2 (exec O (k (step Store.impl O o w').1) _).2
    rw [← h1]
    exact ih _ (h.2 _) _ _ h2

theorem Looks.killed {V : Str → Prop} {p : Prog α} (h : Looks (.of V) p) {O : Oracle K} {w w' : World Store K} (hw : SameIn V w w') (i : Nat) :
    SameIn V (runFor Store.impl O i p w) (runFor Store.impl O i p w') := by
  induction p generalizing w w' i with
  | pure a => cases i <;> exact hw
  | raise e => cases i <;> exact hw
  | op o k ih =>
    cases i with
    | zero => exact hw
    | succ i =>
      obtain ⟨h1, h2⟩ := Looks.first h.1 (O := O) hw
      show SameIn V (runFor Store.impl O i (k (step Store.impl O o w).1) _) (runFor Store.impl O i (k (step Store.impl O o w').1) _)
      rw [← h1]
      exact ih _ (h.2 _) h2 i

/-! ## The logs of the people concerned -/

theorem SameIn.mono {V V' : Str → Prop} {w w' : World Store K} (h : SameIn V w w') (hv : ∀ x, V' x → V x) : SameIn V' w w' :=
  ⟨fun x hx => h.logs x (hv x hx), h.clock, h.tick, h.env, h.trace⟩

theorem About.sees {env : Env} {P : Option Str → Prop} : Sees (.of (About env n P)) n :=
  ⟨.inl rfl, .inr (.inl rfl), .inr (.inr (.inl rfl))⟩

theorem About.peer {env : Env} {P : Option Str → Prop} {x : Option Str} {a : Str} (h : P x) (hs : Spelled env x a) : About env n P (peerHead n a) :=
  .inr (.inr (.inr ⟨x, a, h, hs, rfl⟩))

theorem About.one {env : Env} {P : Option Str → Prop} {a : Str} (h : P (some a)) : About env n P (Account.peerHeadOf env n a) := .peer h .field

theorem About.two {env : Env} {P : Option Str → Prop} {x : Option Str} (h : P x) : About env n P (Account.peerHeadOf env n (Mime.parseEmailAddr env x)) :=
  .peer h (.again .field)

theorem target_transfer (env : Env) (m : Msg) (dec : Bytes) :
    Mime.getTargetEmailadr env (Mime.transferNonContentHeaders m (env.messageFromBytes dec)) = decRecipients env m dec := by
  rw [Mime.getTargetEmailadr, getAll_transfer _ _ (by decide), getAll_transfer _ _ (by decide), decRecipients]
  simp only [innerOuter]
  rw [getAll_congr _ (show Py.lower (str!"To") = Py.lower (str!"to") by decide),
    getAll_congr _ (show Py.lower (str!"Cc") = Py.lower (str!"cc") by decide),
    getAll_congr m (show Py.lower (str!"To") = Py.lower (str!"to") by decide),
    getAll_congr m (show Py.lower (str!"Cc") = Py.lower (str!"cc") by decide)]

section
variable (env : Env) {P : Option Str → Prop}

theorem about_incoming (m i d) (hp : ∀ x, incomingPeople env m d x → P x) : Looks (.of (About env n P)) (Account.processIncoming env n m i d) := by
  refine Account.looks_processIncoming env About.sees trivial m i d (.two (hp _ (.inl rfl))) fun hd he dec a ha => ?_
  rw [target_transfer] at ha
  exact .one (hp _ (.inr ⟨hd, pgpMime_iff.mpr he, dec, a, ha, rfl⟩))

theorem about_outgoing (m) (hp : ∀ x, outgoingPeople env m x → P x) : Looks (.of (About env n P)) (Account.processOutgoing env n m) := by
  refine Account.looks_processOutgoing env About.sees m (fun x hx => .two (hp _ (.inl ⟨x, ?_, rfl⟩))) fun f hf =>
    .peer (hp _ (.inr ⟨f, hf, rfl⟩)) (.again (.again .field))
  rw [← recipients_eq] at hx
  exact hx

theorem about_recommendation (l r f) (hp : ∀ a ∈ l, P (some a)) : Looks (.of (About env n P)) (Account.recommendation env n l r f) := by
  refine Account.looks_recommendation env About.sees l r f fun x hx => ?_
  obtain ⟨y, hy, rfl, _⟩ := mem_peerAddrs.mp hx
  exact .two (hp y hy)

theorem about_encryptMime (m l) (hp : ∀ a ∈ l, P (some a)) : Looks (.of (About env n P)) (Account.encryptMime env n m l) := by
  refine Account.looks_encryptMime env About.sees m l fun x hx => ?_
  obtain ⟨y, hy, rfl⟩ := List.mem_map.mp hx
  exact .two (hp y hy)

theorem about_import (a k p) (hp : ∀ x, importPeople a x → P x) : Looks (.of (About env n P)) (Account.importKeydataAsAutocrypt env n a k p) :=
  Account.looks_importKeydataAsAutocrypt env About.sees trivial a k p (fun _ hx => .two (hp _ (.inr hx.symm))) fun h _ => .one (hp _ (.inl h))
end

theorem looks_onAccount {V : Scope} {env : Env} {p : Prog α} {m : Str} (h : Looks V p) : Looks V (onAccount env m p) := .bind (.assert _) fun _ => .void h

theorem looks_call (env : Env) (c : ApiCall) (hc : c.on = some n) (hn : c ≠ .peernames n) : Looks (.of (About env n (c.people env))) (c.prog env) := by
  have hs := fun P => About.sees (n := n) (env := env) (P := P)
  cases c <;> simp only [ApiCall.on, reduceCtorEq] at hc <;> cases hc
  case getAccount => exact .void (Manager.looks_getAccount env (hs _) _)
  case addAccount => exact .void (Manager.looks_addAccount env (hs _) _ _ _ _)
  case modAccount => exact .void (Manager.looks_modAccount env (hs _) _ _ _ _)
  case delAccount => exact Manager.looks_delAccount env (hs _)
  case peernames => exact absurd rfl hn
  case recommendation => exact looks_onAccount (about_recommendation env _ _ _ fun a ha => ⟨a, ha, rfl⟩)
  case makeAcHeader => exact looks_onAccount (Account.looks_makeAcHeader env (hs _) _)
  case exportPublicKey => exact looks_onAccount (Account.looks_exportPublicKey env (hs _) _)
  case exportSecretKey => exact looks_onAccount (Account.looks_exportSecretKey env (hs _))
  case processIncoming => exact looks_onAccount (about_incoming env _ _ _ fun _ h => h)
  case processOutgoing => exact looks_onAccount (about_outgoing env _ fun _ h => h)
  case encryptMime => exact looks_onAccount (about_encryptMime env _ _ fun a ha => ⟨a, ha, rfl⟩)
  case decryptMime => exact looks_onAccount (Account.looks_decryptMime env (hs _) _)
  case importKey => exact looks_onAccount (about_import env _ _ _ fun _ h => h)
  case peerMsg => exact looks_onAccount (Peer.looks_updateFromMsg (About.one (env := env) (P := fun x => x = some _) rfl) _)
  case peerGossip => exact looks_onAccount (Peer.looks_updateFromGossip (About.one (env := env) (P := fun x => x = some _) rfl) _)
  case verifySelf => exact looks_onAccount (by apply Looks.append)
  case verifyPeer => exact looks_onAccount (by apply Looks.append)
  case getVerification => exact looks_onAccount (OOB.looks_getVerification (hs _) _)

namespace Cmd
variable {V : Scope} (ce : CmdEnv) (be : BotEnv) (env : Env) (hs : Sees V n)
theorem looks_say (s) : Looks V (say s) := .emit _
theorem looks_kecho (a b) : Looks V (kecho a b) := .emit _
theorem looks_peerstate (b) (hb : V (Account.peerHeadOf env n b)) : Looks V (peerstate ce env n b) := by
  unfold peerstate; simp only [bind_eq]; looks [looks_say]
theorem looks_sayUids (l) : Looks V (sayUids l) := by
  induction l with
  | nil => exact .pure _
  | cons f fs ih => unfold sayUids; simp only [bind_eq]; looks [looks_say, looks_kecho]
include hs in
theorem looks_statusAccount : Looks V (statusAccount ce env n false) := by
  unfold statusAccount; simp only [bind_eq, pure_eq, Bool.false_eq_true, if_false]
  looks [looks_say, looks_kecho, Own.looks_config, Account.looks_bingpg, Account.looks_ownKeyhandle, BinGPG.looks_listPublicKeyinfos, looks_sayUids]
theorem looks_sayAddrs (l) : Looks V (sayAddrs l) := by
  induction l with
  | nil => exact .pure _
  | cons f fs ih => unfold sayAddrs; simp only [bind_eq]; looks [looks_say]
include hs in
theorem looks_named {f : Str → Prog α} (h : Looks V (f n)) : Looks V ((Manager.getAccount env n true).bind f) :=
  .bindReturns (Manager.looks_getAccount env hs _) (getAccount_returns env n true) fun a ha => by rw [ha]; exact h
theorem looks_incoming {P : Option Str → Prop} (r d m) (hp : ∀ x, incomingPeople env m d x → P x) :
    Looks (.of (About env n P)) ((Cmd.processIncoming env (some n) r d m).bind fun x => (sayReport m x).bind fun _ => .pure (0 : Int)) := by
  unfold Cmd.processIncoming
  simp only [bind_eq, pure_eq, Prog.bind_assoc]
  refine looks_named env About.sees (.bindReturns (about_incoming env m _ _ hp) (processIncoming_returns env n m _ _) fun o ho => ?_)
  cases o with
  | none => exact .bind (p := sayReport m .known) (by apply looks_say) fun _ => .pure _
  | some x =>
    have hx := (ho x rfl).1
    have hv : About env n P x.peer := by rw [hx]; exact .two (hp _ (.inl rfl))
    simp only [Prog.bind_assoc]
    refine .bind (.chain hv) fun es => ?_
    split
    · refine .bind (p := sayReport m (.found x.account x.peer)) ?_ fun _ => .pure _
      exact .bind (.chain hv) fun _ => by apply looks_say
    · exact .bind (p := sayReport m (.noHeader x.account)) (by apply looks_say) fun _ => .pure _

theorem looks_body (cmd : Command) (hc : cmd.account = some n) (hv : cmd ≠ .status (some n) true) :
    Looks (.of (About env n (cmd.people env))) (cmd.body ce be env) := by
  have hs := fun P => About.sees (n := n) (env := env) (P := P)
  cases cmd <;> simp only [Command.account, reduceCtorEq, Option.some.injEq] at hc <;> subst hc
  case status v =>
    cases v with
    | true => exact absurd rfl hv
    | false => exact looks_named env (hs _) (.bind (looks_statusAccount ce env (hs _)) fun _ => .pure _)
  case addAccount sys key bin regex =>
    refine .bindReturns (Manager.looks_addAccount env (hs _) _ _ _ _) (addAccount_returns _ _ _ _ _) fun a ha => ?_
    subst ha
    exact .bind (looks_say _) fun _ => .bind (looks_statusAccount ce env (hs _)) fun _ => .pure _
  case modAccount key bin regex pe =>
    refine .bindReturns (Manager.looks_modAccount env (hs _) _ _ _ _) (modAccount_returns _ _ _ _ _) fun a ha => ?_
    rw [ha]
    exact .bind (looks_say _) fun _ => .bind (looks_statusAccount ce env (hs _)) fun _ => .pure _
  case processIncoming reparse nd m => exact looks_incoming env _ _ _ fun _ h => h
  case importPublicKey kd pe email =>
    exact looks_named env (hs _) (.bind (about_import env _ _ _ fun _ h => h) fun _ => .bind (looks_say _) fun _ => .bind (looks_sayAddrs _) fun _ => .pure _)
  case peerstate addr => exact looks_named env (hs _) (.bind (looks_peerstate ce env _ (.one rfl)) fun _ => .pure _)
  case recommend addrs =>
    exact looks_named env (hs _) (.bind (about_recommendation env _ _ _ fun a ha => ⟨a, ha, rfl⟩) fun _ => .bind (looks_say _) fun _ => .pure _)
  case exportPublicKey k => exact looks_named env (hs _) (.bind (Account.looks_exportPublicKey env (hs _) _) fun _ => .bind (.emit _) fun _ => .pure _)
  case exportSecretKey => exact looks_named env (hs _) (.bind (Account.looks_exportSecretKey env (hs _)) fun _ => .bind (.emit _) fun _ => .pure _)

theorem looks_command (cmd : Command) (hc : cmd.account = some n) (hv : cmd ≠ .status (some n) true) :
    Looks (.of (About env n (cmd.people env))) (cmd.prog ce be env) := by
  unfold Command.prog; simp only [bind_eq, pure_eq]; looks [looks_body ce be env cmd hc hv, looks_say]
end Cmd

/-- **C128, calls.** A call on an account does the same, whatever is stored about people whom it does not concern. -/
theorem C128_calls (env : Env) (c : ApiCall) (hc : c.on = some n) (hn : c ≠ .peernames n) :
    DependsOn (About env n (c.people env)) (c.prog env) := (looks_call env c hc hn).depends

/-- **C128, commands.** The same for a command which names an account, apart from a verbose status: exit status, output and all else. -/
theorem C128_commands (ce : CmdEnv) (be : BotEnv) (env : Env) (c : Cmd.Command) (hc : c.account = some n) (hv : c ≠ .status (some n) true) :
    DependsOn (About env n (c.people env)) (c.prog ce be env) := (Cmd.looks_command ce be env c hc hv).depends

/-- **C128, results.** The same for what the calls return. -/
theorem C128_results (env : Env) (n : Str) :
    (∀ m, DependsOn (About env n (outgoingPeople env m)) (Account.processOutgoing env n m)) ∧
    (∀ m i d, DependsOn (About env n (incomingPeople env m d)) (Account.processIncoming env n m i d)) ∧
    (∀ m l, DependsOn (About env n fun x => ∃ a ∈ l, x = some a) (Account.encryptMime env n m l)) ∧
    (∀ l r f, DependsOn (About env n fun x => ∃ a ∈ l, x = some a) (Account.recommendation env n l r f)) ∧
    (∀ a k p, DependsOn (About env n (importPeople a)) (Account.importKeydataAsAutocrypt env n a k p)) ∧
    (∀ m, DependsOn (About env n fun _ => False) (Account.decryptMime env n m)) ∧
    (∀ a, DependsOn (About env n fun _ => False) (Account.makeAcHeader env n a)) ∧
    (∀ k, DependsOn (About env n fun _ => False) (Account.exportPublicKey env n k)) ∧
    DependsOn (About env n fun _ => False) (Account.exportSecretKey env n) ∧
    (∀ a, DependsOn (About env n fun _ => False) (OOB.getVerification n a)) :=
  ⟨fun _ => (about_outgoing env _ fun _ h => h).depends, fun _ _ _ => (about_incoming env _ _ _ fun _ h => h).depends,
   fun _ _ => (about_encryptMime env _ _ fun a ha => ⟨a, ha, rfl⟩).depends, fun _ _ _ => (about_recommendation env _ _ _ fun a ha => ⟨a, ha, rfl⟩).depends,
   fun _ _ _ => (about_import env _ _ _ fun _ h => h).depends, fun _ => (Account.looks_decryptMime env About.sees _).depends,
   fun _ => (Account.looks_makeAcHeader env About.sees _).depends, fun _ => (Account.looks_exportPublicKey env About.sees _).depends,
   (Account.looks_exportSecretKey env About.sees).depends, fun _ => (OOB.looks_getVerification About.sees _).depends⟩

/-- **C128, interruptions.** The same for what is left when the process dies in the middle of a call. -/
theorem C128_killed (O : Oracle K) (env : Env) (c : ApiCall) (hc : c.on = some n) (hn : c ≠ .peernames n) (i : Nat) {w w' : World Store K}
    (hw : SameIn (About env n (c.people env)) w w') :
    SameIn (About env n (c.people env)) (runFor Store.impl O i (c.prog env) w) (runFor Store.impl O i (c.prog env) w') :=
  (looks_call env c hc hn).killed hw i

/-! ## Examples -/
open Concrete

/-- a state in which more is known: there was also a mail of another person -/
def Concrete.more : World Store Unit :=
  { after [addA, recv bob (str!"1") (str!"100") [7]] with
    store := (after [addA, recv bob (str!"1") (str!"100") [7], recv carol (str!"2") (str!"100") [9]]).store }

example : more.store.names = [str!".", str!"own:a", peerHead (str!"a") bob, peerHead (str!"a") carol] := by decide +kernel

theorem Concrete.spelled_bob {a : Str} (h : Spelled env (some bob) a) : a = bob := by
  induction h with
  | field => decide +kernel
  | again _ ih => subst ih; decide +kernel

/-- it is the same for a call about the first -/
theorem Concrete.more_same : SameIn (About env (str!"a") fun x => ∃ a ∈ [bob], x = some a) (after [addA, recv bob (str!"1") (str!"100") [7]]) more := by
  refine ⟨fun h hh => ?_, rfl, rfl, rfl, rfl⟩
  rcases hh with rfl | rfl | rfl | ⟨x, a, ⟨b, hb, rfl⟩, hs, rfl⟩
  · decide +kernel
  · decide +kernel
  · decide +kernel
  · cases List.mem_singleton.mp hb
    cases spelled_bob hs
    decide +kernel

/-- so the recommendation is the same -/
example : (exec oracle (Account.recommendation env (str!"a") [bob] false none) (after [addA, recv bob (str!"1") (str!"100") [7]])).1 =
    (exec oracle (Account.recommendation env (str!"a") [bob] false none) more).1 :=
  ((C128_results env (str!"a")).2.2.2.1 [bob] false none Unit oracle _ _ more_same).1

/-- for the other it isn't, and that is not claimed -/
example : ¬ DependsOn (About env (str!"a") fun x => ∃ a ∈ [bob], x = some a) (Account.recommendation env (str!"a") [carol] false none) := fun h => by
  have := congrArg (fun r => r.toOption.map Cmd.recStr) (h Unit oracle _ _ more_same).1
  exact absurd this (by decide +kernel)

/-- nor is the list of all -/
example : ¬ DependsOn (About env (str!"a") fun x => ∃ a ∈ [bob], x = some a) (getPeernameList (str!"a")) := fun h => by
  have := congrArg Except.toOption (h Unit oracle _ _ more_same).1
  exact absurd this (by decide +kernel)

end Verif
