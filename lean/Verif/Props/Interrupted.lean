import Verif.Props.Incoming
import Verif.Props.Gossip
/-!
# C96: interrupted processing of messages

What is stored when the process dies within `process_incoming`.
-/
namespace Verif
open Mime

variable {K : Type}

namespace Safe

theorem Late.bind_ro {α β : Type} {p : Prog α} {f : α → Prog β} (hp : p.AllOps Op.readOnly) (hf : ∀ a, Late (f a)) : Late (p.bind f) := by
  induction p with
  | pure a => exact hf a
  | raise e => exact .raise e
  | op o k ih => exact .ro _ _ hp.1 fun r => ih r (hp.2 r)

theorem Late.of_ro {α : Type} {p : Prog α} (hp : p.AllOps Op.readOnly) : Late p := by
  induction p with
  | pure a => exact .pure a
  | raise e => exact .raise e
  | op o k ih => exact .ro _ _ hp.1 fun r => ih r (hp.2 r)

theorem Late.map {α β : Type} {p : Prog α} (hp : Late p) (f : α → β) : Late (p.bind fun a => .pure (f a)) := by
  induction hp with
  | pure a => exact .pure _
  | raise e => exact .raise e
  | ro o k ho _ ih => exact .ro _ _ ho ih
  | last o k hk =>
    refine .last _ _ fun r => ?_
    rcases hk r with ⟨a, h⟩ | ⟨e, h⟩
    · left; exact ⟨f a, by rw [h]; rfl⟩
    · right; exact ⟨e, by rw [h]; rfl⟩

/-- relations between stores which hold for all updates hold between the start, the state in which the process dies, and the end -/
theorem between {O : Oracle K} {A : Act → Prop} {R : Store → Store → Prop} (hrefl : ∀ s, R s s) (htrans : ∀ a b c, R a b → R b c → R a c)
    (hact : ∀ a, A a → ∀ w : World Store K, R w.store (exec O a.prog w).2.store) {α : Type} {p : Prog α} (hp : Safe A p) (n : Nat)
    (w : World Store K) : R w.store (runFor Store.impl O n p w).store ∧ R (runFor Store.impl O n p w).store (exec O p w).2.store := by
  have all : ∀ {β : Type} {q : Prog β}, Safe A q → ∀ v : World Store K, R v.store (exec O q v).2.store := fun hq v =>
    hq.respects (R := fun w w' => R w.store w'.store) (fun _ _ _ => htrans _ _ _) (fun _ _ hs _ _ _ => by rw [hs]; exact hrefl _) hact v
  refine ⟨hp.respects_killed (R := fun w w' => R w.store w'.store) (fun _ _ _ => htrans _ _ _)
    (fun _ _ hs _ _ _ => by rw [hs]; exact hrefl _) hact n w, ?_⟩
  induction hp generalizing n w with
  | ro h =>
    rw [(runFor_ro (O := O) h n w).1, (run_ro (O := O) h w).1]; exact hrefl _
  | act a h =>
    rcases (late_act a).runFor (O := O) n w with hq | he
    · rw [hq.1]; exact hact a h w
    · rw [he]; exact hrefl _
  | bindQ Q hp hq hf ih1 ih2 =>
    simp only [exec, run_bind]
    rcases runFor_bind Store.impl O n _ _ w with he | ⟨a, w1, m, h1, he⟩
    · rw [he]
      have h2 := ih1 n w
      rcases hr : run Store.impl O _ w with ⟨_ | a, w1⟩ <;> rw [exec, hr] at h2
      · exact h2
      · exact htrans _ _ _ h2 (all (hf a (hq.of_run hr)) w1)
    · rw [he, h1]
      exact ih2 a (hq.of_run h1) m w1
  | attempt hp ih =>
    rw [runFor_attempt]
    simp only [exec, run_attempt]
    exact ih n w

end Safe

/-! ## processing a message -/

namespace Account

/-- what follows in `process_incoming` after the header is processed -/
def afterHeader (env : Env) (n : Str) (m : Msg) (nd : Bool) (date : Time) (pah : ACResult) : Prog (Option IncomingResult) := do
  let enc ← (if nd then pure false else Prog.ofExcept (isEncrypted m) : Prog Bool)
  let gossip ← (if enc then do
      let r ← decryptMime env n m
      let gossip ← processGossipHeaders env n r.decMsg date (messageId m)
      let key ← ownKeyhandle n
      Prog.hookIncomingGossip (gossip.map (·.1)) key r.decMsg
      return gossip
    else return [] : Prog (List (Str × ACResult)))
  return some { msgId := messageId m, date, peer := peerHeadOf env n (parseEmailAddr env (m.get (str!"From"))), account := n, pah, gossip }

/-- what precedes it: the date, and whether the message is known -/
def beforeHeader (env : Env) (n : Str) (m : Msg) (i : Bool) : Prog (Time × Bool) := do
  let d ← Prog.ofExcept (parseDateToFloat env (m.get (str!"Date")))
  let date ← effectiveDate d
  let known ← (if i then do
      let es ← Prog.chain (peerHeadOf env n (parseEmailAddr env (m.get (str!"From"))))
      return Peer.hasMessage es (messageId m)
    else return false : Prog Bool)
  return (date, known)

theorem processIncoming_parts (env : Env) (n : Str) (m : Msg) (i nd : Bool) : processIncoming env n m i nd =
    (beforeHeader env n m i).bind fun x => if x.2 then .pure none else
      (processAutocryptHeader env n m (parseEmailAddr env (m.get (str!"From"))) (peerHeadOf env n (parseEmailAddr env (m.get (str!"From"))))
        x.1 (messageId m)).bind (afterHeader env n m nd x.1) := by
  unfold processIncoming beforeHeader
  simp only [bind_eq, pure_eq, Prog.bind_assoc]
  rfl

theorem beforeHeader_ro (env : Env) (n : Str) (m : Msg) (i : Bool) : (beforeHeader env n m i).AllOps Op.readOnly := by
  unfold beforeHeader
  simp only [bind_eq, pure_eq]
  refine .bind (.ofExcept _) fun _ => .bind (.bind (.now trivial) fun _ => trivial) fun _ => .bind ?_ fun _ => trivial
  split
  · exact .bind (.chain trivial) fun _ => trivial
  · trivial

theorem late_header (env : Env) (n : Str) (m : Msg) (f ad : Str) (date : Time) (id : Str) :
    Safe.Late (processAutocryptHeader env n m f (peerHead n ad) date id) := by
  unfold processAutocryptHeader
  simp only [bind_eq, pure_eq]
  refine .bind_ro (.ofExcept _) fun pah => .bind_ro ?_ fun x => .map (Safe.late_act (.msg n ad _)) _
  split
  · trivial
  · exact importPah_ops permissive_readOnly env n pah

theorem safe_afterHeader (env : Env) (n : Str) (m : Msg) (nd : Bool) (date : Time) (pah : ACResult) :
    Safe (fun a => nd = false ∧ isEncrypted m = .ok true ∧ ∃ k ad u, a = .gossip k ad u) (afterHeader env n m nd date pah) := by
  unfold afterHeader
  simp only [bind_eq, pure_eq]
  refine .bindQ (fun b => b = true → nd = false ∧ isEncrypted m = .ok true) ?_ ?_ fun enc henc => .bind ?_ fun _ => .pure _
  · split
    · exact .pure _
    · exact .ro (.ofExcept _)
  · split
    · intro h; cases h
    · rename_i h
      exact Prog.Returns.ofExcept.mono fun a ha hh => ⟨by simpa using h, by rw [ha, hh]⟩
  · split
    · rename_i he
      refine .bind (.ro (decryptMime_ops permissive_readOnly env n _)) fun r =>
        .bind (safe_processGossipHeaders env n _ _ _ fun a ha => ⟨(henc he).1, (henc he).2, ?_⟩) fun _ =>
        .bind (.ro (ownKeyhandle_ops permissive_readOnly n)) fun _ =>
        .bind (.ro (.hookIncomingGossip trivial)) fun _ => .pure _
      cases a <;> simp only [GossipAct] at ha
      exact ⟨_, _, _, rfl⟩
    · exact .pure _

end Account

/-- C96, the part that holds: when the process dies within `process_incoming`, then every chain has what it had before and nothing but
what complete processing would have left there. Either nothing is recorded yet, or the message itself is recorded and only gossip may be
missing. A message which isn't to be decrypted is recorded as a whole or not at all. Missing, and false (`C96_refuted`): processing the
message again, as `scandir-incoming` does, adds the gossip which is missing. -/
theorem C96_interrupted_partial (O : Oracle K) (env : Env) (n : Str) (m : Msg) (i nd : Bool) (k : Nat) (w wk we : World Store K)
    (hk : wk = runFor Store.impl O k (Account.processIncoming env n m i nd) w) (he : we = (exec O (Account.processIncoming env n m i nd) w).2) :
    (∀ h, w.log h <:+ wk.log h ∧ wk.log h <:+ we.log h) ∧
    ((∀ h, wk.log h = w.log h) ∨ ∀ h e, .msg e ∈ wk.log h ↔ .msg e ∈ we.log h) ∧
    (nd = true ∨ ¬ PgpMime m → (∀ h, wk.log h = w.log h) ∨ ∀ h, wk.log h = we.log h) := by
  spec_mail
  refine ⟨fun h => ?_, ?_⟩
  · rw [hk, he]
    refine (Account.safe_processIncoming env n m i nd).between (O := O) (R := fun s s' => s.get h <:+ s'.get h) (fun _ => List.suffix_refl _)
      (fun _ _ _ => List.IsSuffix.trans) ?_ k w
    rintro a ⟨d, ha⟩ v
    refine act_suffix O a v h ?_ ?_
    · rintro x rfl; obtain ha | ⟨_, _, ha⟩ := ha <;> exact ha.elim
    · rintro rfl; obtain ha | ⟨_, _, ha⟩ := ha <;> exact ha.elim
  -- messages stay the same after the header
  have gossipOnly : ∀ d pah (v : World Store K), (∀ h e, .msg e ∈ (exec O (Account.afterHeader env n m nd d pah) v).2.log h ↔ .msg e ∈ v.log h) ∧
      ∀ j h e, .msg e ∈ (runFor Store.impl O j (Account.afterHeader env n m nd d pah) v).log h ↔ .msg e ∈ v.log h := by
    intro d pah v
    have hact : ∀ a, (nd = false ∧ isEncrypted m = .ok true ∧ ∃ k ad u, a = Act.gossip k ad u) → ∀ v : World Store K,
        ∀ h e, .msg e ∈ (exec O a.prog v).2.log h ↔ .msg e ∈ v.log h := by
      rintro _ ⟨-, -, x, ad, u, rfl⟩ v h e
      unfold World.log
      rw [get_act]
      dsimp only
      split
      · rcases Peer.applyGossip_cases (v.store.get h) u with h' | ⟨g, -, h'⟩ <;> rw [h']
        simp
      · rfl
    constructor
    · exact (Account.safe_afterHeader env n m nd d pah).respects (R := fun w w' => ∀ h e, .msg e ∈ w'.log h ↔ .msg e ∈ w.log h)
        (fun _ _ _ h1 h2 h e => (h2 h e).trans (h1 h e)) (fun w w' hs _ _ _ h e => by unfold World.log; rw [hs]) hact v
    · intro j
      exact (Account.safe_afterHeader env n m nd d pah).respects_killed (R := fun w w' => ∀ h e, .msg e ∈ w'.log h ↔ .msg e ∈ w.log h)
        (fun _ _ _ h1 h2 h e => (h2 h e).trans (h1 h e)) (fun w w' hs _ _ _ h e => by unfold World.log; rw [hs]) hact j v
  -- without encryption nothing is recorded after the header
  have nothing : nd = true ∨ isEncrypted m ≠ .ok true → ∀ d pah (v : World Store K),
      (∀ h, (exec O (Account.afterHeader env n m nd d pah) v).2.log h = v.log h) ∧
      ∀ j h, (runFor Store.impl O j (Account.afterHeader env n m nd d pah) v).log h = v.log h := by
    intro hp d pah v
    have hact : ∀ a, (nd = false ∧ isEncrypted m = .ok true ∧ ∃ k ad u, a = Act.gossip k ad u) → ∀ v : World Store K,
        ∀ h, (exec O a.prog v).2.log h = v.log h := by
      rintro a ⟨h1, h2, -⟩
      rcases hp with h | h
      · rw [h] at h1; cases h1
      · exact absurd h2 h
    constructor
    · exact (Account.safe_afterHeader env n m nd d pah).respects (R := fun w w' => ∀ h, w'.log h = w.log h)
        (fun _ _ _ h1 h2 h => (h2 h).trans (h1 h)) (fun w w' hs _ _ _ h => by unfold World.log; rw [hs]) hact v
    · intro j
      exact (Account.safe_afterHeader env n m nd d pah).respects_killed (R := fun w w' => ∀ h, w'.log h = w.log h)
        (fun _ _ _ h1 h2 h => (h2 h).trans (h1 h)) (fun w w' hs _ _ _ h => by unfold World.log; rw [hs]) hact j v
  rw [Account.processIncoming_parts] at hk he
  rcases Safe.runFor_bind Store.impl O k _ _ w with hb | ⟨x, w1, k1, h1, hb⟩ <;> rw [hb] at hk
  · have := (Safe.runFor_ro (O := O) (Account.beforeHeader_ro env n m i) k w).1
    have same : ∀ h, wk.log h = w.log h := fun h => by unfold World.log; rw [hk, this]
    exact ⟨Or.inl same, fun _ => Or.inl same⟩
  have hs1 : ∀ h, w1.log h = w.log h := fun h => by
    have := (run_ro (O := O) (Account.beforeHeader_ro env n m i) w).1
    rw [exec, h1] at this
    unfold World.log; rw [this]
  simp only [exec, run_bind, h1] at he
  split at hk <;> rename_i hx
  · have : wk = w1 := by rw [hk]; cases k1 <;> rfl
    have same : ∀ h, wk.log h = w.log h := fun h => by rw [this]; exact hs1 h
    exact ⟨Or.inl same, fun _ => Or.inl same⟩
  rw [if_neg hx, run_bind] at he
  rcases Safe.runFor_bind Store.impl O k1 _ _ w1 with hb | ⟨pah, w2, k2, h2, hb⟩ <;> rw [hb] at hk
  · rcases (Account.late_header env n m _ _ x.1 (messageId m)).runFor (O := O) k1 w1 with hq | hq
    · have same : ∀ h, wk.log h = w.log h := fun h => by
        rw [← hs1 h]; unfold World.log; rw [hk]; exact congrArg (Store.get · h) hq.1
      exact ⟨Or.inl same, fun _ => Or.inl same⟩
    · have hq' : wk = _ := hk.trans hq
      rcases hr : run Store.impl O (Account.processAutocryptHeader env n m (parseEmailAddr env (m.get (str!"From")))
        (Account.peerHeadOf env n (parseEmailAddr env (m.get (str!"From")))) x.1 (messageId m)) w1 with ⟨_ | pah, w2⟩
      · rw [hr] at he
        have : wk = we := by rw [he, hq']; exact congrArg Prod.snd hr
        rw [this]
        exact ⟨Or.inr fun _ _ => Iff.rfl, fun _ => Or.inr fun _ => rfl⟩
      · rw [hr] at he
        have : wk = w2 := by rw [hq']; exact congrArg Prod.snd hr
        rw [this, he]
        exact ⟨Or.inr fun h e => ((gossipOnly x.1 pah w2).1 h e).symm, fun hp => Or.inr fun h => ((nothing hp x.1 pah w2).1 h).symm⟩
  · rw [h2] at he
    rw [hk, he]
    exact ⟨Or.inr fun h e => ((gossipOnly x.1 pah w2).2 k2 h e).trans ((gossipOnly x.1 pah w2).1 h e).symm,
      fun hp => Or.inr fun h => ((nothing hp x.1 pah w2).2 k2 h).trans ((nothing hp x.1 pah w2).1 h).symm⟩

namespace Concrete

/-- an encrypted message from Bob with Carol's key as gossip, as `scandir-incoming` processes it -/
def scanned : ApiCall := .processIncoming (str!"a") (encMail (str!"1") (str!"100") [] [gossipField carol [8]]) true false

/-- account "a", then the message, where the process dies after `n` operations, then the message again -/
def scannedTwice (n : Nat) : World Store Unit := runHistory Store.impl oracle env [.call addA, .killed scanned n, .call scanned] world0

/-- gpg works if `k` is false and fails otherwise -/
def flaky : Oracle Bool where
  step o k := if k then ((failing.step o ()).1, k) else ((oracle.step o ()).1, k)

/-- account "a", then the message while gpg fails, then the message again when gpg works -/
def failedOnce : World Store Bool := runHistory Store.impl flaky env [.call addA, .outside true, .call scanned, .outside false, .call scanned]
  { store := [], clock := world0.clock, tick := 0, env := false, trace := [] }

/-- entries of Carol's chain -/
def carolLog {K : Type} (w : World Store K) : List Entry := w.log (peerHead (str!"a") carol)

end Concrete

open Concrete in
/-- C96 is false: the sender's record is stored before the message is decrypted. If the process dies then, processing the message again
skips it as known, and the key of the other recipient is never learned. -/
theorem C96_refuted : ∃ n, carolLog (scannedTwice n) = [] ∧ carolLog (scannedTwice 0) ≠ [] ∧ Reachable oracle env (scannedTwice n) :=
  ⟨10, by decide +kernel, by decide +kernel, ⟨_, _, _, rfl⟩⟩

open Concrete in
/-- The same happens without any interruption if gpg fails to decrypt the message the first time, which ends the first attempt with an exception. -/
theorem C96_refuted_failure : carolLog failedOnce = [] ∧ Reachable flaky env failedOnce :=
  ⟨by decide +kernel, ⟨_, _, _, rfl⟩⟩

open Concrete in
/-- the process dies with the message recorded, the gossip not; and one operation before -/
example : (bobs (runFor Store.impl oracle 4 (Account.processIncoming env (str!"a") (encMail (str!"1") (str!"100") [] [gossipField carol [8]]) true false)
      (after [addA]))).length = 1 ∧
    carols (runFor Store.impl oracle 4 (Account.processIncoming env (str!"a") (encMail (str!"1") (str!"100") [] [gossipField carol [8]]) true false)
      (after [addA])) = [] ∧
    bobs (runFor Store.impl oracle 3 (Account.processIncoming env (str!"a") (encMail (str!"1") (str!"100") [] [gossipField carol [8]]) true false)
      (after [addA])) = [] := by decide +kernel

end Verif
