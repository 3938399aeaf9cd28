import Verif.Props.Devices
import Verif.Props.PeerHistory
import Verif.Props.OutgoingExamples

/-!
C141: forged mail does not last. Whatever was processed before, the key in a mail which a peer sends afterwards is used, and stays in use until
something newer comes from that address (`account.py:325-361`, `states.py:175-199`).
-/
namespace Verif
open Mime

variable {K : Type}

/-- the call may bring a key for the address `a` which counts as new at the time `t`: a mail from `a` which is not dated before `t`, the
import of a key for `a`, or of one for whatever addresses it names, or a direct update which is not dated before `t` -/
def ApiCall.Renews (env : Env) (n a : Str) (t : Time) : ApiCall → Prop
  | .processIncoming n' m _ _ => n' = n ∧ senderAddr env m = a ∧ ∃ d, DateOf env m d ∧ t ≤ d
  | .importKey n' none _ _ => n' = n
  | .importKey n' (some x) _ _ => n' = n ∧ a = address env (some (address env (some x)))
  | .peerMsg n' x u => n' = n ∧ a = address env (some x) ∧ t ≤ u.date
  | _ => False

theorem Peer.applyMsg_older {es : List Entry} {u : Peer.MsgUpdate} {e : MsgEntry} (he : Peer.latestAc es = some e) (hu : u.date < e.date) :
    Peer.applyMsg es u = es := by
  have : Peer.acTimestamp es = e.date := by unfold Peer.acTimestamp; rw [he]
  unfold Peer.applyMsg Peer.updateEntry
  rw [this, if_pos hu]

theorem Peer.latestAc_applyGossip {es : List Entry} {u : Peer.GossipUpdate} : Peer.latestAc (Peer.applyGossip es u) = Peer.latestAc es := by
  rcases Peer.applyGossip_cases es u with h' | ⟨e, he, h'⟩ <;> rw [h']; rfl

/-- the updates which `process_incoming` can make are not dated after the message -/
theorem safe_processIncoming_dated (env : Env) (n : Str) (m : Msg) (i nd : Bool) :
    Safe (fun a => ∃ d t, DateOf env m d ∧ t ≤ d ∧ Account.IncomingAct env n m t a) (Account.processIncoming env n m i nd) := by
  have : Account.processIncoming env n m i nd = (Prog.ofExcept (parseDateToFloat env (m.get (str!"Date")))).bind fun d =>
      (effectiveDate d).bind fun d => Account.incomingRest env n m i nd d := rfl
  rw [this]
  refine .bindQ (fun d => DateOf env m d) (.ro (.ofExcept _)) (Prog.Returns.ofExcept.mono fun d hd => parseDateToFloat_ok.mp hd) fun d hd => ?_
  refine .bindQ (fun t => t ≤ d) (.ro (.bind (.now trivial) fun _ => trivial)) ?_ fun t ht => ?_
  · unfold effectiveDate; simp only [bind_eq, pure_eq]
    exact .bind (.trivially _) fun x _ => Int.min_le_left _ _
  · exact (Account.safe_incomingRest env n m i nd t).mono fun a ha => ⟨d, t, hd, ht, ha⟩

/-- the newest key of a peer stays the newest one -/
theorem call_keeps (O : Oracle K) {env : Env} {n a : Str} (hn : env.isalnum n = true) {e : MsgEntry} (c : ApiCall) (hrm : ¬ c.removes n)
    (hr : ¬ c.Renews env n a e.date) (i : Nat) (w : World Store K) (hw : Peer.latestAc (w.log (peerHead n a)) = some e) :
    Peer.latestAc ((runFor Store.impl O i (c.prog env) w).log (peerHead n a)) = some e := by
  have hcol := colon_not_mem_of_isalnum hn
  -- updates which do not concern the address, or are older
  have step : ∀ {A : Act → Prop} {α : Type} {p : Prog α}, Safe A p →
      (∀ act, A act → act ≠ .removeAccount n ∧ act ≠ .wipe ∧ (∀ m ad u, act = .msg m ad u → env.isalnum m = true ∧ (m = n → ad = a → u.date < e.date))) →
      Peer.latestAc ((runFor Store.impl O i p w).log (peerHead n a)) = some e := by
    intro A α p hp hA
    refine hp.respects_killed (R := fun w w' => Peer.latestAc (w.log (peerHead n a)) = some e → Peer.latestAc (w'.log (peerHead n a)) = some e)
      (fun _ _ _ h1 h2 h => h2 (h1 h)) (fun w w' hs _ _ _ h => by simp only [World.log] at h ⊢; rw [hs]; exact h) ?_ i w hw
    intro act hact w hI
    obtain ⟨h1, h2, h3⟩ := hA act hact
    simp only [World.log] at hI ⊢
    rw [get_act]
    cases act with
    | msg m ad u =>
      dsimp only; split
      · rename_i heq
        obtain ⟨rfl, rfl⟩ := (peerHead_inj hcol (colon_not_mem_of_isalnum (h3 m ad u rfl).1)).mp heq
        rw [Peer.applyMsg_older hI ((h3 _ _ u rfl).2 rfl rfl)]; exact hI
      · exact hI
    | gossip m ad u =>
      dsimp only; split
      · rw [Peer.latestAc_applyGossip]; exact hI
      · exact hI
    | cfg m c => dsimp only; rw [if_neg (ownHead_ne_peerHead _ _ _).symm]; exact hI
    | keygen m c => dsimp only; rw [if_neg (ownHead_ne_peerHead _ _ _).symm]; exact hI
    | oob m c => dsimp only; rw [if_neg (oobHead_ne_peerHead _ _ _).symm]; exact hI
    | setVersion => dsimp only; rw [if_neg (fun h => (managerHead_ne_peerHead _ _).symm h.1)]; exact hI
    | removeAccount m =>
      dsimp only
      rw [matchAccount_peerHead hcol, if_neg]
      · exact hI
      · simp only [decide_eq_true_eq]; rintro rfl; exact h1 rfl
    | wipe => exact absurd rfl h2
  -- calls whose updates of this peer are older
  have call : (∀ act, c.acts env act → ∀ ad u, act = .msg n ad u → ad = a → u.date < e.date) →
      Peer.latestAc ((runFor Store.impl O i (c.prog env) w).log (peerHead n a)) = some e := by
    intro h
    refine step (safe_call env c) fun act hact => ?_
    obtain ⟨h1, h2⟩ := act_of_call hact
    refine ⟨?_, ?_, fun m ad u hm => ⟨(isalnum_of_act hact).1 m ad u hm, fun hmn => h act hact ad u (by rw [hm, hmn])⟩⟩
    · rintro rfl; exact hrm (.inl (h1 _ rfl))
    · rintro rfl; exact hrm (.inr (h2 rfl))
  cases c with
  | processIncoming n' m i' nd =>
    have hr' : n' = n → senderAddr env m = a → ∀ d, DateOf env m d → d < e.date := by
      intro h1 h2 d hd
      exact Int.not_le.mp fun hle => hr ⟨h1, h2, d, hd, hle⟩
    by_cases hal : env.isalnum n' = true
    · show Peer.latestAc ((runFor Store.impl O i (onAccount env n' (Account.processIncoming env n' m i' nd)) w).log (peerHead n a)) = some e
      rcases runFor_onAccount (O := O) (env := env) (n := n') (Account.processIncoming env n' m i' nd) i w with h1 | h1 <;> rw [h1]
      · exact hw
      refine step (safe_processIncoming_dated env n' m i' nd) ?_
      rintro act ⟨d, t, hd, ht, ha | ⟨dec, -, ha⟩⟩
      · cases act <;> simp only [Account.HeaderAct] at ha
        obtain ⟨rfl, h2, h3, h4, -⟩ := ha
        refine ⟨by simp, by simp, ?_⟩
        rintro _ _ _ ⟨⟩
        refine ⟨hal, fun hmn had => ?_⟩
        have := hr' hmn (by rw [← had, h2]; rfl) d hd
        omega
      · cases act <;> simp only [Account.GossipAct] at ha
        exact ⟨by simp, by simp, by simp⟩
    · refine call fun act hact => absurd hact.1 hal
  | importKey n' x k p =>
    have : ¬ (ApiCall.importKey n' x k p).Informs O env n a := by
      cases x with
      | none => exact hr
      | some x => exact hr
    rw [(call_frame O hn _ i w).2 a (by simp [ApiCall.Sets]) this]; exact hw
  | peerMsg n' x u =>
    refine call ?_
    rintro act ⟨-, rfl⟩ ad u' h1 h2
    cases h1
    exact Int.not_le.mp fun hle => hr ⟨rfl, h2.symm, hle⟩
  | _ =>
    refine call fun act hact ad u hm => ?_
    subst hm
    simp_all [ApiCall.acts, InitAct, OwnAct, CfgAct]

/-- C141, the newest key lasts: as long as the account is not removed and nothing which counts as new at the date of the peer's newest key is
done for the peer, this key stays the newest one, whatever else happens: older mail of the peer, forged or not, delivered late or
once more, and gossip about the peer. -/
theorem C141_lasts {O : Oracle K} {env : Env} {n a : Str} (hn : env.isalnum n = true) {hist : List (Happening K)} {e : MsgEntry}
    (h : ∀ c ∈ callsMade hist, ¬ c.removes n ∧ ¬ c.Renews env n a e.date) {w : World Store K}
    (hw : Peer.latestAc (w.log (peerHead n a)) = some e) :
    Peer.latestAc ((runHistory Store.impl O env hist w).log (peerHead n a)) = some e :=
  runHistory_ind (P := fun w => Peer.latestAc (w.log (peerHead n a)) = some e) hist
    (fun _ _ ⟨hs, _⟩ he => by simp only [World.log] at he ⊢; rw [hs]; exact he)
    (fun c hc i w1 he => call_keeps O hn c (h c hc).1 (h c hc).2 i w1 he) w hw

/-- C141, the newest key is the one mail is encrypted to: as in `C141_lasts`, and then a mail is sent. If gpg is run for it with anything to
encrypt, then for each recipient with the address `a` it is given the handle of the newest key, and no other. -/
theorem C141_used {O : Oracle K} {env : Env} {n a : Str} (hn : env.isalnum n = true) {hist : List (Happening K)} {e : MsgEntry}
    (h : ∀ c ∈ callsMade hist, ¬ c.removes n ∧ ¬ c.Renews env n a e.date) {w : World Store K}
    (hw : Newest Entry.IsKeyMsg (w.log (peerHead n a)) (.msg e)) (hh : e.keyhandle ≠ []) {w1 w2 : World Store K}
    (hw1 : w1 = runHistory Store.impl O env hist w) {m : Msg} {r : Except Exc Account.OutgoingResult}
    (ho : exec O (Account.processOutgoing env n m) w1 = (r, w2)) {new : List Event} (hnew : w2.trace = new ++ w1.trace) {argv : List Str}
    {data : Bytes} {ret : Except Exc GpgOut} (hev : Event.gpg argv (some data) ret ∈ new) :
    ∃ f khs own, m.getAll (str!"From") = [f] ∧ EncryptArgs khs own argv ∧
      List.Forall₂ (fun x kh => address env (some x) = a → kh = e.keyhandle)
        ((encryptTo env m (address env (some f))).map fun x => address env (some x)) khs := by
  obtain ⟨f, khs, own, h1, -, h2, h3⟩ := C37_outgoing O env w1 w2 n m r ho new hnew argv data ret hev
  refine ⟨f, khs, own, h1, h2, h3.imp ?_⟩
  intro x kh hx ha
  have he := latestAc_iff.1 (C141_lasts (O := O) hn h (latestAc_iff.2 hw))
  rw [← hw1, ← ha] at he
  have hu : UsableKey (peerLog env w1 n x) e := ⟨he, hh⟩
  rcases hx with ⟨kd, ⟨m', h4, rfl, -⟩ | ⟨h4, -⟩⟩ | ⟨h4, -⟩
  · have := h4.1.unique hu.1
    cases this
    rfl
  · exact absurd ⟨e, hu⟩ h4
  · exact absurd (.inl ⟨e, hu⟩) h4

/-- C141, the part that holds: anything was done before, without dates given directly, in particular any mail was processed, forged ones
as well. Then a mail from the peer with a key is processed without error; its date is after all times at which something was done before. Then
anything is done except removing the account and what may bring a newer key. Then the key of the mail is the one which is used: it is the peer's
direct key, with the handle under which gpg imported it, and the preference is that of the mail.

Missing, and false (`C141_refuted`): the mail is processed in any case. If a forged mail has the same Message-Id then it is skipped as known. -/
theorem C141_heals_partial {O : Oracle K} {env : Env} {n a : Str} (hn : env.isalnum n = true) {before after : List (Happening K)}
    {clock : Nat → Time} {k0 : K} {w w1 w2 : World Store K} (hbefore : ∀ c ∈ callsMade before, ¬ c.setsDate)
    (hw : w = runHistory Store.impl O env before { store := [], clock, tick := 0, env := k0, trace := [] })
    {m : Msg} {k : Bytes} {pe : PE} (hc : CarriesKey env m a k pe) {t : Time} (ht : EffectiveDate env w m t)
    (hlate : ∀ i < w.tick, clock i < t) (hpos : 0 < t) {i nd : Bool} {res : Account.IncomingResult}
    (h : exec O (Account.processIncoming env n m i nd) w = (.ok (some res), w1)) (herr : res.pah.error = none)
    (hafter : ∀ c ∈ callsMade after, ¬ c.removes n ∧ ¬ c.Renews env n a t) (hw2 : w2 = runHistory Store.impl O env after w1)
    {es : List Entry} (hes : es = w2.log (peerHead n a)) :
    Peer.hasDirectKey es = true ∧ Peer.publicKeydata es = k ∧ Peer.preferEncrypt es = pe.toStr ∧
      ImportedKey env w w1 k (Peer.publicKeyhandle es) := by
  have hreach : Reachable O env w := ⟨clock, k0, before, hw⟩
  have hold : Peer.acTimestamp (w.log (peerHead n a)) < t := by
    unfold Peer.acTimestamp
    cases hl : Peer.latestAc (w.log (peerHead n a)) with
    | none => exact hpos
    | some e =>
      obtain ⟨j, hj, hle⟩ := C18_no_future_dates O env before hbefore clock k0 w hw (peerHead n a) (.msg e) e.date
        (Peer.latestAc_mem hl) rfl
      exact Int.lt_of_le_of_lt hle (hlate j hj)
  obtain ⟨-, -, ⟨e, h1, -, -, h2, h3, h4⟩, h5, -⟩ := C77_newer_key hreach h hc ht hold rfl
  obtain ⟨h6, h7, h8, h9⟩ := h5 herr
  have h10 : Peer.latestAc es = some e := by
    rw [hes, hw2]; exact C141_lasts hn (by rw [h2]; exact hafter) h1
  have hne : e.keyhandle ≠ [] := by
    unfold Peer.hasDirectKey at h6
    rw [h1] at h6
    simpa using h6
  have s1 := Peer.shown_of_latestAc h1 hne
  have s2 := Peer.shown_of_latestAc h10 hne
  rw [← s1] at s2
  simp only [Peer.shown, Prod.mk.injEq] at s2
  refine ⟨?_, s2.2.1.trans h7, s2.2.2.trans h8, by rw [s2.1]; exact h9⟩
  unfold Peer.hasDirectKey
  rw [h10]
  simpa using hne

section
open Concrete

/-- a forged mail with a key is processed for a new account -/
def forgedFirst : List (Happening Unit) := [.call addA, .call (.processIncoming (str!"a") (mail bob (str!"1") (str!"100") [8]) false false)]

/-- the state after it; the clock goes on a thousand seconds each time it is read -/
def afterForged : World Store Unit :=
  runHistory Store.impl oracle Concrete.env forgedFirst { store := [], clock := fun i => sec (1000 * i + 1000), tick := 0, env := (), trace := [] }

/-- the mail which Bob wrote afterwards; its Message-Id may be that of the forged one -/
def bobWrote (id : Str) : Msg := mail bob id (str!"5500") [7]

theorem bobWrote_carries {id : Str} (h : id = str!"1" ∨ id = str!"2") : CarriesKey Concrete.env (bobWrote id) bob [7] .nopreference := by
  rcases h with rfl | rfl <;>
  exact bob_carries _ _ _ (r := _) rfl (by decide +kernel) (by decide +kernel) (by decide +kernel) (by decide +kernel)

/-- C141 is false of the code: a forged mail with Bob's address and the Message-Id of the mail which Bob sends afterwards is processed first. Then
Bob's mail is skipped as already known, and the forged key stays in use. -/
theorem C141_refuted : ∃ (before : List (Happening Unit)) (clock : Nat → Time) (w : World Store Unit) (m : Msg) (t : Time),
    (∀ c ∈ callsMade before, ¬ c.setsDate) ∧
    w = runHistory Store.impl oracle Concrete.env before { store := [], clock, tick := 0, env := (), trace := [] } ∧
    CarriesKey Concrete.env m bob [7] .nopreference ∧ EffectiveDate Concrete.env w m t ∧ (∀ i < w.tick, clock i < t) ∧ 0 < t ∧
    (exec oracle (Account.processIncoming Concrete.env (str!"a") m true false) w).1.toOption.map Option.isSome = some false ∧
    Peer.publicKeydata (bobs (exec oracle (Account.processIncoming Concrete.env (str!"a") m true false) w).2) = [8] := by
  refine ⟨forgedFirst, _, afterForged, bobWrote (str!"1"), sec 5500, ?_, rfl, bobWrote_carries (.inl rfl),
    ⟨sec 5500, .inl rfl, by decide +kernel⟩, by decide +kernel, by decide +kernel, by decide +kernel, by decide +kernel⟩
  rintro c ⟨h, hm, hc⟩
  simp only [forgedFirst, List.mem_cons, List.not_mem_nil, or_false] at hm
  rcases hm with rfl | rfl <;> cases hc <;> simp [ApiCall.setsDate, addA]

/-- an instance of the hypotheses of `C141_heals_partial`: with another Message-Id Bob's mail is processed without error; afterwards another forged mail
arrives which is dated before it. Before Bob's mail the forged key is in use. -/
example : Peer.publicKeydata (bobs afterForged) = [8] ∧ CarriesKey Concrete.env (bobWrote (str!"2")) bob [7] .nopreference ∧
    EffectiveDate Concrete.env afterForged (bobWrote (str!"2")) (sec 5500) ∧ (∀ i < afterForged.tick, afterForged.clock i < sec 5500) ∧
    (exec oracle (Account.processIncoming Concrete.env (str!"a") (bobWrote (str!"2")) true false) afterForged).1.toOption.map (·.map (·.pah.error)) =
      some (some none) ∧
    ¬ (ApiCall.processIncoming (str!"a") (mail bob (str!"3") (str!"5400") [9]) true false).Renews Concrete.env (str!"a") bob (sec 5500) := by
  refine ⟨by decide +kernel, bobWrote_carries (.inr rfl), ⟨sec 5500, .inl rfl, by decide +kernel⟩, by decide +kernel, by decide +kernel, ?_⟩
  rintro ⟨-, -, d, hd, hle⟩
  have h1 : DateOf Concrete.env (mail bob (str!"3") (str!"5400") [9]) (sec 5400) := .inl rfl
  rw [hd.unique h1] at hle
  exact absurd hle (by decide +kernel)

/-- an instance of the hypotheses of `C141_lasts`: Bob has a newest key, and the mail dated before it does not count as new -/
example : (Peer.latestAc (afterForged.log (peerHead (str!"a") bob))).map (·.date) = some (sec 100) ∧
    ¬ (ApiCall.processIncoming (str!"a") (mail bob (str!"3") (str!"99") [9]) true false).Renews Concrete.env (str!"a") bob (sec 100) := by
  refine ⟨by decide +kernel, ?_⟩
  rintro ⟨-, -, d, hd, hle⟩
  have h1 : DateOf Concrete.env (mail bob (str!"3") (str!"99") [9]) (sec 99) := .inl rfl
  rw [hd.unique h1] at hle
  exact absurd hle (by decide +kernel)

/-- an instance of the hypotheses of `C141_used`, with nothing done before the mail is sent: Bob's newest key has a handle, Bob is a recipient, and
gpg is run to encrypt -/
example : (Peer.latestAc (recWorld.log (peerHead (str!"a") bob))).map (·.keyhandle.length) = some 16 ∧
    bob ∈ encryptTo Concrete.env (letter (str!"yes")) (str!"a@x.org") ∧ (gpgInputs (sent (str!"yes")).2.trace).isEmpty = false := by
  decide +kernel

end

end Verif
