import Verif.Props.Devices
import Verif.Props.PeerHistory
import Verif.Props.Cmdline

/-!
C15 for messages (`account.py:469-527`): a message which carries a key and is processed a second time, after whatever else was done in
between, changes no log. `C15_reprocessing_partial` in `Props/PeerHistory.lean` says this of the updates of a peer.
-/

namespace Verif
open Mime

variable {K : Type}

/-- what an update leaves behind, as long as no other update with its id is reported and the account is not removed -/
theorem settled_history {O : Oracle K} {env : Env} {n a : Str} (hn : env.isalnum n = true) {u : Peer.MsgUpdate}
    {hist : List (Happening K)} (hrm : ∀ c ∈ callsMade hist, ¬ c.removes n) (hid : ∀ c ∈ callsMade hist, ¬ c.reports n u.msgId)
    {w : World Store K} (h : Peer.Settled u (w.log (peerHead n a))) :
    Peer.Settled u ((runHistory Store.impl O env hist w).log (peerHead n a)) := by
  refine peerLog_invariant O env hist n a hn hrm (Peer.Settled u) ?_ ?_ w h
  · rintro es v ⟨c, hc, hrep⟩ (h | h)
    · left; have := Peer.acTimestamp_applyMsg es v; omega
    · right
      have hne : v.msgId ≠ u.msgId := fun heq => hid c hc (by rw [← heq]; exact hrep)
      unfold Peer.isRecorded at h ⊢
      rw [Peer.getMessageEntry_applyMsg hne]; exact h
  · rintro es v ⟨c, hc, hrep⟩ (h | h)
    · left; rw [Peer.acTimestamp_applyGossip]; exact h
    · right
      unfold Peer.isRecorded at h ⊢
      rw [Peer.getMessageEntry_applyGossip]; exact h

theorem settled_applyMsg {es : List Entry} {u : Peer.MsgUpdate} {pe : PE} {k : Bytes} {kh : Str} (hk : k ≠ [])
    (h1 : u.keydata = some k) (h2 : u.pe = some pe.toStr) (h3 : u.keyhandle = some kh) : Peer.Settled u (Peer.applyMsg es u) := by
  by_cases d1 : u.date < Peer.acTimestamp es
  · left; have := Peer.acTimestamp_applyMsg es u; omega
  by_cases d2 : Peer.isRecorded es u = true
  · right
    have : Peer.applyMsg es u = es := by unfold Peer.applyMsg Peer.updateEntry; simp [d1, d2]
    rw [this]; exact d2
  · right
    obtain ⟨id, date, upe, ukd, ukh⟩ := u
    cases h1; cases h2; cases h3
    have hnk : Peer.noKey (some k) = false := by simpa [Peer.noKey] using hk
    have hpe : Peer.peArg (some pe.toStr) = .ok pe := peArg_ok.mpr rfl
    have : Peer.applyMsg es ⟨id, date, some pe.toStr, some k, some kh⟩ = .msg ⟨id, date, pe, k, kh⟩ :: es := by
      unfold Peer.applyMsg Peer.updateEntry
      simp only [d1, d2, hnk, hpe, if_false, Bool.false_eq_true]
      rfl
    rw [this]
    simp [Peer.isRecorded, Peer.getMessageEntry, Peer.sameMsg]

theorem settled_gossips {u : Peer.MsgUpdate} : ∀ {gs : List PeerEvent} {es : List Entry}, (∀ e ∈ gs, ∃ g, e = .gossip g) →
    Peer.Settled u es → Peer.Settled u (gs.foldl PeerEvent.apply es)
  | [], _, _, h => h
  | e :: gs, es, hg, h => by
    obtain ⟨g, rfl⟩ := hg e (by simp)
    refine settled_gossips (es := Peer.applyGossip es g) (fun e he => hg e (by simp [he])) ?_
    rcases h with h | h
    · left; rw [Peer.acTimestamp_applyGossip]; exact h
    · right
      unfold Peer.isRecorded at h ⊢
      rw [Peer.getMessageEntry_applyGossip]; exact h

theorem Peer.Settled.applyMsg {u : Peer.MsgUpdate} {es : List Entry} (h : Peer.Settled u es) : Peer.applyMsg es u = es := by
  have : Peer.updateEntry es u = .ok none := by
    unfold Peer.updateEntry
    rcases h with h | h
    · rw [if_pos h]
    · rw [if_pos h]; split <;> rfl
  unfold Peer.applyMsg; rw [this]

/-- C15 for messages: a message which carries a key and is not from the future was processed without error; then anything was done
except removing the account and reporting another message with the same Message-Id; then the message is processed again, without
decrypting it and without error, and gpg names the same key as the first time. Then no log changes at all.

Missing, and false: messages whose key cannot be imported, messages from the future, and messages without a key
(`C15_refuted_failed_import`, `C15_refuted_future_date`, `C15_refuted_no_key`). For gossip in encrypted messages see
`C15_reprocessing_gossip_partial`. -/
theorem C15_mail_partial {O : Oracle K} {env : Env} {n : Str} (hn : env.isalnum n = true) {m : Msg} {k : Bytes} {pe : PE}
    (hc : CarriesKey env m (senderAddr env m) k pe)
    {i nd i' nd' : Bool} {w w1 w2 w3 : World Store K} {res res' : Account.IncomingResult}
    (h1 : exec O (Account.processIncoming env n m i nd) w = (.ok (some res), w1)) (herr : res.pah.error = none)
    {hist : List (Happening K)} (hrm : ∀ c ∈ callsMade hist, ¬ c.removes n) (hid : ∀ c ∈ callsMade hist, ¬ c.reports n (mailId m))
    (hw2 : w2 = runHistory Store.impl O env hist w1)
    (h2 : exec O (Account.processIncoming env n m i' nd') w2 = (.ok (some res'), w3)) (herr' : res'.pah.error = none)
    (hplain : nd' = true ∨ ¬ PgpMime m)
    (hpast : ∀ d, DateOf env m d → d ≤ w.clock w.tick ∧ d ≤ w2.clock w2.tick)
    (hgpg : ∀ kh kh', ImportedKey env w w1 k kh → ImportedKey env w2 w3 k kh' → kh = kh') :
    ∀ hd, w3.log hd = w2.log hd := by
  have hnog : ∀ {u : Peer.GossipUpdate} {P : Prop}, (nd' = false ∧ isEncrypted m = .ok true ∧ P) → False := by
    rintro _ _ ⟨e1, e2, -⟩
    rcases hplain with e | e
    · rw [e] at e1; cases e1
    · exact e (pgpMime_iff.mpr e2)
  have hother : ∀ b, senderAddr env m ≠ b → w3.log (peerHead n b) = w2.log (peerHead n b) := by
    intro b hb
    obtain ⟨evs, f1, f2, f3, -⟩ := incoming_fold h2 b
    have : evs = [] := by
      cases evs with
      | nil => rfl
      | cons e evs =>
        cases e with
        | msg u => obtain ⟨t, -, ⟨e, -⟩⟩ := f2 u (by simp); exact absurd e hb
        | gossip u => exact (hnog (u := u) (f3 u (by simp))).elim
    rw [f1, this]; rfl
  have hsender : w3.log (peerHead n (senderAddr env m)) = w2.log (peerHead n (senderAddr env m)) := by
    obtain ⟨evs, f1, f2, -, f4⟩ := incoming_fold h1 (senderAddr env m)
    obtain ⟨u, gs, rfl, hg, hh, -⟩ := f4 res rfl rfl
    obtain ⟨kh, hkh, him⟩ := hh herr
    obtain ⟨t, ⟨d, hd, rfl⟩, hu⟩ := f2 u (by simp)
    obtain ⟨k1, k2⟩ := hu.key hc
    rw [k1] at him
    obtain ⟨evs', g1, g2, g3, g4⟩ := incoming_fold h2 (senderAddr env m)
    obtain ⟨u', gs', rfl, hg', hh', -⟩ := g4 res' rfl rfl
    obtain ⟨kh', hkh', him'⟩ := hh' herr'
    obtain ⟨t', ⟨d', hd', rfl⟩, hu'⟩ := g2 u' (by simp)
    obtain ⟨k1', k2'⟩ := hu'.key hc
    rw [k1'] at him'
    have hgs' : gs' = [] := by
      cases gs' with
      | nil => rfl
      | cons e evs =>
        obtain ⟨g, rfl⟩ := hg' e (by simp)
        exact (hnog (u := g) (g3 g (by simp))).elim
    have hdd : d' = d := hd'.unique hd
    subst hdd
    have hkk : kh = kh' := hgpg _ _ him him'
    have huu : u' = u := by
      obtain ⟨-, i1, i2, -⟩ := hu
      obtain ⟨-, j1, j2, -⟩ := hu'
      obtain ⟨p1, p2⟩ := hpast _ hd
      rw [Int.min_eq_left p1] at i2
      rw [Int.min_eq_left p2] at j2
      obtain ⟨id, date, upe, ukd, ukh⟩ := u
      obtain ⟨id', date', upe', ukd', ukh'⟩ := u'
      simp only at i1 i2 j1 j2 k1 k2 k1' k2' hkh hkh'
      subst i1 i2 j1 j2 k1 k2 k1' k2' hkh hkh' hkk
      rfl
    subst huu
    rw [g1, hgs', List.foldl_cons, List.foldl_nil]
    refine Peer.Settled.applyMsg ?_
    rw [hw2]
    refine settled_history hn hrm (by rw [hu.2.1]; exact hid) ?_
    rw [f1, List.foldl_cons]
    exact settled_gossips hg (settled_applyMsg hc.2.1 k1 k2 hkh)
  intro hd
  by_cases hp : ∃ p, hd = peerHead n p
  · obtain ⟨p, rfl⟩ := hp
    by_cases hs : senderAddr env m = p
    · rw [← hs]; exact hsender
    · exact hother p hs
  · have := incoming_frame (O := O) (env := env) (n := n) (m := m) (i := i') (nd := nd') w2 hd (fun p e => hp ⟨p, e⟩)
    rw [h2] at this
    exact this

/-! ## An example -/

/-- the key which gpg names when it imports this key data -/
def importNames (env : Env) (k : Bytes) : Event → List Str
  | ⟨.gpg _ (some d), .ok out⟩ => if d = k then ((env.utf8Decode out.err).toOption.bind BinGPG.searchKey).toList else []
  | _ => []

theorem ImportedKey.named {env : Env} {w w' : World Store K} {k : Bytes} {kh x : Str} (h : ImportedKey env w w' k kh)
    (hx : (w'.trace.take (w'.trace.length - w.trace.length)).flatMap (importNames env k) = [x]) (hl : 8 < x.length) : kh = x := by
  obtain ⟨new, argv, out, text, y, h1, h2, -, -, h3, h4, h5⟩ := h
  have : y ∈ (w'.trace.take (w'.trace.length - w.trace.length)).flatMap (importNames env k) := by
    rw [h1]
    simp only [List.length_append, Nat.add_sub_cancel, List.take_left']
    refine List.mem_flatMap.mpr ⟨_, h2, ?_⟩
    simp [importNames, Event.gpg, h3, Except.toOption, (C60_search _ _).mpr h4]
  rw [hx, List.mem_singleton] at this
  subst this
  rcases h5 with ⟨-, rfl⟩ | ⟨h5, -⟩
  · rfl
  · omega

section
open Concrete

/-- the device has got Bob's second mail, then the first one, and gets the second one again -/
example : CarriesKey Concrete.env bob2 (senderAddr Concrete.env bob2) [8] .nopreference ∧
    (∃ res w1 res' w3, exec oracle (Account.processIncoming Concrete.env (str!"a") bob2 false false) (device []) = (.ok (some res), w1) ∧
      res.pah.error = none ∧
      exec oracle (Account.processIncoming Concrete.env (str!"a") bob2 false false)
        (runHistory Store.impl oracle Concrete.env [.call (.processIncoming (str!"a") bob1 false false)] w1) = (.ok (some res'), w3) ∧
      res'.pah.error = none ∧
      ∀ kh kh', ImportedKey Concrete.env (device []) w1 [8] kh → ImportedKey Concrete.env
        (runHistory Store.impl oracle Concrete.env [.call (.processIncoming (str!"a") bob1 false false)] w1) w3 [8] kh' → kh = kh') ∧
    (∀ c ∈ callsMade [(.call (.processIncoming (str!"a") bob1 false false) : Happening Unit)], ¬ c.removes (str!"a") ∧
      ¬ c.reports (str!"a") (mailId bob2)) ∧ ¬ PgpMime bob2 := by
  refine ⟨?_, ?_, ?_, by rw [pgpMime_iff]; decide +kernel⟩
  · rw [show senderAddr Concrete.env bob2 = bob by decide +kernel]; exact bob2_carries
  · have hx : ∀ {w : World Store Unit}, ((exec oracle (Account.processIncoming Concrete.env (str!"a") bob2 false false) w).1.toOption.map
        (·.map (·.pah.error)) = some (some none)) → ∃ res, exec oracle (Account.processIncoming Concrete.env (str!"a") bob2 false false) w =
        (.ok (some res), (exec oracle (Account.processIncoming Concrete.env (str!"a") bob2 false false) w).2) ∧ res.pah.error = none := by
      intro w h1
      cases hx : (exec oracle (Account.processIncoming Concrete.env (str!"a") bob2 false false) w).1 with
      | error e => rw [hx] at h1; cases h1
      | ok o =>
        cases o with
        | none => rw [hx] at h1; cases h1
        | some res => rw [hx] at h1; exact ⟨res, Prod.ext hx rfl, by simpa [Except.toOption] using h1⟩
    obtain ⟨res, h1, h2⟩ := hx (w := device []) (by decide +kernel)
    obtain ⟨res', h3, h4⟩ := hx (w := runHistory Store.impl oracle Concrete.env [.call (.processIncoming (str!"a") bob1 false false)]
      (exec oracle (Account.processIncoming Concrete.env (str!"a") bob2 false false) (device [])).2) (by decide +kernel)
    refine ⟨res, _, res', _, h1, h2, h3, h4, fun kh kh' i1 i2 => ?_⟩
    rw [i1.named (x := str!"AAAAAAAAAAAA08") (by decide +kernel) (by decide +kernel),
      i2.named (x := str!"AAAAAAAAAAAA08") (by decide +kernel) (by decide +kernel)]
  · intro c hc
    obtain ⟨h, hm, hc⟩ := hc
    cases List.mem_singleton.mp hm
    cases hc
    exact ⟨by simp [ApiCall.removes], by simp only [ApiCall.reports]; decide +kernel⟩

end

end Verif
