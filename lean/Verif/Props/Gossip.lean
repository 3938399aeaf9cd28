import Verif.Props.EncryptCourse
import Verif.Props.Message
/-!
# Gossip which is recorded: C81

The other direction of C22: the gossip of a decrypted message which has to be recorded is recorded.
-/
namespace Verif
open Mime

variable {K : Type}

theorem LastOne.unique {α : Type} {P : α → Prop} {l : List α} {x y : α} (hx : LastOne P l x) (hy : LastOne P l y) : x = y := by
  obtain ⟨a, b, h1, hp, hb⟩ := hx
  obtain ⟨c, d, h2, hq, hd⟩ := hy
  rw [h1, List.append_eq_append_iff] at h2
  rcases h2 with ⟨t, h3, h4⟩ | ⟨t, h3, h4⟩
  · cases t with
    | nil => cases h4; rfl
    | cons z t => simp only [List.cons_append, List.cons.injEq] at h4; exact absurd hq (hb y (by rw [h4.2]; simp))
  · cases t with
    | nil => cases h4; rfl
    | cons z t => simp only [List.cons_append, List.cons.injEq] at h4; exact absurd hp (hd x (by rw [h4.2]; simp))

theorem LastOne.exists_of_mem {α : Type} {P : α → Prop} {l : List α} (h : ∃ x ∈ l, P x) : ∃ x, LastOne P l x := by
  induction l with
  | nil => obtain ⟨x, hx, _⟩ := h; cases hx
  | cons y l ih =>
    by_cases hl : ∃ x ∈ l, P x
    · obtain ⟨x, a, b, h1, h2⟩ := ih hl
      exact ⟨x, y :: a, b, by rw [h1]; rfl, h2⟩
    · obtain ⟨x, hx, hp⟩ := h
      rcases List.mem_cons.mp hx with rfl | hx
      · exact ⟨x, [], l, rfl, hp, fun z hz hpz => hl ⟨z, hz, hpz⟩⟩
      · exact absurd ⟨x, hx, hp⟩ hl

theorem collectGossip_some {env : Env} {vs : List Str} {d d' : List (Str × ACResult)} (h : collectGossip env d vs = .ok d') (a : Str)
    (ha : (dictGet d a).isSome = true ∨ ∃ v ∈ vs, ∃ r, ValidFor env a v r) : (dictGet d' a).isSome = true := by
  induction vs generalizing d with
  | nil =>
    cases h
    rcases ha with ha | ⟨v, hv, _⟩
    · exact ha
    · cases hv
  | cons v vs ih =>
    simp only [collectGossip] at h
    split at h
    · cases h
    · rename_i r0 hr0
      split at h
      · apply ih h
        rw [dictGet_dictSet]
        split
        · exact .inl rfl
        · rename_i hne
          rcases ha with ha | ⟨v', hv', r, hr⟩
          · exact .inl ha
          · rcases List.mem_cons.mp hv' with rfl | hv'
            · rw [ValidFor, hr0] at hr
              obtain ⟨h1, _, h3⟩ := hr
              cases h1
              rw [h3] at hne; exact absurd rfl hne
            · exact .inr ⟨v', hv', r, hr⟩
      · rename_i hne
        apply ih h
        rcases ha with ha | ⟨v', hv', r, hr⟩
        · exact .inl ha
        · rcases List.mem_cons.mp hv' with rfl | hv'
          · rw [ValidFor, hr0] at hr
            obtain ⟨h1, h2, _⟩ := hr
            cases h1
            rw [h2] at hne; exact absurd rfl hne
          · exact .inr ⟨v', hv', r, hr⟩

/-- the last valid header for an address is in the dictionary -/
theorem collectGossip_last {env : Env} {vs : List Str} {d' : List (Str × ACResult)} (h : collectGossip env [] vs = .ok d') {a v : Str}
    {r : ACResult} (hl : LastOne (fun v => ∃ r, ValidFor env a v r) vs v) (hv : ValidFor env a v r) : dictGet d' a = some r := by
  have hmem : v ∈ vs := by obtain ⟨p, q, h1, _⟩ := hl; rw [h1]; simp
  obtain ⟨r', hr'⟩ := Option.isSome_iff_exists.mp (collectGossip_some h a (.inr ⟨v, hmem, r, hv⟩))
  rcases collectGossip_get h a r' hr' with ⟨h1, _⟩ | ⟨v', h1, h2⟩
  · cases h1
  · cases h1.unique hl
    have := h2.1.symm.trans hv.1
    cases this
    exact hr'

/-- one update from gossip which succeeds -/
theorem gossip_step {O : Oracle K} {head id : Str} {t : Time} {k : Bytes} {kh : Option Str} {w w' : World Store K}
    (h : exec O (Peer.updateFromGossip head ⟨id, t, some k, kh⟩) w = (.ok (), w')) (ht : Peer.acTimestamp (w.log head) ≤ t) :
    ∃ g : GossipEntry, g.msgId = id ∧ g.date = t ∧ g.keydata = k ∧ kh = some g.keyhandle ∧
      (w'.log head = .gossip g :: w.log head ∨ w'.log head = w.log head ∧ Peer.getGossipEntry (w.log head) id = some g) := by
  have hget := Peer.get_updateFromGossip O head head ⟨id, t, some k, kh⟩ w
  rw [h, if_pos rfl] at hget
  rw [Peer.exec_updateFromGossip] at h
  have hnot : ¬ t < Peer.acTimestamp (w.store.get head) := by unfold World.log at ht; omega
  unfold World.log
  rw [hget]
  cases hg : Peer.gossipEntry (w.store.get head) ⟨id, t, some k, kh⟩ with
  | error e => rw [hg] at h; cases h
  | ok o =>
    cases o with
    | some e =>
      obtain ⟨_, h2, h3, h4, h5, _⟩ := Peer.gossipEntry_some hg
      refine ⟨e, h2, h3, (Option.some.inj h4).symm, h5, .inl ?_⟩
      rw [Peer.applyGossip, hg]
    | none =>
      unfold Peer.gossipEntry at hg
      rw [if_neg hnot] at hg
      split at hg
      · cases hg
      split at hg
      · rename_i hrec
        unfold Peer.isRecordedGossip at hrec
        split at hrec
        · rename_i e he
          simp only [Bool.and_eq_true, beq_iff_eq] at hrec
          have hid : e.msgId = id := by
            have := List.find?_some he
            simpa using this
          refine ⟨e, hid, hrec.1.1, Option.some.inj hrec.1.2, hrec.2.symm, .inr ⟨?_, he⟩⟩
          unfold Peer.applyGossip Peer.gossipEntry
          rw [if_neg hnot]
          split
          · rename_i h'
            split at h'
            · cases h'
            · rw [if_pos (by unfold Peer.isRecordedGossip; rw [he]; simpa using hrec)] at h'; cases h'
          · rfl
        · cases hrec
      · cases kh <;> cases hg

/-- a gossip entry for the message with this id, date and key, which gpg imported -/
def GossipFor (env : Env) (w w' : World Store K) (id : Str) (t : Time) (k : Bytes) (g : GossipEntry) : Prop :=
  g.msgId = id ∧ g.date = t ∧ g.keydata = k ∧ ImportedKey env w w' k g.keyhandle

theorem GossipFor.extend {env : Env} {w w1 w2 w3 : World Store K} {id : Str} {t : Time} {k : Bytes} {g : GossipEntry}
    (h : GossipFor env w1 w2 id t k g) (h1 : w.trace <:+ w1.trace) (h2 : w2.trace <:+ w3.trace) : GossipFor env w w3 id t k g :=
  ⟨h.1, h.2.1, h.2.2.1, h.2.2.2.extend h1 h2⟩

/-- import and update for one recipient -/
theorem gossip_recipient {O : Oracle K} {env : Env} {n r id : Str} {t : Time} {pah pah' : ACResult} {kh : Option Str}
    {w w1 w2 : World Store K} (h1 : run Store.impl O (Account.importPah env n pah) w = (.ok (kh, pah'), w1))
    (h2 : run Store.impl O (Peer.updateFromGossip (Account.peerHeadOf env n r) ⟨id, t, pah'.keydata, kh⟩) w1 = (.ok (), w2)) :
    (∀ h, h ≠ Account.peerHeadOf env n r → w2.log h = w.log h) ∧
    (∀ h, w.log h <:+ w2.log h ∧ Peer.acTimestamp (w2.log h) = Peer.acTimestamp (w.log h)) ∧
    (∀ k, pah.keydata = some k → Peer.acTimestamp (w.log (Account.peerHeadOf env n r)) ≤ t →
      ∃ g, GossipFor env w w2 id t k g ∧ (w2.log (Account.peerHeadOf env n r) = .gossip g :: w.log (Account.peerHeadOf env n r) ∨
        w2.log (Account.peerHeadOf env n r) = w.log (Account.peerHeadOf env n r) ∧
        Peer.getGossipEntry (w.log (Account.peerHeadOf env n r)) id = some g)) := by
  have hs : w1.store = w.store := by
    have := (run_ro (O := O) (Account.importPah_ops permissive_readOnly env n pah) w).1
    rw [exec, h1] at this; exact this
  have hlog : ∀ h, w1.log h = w.log h := fun h => by unfold World.log; rw [hs]
  have hget : ∀ h, w2.log h = if h = Account.peerHeadOf env n r then
      Peer.applyGossip (w.log (Account.peerHeadOf env n r)) ⟨id, t, pah'.keydata, kh⟩ else w.log h := by
    intro h
    have := Peer.get_updateFromGossip O (Account.peerHeadOf env n r) h ⟨id, t, pah'.keydata, kh⟩ w1
    rw [exec, h2, hs] at this
    exact this
  refine ⟨fun h hne => by rw [hget, if_neg hne], fun h => ?_, fun k hk ht => ?_⟩
  · rw [hget]
    split
    · rename_i hh
      rw [hh]
      rcases Peer.applyGossip_cases (w.log (Account.peerHeadOf env n r)) ⟨id, t, pah'.keydata, kh⟩ with h' | ⟨e, _, h'⟩
      · rw [h']; exact ⟨List.suffix_rfl, rfl⟩
      · rw [h']; exact ⟨List.suffix_cons .., rfl⟩
    · exact ⟨List.suffix_rfl, rfl⟩
  · have hret := (Account.importPah_returns env n pah).of_run h1
    dsimp only at hret
    rw [hret.1, hk] at h2
    obtain ⟨g, g1, g2, g3, g4, g5⟩ := gossip_step (O := O) h2 (by rw [hlog]; exact ht)
    rw [hlog] at g5
    refine ⟨g, ⟨g1, g2, g3, ?_⟩, g5⟩
    have : ImportedKey env w w1 k g.keyhandle := by
      unfold Account.importPah at h1
      simp only [bind_eq, pure_eq] at h1
      obtain ⟨o, w0, i1, i2⟩ := run_bind_ok.mp h1
      cases o with
      | none => cases i2; cases g4
      | some k' =>
        cases i2
        cases g4
        rw [hk] at i1
        exact importKey_ran i1
    exact this.extend List.suffix_rfl (trace_le h2)

theorem gossipLoop_records {O : Oracle K} {env : Env} {n id : Str} {t : Time} {dict pr out : List (Str × ACResult)} {l : List Str}
    {w w' : World Store K} (h : run Store.impl O (Account.gossipLoop env n dict t id pr l) w = (.ok out, w')) :
    (∀ h, w.log h <:+ w'.log h ∧ Peer.acTimestamp (w'.log h) = Peer.acTimestamp (w.log h)) ∧
    ∀ r ∈ l, ∀ pah k, dictGet dict r = some pah → pah.keydata = some k → Peer.acTimestamp (w.log (Account.peerHeadOf env n r)) ≤ t →
      ∃ g, .gossip g ∈ w'.log (Account.peerHeadOf env n r) ∧ GossipFor env w w' id t k g := by
  induction l generalizing pr w with
  | nil => cases h; exact ⟨fun _ => ⟨List.suffix_rfl, rfl⟩, by simp⟩
  | cons r0 rs ih =>
    unfold Account.gossipLoop at h
    split at h
    · rename_i hn
      obtain ⟨i1, i2⟩ := ih h
      refine ⟨i1, fun r hr pah k hp => ?_⟩
      rcases List.mem_cons.mp hr with rfl | hr
      · rw [hn] at hp; cases hp
      · exact i2 r hr pah k hp
    · rename_i pah0 hp0
      simp only [bind_eq] at h
      obtain ⟨⟨kh, pah'⟩, w1, h1, h⟩ := run_bind_ok.mp h
      obtain ⟨⟨⟩, w2, h2, h⟩ := run_bind_ok.mp h
      obtain ⟨g1, g2, g3⟩ := gossip_recipient h1 h2
      obtain ⟨i1, i2⟩ := ih h
      refine ⟨fun x => ⟨(g2 x).1.trans (i1 x).1, (i1 x).2.trans (g2 x).2⟩, fun r hr pah k hp hk ht => ?_⟩
      rcases List.mem_cons.mp hr with rfl | hr
      · rw [hp0] at hp; cases hp
        obtain ⟨g, hg, hor⟩ := g3 k hk ht
        refine ⟨g, (i1 _).1.subset ?_, hg.extend List.suffix_rfl (trace_le h)⟩
        rcases hor with hor | ⟨hor, hf⟩
        · rw [hor]; exact List.mem_cons_self ..
        · rw [hor]
          have := List.mem_of_find?_eq_some hf
          rw [Peer.gossips, List.mem_filterMap] at this
          obtain ⟨x, hx, hxg⟩ := this
          cases x <;> cases hxg
          exact hx
      · obtain ⟨g, hm, hg⟩ := i2 r hr pah k hp hk (by rw [(g2 _).2]; exact ht)
        exact ⟨g, hm, hg.extend ((trace_le h1).trans (trace_le h2)) List.suffix_rfl⟩

/-- no gossip of this message is recorded, or the newest gossip is that of this message -/
def GossipFresh (env : Env) (w0 w : World Store K) (id : Str) (t : Time) (k : Bytes) (es : List Entry) : Prop :=
  (∀ g, .gossip g ∈ es → g.msgId ≠ id) ∨ ∃ g, Newest Entry.IsGossip es (.gossip g) ∧ GossipFor env w0 w id t k g

theorem gossipLoop_newest {O : Oracle K} {env : Env} {n id : Str} {t : Time} {dict pr out : List (Str × ACResult)} {l : List Str}
    {w0 w w' : World Store K} (h : run Store.impl O (Account.gossipLoop env n dict t id pr l) w = (.ok out, w')) {hd : Str} {k : Bytes}
    (hsame : ∀ r ∈ l, ∀ pah, dictGet dict r = some pah → hd = Account.peerHeadOf env n r → pah.keydata = some k)
    (ht : Peer.acTimestamp (w.log hd) ≤ t) (hw0 : w0.trace <:+ w.trace) (hfresh : GossipFresh env w0 w id t k (w.log hd)) :
    GossipFresh env w0 w' id t k (w'.log hd) := by
  induction l generalizing pr w with
  | nil => cases h; exact hfresh
  | cons r0 rs ih =>
    have hs' := fun r hr => hsame r (List.mem_cons_of_mem _ hr)
    unfold Account.gossipLoop at h
    split at h
    · exact ih h hs' ht hw0 hfresh
    · rename_i pah0 hp0
      simp only [bind_eq] at h
      obtain ⟨⟨kh, pah'⟩, w1, h1, h⟩ := run_bind_ok.mp h
      obtain ⟨⟨⟩, w2, h2, h⟩ := run_bind_ok.mp h
      obtain ⟨g1, g2, g3⟩ := gossip_recipient h1 h2
      have htr : w.trace <:+ w2.trace := (trace_le h1).trans (trace_le h2)
      refine ih h hs' (by rw [(g2 _).2]; exact ht) (hw0.trans htr) ?_
      have hkeep : w2.log hd = w.log hd → GossipFresh env w0 w2 id t k (w.log hd) → GossipFresh env w0 w2 id t k (w2.log hd) :=
        fun h' hf => by rw [h']; exact hf
      have hext : (∃ g, Newest Entry.IsGossip (w.log hd) (.gossip g) ∧ GossipFor env w0 w id t k g) →
          ∃ g, Newest Entry.IsGossip (w.log hd) (.gossip g) ∧ GossipFor env w0 w2 id t k g :=
        fun ⟨g, i1, i2⟩ => ⟨g, i1, i2.extend List.suffix_rfl htr⟩
      by_cases hr : hd = Account.peerHeadOf env n r0
      · have hk := hsame r0 (List.mem_cons_self ..) pah0 hp0 hr
        subst hr
        obtain ⟨g, hg, hor⟩ := g3 k hk ht
        rcases hor with hor | ⟨hor, hf⟩
        · right
          exact ⟨g, by rw [hor]; exact ⟨[], _, rfl, ⟨g, rfl⟩, by simp⟩, hg.extend hw0 List.suffix_rfl⟩
        · refine hkeep hor ?_
          rcases hfresh with hno | hyes
          · exfalso
            have := List.mem_of_find?_eq_some hf
            rw [Peer.gossips, List.mem_filterMap] at this
            obtain ⟨x, hx, hxg⟩ := this
            cases x <;> cases hxg
            exact hno g hx hg.1
          · exact .inr (hext hyes)
      · exact hkeep (g1 _ hr) (hfresh.imp_right hext)

/-- C81: an encrypted message is processed, and `process_incoming` returns a result. Then gpg decrypted the message, and for every
recipient of the decrypted message with a valid gossip header: unless the effective date of the message is before the `autocrypt_timestamp`
of this peer, the key of the last such header was imported by gpg and is recorded as gossip from this message.
If no gossip from a message with this id was known, and the header of no other recipient is about the same peer, then this is the newest gossip; if
there is no usable direct key it is the key used for encryption. -/
theorem C81_gossip_recorded {O : Oracle K} {env : Env} {n : Str} {m : Msg} {i : Bool} {w w' : World Store K} {res : Account.IncomingResult}
    (h : exec O (Account.processIncoming env n m i false) w = (.ok (some res), w')) (he : PgpMime m)
    {t : Time} (ht : EffectiveDate env w m t) :
    ∃ dec, DecryptedTo w w' m dec ∧ ∀ r ∈ decRecipients env m dec, ∀ v p k,
      LastOne (fun v => ∃ p, ValidFor env r v p) (innerOuter env m dec (str!"Autocrypt-Gossip")) v → ValidFor env r v p → p.keydata = some k →
      ∀ hd, hd = peerHead n (address env (some r)) → Peer.acTimestamp (w'.log hd) ≤ t →
      (∃ g, .gossip g ∈ w'.log hd ∧ GossipFor env w w' (mailId m) t k g) ∧
      ((∀ g, .gossip g ∈ w.log hd → g.msgId ≠ mailId m) →
       (∀ r' ∈ decRecipients env m dec, address env (some r') = address env (some r) → r' ≠ r →
          ∀ v ∈ innerOuter env m dec (str!"Autocrypt-Gossip"), ∀ p, ¬ ValidFor env r' v p) →
       ∃ g, Newest Entry.IsGossip (w'.log hd) (.gossip g) ∧ GossipFor env w w' (mailId m) t k g ∧
        ((¬ ∃ e, UsableKey (w'.log hd) e) → PeerKey (w'.log hd) g.keyhandle k)) := by
  spec_mail
  simp only [exec, Account.run_processIncoming] at h
  cases hd : parseDateToFloat env (m.get (str!"Date")) with
  | error e => rw [hd] at h; cases h
  | ok d =>
  rw [hd] at h
  dsimp only at h
  have hdate : EffectiveDate env w m (min d (w.clock w.tick)) := ⟨d, parseDateToFloat_ok.mp hd, rfl⟩
  cases hdate.unique ht
  generalize hdef : min d (w.clock w.tick) = t at h hdate
  rcases Account.incomingRest_cases O env n m i false t { w with tick := w.tick + 1 } with hn | ⟨rh, w1, hh, hrest⟩
  · simp only [exec] at hn; rw [hn] at h; cases h
  have htw : w.trace <:+ w1.trace := trace_le (w := { w with tick := w.tick + 1 }) hh
  rcases hrest with ⟨r', w'', hr, hs, _, hne, hres⟩ | ⟨r', w'', dr, w2, rg, w3, pah, hr, hrh, hnd, hie, hdec, hgo, hs, hst, hne, hres⟩
  · simp only [exec] at hr; rw [hr] at h; cases h
    rcases (hres res rfl).2.2 with h' | h'
    · cases h'
    · rw [he] at h'; cases h'
  simp only [exec] at hr; rw [hr] at h; cases h
  obtain ⟨dec, hdm, hdt⟩ := decryptMime_ok hdec
  have ht2 : w1.trace <:+ w2.trace := trace_le hdec
  have ht3 : w2.trace <:+ w3.trace := trace_le hgo
  refine ⟨dec, hdt.mono htw (ht3.trans hst), ?_⟩
  intro r hr' v p k hl hv hk x hx htx
  have hs2 : w2.store = w1.store := by
    have := (run_ro (O := O) (Account.decryptMime_ops permissive_readOnly env n m) w1).1
    rw [hdec] at this; exact this
  rw [(hres res rfl).2] at hgo
  unfold Account.processGossipHeaders at hgo
  simp only [bind_eq, exec] at hgo
  obtain ⟨dict, w2', i1, i2⟩ := run_bind_ok.mp hgo
  rw [run_ofExcept] at i1
  have hdict : getGossipHeadersFromMsg env dr.decMsg = .ok dict := congrArg Prod.fst i1
  have hw2 : w2 = w2' := congrArg Prod.snd i1
  subst hw2
  have hgh : dr.decMsg.getAll (str!"Autocrypt-Gossip") = innerOuter env m dec (str!"Autocrypt-Gossip") := by
    rw [hdm]; exact getAll_transfer _ _ (by decide)
  rw [getGossipHeadersFromMsg, hgh] at hdict
  have htgt : getTargetEmailadr env dr.decMsg = decRecipients env m dec := by
    rw [hdm, getTargetEmailadr, getAll_transfer _ _ (by decide), getAll_transfer _ _ (by decide), decRecipients]
    simp only [innerOuter]
    rw [getAll_congr _ (show Py.lower (str!"To") = Py.lower (str!"to") by decide),
      getAll_congr _ (show Py.lower (str!"Cc") = Py.lower (str!"cc") by decide),
      getAll_congr m (show Py.lower (str!"To") = Py.lower (str!"to") by decide),
      getAll_congr m (show Py.lower (str!"Cc") = Py.lower (str!"cc") by decide)]
  rw [htgt] at i2
  have hlog3 : ∀ y, w'.log y = w3.log y := fun y => by unfold World.log; rw [hs]
  have hp := collectGossip_last hdict hl hv
  obtain ⟨j1, j2⟩ := gossipLoop_records i2
  have hact : Peer.acTimestamp (w2.log x) ≤ t := by rw [← (j1 x).2, ← hlog3]; exact htx
  rw [hlog3]
  have hx' : x = Account.peerHeadOf env n r := hx
  subst hx'
  obtain ⟨g, hg1, hg2⟩ := j2 r hr' p k hp hk hact
  have htw2 : w.trace <:+ w2.trace := htw.trans ht2
  refine ⟨⟨g, hg1, hg2.extend htw2 hst⟩, fun hnone hother => ?_⟩
  have hgl : ∀ g, Entry.gossip g ∈ w2.log (Account.peerHeadOf env n r) → g.msgId ≠ messageId m := by
    intro g hg
    refine hnone g (Classical.byContradiction fun hold => ?_)
    have hg' : Entry.gossip g ∈ w1.log (Account.peerHeadOf env n r) := by unfold World.log at hg ⊢; rw [← hs2]; exact hg
    rcases (Account.safe_processAutocryptHeader env n m (parseEmailAddr env (m.get (str!"From"))) t
      (A := Account.HeaderAct env n m (parseEmailAddr env (m.get (str!"From"))) t) (fun a ha => ha)).new (O := O) { w with tick := w.tick + 1 } _ _
        (by rw [hh]; exact hg') with h5 | ⟨a, ha, had⟩
    · exact hold h5
    · cases a <;> simp only [Account.HeaderAct] at ha
      simp only [Act.Adds] at had
  have hfr := gossipLoop_newest (w0 := w) i2 (hd := Account.peerHeadOf env n r) (k := k) (by
      intro r' hr'' pah' hp' hsame
      by_cases hrr : r' = r
      · subst hrr; rw [hp] at hp'; cases hp'; exact hk
      · exfalso
        rcases collectGossip_get hdict r' pah' hp' with ⟨h1, _⟩ | ⟨v', ⟨a, b, h1, _⟩, h2⟩
        · cases h1
        · exact hother r' hr'' (peerHead_inj_addr.mp hsame.symm) hrr v' (by rw [h1]; simp) _ h2)
    hact htw2 (.inl hgl)
  rcases hfr with hfr | ⟨g', k1, k2⟩
  · exact absurd hg2.1 (hfr g hg1)
  · refine ⟨g', k1, k2.extend List.suffix_rfl hst, fun hno => .inr ⟨hno, g', k1, k2.2.2.2.ne_nil, rfl, k2.2.2.1.symm⟩⟩

end Verif
