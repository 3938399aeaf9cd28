import Verif.Props.Level1
import Verif.Props.AnyOrder
/-!
# Several devices (C140)

The same mails reach several installations of a user, which process them in different orders, some of them more than once. Here it is considered what
they then have in common.
-/
namespace Verif
open Mime
variable {K : Type}

/-! ## Specification -/

/-- one of the mails of the peer, dated 1970 or later, had this key -/
def KeyMail (l : List Level1.Event) (d : Time) (k : Bytes) (pe : PE) : Prop := .mail d (some (k, pe)) ∈ l ∧ 0 ≤ d

/-- the newest mail with a key had this date, key and preference; no other of the same date had another one -/
def NewestKey (l : List Level1.Event) (d : Time) (k : Bytes) (pe : PE) : Prop :=
  KeyMail l d k pe ∧ ∀ d' k' pe', KeyMail l d' k' pe' → d' ≤ d ∧ (d' = d → k' = k ∧ pe' = pe)

/-- the newest mail of the peer had a key, only one, or none of the mails had a key -/
def Settled (l : List Level1.Event) : Prop :=
  (∃ d k pe, NewestKey l d k pe ∧ ∀ d' h, .mail d' h ∈ l → d' ≤ d) ∨ ∀ d k pe, ¬ KeyMail l d k pe

/-- both lists say the same, in any order and any number of times -/
def SameNews (l l' : List Level1.Event) : Prop := ∀ e, e ∈ l ↔ e ∈ l'

/-! ## What is recorded, in any order -/

/-- the log of a peer after events `l` -/
structure Heard (l : List Level1.Event) (es : List Entry) : Prop where
  unknown : Peer.latestAc es = none → ∀ d k pe, ¬ KeyMail l d k pe
  known : ∀ m, Peer.latestAc es = some m → KeyMail l m.date m.keydata m.pe ∧ m.keyhandle ≠ [] ∧ ∀ d k pe, KeyMail l d k pe → d ≤ m.date
  old : ∀ m ∈ Peer.msgs es, m.keydata ≠ [] → m.date ≤ Peer.acTimestamp es
  dates : ∀ m ∈ Peer.msgs es, ∃ h, .mail m.date h ∈ l
  zero : 0 ≤ Peer.acTimestamp es
  low : Peer.acTimestamp es ≤ Peer.lastSeen es
  last : ∀ m, Peer.latestMsg es = .some m → (m.keydata ≠ [] ↔ Peer.lastSeen es = Peer.acTimestamp es)
  handle : ∀ g ∈ Peer.gossips es, g.keyhandle ≠ []
  news : ∀ g ∈ Peer.gossips es, .gossip g.date g.keydata ∈ l
  gossip : Peer.latestAc es = .none → (Peer.gossips es = [] ↔ ∀ d k, .gossip d k ∈ l → d < 0)

theorem Heard.nil : Heard [] [] := by
  refine ⟨fun _ _ _ _ h => (by cases h.1), fun _ h => (by cases h), fun _ h => (by cases h), fun _ h => (by cases h), Int.le_refl _, Int.le_refl _,
    fun _ h => (by cases h), fun _ h => (by cases h), fun _ h => (by cases h), fun _ => ⟨fun _ _ _ h => (by cases h), fun _ => rfl⟩⟩

theorem KeyMail.congr {l l' : List Level1.Event} (h : SameNews l l') {d : Time} {k : Bytes} {pe : PE} : KeyMail l d k pe ↔ KeyMail l' d k pe := by
  unfold KeyMail; rw [h]

theorem Heard.congr {l l' : List Level1.Event} (hl : SameNews l l') {es : List Entry} (h : Heard l es) : Heard l' es := by
  refine ⟨fun h1 d k pe h2 => h.unknown h1 d k pe ((KeyMail.congr hl).mpr h2), fun m hm => ?_, h.old, fun m hm => ?_, h.zero, h.low, h.last, h.handle, fun g hg => (hl _).mp (h.news g hg), fun hn => ?_⟩
  · obtain ⟨h1, h2, h3⟩ := h.known m hm
    exact ⟨(KeyMail.congr hl).mp h1, h2, fun d k pe hk => h3 d k pe ((KeyMail.congr hl).mpr hk)⟩
  · obtain ⟨x, hx⟩ := h.dates m hm
    exact ⟨x, (hl _).mp hx⟩
  · rw [h.gossip hn]
    exact ⟨fun h d k hk => h d k ((hl _).mpr hk), fun h d k hk => h d k ((hl _).mp hk)⟩

theorem keyMail_snoc {l : List Level1.Event} {e : Level1.Event} {d : Time} {k : Bytes} {pe : PE} :
    KeyMail (l ++ [e]) d k pe ↔ KeyMail l d k pe ∨ e = .mail d (some (k, pe)) ∧ 0 ≤ d := by
  unfold KeyMail
  simp only [List.mem_append, List.mem_singleton]
  constructor
  · rintro ⟨h | h, h'⟩
    · exact .inl ⟨h, h'⟩
    · exact .inr ⟨h.symm, h'⟩
  · rintro (⟨h, h'⟩ | ⟨h, h'⟩)
    · exact ⟨.inl h, h'⟩
    · exact ⟨.inr h.symm, h'⟩

theorem stamp_of {es : List Entry} {m : MsgEntry} (h : Peer.latestAc es = some m) : Peer.acTimestamp es = m.date := by
  unfold Peer.acTimestamp; rw [h]

/-- an event after which nothing is added -/
theorem Heard.skip {l : List Level1.Event} {es : List Entry} (h : Heard l es) {e : Level1.Event}
    (hk : ∀ d k pe, e = .mail d (some (k, pe)) → d < 0 ∨ ∃ m, Peer.latestAc es = .some m ∧ d ≤ m.date)
    (hg : ∀ d k, e = .gossip d k → Peer.latestAc es = .none → d < 0 ∨ Peer.gossips es ≠ []) : Heard (l ++ [e]) es := by
  refine ⟨fun h1 d k pe h2 => ?_, fun m hm => ?_, h.old, fun m hm => ?_, h.zero, h.low, h.last, h.handle, fun g hg => List.mem_append_left _ (h.news g hg), fun hn => ?_⟩
  · rcases keyMail_snoc.mp h2 with h2 | ⟨h2, h3⟩
    · exact h.unknown h1 d k pe h2
    · rcases hk d k pe h2 with h4 | ⟨m, h4, _⟩
      · omega
      · rw [h1] at h4; cases h4
  · obtain ⟨h1, h2, h3⟩ := h.known m hm
    refine ⟨keyMail_snoc.mpr (.inl h1), h2, fun d k pe h4 => ?_⟩
    rcases keyMail_snoc.mp h4 with h4 | ⟨h4, h5⟩
    · exact h3 d k pe h4
    · rcases hk d k pe h4 with h6 | ⟨m', h6, h7⟩
      · omega
      · rw [hm] at h6; cases h6; exact h7
  · obtain ⟨x, hx⟩ := h.dates m hm
    exact ⟨x, List.mem_append_left _ hx⟩
  · constructor
    · intro h1 d k h2
      rcases List.mem_append.mp h2 with h2 | h2
      · exact (h.gossip hn).mp h1 d k h2
      · rcases hg d k (List.mem_singleton.mp h2).symm hn with h3 | h3
        · exact h3
        · exact absurd h1 h3
    · intro h1
      exact (h.gossip hn).mpr fun d k h2 => h1 d k (List.mem_append_left _ h2)

/-- an event of any sort -/
theorem Heard.step {l : List Level1.Event} {es : List Entry} (h : Heard l es) {u : PeerEvent} {e : Level1.Event} (hm : u.Means e) :
    Heard (l ++ [e]) (u.apply es) := by
  cases u with
  | msg u =>
    cases e with
    | gossip d k => exact hm.elim
    | mail d hd =>
      have hg : ∀ d' k, Level1.Event.mail d hd = .gossip d' k → Peer.latestAc es = .none → d' < 0 ∨ Peer.gossips es ≠ [] := fun _ _ h => by cases h
      show Heard _ (Peer.applyMsg es u)
      cases hd with
      | none =>
        obtain ⟨rfl, hk⟩ := hm
        have hn : Peer.noKey u.keydata = true := by rcases hk with h | h <;> rw [h] <;> rfl
        have hskip : Heard (l ++ [.mail u.date none]) es := h.skip (fun _ _ _ h => by cases h) hg
        unfold Peer.applyMsg Peer.updateEntry
        rw [hn]
        by_cases h1 : u.date < Peer.acTimestamp es
        · simp only [h1, if_true]; exact hskip
        by_cases h2 : Peer.isRecorded es u = true
        · simp only [h1, h2, if_true, if_false]; exact hskip
        by_cases h3 : Peer.lastSeen es < u.date
        · simp only [h1, h2, h3, if_true, if_false, Bool.false_eq_true]
          have hl := h.low
          have hac : Peer.latestAc (.msg ⟨u.msgId, u.date, .nopreference, [], []⟩ :: es) = Peer.latestAc es := Peer.latestAc_nokey _ rfl
          have hts : Peer.acTimestamp (.msg ⟨u.msgId, u.date, .nopreference, [], []⟩ :: es) = Peer.acTimestamp es := Peer.acTimestamp_nokey _ rfl
          refine ⟨by rw [hac]; exact hskip.unknown, by rw [hac]; exact hskip.known, ?_, ?_, by rw [hts]; exact h.zero, ?_, ?_, hskip.handle, hskip.news, by rw [hac]; exact hskip.gossip⟩
          · intro m hm hne
            rw [hts]
            rcases List.mem_cons.mp hm with rfl | hm
            · exact absurd rfl hne
            · exact h.old m hm hne
          · intro m hm
            rcases List.mem_cons.mp hm with rfl | hm
            · exact ⟨none, List.mem_append_right _ (List.mem_singleton.mpr rfl)⟩
            · exact hskip.dates m hm
          · rw [hts]
            show Peer.acTimestamp es ≤ u.date
            omega
          · intro m hm
            cases hm
            refine ⟨fun hne => absurd rfl hne, fun he => ?_⟩
            rw [hts] at he
            have : u.date = Peer.acTimestamp es := he
            omega
        · simp only [h1, h2, h3, if_true, if_false, Bool.false_eq_true]
          exact hskip
      | some kp =>
        obtain ⟨k, pe⟩ := kp
        obtain ⟨rfl, hk, hu, hp, kh, hh, hkh⟩ := hm
        have hn : Peer.noKey u.keydata = false := by rw [hu]; simpa [Peer.noKey] using hk
        unfold Peer.applyMsg Peer.updateEntry
        rw [hn]
        by_cases h1 : u.date < Peer.acTimestamp es
        · simp only [h1, if_true]
          refine h.skip (fun d k' pe' he => ?_) hg
          cases he
          cases hac : Peer.latestAc es with
          | none => left; unfold Peer.acTimestamp at h1; rw [hac] at h1; exact h1
          | some m => exact .inr ⟨m, rfl, by rw [← stamp_of hac]; omega⟩
        by_cases h2 : Peer.isRecorded es u = true
        · simp only [h1, h2, if_true, if_false]
          refine h.skip (fun d k' pe' he => ?_) hg
          cases he
          obtain ⟨e, he, h3, h4, _⟩ := isRecorded_mem h2
          rw [hu] at h4
          cases h4
          have := h.old e he hk
          cases hac : Peer.latestAc es with
          | none =>
            have h5 : Peer.latestAc es = none := hac
            unfold Peer.latestAc at h5
            have := List.find?_eq_none.mp h5 e he
            simp [hk] at this
          | some m => exact .inr ⟨m, rfl, by rw [← stamp_of hac]; omega⟩
        have hpe : Peer.peArg u.pe = .ok pe := peArg_ok.mpr hp
        simp only [h1, h2, hpe, if_false, Bool.false_eq_true]
        rw [hu, hkh]
        have hemp : k.isEmpty = false := by cases k with | nil => exact absurd rfl hk | cons => rfl
        have hac : Peer.latestAc (.msg ⟨u.msgId, u.date, pe, k, kh⟩ :: es) = some ⟨u.msgId, u.date, pe, k, kh⟩ := by
          unfold Peer.latestAc Peer.msgs
          simp [Entry.msg?, hemp]
        have hts : Peer.acTimestamp (.msg ⟨u.msgId, u.date, pe, k, kh⟩ :: es) = u.date := stamp_of hac
        have hz := h.zero
        have hd0 : 0 ≤ u.date := by omega
        show Heard _ (.msg ⟨u.msgId, u.date, pe, k, kh⟩ :: es)
        refine ⟨fun h' => (by rw [hac] at h'; cases h'), fun m hm => ?_, fun m hm hne => ?_, fun m hm => ?_, by rw [hts]; exact hd0, by rw [hts]; exact Int.le_refl _,
          fun m hm => ?_, h.handle, fun g hg => List.mem_append_left _ (h.news g hg), fun h' => (by rw [hac] at h'; cases h')⟩
        · rw [hac] at hm
          cases hm
          refine ⟨keyMail_snoc.mpr (.inr ⟨rfl, hd0⟩), hh, fun d k' pe' h3 => ?_⟩
          rcases keyMail_snoc.mp h3 with h3 | ⟨h3, _⟩
          · cases hac' : Peer.latestAc es with
            | none => exact absurd h3 (h.unknown hac' d k' pe')
            | some m =>
              have h4 := (h.known m hac').2.2 d k' pe' h3
              rw [stamp_of hac'] at h1
              show d ≤ u.date
              omega
          · cases h3; exact Int.le_refl _
        · rw [hts]
          rcases List.mem_cons.mp hm with rfl | hm
          · exact Int.le_refl _
          · have := h.old m hm hne
            omega
        · rcases List.mem_cons.mp hm with rfl | hm
          · exact ⟨some (k, pe), List.mem_append_right _ (List.mem_singleton.mpr rfl)⟩
          · obtain ⟨x, hx⟩ := h.dates m hm
            exact ⟨x, List.mem_append_left _ hx⟩
        · cases hm
          rw [hts]
          exact ⟨fun _ => rfl, fun _ => hk⟩
  | gossip u =>
    cases e with
    | mail d hd => exact hm.elim
    | gossip d k =>
      obtain ⟨rfl, hk, hu, kh, hh, hkh⟩ := hm
      have hskip : (Peer.latestAc es = .none → u.date < 0 ∨ Peer.gossips es ≠ []) → Heard (l ++ [.gossip u.date k]) es := fun hx =>
        h.skip (fun _ _ _ h => by cases h) fun d' k' he hn => by cases he; exact hx hn
      show Heard _ (Peer.applyGossip es u)
      have hn : Peer.noKey u.keydata = false := by rw [hu]; simpa [Peer.noKey] using hk
      unfold Peer.applyGossip Peer.gossipEntry
      by_cases h1 : u.date < Peer.acTimestamp es
      · simp only [h1, if_true]
        refine hskip fun hn => .inl ?_
        unfold Peer.acTimestamp at h1; rw [hn] at h1; exact h1
      by_cases h2 : Peer.isRecordedGossip es u = true
      · simp only [h1, hn, h2, if_true, if_false, Bool.false_eq_true]
        refine hskip fun _ => .inr ?_
        obtain ⟨g, hg, _⟩ := isRecordedGossip_mem h2
        intro h'; rw [h'] at hg; cases hg
      · simp only [h1, hn, h2, if_false, Bool.false_eq_true]
        rw [hu, hkh]
        show Heard _ (.gossip ⟨u.msgId, u.date, k, kh⟩ :: es)
        have hz := h.zero
        have hskip' : ∀ {d' k'}, Level1.Event.mail d' k' ∈ l → Level1.Event.mail d' k' ∈ l ++ [.gossip u.date k] := fun h => List.mem_append_left _ h
        have hkm : ∀ {d' k' pe'}, KeyMail (l ++ [.gossip u.date k]) d' k' pe' ↔ KeyMail l d' k' pe' := by
          intro d' k' pe'
          rw [keyMail_snoc]
          exact ⟨fun h => h.elim id fun h => (by cases h.1), .inl⟩
        refine ⟨fun h' d' k' pe' hx => h.unknown h' d' k' pe' (hkm.mp hx), fun m hm => ?_, h.old, fun m hm => (h.dates m hm).imp fun _ => hskip', h.zero, h.low, h.last,
          fun g hg => ?_, fun g hg => ?_, fun _ => ⟨fun h' => (by cases h'), fun h' => ?_⟩⟩
        · obtain ⟨h3, h4, h5⟩ := h.known m hm
          exact ⟨hkm.mpr h3, h4, fun d' k' pe' hx => h5 d' k' pe' (hkm.mp hx)⟩
        · rcases List.mem_cons.mp hg with rfl | hg
          · exact hh
          · exact h.handle g hg
        · rcases List.mem_cons.mp hg with rfl | hg
          · exact List.mem_append_right _ (List.mem_singleton.mpr rfl)
          · exact List.mem_append_left _ (h.news g hg)
        · have := h' u.date k (List.mem_append_right _ (List.mem_singleton.mpr rfl))
          omega

theorem mailSays_heard {env : Env} {m : Msg} {a : Str} {res : Account.IncomingResult} {t : Time} {l l' : List Level1.Event} (hs : MailSays env m a res t l')
    {w w' : World Store K} {evs : List PeerEvent} (h1 : senderAddr env m ≠ a → evs = [])
    (h2 : senderAddr env m = a → ∃ u, evs = [.msg u] ∧ UpdateFor env m a t u ∧ HandleFor env w w' u res.pah) {es : List Entry} (h : Heard l es) :
    Heard (l ++ l') (evs.foldl PeerEvent.apply es) := by
  rcases hs with ⟨hne, rfl⟩ | ⟨heq, hno, rfl⟩ | ⟨k, pe, hc, herr, rfl⟩
  · rw [h1 hne, List.append_nil]; exact h
  · obtain ⟨u, rfl, hu, -⟩ := h2 heq
    refine h.step (u := .msg u) (e := .mail t none) ⟨hu.2.2.1, ?_⟩
    cases hk : u.keydata with
    | none => exact .inl rfl
    | some k =>
      obtain ⟨_, _, _, r, h3, h4, h5⟩ := id hu
      rcases parseOne_pe h3 with h6 | ⟨pe, h6⟩
      · rw [← h4, hk] at h6; cases h6
      · by_cases hne : k = []
        · rw [hne]; exact .inr rfl
        · exact absurd (hu.carries hk hne (by rw [h5, h6])) (hno k pe)
  · obtain ⟨u, rfl, hu, hh⟩ := h2 hc.1
    obtain ⟨hk, hpe⟩ := hu.key hc
    obtain ⟨kh, hkh, hi⟩ := hh.1 herr
    exact h.step (u := .msg u) (e := .mail t (some (k, pe))) ⟨hu.2.2.1, hc.2.1, hk, hpe, kh, hi.ne_nil, hkh⟩

theorem Received.heard {O : Oracle K} {env : Env} {n a : Str} {w w' : World Store K} {l : List Level1.Event} (h : Received O env n a w l w')
    (hw : w.log (peerHead n a) = []) : Heard l (w'.log (peerHead n a)) := by
  induction h with
  | nil => rw [hw]; exact .nil
  | other _ he ih => rw [he]; exact ih
  | @plain w1 w2 l l' m i nd res t _ hx hng hdate hs ih =>
    obtain ⟨evs, e1, e2, e3, e4⟩ := incoming_fold hx a
    have hg : ∀ u, .gossip u ∉ evs := by
      intro u hu
      obtain ⟨h3, h4, _⟩ := e3 u hu
      rcases hng with hng | hng
      · rw [h3] at hng; cases hng
      · exact hng (pgpMime_iff.mpr h4)
    rw [e1]
    refine mailSays_heard (w := w1) (w' := w2) hs (fun hne => ?_) (fun heq => ?_) ih
    · cases evs with
      | nil => rfl
      | cons e evs =>
        cases e with
        | msg u => obtain ⟨_, _, hu⟩ := e2 u (by simp); exact absurd hu.1 hne
        | gossip u => exact absurd (List.mem_cons_self ..) (hg u)
    · obtain ⟨u, gs, rfl, hgs, hh⟩ := e4 res rfl heq
      obtain ⟨t', ht', hu⟩ := e2 u (by simp)
      cases ht'.unique hdate
      refine ⟨u, ?_, hu, hh⟩
      cases gs with
      | nil => rfl
      | cons g gs =>
        obtain ⟨g', rfl⟩ := hgs g (List.mem_cons_self ..)
        exact absurd (by simp) (hg g')
  | @encrypted w1 w2 l l' l'' m i res t _ hx hpgp hdate hs hgs ih =>
    obtain ⟨evs, dec, dict, w3, w4, out, hdec, h1, h2, h3, h4, h5, h6⟩ := incoming_gossip hx hpgp hdate a
    have hmid : Heard (l ++ l') (w3.log (peerHead n a)) := by
      rw [h1]
      exact mailSays_heard hs h2 h3 ih
    rw [h6]
    generalize l ++ l' = l0 at hmid
    have haddr : ∀ r, Account.peerHeadOf env n r = peerHead n a ↔ address env (some r) = a := fun r => peerHead_inj_addr
    rcases hgs dec hdec with ⟨hno, rfl⟩ | ⟨k, hk, ⟨r, hr, hra, v, q, hl, hv, hq⟩, hall, rfl⟩
    · have := (gossipLoop_updates h5 (hd := peerHead n a) (k := []) (P := fun _ => True) (Q := fun _ => True) (fun _ _ _ _ => trivial) (fun _ _ _ _ => trivial)
        (by
          intro r hr pah hp hra
          rcases collectGossip_get h4 r pah hp with ⟨h7, _⟩ | ⟨v, ⟨x, y, hl, _⟩, hv⟩
          · cases h7
          · exact absurd hv (hno r hr ((haddr r).mp hra) v (by rw [hl]; simp) _))).2.2
      rw [this, List.append_nil]
      · exact hmid
      · intro r hr hs hra
        obtain ⟨pah, hp⟩ := Option.isSome_iff_exists.mp hs
        rcases collectGossip_get h4 r pah hp with ⟨h7, _⟩ | ⟨v, ⟨x, y, hl, _⟩, hv⟩
        · cases h7
        · exact hno r hr ((haddr r).mp hra) v (by rw [hl]; simp) _ hv
    · refine (gossipLoop_updates h5 (hd := peerHead n a) (k := k) (P := fun es => Heard l0 es) (Q := fun es => Heard (l0 ++ [.gossip t k]) es)
        ?_ ?_ ?_).2.1 hmid ⟨r, hr, ?_, (haddr r).mpr hra⟩
      · intro es h hh hes
        exact hes.step (u := .gossip ⟨messageId m, t, some k, some h⟩) (e := .gossip t k) ⟨rfl, hk, rfl, h, hh, rfl⟩
      · intro es h hh hes
        refine (hes.step (u := .gossip ⟨messageId m, t, some k, some h⟩) (e := .gossip t k) ⟨rfl, hk, rfl, h, hh, rfl⟩).congr fun e => ?_
        simp
      · intro r hr pah hp hra
        rcases collectGossip_get h4 r pah hp with ⟨h7, _⟩ | ⟨v, hl, hv⟩
        · cases h7
        · cases hpk : pah.keydata with
          | none => exact absurd hpk (valid_keydata hv)
          | some k' => rw [hall r hr ((haddr r).mp hra) k' ⟨v, pah, hl, hv, hpk⟩]
      · rw [collectGossip_last h4 hl hv]; rfl

/-- the newest key is the one which is used -/
theorem Heard.newest {l : List Level1.Event} {es : List Entry} (h : Heard l es) {d : Time} {k : Bytes} {pe : PE} (hk : NewestKey l d k pe) :
    ∃ m, Peer.latestAc es = some m ∧ m.date = d ∧ m.keydata = k ∧ m.pe = pe ∧ m.keyhandle ≠ [] := by
  cases hac : Peer.latestAc es with
  | none => exact absurd hk.1 (h.unknown hac d k pe)
  | some m =>
    obtain ⟨h1, h2, h3⟩ := h.known m hac
    obtain ⟨h4, h5⟩ := hk.2 _ _ _ h1
    have h6 := h3 _ _ _ hk.1
    have h7 : m.date = d := by omega
    exact ⟨m, rfl, h7, (h5 h7).1, (h5 h7).2, h2⟩

theorem not_stale {es : List Entry} {m : MsgEntry} (h1 : Peer.latestAc es = some m) (h2 : Peer.lastSeen es = Peer.acTimestamp es) : ¬ Stale es m := by
  rintro ⟨x, hx, hd⟩
  have h3 := latestMsg_iff.mpr hx
  have h4 : Peer.lastSeen es = x.date := by unfold Peer.lastSeen; rw [h3]
  rw [h4, stamp_of h1] at h2
  have : (0 : Int) ≤ sec (35 * 24 * 60 * 60) := by decide +kernel
  omega

open Classical in
/-- the recommendation in terms of what was heard -/
theorem Heard.recommend {l : List Level1.Event} {es : List Entry} (h : Heard l es) (own : PE) (reply : Bool) :
    (∀ d k pe, NewestKey l d k pe → (∀ d' x, .mail d' x ∈ l → d' ≤ d) →
      recSpec es own reply = if reply = true ∨ own = .mutual ∧ pe = .mutual then .encrypt else .available) ∧
    ((∀ d k pe, ¬ KeyMail l d k pe) →
      recSpec es own reply = if ∀ d k, .gossip d k ∈ l → d < 0 then .disable else if reply = true then .encrypt else .discourage) := by
  obtain ⟨r, -, hr⟩ := peerUi_cases es own reply
  rw [← hr.eq]
  constructor
  · intro d k pe hk hd
    obtain ⟨m, hac, rfl, rfl, rfl, hh⟩ := h.newest hk
    have hu : UsableKey es m := ⟨latestAc_iff.mp hac, hh⟩
    have huniq : ∀ {m'}, UsableKey es m' → m' = m := by
      rintro m' ⟨h1, -⟩
      have := latestAc_iff.mpr h1
      rw [hac] at this; cases this; rfl
    obtain ⟨x, hx⟩ := latestMsg_of_latestAc hac
    have hls : Peer.lastSeen es = x.date := by unfold Peer.lastSeen; rw [hx]
    have hmem : x ∈ Peer.msgs es := List.mem_of_mem_head? hx
    obtain ⟨y, hy⟩ := h.dates x hmem
    have hle := hd _ _ hy
    have hlow := h.low
    have hseen : Peer.lastSeen es = Peer.acTimestamp es := by rw [hls, stamp_of hac] at *; omega
    have hxm : x = m := latestAc_of_latestMsg hac hx ((h.last x hx).mpr hseen)
    subst hxm
    have hw : PeerWantsEncryption es x ↔ x.pe = .mutual := ⟨fun h => h.2, fun h => ⟨latestMsg_iff.mp hx, h⟩⟩
    cases hr with
    | disable h1 => exact absurd (.inl ⟨x, hu⟩) h1
    | reply h1 h2 => simp [h2]
    | noDirect h1 h2 h3 => exact absurd ⟨x, hu⟩ h3
    | stale m' h1 h2 h3 => rw [huniq h2] at h3; exact absurd h3 (not_stale hac hseen)
    | wanted m' h1 h2 h3 h4 h5 => rw [huniq h2, hw] at h5; rw [if_pos (.inr ⟨h4, h5⟩)]
    | available m' h1 h2 h3 h4 => rw [huniq h2, hw] at h4; rw [if_neg]; rintro (h | h); · rw [h1] at h; cases h
                                  · exact h4 h
  · intro hno
    have hac : Peer.latestAc es = none := by
      cases hac : Peer.latestAc es with
      | none => rfl
      | some m => exact absurd (h.known m hac).1 (hno _ _ _)
    have hu : ∀ m, ¬ UsableKey es m := by
      rintro m ⟨hm, -⟩
      rw [← latestAc_iff, hac] at hm; cases hm
    have hkn : KnownKey es ↔ ¬ ∀ d k, .gossip d k ∈ l → d < 0 := by
      rw [← h.gossip hac]
      constructor
      · rintro (⟨m, hm⟩ | ⟨g, hg, -⟩) h0
        · exact hu m hm
        · have := latestGossip_iff.mpr hg
          unfold Peer.latestGossip at this
          rw [h0] at this; cases this
      · intro h0
        cases hg : Peer.gossips es with
        | nil => exact absurd hg h0
        | cons g gs =>
          exact .inr ⟨g, latestGossip_iff.mp (by unfold Peer.latestGossip; rw [hg]; rfl), h.handle g (by rw [hg]; exact List.mem_cons_self ..)⟩
    cases hr with
    | disable h1 => rw [if_pos (Classical.not_not.mp fun h' => h1 (hkn.mpr h'))]
    | reply h1 h2 => rw [if_neg (hkn.mp h1), if_pos h2]
    | noDirect h1 h2 h3 => rw [if_neg (hkn.mp h1), if_neg (by simp [h2])]
    | stale m' h1 h2 h3 => exact absurd h2 (hu _)
    | wanted m' h1 h2 h3 h4 h5 => exact absurd h2 (hu _)
    | available m' h1 h2 h3 h4 => exact absurd h2 (hu _)

/-- on two devices -/
theorem heard_same {l l' : List Level1.Event} {es es' : List Entry} (h : Heard l es) (h' : Heard l' es') (hl : SameNews l l') (hs : Settled l) (own : PE) (reply : Bool) :
    recSpec es own reply = recSpec es' own reply := by
  have h2 := h'.congr fun e => (hl e).symm
  rcases hs with ⟨d, k, pe, hk, hd⟩ | hno
  · rw [(h.recommend own reply).1 d k pe hk hd, (h2.recommend own reply).1 d k pe hk hd]
  · rw [(h.recommend own reply).2 hno, (h2.recommend own reply).2 hno]

/-! ## The property -/

/-- what the device with account `n` has got about the peer `a`, of whom nothing was known before: events `l` -/
def Device (O : Oracle K) (env : Env) (n a : Str) (l : List Level1.Event) (w : World Store K) : Prop :=
  ∃ w0, w0.log (peerHead n a) = [] ∧ Received O env n a w0 l w

/-- C140, the key: on all devices which got the same mails of a peer, in any order and any number of times, together with any gossip and mail of others, the
key, its date and preference are those of the newest mail with a key.
Missing for the full claim: mails of the same date with different keys, and peers of whom only gossip came. -/
theorem C140_key_partial {O : Oracle K} {env : Env} {n a : Str} {l : List Level1.Event} {w : World Store K} (h : Device O env n a l w) {d : Time} {k : Bytes} {pe : PE}
    (hk : NewestKey l d k pe) :
    Peer.acTimestamp (w.log (peerHead n a)) = d ∧ Peer.hasDirectKey (w.log (peerHead n a)) = true ∧
    Peer.publicKeydata (w.log (peerHead n a)) = k ∧ Peer.preferEncrypt (w.log (peerHead n a)) = pe.toStr := by
  obtain ⟨w0, h0, h⟩ := h
  obtain ⟨m, hac, rfl, rfl, rfl, hh⟩ := (h.heard h0).newest hk
  have := Peer.shown_of_latestAc hac hh
  simp only [Peer.shown, Prod.mk.injEq] at this
  refine ⟨stamp_of hac, ?_, this.2.1, this.2.2⟩
  unfold Peer.hasDirectKey
  rw [hac]
  simpa using hh

/-- C140, keys from gossip: if a peer sent no key themselves, but all gossip about them has the same one, then it is the one on all devices.
Missing for the full claim: gossip with different keys, see `C140_refuted_key`. -/
theorem C140_gossip_partial {O : Oracle K} {env : Env} {n a : Str} {l : List Level1.Event} {w : World Store K} (h : Device O env n a l w) {d : Time} {k : Bytes}
    (hno : ∀ d k pe, ¬ KeyMail l d k pe) (hg : .gossip d k ∈ l) (hd : 0 ≤ d) (hk : ∀ d' k', .gossip d' k' ∈ l → k' = k) :
    Peer.hasDirectKey (w.log (peerHead n a)) = false ∧ Peer.publicKeydata (w.log (peerHead n a)) = k := by
  obtain ⟨w0, h0, h⟩ := h
  have h := h.heard h0
  generalize w.log (peerHead n a) = es at h
  have hac : Peer.latestAc es = none := by
    cases hac : Peer.latestAc es with
    | none => rfl
    | some m => exact absurd (h.known m hac).1 (hno _ _ _)
  refine ⟨by unfold Peer.hasDirectKey; rw [hac], ?_⟩
  cases hgs : Peer.gossips es with
  | nil =>
    have := (h.gossip hac).mp hgs d k hg
    omega
  | cons g gs =>
    have h1 := hk _ _ (h.news g (by rw [hgs]; exact List.mem_cons_self ..))
    unfold Peer.publicKeydata Peer.entryForEncryption Peer.latestGossip
    rw [hac, hgs]
    exact h1

/-- C140, recommendations: two devices of a user with the same preference, which got the same about some people in any order, recommend the same for them, if
the newest mail of each had a key, or none had one.
Missing for the full claim: people whose newest mail has no key, but older ones had, see `C140_refuted_recommendation`. -/
theorem C140_recommendation_partial {K' : Type} {O : Oracle K} {O' : Oracle K'} {env : Env} {n n' : Str} {w : World Store K} {w' : World Store K'} {own : PE}
    (hown : OwnPreference w n own) (hown' : OwnPreference w' n' own) (addrs : List Str) (reply : Bool) (sender : Option Str)
    (h : ∀ a, Asked env addrs sender a → ∃ l l', Device O env n a l w ∧ Device O' env n' a l' w' ∧ SameNews l l' ∧ Settled l) :
    (exec O (Account.recommendation env n addrs reply sender) w).1 = (exec O' (Account.recommendation env n' addrs reply sender) w').1 := by
  obtain ⟨c, hc, rfl⟩ := hown
  obtain ⟨c', hc', hpe⟩ := hown'
  rw [exec_recommendation O env n addrs reply sender w c (latestConfig_iff.mpr hc), exec_recommendation O' env n' addrs reply sender w' c' (latestConfig_iff.mpr hc'), hpe]
  refine congrArg (fun x => Except.ok (groupRec x c.pe)) (List.map_congr_left fun a ha => ?_)
  obtain ⟨x, hx, rfl, hne⟩ := mem_peerAddrs.mp ha
  obtain ⟨l, l', ⟨w0, h0, h1⟩, ⟨w0', h0', h1'⟩, h2, h3⟩ := h (address env (some (address env (some x)))) ⟨x, hx, hne, rfl⟩
  exact heard_same (h1.heard h0) (h1'.heard h0') h2 h3 c.pe reply

/-! ## It is false in general -/

section
open Concrete

/-- a device with an account which has got some mails, at a time when all of them are past -/
def device (l : List Msg) : World Store Unit :=
  (processAll oracle Concrete.env (str!"a") (l.map fun m => ⟨m, false, false⟩) { after [addA] with clock := fun _ => sec 10000000 }).2

/-- C140 is false of the code: two devices got the same three mails of Bob, in different orders. Their recommendations for Bob differ. -/
theorem C140_refuted_recommendation : ∃ l l' : List Msg, l.Perm l' ∧
    (exec oracle (Account.recommendation Concrete.env (str!"a") [bob] false none) (device l)).1.toOption = some .available ∧
    (exec oracle (Account.recommendation Concrete.env (str!"a") [bob] false none) (device l')).1.toOption = some .discourage :=
  ⟨[mail bob (str!"1") (str!"100") [7], mail bob (str!"3") (str!"5000000") [], mail bob (str!"2") (str!"200") [8]],
   [mail bob (str!"1") (str!"100") [7], mail bob (str!"2") (str!"200") [8], mail bob (str!"3") (str!"5000000") []],
   .cons _ (.swap ..), by decide +kernel, by decide +kernel⟩

/-- C140 is false of the code: two devices got the same two mails with gossip about Carol, in different orders. They encrypt to different keys. -/
theorem C140_refuted_key : ∃ l l' : List Msg, l.Perm l' ∧
    Peer.publicKeydata (carols (device l)) = [8] ∧ Peer.publicKeydata (carols (device l')) = [9] :=
  ⟨[encMail (str!"2") (str!"200") [] [gossipField carol [9]], encMail (str!"1") (str!"100") [] [gossipField carol [8]]],
   [encMail (str!"1") (str!"100") [] [gossipField carol [8]], encMail (str!"2") (str!"200") [] [gossipField carol [9]]],
   .swap .., by decide +kernel, by decide +kernel⟩

/-! ## Examples -/

/-- a mail of Bob with a key, as it is processed in examples -/
theorem bob_mail {w : World Store Unit} {l : List Level1.Event} {w1 : World Store Unit} (h : Received oracle Concrete.env (str!"a") bob w l w1) {id date : Str} {k : Bytes} {d : Int}
    (h1 : (exec oracle (Account.processIncoming Concrete.env (str!"a") (mail bob id date k) false false) w1).1.toOption.map (·.map (·.pah.error)) = some (some none))
    (h2 : ¬ PgpMime (mail bob id date k)) (h3 : EffectiveDate Concrete.env w1 (mail bob id date k) (sec d)) (h4 : CarriesKey Concrete.env (mail bob id date k) bob k .nopreference) :
    Received oracle Concrete.env (str!"a") bob w (l ++ [.mail (sec d) (some (k, .nopreference))])
      (exec oracle (Account.processIncoming Concrete.env (str!"a") (mail bob id date k) false false) w1).2 := by
  cases hx : (exec oracle (Account.processIncoming Concrete.env (str!"a") (mail bob id date k) false false) w1).1 with
  | error e => rw [hx] at h1; cases h1
  | ok o =>
    cases o with
    | none => rw [hx] at h1; cases h1
    | some res =>
      rw [hx] at h1
      have h5 : res.pah.error = none := by simpa [Except.toOption] using h1
      exact .plain h (Prod.ext hx rfl) (.inr h2) h3 (.inr (.inr ⟨k, .nopreference, h4, h5, rfl⟩))

/-- Bob sent two mails with keys -/
def bob1 : Msg := mail bob (str!"1") (str!"100") [7]
def bob2 : Msg := mail bob (str!"2") (str!"200") [8]
def news1 : Level1.Event := .mail (sec 100) (some ([7], .nopreference))
def news2 : Level1.Event := .mail (sec 200) (some ([8], .nopreference))

theorem bob1_carries : CarriesKey Concrete.env bob1 bob [7] .nopreference :=
  bob_carries _ _ _ (r := _) rfl (by decide +kernel) (by decide +kernel) (by decide +kernel) (by decide +kernel)
theorem bob2_carries : CarriesKey Concrete.env bob2 bob [8] .nopreference :=
  bob_carries _ _ _ (r := _) rfl (by decide +kernel) (by decide +kernel) (by decide +kernel) (by decide +kernel)

/-- the first device gets both in order -/
theorem device1 : Device oracle Concrete.env (str!"a") bob [news1, news2] (device [bob1, bob2]) := by
  refine ⟨{ after [addA] with clock := fun _ => sec 10000000 }, by decide +kernel, ?_⟩
  exact bob_mail (l := [news1]) (bob_mail (l := []) (.nil _) (by decide +kernel) (by rw [pgpMime_iff]; decide +kernel) ⟨sec 100, .inl rfl, by decide +kernel⟩ bob1_carries)
    (by decide +kernel) (by rw [pgpMime_iff]; decide +kernel) ⟨sec 200, .inl rfl, by decide +kernel⟩ bob2_carries

/-- the second one gets the second mail twice, the first one between -/
theorem device2 : Device oracle Concrete.env (str!"a") bob [news2, news1, news2] (device [bob2, bob1, bob2]) := by
  refine ⟨{ after [addA] with clock := fun _ => sec 10000000 }, by decide +kernel, ?_⟩
  exact bob_mail (l := [news2, news1]) (bob_mail (l := [news2])
      (bob_mail (l := []) (.nil _) (by decide +kernel) (by rw [pgpMime_iff]; decide +kernel) ⟨sec 200, .inl rfl, by decide +kernel⟩ bob2_carries)
      (by decide +kernel) (by rw [pgpMime_iff]; decide +kernel) ⟨sec 100, .inl rfl, by decide +kernel⟩ bob1_carries)
    (by decide +kernel) (by rw [pgpMime_iff]; decide +kernel) ⟨sec 200, .inl rfl, by decide +kernel⟩ bob2_carries

theorem news_newest : NewestKey [news1, news2] (sec 200) [8] .nopreference := by
  refine ⟨⟨by simp [news2], by decide +kernel⟩, ?_⟩
  rintro d k pe ⟨h, -⟩
  have h100 : sec 100 ≤ sec 200 ∧ sec 100 ≠ sec 200 := by decide +kernel
  simp only [news1, news2, List.mem_cons, Level1.Event.mail.injEq, Option.some.injEq, Prod.mk.injEq, List.not_mem_nil, or_false] at h
  rcases h with ⟨rfl, rfl, rfl⟩ | ⟨rfl, rfl, rfl⟩
  · exact ⟨h100.1, fun h => absurd h h100.2⟩
  · exact ⟨Int.le_refl _, fun _ => ⟨rfl, rfl⟩⟩

/-- the hypotheses of `C140_key_partial` and `C140_recommendation_partial` hold, and encryption is possible -/
example : NewestKey [news1, news2] (sec 200) [8] .nopreference ∧ OwnPreference (device [bob1, bob2]) (str!"a") .nopreference ∧
    OwnPreference (device [bob2, bob1, bob2]) (str!"a") .nopreference ∧
    (∀ a, Asked Concrete.env [bob] none a → ∃ l l', Device oracle Concrete.env (str!"a") a l (device [bob1, bob2]) ∧
      Device oracle Concrete.env (str!"a") a l' (device [bob2, bob1, bob2]) ∧ SameNews l l' ∧ Settled l) ∧
    (exec oracle (Account.recommendation Concrete.env (str!"a") [bob] false none) (device [bob2, bob1, bob2])).1.toOption = some .available := by
  refine ⟨news_newest, ⟨_, latestConfig_iff.mp (Option.get_mem (o := Own.latestConfig _) (by decide +kernel)), by decide +kernel⟩,
    ⟨_, latestConfig_iff.mp (Option.get_mem (o := Own.latestConfig _) (by decide +kernel)), by decide +kernel⟩, ?_, by decide +kernel⟩
  rintro a ⟨x, hx, -, rfl⟩
  cases List.mem_singleton.mp hx
  rw [show address Concrete.env (some (address Concrete.env (some bob))) = bob by spec_mail; decide +kernel]
  refine ⟨_, _, device1, device2, fun e => by simp [or_comm]; exact .inr, .inl ⟨_, _, _, news_newest, fun d h hm => ?_⟩⟩
  simp only [news1, news2, List.mem_cons, Level1.Event.mail.injEq, List.not_mem_nil, or_false] at hm
  have h100 : sec 100 ≤ sec 200 := by decide +kernel
  rcases hm with ⟨rfl, -⟩ | ⟨rfl, -⟩
  · exact h100
  · exact Int.le_refl _

/-- the hypotheses of `C140_gossip_partial` hold for events which `C133` has an example of -/
example : (∀ d k pe, ¬ KeyMail [.gossip (sec 100) [8]] d k pe) ∧ (0 : Int) ≤ sec 100 ∧ ∀ d' k', Level1.Event.gossip d' k' ∈ [Level1.Event.gossip (sec 100) [8]] → k' = [8] := by
  refine ⟨fun d k pe h => ?_, by decide +kernel, fun d' k' h => ?_⟩
  · have := h.1; simp at this
  · cases List.mem_singleton.mp h; rfl

end

end Verif
