import Verif.Spec.Level1
import Verif.Props.Gossip
import Verif.Props.Unaffected
import Mathlib.Data.List.Induction
/-!
# C133: the state of peers and recommendations, compared with the Autocrypt specification
-/
namespace Verif
open Mime
variable {K : Type}

/-! ## Specification -/

/-- an update which the code makes, and what it says in terms of the Autocrypt specification. Keys come with the handle under which gpg knows them. -/
def PeerEvent.Means : PeerEvent → Level1.Event → Prop
  | .msg u, .mail date none => u.date = date ∧ (u.keydata = none ∨ u.keydata = some [])
  | .msg u, .mail date (some (k, pe)) => u.date = date ∧ k ≠ [] ∧ u.keydata = some k ∧ u.pe = some pe.toStr ∧ ∃ h, h ≠ [] ∧ u.keyhandle = some h
  | .gossip u, .gossip date k => u.date = date ∧ k ≠ [] ∧ u.keydata = some k ∧ ∃ h, h ≠ [] ∧ u.keyhandle = some h
  | _, _ => False

/-- what is learned comes in time: a mail with a key is not dated before the last mail seen, unless it is ignored since it is older than the key;
gossip is not dated before other gossip, unless there is a direct key. Something of the same date as before says the same as before. -/
def Level1.Peer.Timely (p : Level1.Peer) : Level1.Event → Prop
  | .mail _ none => True
  | .mail d (some (k, pe)) => d < p.timestamp ∨ (p.lastSeen ≤ d ∧ (d = p.timestamp → p.key = none ∨ (p.key = some k ∧ p.prefer = pe)))
  | .gossip d k => p.key ≠ none ∨ d < p.timestamp ∨ (p.gossipTimestamp ≤ d ∧ (d = p.gossipTimestamp → p.gossipKey = none ∨ p.gossipKey = some k))

/-- all of it comes in time -/
def Level1.Peer.AllTimely (p : Level1.Peer) : List Level1.Event → Prop
  | [] => True
  | e :: l => p.Timely e ∧ (p.learn e).AllTimely l

/-- the log of a peer is that after updates which say what made `p` of a peer of whom nothing was known, all in time -/
def Follows (es : List Entry) (p : Level1.Peer) : Prop :=
  ∃ us l, List.Forall₂ PeerEvent.Means us l ∧ Level1.Peer.new.AllTimely l ∧ es = us.foldl PeerEvent.apply [] ∧ p = l.foldl Level1.Peer.learn .new

/-- what the code computes from the log is the state of the specification: the times, the key to encrypt to, and for a key from a mail
that it is one, and the preference -/
structure Shows (es : List Entry) (p : Level1.Peer) : Prop where
  seen : Peer.lastSeen es = p.lastSeen
  stamp : Peer.acTimestamp es = p.timestamp
  key : Peer.publicKeydata es = p.target.getD []
  direct : Peer.hasDirectKey es = p.key.isSome
  prefer : p.key ≠ none → Peer.preferEncrypt es = p.prefer.toStr

/-- the events of one sort come one after the other, each with a later date -/
def LaterThan : Level1.Event → Level1.Event → Prop
  | .mail d _, .mail d' _ => d < d'
  | .gossip d _, .gossip d' _ => d < d'
  | _, _ => True

/-! ## Proof -/

/-- what holds beside `Shows` -/
structure Tracks (es : List Entry) (p : Level1.Peer) : Prop where
  seen : Peer.lastSeen es = p.lastSeen
  stamp : Peer.acTimestamp es = p.timestamp
  unknown : p.key = none → Peer.latestAc es = none ∧ p.timestamp = 0
  known : ∀ k, p.key = some k → ∃ m, Peer.latestAc es = some m ∧ m.keydata = k ∧ m.pe = p.prefer ∧ m.keyhandle ≠ []
  gossip : p.key = none → match Peer.latestGossip es with
    | .none => p.gossipKey = .none ∧ p.gossipTimestamp = 0
    | .some g => p.gossipKey = .some g.keydata ∧ p.gossipTimestamp = g.date ∧ g.keyhandle ≠ []
  mails : ∀ m ∈ Peer.msgs es, m.date ≤ p.lastSeen
  keys : ∀ m ∈ Peer.msgs es, m.keydata ≠ [] → m.date ≤ p.timestamp
  gossips : p.key = none → ∀ g ∈ Peer.gossips es, g.date ≤ p.gossipTimestamp
  low : p.timestamp ≤ p.lastSeen
  zero : 0 ≤ p.timestamp
  gzero : 0 ≤ p.gossipTimestamp
  last : ∀ m, Peer.latestMsg es = .some m → (m.keydata ≠ [] ↔ p.lastSeen = p.timestamp)

theorem tracks_new : Tracks [] .new := by
  refine ⟨rfl, rfl, fun _ => ⟨rfl, rfl⟩, fun _ h => (by cases h), fun _ => ⟨rfl, rfl⟩, by simp, by simp, fun _ => ?_, ?_, ?_, ?_, fun _ h => by cases h⟩
  · intro g hg; simp [Peer.gossips] at hg
  all_goals exact Int.le_refl _

theorem isRecorded_mem {es : List Entry} {u : Peer.MsgUpdate} (h : Peer.isRecorded es u = true) :
    ∃ e ∈ Peer.msgs es, e.date = u.date ∧ some e.keydata = u.keydata ∧ some e.pe.toStr = u.pe := by
  unfold Peer.isRecorded Peer.getMessageEntry at h
  split at h
  · rename_i e he
    simp only [Peer.sameMsg, Bool.and_eq_true, beq_iff_eq] at h
    exact ⟨e, List.mem_of_find?_eq_some he, h.1.1.1, h.1.1.2, h.2⟩
  · cases h

theorem isRecordedGossip_mem {es : List Entry} {u : Peer.GossipUpdate} (h : Peer.isRecordedGossip es u = true) :
    ∃ e ∈ Peer.gossips es, e.date = u.date ∧ some e.keydata = u.keydata := by
  unfold Peer.isRecordedGossip Peer.getGossipEntry at h
  split at h
  · rename_i e he
    simp only [Bool.and_eq_true, beq_iff_eq] at h
    exact ⟨e, List.mem_of_find?_eq_some he, h.1.1, h.1.2⟩
  · cases h

theorem PE.toStr_injective {a b : PE} (h : a.toStr = b.toStr) : a = b := by
  cases a <;> cases b <;> first | rfl | exact absurd h (by decide)

theorem tracks_plain {es : List Entry} {p : Level1.Peer} (h : Tracks es p) {u : Peer.MsgUpdate} (hk : u.keydata = none ∨ u.keydata = some []) :
    Tracks (Peer.applyMsg es u) (p.learn (.mail u.date none)) := by
  have hn : Peer.noKey u.keydata = true := by rcases hk with h | h <;> rw [h] <;> rfl
  unfold Peer.applyMsg Peer.updateEntry Level1.Peer.learn
  rw [h.stamp, h.seen, hn]
  by_cases h1 : u.date < p.timestamp
  · simp only [h1, if_true]; exact h
  by_cases h2 : Peer.isRecorded es u = true
  · obtain ⟨e, he, h3, _⟩ := isRecorded_mem h2
    have := h.mails e he
    simp only [h1, h2, if_true, if_false, show ¬ p.lastSeen < u.date by omega]
    exact h
  by_cases h3 : p.lastSeen < u.date
  · simp only [h1, h2, h3, gt_iff_lt, if_true, if_false, Bool.false_eq_true]
    have hl := h.low
    have hac : Peer.latestAc (.msg ⟨u.msgId, u.date, .nopreference, [], []⟩ :: es) = Peer.latestAc es := Peer.latestAc_nokey _ rfl
    refine ⟨rfl, ?_, ?_, ?_, h.gossip, ?_, ?_, h.gossips, ?_, h.zero, h.gzero, ?_⟩
    · rw [Peer.acTimestamp_nokey _ rfl]; exact h.stamp
    · rw [hac]; exact h.unknown
    · rw [hac]; exact h.known
    · rintro m hm
      rcases List.mem_cons.mp hm with rfl | hm
      · exact Int.le_refl _
      · have := h.mails m hm
        show m.date ≤ u.date
        omega
    · rintro m hm hne
      rcases List.mem_cons.mp hm with rfl | hm
      · exact absurd rfl hne
      · exact h.keys m hm hne
    · show p.timestamp ≤ u.date
      omega
    · rintro m hm
      cases hm
      refine ⟨fun hne => absurd rfl hne, fun he => ?_⟩
      have : u.date = p.timestamp := he
      omega
  · simp only [h1, h2, h3, gt_iff_lt, if_true, if_false, Bool.false_eq_true]
    exact h

theorem tracks_key {es : List Entry} {p : Level1.Peer} (h : Tracks es p) {u : Peer.MsgUpdate} {k : Bytes} {pe : PE} (hk : k ≠ []) (hu : u.keydata = some k)
    (hp : u.pe = some pe.toStr) {kh : Str} (hh : kh ≠ []) (hkh : u.keyhandle = some kh) (ht : p.Timely (.mail u.date (some (k, pe)))) :
    Tracks (Peer.applyMsg es u) (p.learn (.mail u.date (some (k, pe)))) := by
  have hn : Peer.noKey u.keydata = false := by rw [hu]; simpa [Peer.noKey] using hk
  have hpe : Peer.peArg u.pe = .ok pe := peArg_ok.mpr hp
  unfold Peer.applyMsg Peer.updateEntry Level1.Peer.learn
  rw [h.stamp, h.seen, hn, hpe]
  by_cases h1 : u.date < p.timestamp
  · simp only [h1, if_true]; exact h
  have ht : p.lastSeen ≤ u.date ∧ (u.date = p.timestamp → p.key = none ∨ (p.key = some k ∧ p.prefer = pe)) := ht.resolve_left h1
  have hseen : (if p.lastSeen < u.date then { p with lastSeen := u.date } else p) = { p with lastSeen := u.date } := by
    split
    · rfl
    · have : p.lastSeen = u.date := by omega
      rw [← this]
  by_cases h2 : Peer.isRecorded es u = true
  · obtain ⟨e, he, h3, h4, h5⟩ := isRecorded_mem h2
    have hek : e.keydata ≠ [] := by rw [hu] at h4; cases h4; exact hk
    have := h.keys e he hek
    have hd : u.date = p.timestamp := by omega
    have hl : p.lastSeen = u.date := by have := h.low; omega
    simp only [h1, h2, if_true, if_false, hseen]
    rcases ht.2 hd with h6 | ⟨h6, h7⟩
    · -- a recorded mail with a key, but no key
      have := (h.unknown h6).1
      exact absurd (List.find?_eq_none.mp this e he) (by simpa using hek)
    · have : ({ p with lastSeen := u.date, timestamp := u.date, key := some k, prefer := pe } : Level1.Peer) = p := by
        have hd' : p.timestamp = u.date := hd.symm
        clear h ht hseen
        obtain ⟨a, b, c, d, e, f⟩ := p
        simp only at h6 h7 hd' hl ⊢
        rw [h6, h7, hd', hl]
      rw [this]
      exact h
  · simp only [h1, h2, if_false, Bool.false_eq_true, hseen, hu, Option.getD_some, hkh, Peer.orEmpty]
    have hne : k.isEmpty = false := by simpa using hk
    refine ⟨rfl, Peer.acTimestamp_key _ hne, fun h => (by cases h), ?_, fun h => (by cases h), ?_, ?_, fun h => (by cases h), Int.le_refl _, ?_, h.gzero, ?_⟩
    · rintro k' hk'
      cases hk'
      exact ⟨_, Peer.latestAc_key _ hne, rfl, rfl, hh⟩
    · rintro m hm
      rcases List.mem_cons.mp hm with rfl | hm
      · exact Int.le_refl _
      · exact Int.le_trans (h.mails m hm) ht.1
    · rintro m hm hm'
      rcases List.mem_cons.mp hm with rfl | hm
      · exact Int.le_refl _
      · have := h.keys m hm hm'
        show m.date ≤ u.date
        omega
    · show (0 : Int) ≤ u.date
      have := h.zero
      omega
    · rintro m hm
      cases hm
      exact ⟨fun _ => rfl, fun _ => hk⟩

theorem tracks_gossip {es : List Entry} {p : Level1.Peer} (h : Tracks es p) {u : Peer.GossipUpdate} {k : Bytes} (hk : k ≠ []) (hu : u.keydata = some k)
    {kh : Str} (hh : kh ≠ []) (hkh : u.keyhandle = some kh) (ht : p.Timely (.gossip u.date k)) :
    Tracks (Peer.applyGossip es u) (p.learn (.gossip u.date k)) := by
  have hn : Peer.noKey u.keydata = false := by rw [hu]; simpa [Peer.noKey] using hk
  -- the part which has nothing to do with gossip
  have keep : ∀ (es' : List Entry) (p' : Level1.Peer), (es' = es ∨ ∃ g, es' = .gossip g :: es) → p'.lastSeen = p.lastSeen → p'.timestamp = p.timestamp → p'.key = p.key →
      p'.prefer = p.prefer → 0 ≤ p'.gossipTimestamp →
      (p.key = none → (match Peer.latestGossip es' with
        | .none => p'.gossipKey = .none ∧ p'.gossipTimestamp = 0
        | .some g => p'.gossipKey = .some g.keydata ∧ p'.gossipTimestamp = g.date ∧ g.keyhandle ≠ []) ∧
        ∀ g ∈ Peer.gossips es', g.date ≤ p'.gossipTimestamp) → Tracks es' p' := by
    intro es' p' hes h1 h2 h3 h4 h5 h6
    have e1 : Peer.msgs es' = Peer.msgs es := by rcases hes with rfl | ⟨g, rfl⟩ <;> rfl
    have e2 : Peer.latestAc es' = Peer.latestAc es := by unfold Peer.latestAc; rw [e1]
    have e3 : Peer.latestMsg es' = Peer.latestMsg es := by unfold Peer.latestMsg; rw [e1]
    refine ⟨?_, ?_, ?_, ?_, ?_, ?_, ?_, ?_, ?_, ?_, h5, ?_⟩
    · rw [h1, ← h.seen]; unfold Peer.lastSeen; rw [e3]
    · rw [h2, ← h.stamp]; unfold Peer.acTimestamp; rw [e2]
    · rw [h3, h2, e2]; exact h.unknown
    · rw [h3, h4, e2]; exact h.known
    · rw [h3]; exact fun hp => (h6 hp).1
    · rw [e1, h1]; exact h.mails
    · rw [e1, h2]; exact h.keys
    · rw [h3]; exact fun hp => (h6 hp).2
    · rw [h1, h2]; exact h.low
    · rw [h2]; exact h.zero
    · rw [e3, h1, h2]; exact h.last
  have hz := h.zero
  have hg := h.gzero
  unfold Peer.applyGossip Peer.gossipEntry Level1.Peer.learn
  rw [h.stamp, hn, hkh]
  by_cases hkey : p.key = none
  · have h0 := (h.unknown hkey).2
    by_cases h1 : u.date < p.timestamp
    · simp only [h1, if_true, show u.date < p.gossipTimestamp by omega]
      exact h
    have ht : p.gossipTimestamp ≤ u.date ∧ (u.date = p.gossipTimestamp → p.gossipKey = none ∨ p.gossipKey = some k) :=
      (ht.resolve_left fun hh => hh hkey).resolve_left h1
    have h2 : ¬ u.date < p.gossipTimestamp := by omega
    by_cases h3 : Peer.isRecordedGossip es u = true
    · obtain ⟨e, he, h4, h5⟩ := isRecordedGossip_mem h3
      have h6 := h.gossips hkey e he
      have hd : u.date = p.gossipTimestamp := by omega
      simp only [h1, h2, h3, if_false, if_true, Bool.false_eq_true]
      have hk' : p.gossipKey = some k := by
        rcases ht.2 hd with h7 | h7
        · have := h.gossip hkey
          split at this
          · rename_i hl
            have : Peer.gossips es = [] := List.head?_eq_none_iff.mp hl
            rw [this] at he
            cases he
          · rw [this.1] at h7; cases h7
        · exact h7
      have : ({ p with gossipTimestamp := u.date, gossipKey := some k } : Level1.Peer) = p := by rw [hd, ← hk']
      rw [this]
      exact h
    · simp only [h1, h2, h3, if_false, Bool.false_eq_true, hu, Option.getD_some]
      refine keep _ _ (.inr ⟨_, rfl⟩) rfl rfl rfl rfl (by show (0 : Int) ≤ u.date; omega) fun _ => ⟨⟨rfl, rfl, hh⟩, ?_⟩
      rintro g hgm
      rcases List.mem_cons.mp hgm with rfl | hgm
      · exact Int.le_refl _
      · exact Int.le_trans (h.gossips hkey g hgm) ht.1
  · have vac : ∀ {P : Prop}, p.key = none → P := fun h => absurd h hkey
    have hp' : ∀ es' : List Entry, (es' = es ∨ ∃ g, es' = .gossip g :: es) →
        Tracks es' (if u.date < p.gossipTimestamp then p else { p with gossipTimestamp := u.date, gossipKey := some k }) := by
      intro es' hes
      split
      · exact keep _ _ hes rfl rfl rfl rfl hg vac
      · exact keep _ _ hes rfl rfl rfl rfl (by show (0 : Int) ≤ u.date; omega) vac
    apply hp'
    split
    · exact .inr ⟨_, rfl⟩
    · exact .inl rfl

theorem tracks_learn {es : List Entry} {p : Level1.Peer} (h : Tracks es p) {u : PeerEvent} {e : Level1.Event} (hm : u.Means e) (ht : p.Timely e) :
    Tracks (u.apply es) (p.learn e) := by
  cases u with
  | msg u =>
    cases e with
    | gossip => exact hm.elim
    | mail d hd =>
      cases hd with
      | none => obtain ⟨rfl, hk⟩ := hm; exact tracks_plain h hk
      | some x => obtain ⟨rfl, hk, hu, hp, kh, hh, hkh⟩ := hm; exact tracks_key h hk hu hp hh hkh ht
  | gossip u =>
    cases e with
    | mail => exact hm.elim
    | gossip d k => obtain ⟨rfl, hk, hu, kh, hh, hkh⟩ := hm; exact tracks_gossip h hk hu hh hkh ht

theorem tracks_all {us : List PeerEvent} {l : List Level1.Event} (hm : List.Forall₂ PeerEvent.Means us l) {es : List Entry} {p : Level1.Peer} (h : Tracks es p)
    (ht : p.AllTimely l) : Tracks (us.foldl PeerEvent.apply es) (l.foldl Level1.Peer.learn p) := by
  induction hm generalizing es p with
  | nil => exact h
  | cons h1 _ ih => exact ih (tracks_learn h h1 ht.1) ht.2

theorem Follows.tracks {es : List Entry} {p : Level1.Peer} (h : Follows es p) : Tracks es p := by
  obtain ⟨us, l, h1, h2, rfl, rfl⟩ := h
  exact tracks_all h1 tracks_new h2

theorem Tracks.shows {es : List Entry} {p : Level1.Peer} (h : Tracks es p) : Shows es p := by
  cases hk : p.key with
  | none =>
    obtain ⟨h1, -⟩ := h.unknown hk
    have hg := h.gossip hk
    refine ⟨h.seen, h.stamp, ?_, ?_, fun hp => absurd hk hp⟩
    · unfold Peer.publicKeydata Peer.entryForEncryption Level1.Peer.target
      rw [h1, hk]
      split at hg
      · rename_i hl; rw [hl, hg.1]; rfl
      · rename_i g hl; rw [hl, hg.1]; rfl
    · unfold Peer.hasDirectKey; rw [h1, hk]; rfl
  | some k =>
    obtain ⟨m, h1, h2, h3, h4⟩ := h.known k hk
    have h5 : m.keyhandle.isEmpty = false := by simpa using h4
    refine ⟨h.seen, h.stamp, ?_, ?_, fun _ => ?_⟩
    · unfold Peer.publicKeydata Peer.entryForEncryption Level1.Peer.target
      rw [h1, hk]; simp only [h5, Bool.not_false, if_true]; exact h2
    · unfold Peer.hasDirectKey; rw [h1, hk]; simp [h5]
    · unfold Peer.preferEncrypt Peer.entryForEncryption
      rw [h1]; simp only [h5, Bool.not_false, if_true]; rw [h3]


/-- what the dates say about a peer -/
theorem learned {q : List Level1.Event} {p : Level1.Peer} (hp : p = q.foldl Level1.Peer.learn .new) :
    0 ≤ p.timestamp ∧ p.timestamp ≤ p.lastSeen ∧ 0 ≤ p.gossipTimestamp ∧
    (p.lastSeen = 0 ∨ ∃ h, .mail p.lastSeen h ∈ q) ∧ (p.key = none ∧ p.timestamp = 0 ∨ ∃ h, .mail p.timestamp h ∈ q) ∧
    (p.gossipKey = none ∧ p.gossipTimestamp = 0 ∨ ∃ k, .gossip p.gossipTimestamp k ∈ q) := by
  subst hp
  induction q using List.reverseRecOn with
  | nil => exact ⟨Int.le_refl _, Int.le_refl _, Int.le_refl _, .inl rfl, .inl ⟨rfl, rfl⟩, .inl ⟨rfl, rfl⟩⟩
  | append_singleton q e ih =>
    rw [List.foldl_append, List.foldl_cons, List.foldl_nil]
    generalize q.foldl Level1.Peer.learn .new = p at ih
    obtain ⟨h1, h2, h3, h4, h5, h6⟩ := ih
    have h4' : p.lastSeen = 0 ∨ ∃ h, .mail p.lastSeen h ∈ q ++ [e] := h4.imp id fun ⟨h, hm⟩ => ⟨h, List.mem_append_left _ hm⟩
    have h5' : p.key = none ∧ p.timestamp = 0 ∨ ∃ h, .mail p.timestamp h ∈ q ++ [e] := h5.imp id fun ⟨h, hm⟩ => ⟨h, List.mem_append_left _ hm⟩
    have h6' : p.gossipKey = none ∧ p.gossipTimestamp = 0 ∨ ∃ k, .gossip p.gossipTimestamp k ∈ q ++ [e] :=
      h6.imp id fun ⟨h, hm⟩ => ⟨h, List.mem_append_left _ hm⟩
    cases e with
    | mail d hd =>
      have hin : ∃ h, Level1.Event.mail d h ∈ q ++ [.mail d hd] := ⟨hd, by simp⟩
      unfold Level1.Peer.learn
      by_cases hlt : d < p.timestamp
      · simp only [hlt, if_true]; exact ⟨h1, h2, h3, h4', h5', h6'⟩
      · simp only [hlt, if_false]
        by_cases hl : p.lastSeen < d
        · simp only [hl, if_true]
          cases hd with
          | none => exact ⟨h1, by show p.timestamp ≤ d; omega, h3, .inr hin, h5', h6'⟩
          | some x => exact ⟨by show (0 : Int) ≤ d; omega, Int.le_refl _, h3, .inr hin, .inr hin, h6'⟩
        · simp only [hl, if_false]
          cases hd with
          | none => exact ⟨h1, h2, h3, h4', h5', h6'⟩
          | some x => exact ⟨by show (0 : Int) ≤ d; omega, by show d ≤ p.lastSeen; omega, h3, h4', .inr hin, h6'⟩
    | gossip d k =>
      unfold Level1.Peer.learn
      by_cases hlt : d < p.gossipTimestamp
      · simp only [hlt, if_true]; exact ⟨h1, h2, h3, h4', h5', h6'⟩
      · simp only [hlt, if_false]
        exact ⟨h1, h2, by show (0 : Int) ≤ d; omega, h4', h5', .inr ⟨k, by simp⟩⟩

theorem later_timely {p : Level1.Peer} {e : Level1.Event} {q : List Level1.Event} (hp : p = q.foldl Level1.Peer.learn .new) (h : ∀ x ∈ q, LaterThan x e) :
    p.Timely e := by
  obtain ⟨h1, h2, h3, h4, h5, h6⟩ := learned hp
  cases e with
  | mail d hd =>
    have hm : ∀ {t h'}, Level1.Event.mail t h' ∈ q → t < d := fun hx => h _ hx
    cases hd with
    | none => trivial
    | some x =>
      by_cases hd : d < p.timestamp
      · exact .inl hd
      refine .inr ⟨?_, fun he => .inl ?_⟩
      · rcases h4 with h4 | ⟨_, h4⟩
        · omega
        · exact Int.le_of_lt (hm h4)
      · rcases h5 with h5 | ⟨_, h5⟩
        · exact h5.1
        · have := hm h5; omega
  | gossip d k =>
    have hm : ∀ {t h'}, Level1.Event.gossip t h' ∈ q → t < d := fun hx => h _ hx
    by_cases hd : d < p.timestamp
    · exact .inr (.inl hd)
    refine .inr (.inr ⟨?_, fun he => .inl ?_⟩)
    · rcases h6 with h6 | ⟨_, h6⟩
      · omega
      · exact Int.le_of_lt (hm h6)
    · rcases h6 with h6 | ⟨_, h6⟩
      · exact h6.1
      · have := hm h6; omega

theorem later_allTimely {l q : List Level1.Event} {p : Level1.Peer} (hp : p = q.foldl Level1.Peer.learn .new) (h : (q ++ l).Pairwise LaterThan) :
    p.AllTimely l := by
  induction l generalizing p q with
  | nil => trivial
  | cons e l ih =>
    refine ⟨later_timely hp fun x hx => (List.pairwise_append.mp h).2.2 x hx e (List.mem_cons_self ..), ih (q := q ++ [e]) ?_ (by simpa using h)⟩
    rw [List.foldl_append, ← hp]; rfl

theorem Tracks.recommend {es : List Entry} {p : Level1.Peer} (h : Tracks es p) (own : PE) (reply : Bool) :
    recSpec es own reply = if reply = false ∧ p.recommend own reply = .encrypt ∧ p.lastSeen ≠ p.timestamp then .available else p.recommend own reply := by
  obtain ⟨r, -, hr⟩ := peerUi_cases es own reply
  rw [← hr.eq]
  cases hk : p.key with
  | none =>
    have hu : ∀ {P : Prop} {m}, UsableKey es m → P := by
      rintro P m ⟨hm, -⟩
      rw [← latestAc_iff, (h.unknown hk).1] at hm; cases hm
    have hg := h.gossip hk
    have hkn : KnownKey es ↔ p.target ≠ none := by
      unfold KnownKey UsableGossip Level1.Peer.target
      simp only [← latestGossip_iff]
      rw [hk]
      split at hg
      · rename_i hl
        rw [hl, hg.1]
        refine ⟨?_, fun h => absurd rfl h⟩
        rintro (⟨m, hm⟩ | ⟨g, hg, -⟩)
        · exact hu hm
        · cases hg
      · rename_i g hl
        rw [hl, hg.1]
        exact ⟨fun _ h => (by cases h), fun _ => .inr ⟨g, rfl, hg.2.2⟩⟩
    have hrec : p.recommend own reply = if p.target = none then .disable else if reply = true then .encrypt else .discourage := by
      unfold Level1.Peer.recommend Level1.Peer.preliminary
      by_cases ht : p.target = none <;> cases reply <;> simp [ht, hk]
    rw [hrec]
    cases hr with
    | disable h1 =>
      have : p.target = none := Classical.not_not.mp fun h' => h1 (hkn.mpr h')
      simp [this]
    | reply h1 h2 => simp [hkn.mp h1, h2]
    | noDirect h1 h2 h3 => simp [hkn.mp h1, h2]
    | stale m h1 h2 => exact hu h2
    | wanted m h1 h2 => exact hu h2
    | available m h1 h2 => exact hu h2
  | some k =>
    obtain ⟨m, h1, h2, h3, h4⟩ := h.known k hk
    have hm : UsableKey es m := ⟨latestAc_iff.mp h1, h4⟩
    have huniq : ∀ {m'}, UsableKey es m' → m' = m := by
      rintro m' ⟨h', -⟩
      rw [← latestAc_iff, h1] at h'; cases h'; rfl
    have hd : m.date = p.timestamp := by rw [← h.stamp, Peer.acTimestamp, h1]
    obtain ⟨l, hl⟩ := latestMsg_of_latestAc h1
    have hls : l.date = p.lastSeen := by rw [← h.seen, Peer.lastSeen, hl]
    have hstale : Stale es m ↔ p.lastSeen - p.timestamp > sec (35 * 24 * 60 * 60) := by
      unfold Stale
      simp only [← latestMsg_iff, hl, hd]
      constructor
      · rintro ⟨l', h', h''⟩; cases h'; rw [hls] at h''; omega
      · intro h'; exact ⟨l, rfl, by rw [hls]; omega⟩
    have hwants : PeerWantsEncryption es m ↔ p.lastSeen = p.timestamp ∧ p.prefer = .mutual := by
      unfold PeerWantsEncryption
      rw [← latestMsg_iff, hl, h3]
      constructor
      · rintro ⟨h', h''⟩
        cases h'
        exact ⟨by rw [← hls, hd], h''⟩
      · rintro ⟨h', h''⟩
        exact ⟨by rw [latestAc_of_latestMsg h1 hl ((h.last l hl).mpr h')], h''⟩
    have ht : p.target ≠ none := by unfold Level1.Peer.target; rw [hk]; exact fun h => by cases h
    have hkn : KnownKey es := .inl ⟨m, hm⟩
    have hpre : p.preliminary = if p.lastSeen - p.timestamp > sec (35 * 24 * 60 * 60) then .discourage else .available := by
      unfold Level1.Peer.preliminary
      rw [if_neg ht, if_neg (by rw [hk]; exact fun h => by cases h)]
    unfold Level1.Peer.recommend
    rw [hpre]
    cases hr with
    | disable h5 => exact absurd hkn h5
    | reply h5 h6 => rw [h6]; split <;> simp
    | noDirect h5 h6 h7 => exact absurd ⟨m, hm⟩ h7
    | stale m' h5 h6 h7 =>
      rw [huniq h6] at h7
      rw [h5, if_pos (hstale.mp h7)]; simp
    | wanted m' h5 h6 h7 h8 h9 =>
      rw [huniq h6] at h7 h9
      rw [h5, if_neg fun h => h7 (hstale.mpr h)]
      simp [h8, (hwants.mp h9).1, (hwants.mp h9).2]
    | available m' h5 h6 h7 h8 =>
      rw [huniq h6] at h7 h8
      rw [h5, if_neg fun h => h7 (hstale.mpr h)]
      rw [hwants] at h8
      by_cases ho : own = .mutual <;> by_cases hp : p.prefer = .mutual <;> by_cases hx : p.lastSeen = p.timestamp <;> simp_all


/-! ## Mails -/

/-- what a mail says about `a`, which was processed with result `res`: that `a` sent it, and the key it has. The key could be imported. -/
def MailSays (env : Env) (m : Msg) (a : Str) (res : Account.IncomingResult) (t : Time) (l : List Level1.Event) : Prop :=
  senderAddr env m ≠ a ∧ l = [] ∨
  senderAddr env m = a ∧ (∀ k pe, ¬ CarriesKey env m a k pe) ∧ l = [.mail t none] ∨
  ∃ k pe, CarriesKey env m a k pe ∧ res.pah.error = none ∧ l = [.mail t (some (k, pe))]

/-- the last header with gossip about `r` in a decrypted mail has key `k` -/
def GossipKey (env : Env) (m : Msg) (dec : Bytes) (r : Str) (k : Bytes) : Prop :=
  ∃ v p, LastOne (fun v => ∃ p, ValidFor env r v p) (innerOuter env m dec (str!"Autocrypt-Gossip")) v ∧ ValidFor env r v p ∧ p.keydata = some k

/-- what a decrypted mail says about `a` in its gossip: nothing, or a key, which is the same for all ways in which `a` is written there -/
def GossipSays (env : Env) (m : Msg) (dec : Bytes) (a : Str) (t : Time) (l : List Level1.Event) : Prop :=
  (∀ r ∈ decRecipients env m dec, address env (some r) = a → ∀ v ∈ innerOuter env m dec (str!"Autocrypt-Gossip"), ∀ p, ¬ ValidFor env r v p) ∧ l = [] ∨
  ∃ k, k ≠ [] ∧ (∃ r ∈ decRecipients env m dec, address env (some r) = a ∧ GossipKey env m dec r k) ∧
    (∀ r ∈ decRecipients env m dec, address env (some r) = a → ∀ k', GossipKey env m dec r k' → k' = k) ∧ l = [.gossip t k]

/-- what mails say about `a` which are processed by account `n` one after the other; anything may be done in between which
does not touch what is known about `a` -/
inductive Received (O : Oracle K) (env : Env) (n a : Str) : World Store K → List Level1.Event → World Store K → Prop
  | nil (w : World Store K) : Received O env n a w [] w
  | plain {w w1 w2 : World Store K} {l l' : List Level1.Event} {m : Msg} {i nd : Bool} {res : Account.IncomingResult} {t : Time} :
      Received O env n a w l w1 → exec O (Account.processIncoming env n m i nd) w1 = (.ok (some res), w2) → nd = true ∨ ¬ PgpMime m →
      EffectiveDate env w1 m t → MailSays env m a res t l' → Received O env n a w (l ++ l') w2
  | encrypted {w w1 w2 : World Store K} {l l' l'' : List Level1.Event} {m : Msg} {i : Bool} {res : Account.IncomingResult} {t : Time} :
      Received O env n a w l w1 → exec O (Account.processIncoming env n m i false) w1 = (.ok (some res), w2) → PgpMime m →
      EffectiveDate env w1 m t → MailSays env m a res t l' → (∀ dec, DecryptedTo w1 w2 m dec → GossipSays env m dec a t l'') →
      Received O env n a w (l ++ l' ++ l'') w2
  | other {w w1 w2 : World Store K} {l : List Level1.Event} :
      Received O env n a w l w1 → w2.log (peerHead n a) = w1.log (peerHead n a) → Received O env n a w l w2

theorem valid_keydata {env : Env} {a v : Str} {r : ACResult} (h : ValidFor env a v r) : r.keydata ≠ none := by
  obtain ⟨h1, h2, -⟩ := h
  unfold parseAcHeadervalue at h1
  split at h1
  · cases h1
  · cases h1; cases h2
  · split at h1
    · cases h1; cases h2
    · cases h1; cases h2
    · cases h1; simp

theorem forall₂_snoc {α β : Type} {R : α → β → Prop} {l : List α} {l' : List β} (h : List.Forall₂ R l l') {x : α} {y : β} (hx : R x y) :
    List.Forall₂ R (l ++ [x]) (l' ++ [y]) := by
  induction h with
  | nil => exact .cons hx .nil
  | cons h _ ih => exact .cons h ih

theorem allTimely_append {p : Level1.Peer} {l l' : List Level1.Event} : p.AllTimely (l ++ l') ↔ p.AllTimely l ∧ (l.foldl Level1.Peer.learn p).AllTimely l' := by
  induction l generalizing p with
  | nil => exact ⟨fun h => ⟨trivial, h⟩, fun h => h.2⟩
  | cons e l ih => exact ⟨fun h => ⟨⟨h.1, (ih.mp h.2).1⟩, (ih.mp h.2).2⟩, fun h => ⟨h.1.1, ih.mpr ⟨h.1.2, h.2⟩⟩⟩

theorem Follows.learn {es : List Entry} {p : Level1.Peer} (h : Follows es p) {u : PeerEvent} {e : Level1.Event} (hm : u.Means e) (ht : p.Timely e) :
    Follows (u.apply es) (p.learn e) := by
  obtain ⟨us, l, h1, h2, rfl, rfl⟩ := h
  exact ⟨us ++ [u], l ++ [e], forall₂_snoc h1 hm, allTimely_append.mpr ⟨h2, ht, trivial⟩, by rw [List.foldl_append]; rfl, by rw [List.foldl_append]; rfl⟩

/-- the update for a mail of `a` -/
theorem mailSays_follows {env : Env} {m : Msg} {a : Str} {res : Account.IncomingResult} {t : Time} {l : List Level1.Event} (hs : MailSays env m a res t l)
    {w w' : World Store K} {evs : List PeerEvent} (h1 : senderAddr env m ≠ a → evs = [])
    (h2 : senderAddr env m = a → ∃ u, evs = [.msg u] ∧ UpdateFor env m a t u ∧ HandleFor env w w' u res.pah) {es : List Entry} {p : Level1.Peer}
    (h : Follows es p) (ht : p.AllTimely l) : Follows (evs.foldl PeerEvent.apply es) (l.foldl Level1.Peer.learn p) := by
  rcases hs with ⟨hne, rfl⟩ | ⟨heq, hno, rfl⟩ | ⟨k, pe, hc, herr, rfl⟩
  · rw [h1 hne]; exact h
  · obtain ⟨u, rfl, hu, -⟩ := h2 heq
    refine h.learn (u := .msg u) (e := .mail t none) ⟨hu.2.2.1, ?_⟩ ht.1
    cases hk : u.keydata with
    | none => exact .inl rfl
    | some k =>
      obtain ⟨_, _, _, r, h3, h4, h5⟩ := id hu
      rcases parseOne_pe h3 with h6 | ⟨pe, h6⟩
      · rw [← h4, hk] at h6; cases h6
      · by_cases hne : k = []
        · rw [hne]; exact .inr rfl
        · exact absurd (hu.carries hk hne (by rw [h5, h6])) (hno k pe)
  · obtain ⟨u, rfl, hu, hh⟩ := h2 hc.1
    obtain ⟨hk, hpe⟩ := hu.key hc
    obtain ⟨kh, hkh, hi⟩ := hh.1 herr
    exact h.learn (u := .msg u) (e := .mail t (some (k, pe))) ⟨hu.2.2.1, hc.2.1, hk, hpe, kh, hi.ne_nil, hkh⟩ ht.1

/-- import and update for one recipient are an update with a handle -/
theorem gossip_apply {O : Oracle K} {env : Env} {n r id : Str} {t : Time} {pah pah' : ACResult} {kh : Option Str} {k : Bytes} (hk : pah.keydata = some k)
    {w w1 w2 : World Store K} (h1 : run Store.impl O (Account.importPah env n pah) w = (.ok (kh, pah'), w1))
    (h2 : run Store.impl O (Peer.updateFromGossip (Account.peerHeadOf env n r) ⟨id, t, pah'.keydata, kh⟩) w1 = (.ok (), w2)) :
    ∃ h, h ≠ [] ∧ w2.log (Account.peerHeadOf env n r) = Peer.applyGossip (w.log (Account.peerHeadOf env n r)) ⟨id, t, some k, some h⟩ := by
  obtain ⟨g1, g2, g3⟩ := gossip_recipient h1 h2
  have hs : w1.store = w.store := by
    have := (run_ro (O := O) (Account.importPah_ops permissive_readOnly env n pah) w).1
    rw [exec, h1] at this; exact this
  have hpk : pah'.keydata = some k := by
    have := (Account.importPah_returns env n pah).of_run h1
    rw [this.1, hk]
  have hget : w2.log (Account.peerHeadOf env n r) = Peer.applyGossip (w.log (Account.peerHeadOf env n r)) ⟨id, t, some k, kh⟩ := by
    have := Peer.get_updateFromGossip O (Account.peerHeadOf env n r) (Account.peerHeadOf env n r) ⟨id, t, pah'.keydata, kh⟩ w1
    rw [exec, h2, hs, if_pos rfl, hpk] at this
    exact this
  by_cases ht : t < Peer.acTimestamp (w.log (Account.peerHeadOf env n r))
  · refine ⟨str!"x", by decide, ?_⟩
    rw [hget]
    simp only [Peer.applyGossip, Peer.gossipEntry, ht, if_true]
  · obtain ⟨g, hg, -⟩ := g3 k hk (by omega)
    obtain ⟨g', -, -, -, hkh, -⟩ := gossip_step (O := O) (k := k) (t := t) (id := id) (kh := kh) (w := w1) (w' := w2) (head := Account.peerHeadOf env n r)
      (by rw [← hpk]; exact h2) (by unfold World.log at ht ⊢; rw [hs]; omega)
    have : ImportedKey env w w1 k g'.keyhandle := by
      unfold Account.importPah at h1
      simp only [bind_eq, pure_eq] at h1
      obtain ⟨o, w0, i1, i2⟩ := run_bind_ok.mp h1
      cases o with
      | none => cases i2; cases hkh
      | some k' =>
        cases i2
        cases hkh
        rw [hk] at i1
        exact importKey_ran i1
    exact ⟨g'.keyhandle, this.ne_nil, by rw [hget, hkh]⟩

/-- the gossip for one peer -/
theorem gossipLoop_updates {O : Oracle K} {env : Env} {n id hd : Str} {t : Time} {k : Bytes} {dict pr out : List (Str × ACResult)} {l : List Str}
    {w w' : World Store K} (h : run Store.impl O (Account.gossipLoop env n dict t id pr l) w = (.ok out, w')) {P Q : List Entry → Prop}
    (hP : ∀ es h, h ≠ [] → P es → Q (Peer.applyGossip es ⟨id, t, some k, some h⟩)) (hQ : ∀ es h, h ≠ [] → Q es → Q (Peer.applyGossip es ⟨id, t, some k, some h⟩))
    (hsame : ∀ r ∈ l, ∀ pah, dictGet dict r = some pah → Account.peerHeadOf env n r = hd → pah.keydata = some k) :
    (Q (w.log hd) → Q (w'.log hd)) ∧
    (P (w.log hd) → (∃ r ∈ l, (dictGet dict r).isSome ∧ Account.peerHeadOf env n r = hd) → Q (w'.log hd)) ∧
    ((∀ r ∈ l, (dictGet dict r).isSome → Account.peerHeadOf env n r ≠ hd) → w'.log hd = w.log hd) := by
  induction l generalizing pr w with
  | nil => cases h; exact ⟨fun h => h, fun _ h => by simp at h, fun _ => rfl⟩
  | cons r0 rs ih =>
    have hs' := fun r hr => hsame r (List.mem_cons_of_mem _ hr)
    unfold Account.gossipLoop at h
    split at h
    · rename_i hn
      obtain ⟨i1, i2, i3⟩ := ih h hs'
      refine ⟨i1, fun hp hex => i2 hp ?_, fun hno => i3 fun r hr => hno r (List.mem_cons_of_mem _ hr)⟩
      obtain ⟨r, hr, hr1, hr2⟩ := hex
      rcases List.mem_cons.mp hr with rfl | hr
      · rw [hn] at hr1; cases hr1
      · exact ⟨r, hr, hr1, hr2⟩
    · rename_i pah0 hp0
      simp only [bind_eq] at h
      obtain ⟨⟨kh, pah'⟩, w1, h1, h⟩ := run_bind_ok.mp h
      obtain ⟨⟨⟩, w2, h2, h⟩ := run_bind_ok.mp h
      obtain ⟨i1, i2, i3⟩ := ih h hs'
      by_cases hr0 : Account.peerHeadOf env n r0 = hd
      · obtain ⟨x, hx, hap⟩ := gossip_apply (hsame r0 (List.mem_cons_self ..) pah0 hp0 hr0) h1 h2
        rw [hr0] at hap
        refine ⟨fun hq => i1 (by rw [hap]; exact hQ _ _ hx hq), fun hp _ => i1 (by rw [hap]; exact hP _ _ hx hp), fun hno => ?_⟩
        exact absurd hr0 (hno r0 (List.mem_cons_self ..) (by rw [hp0]; rfl))
      · have hk := (gossip_recipient h1 h2).1 hd fun h => hr0 h.symm
        rw [hk] at i1 i2 i3
        refine ⟨i1, fun hp hex => i2 hp ?_, fun hno => i3 fun r hr => hno r (List.mem_cons_of_mem _ hr)⟩
        obtain ⟨r, hr, hr1, hr2⟩ := hex
        rcases List.mem_cons.mp hr with rfl | hr
        · exact absurd hr2 hr0
        · exact ⟨r, hr, hr1, hr2⟩

theorem learn_gossip_twice (p : Level1.Peer) (t : Time) (k : Bytes) : (p.learn (.gossip t k)).learn (.gossip t k) = p.learn (.gossip t k) := by
  by_cases h : t < p.gossipTimestamp <;> simp [Level1.Peer.learn, h]

theorem timely_gossip_twice {p : Level1.Peer} {t : Time} {k : Bytes} (h : p.Timely (.gossip t k)) : (p.learn (.gossip t k)).Timely (.gossip t k) := by
  by_cases hlt : t < p.gossipTimestamp
  · simp only [Level1.Peer.learn, hlt, if_true]; exact h
  · simp only [Level1.Peer.learn, hlt, if_false]
    exact .inr (.inr ⟨Int.le_refl _, fun _ => .inr rfl⟩)

/-- the two parts of processing an encrypted mail -/
theorem incoming_gossip {O : Oracle K} {env : Env} {n : Str} {m : Msg} {i : Bool} {w w' : World Store K} {res : Account.IncomingResult}
    (h : exec O (Account.processIncoming env n m i false) w = (.ok (some res), w')) (he : PgpMime m) {t : Time} (ht : EffectiveDate env w m t) (a : Str) :
    ∃ evs dec dict w2 w3 out, DecryptedTo w w' m dec ∧ w2.log (peerHead n a) = evs.foldl PeerEvent.apply (w.log (peerHead n a)) ∧
      (senderAddr env m ≠ a → evs = []) ∧
      (senderAddr env m = a → ∃ u, evs = [.msg u] ∧ UpdateFor env m a t u ∧ HandleFor env w w2 u res.pah) ∧
      collectGossip env [] (innerOuter env m dec (str!"Autocrypt-Gossip")) = .ok dict ∧
      run Store.impl O (Account.gossipLoop env n dict t (messageId m) [] (decRecipients env m dec)) w2 = (.ok out, w3) ∧ w'.log (peerHead n a) = w3.log (peerHead n a) := by
  spec_mail
  simp only [exec, Account.run_processIncoming] at h
  cases hd : parseDateToFloat env (m.get (str!"Date")) with
  | error e => rw [hd] at h; cases h
  | ok d =>
  rw [hd] at h
  dsimp only at h
  have hdate : EffectiveDate env w m (min d (w.clock w.tick)) := ⟨d, parseDateToFloat_ok.mp hd, rfl⟩
  cases hdate.unique ht
  generalize hdef : min d (w.clock w.tick) = t at h hdate
  rcases Account.incomingRest_cases O env n m i false t { w with tick := w.tick + 1 } with hn | ⟨rh, w1, hh, hrest⟩
  · simp only [exec] at hn; rw [hn] at h; cases h
  have htw : w.trace <:+ w1.trace := trace_le (w := { w with tick := w.tick + 1 }) hh
  rcases hrest with ⟨r', w'', hr, hs, _, hne, hres⟩ | ⟨r', w'', dr, w2, rg, w3, pah, hr, hrh, hnd, hie, hdec, hgo, hs, hst, hne, hres⟩
  · simp only [exec] at hr; rw [hr] at h; cases h
    rcases (hres res rfl).2.2 with h' | h'
    · cases h'
    · rw [he] at h'; cases h'
  simp only [exec] at hr; rw [hr] at h; cases h
  obtain ⟨dec, hdm, hdt⟩ := decryptMime_ok hdec
  have ht2 : w1.trace <:+ w2.trace := trace_le hdec
  have ht3 : w2.trace <:+ w3.trace := trace_le hgo
  have hs2 : w2.store = w1.store := by
    have := (run_ro (O := O) (Account.decryptMime_ops permissive_readOnly env n m) w1).1
    rw [hdec] at this; exact this
  rw [(hres res rfl).2] at hgo
  unfold Account.processGossipHeaders at hgo
  simp only [bind_eq, exec] at hgo
  obtain ⟨dict, w2', i1, i2⟩ := run_bind_ok.mp hgo
  rw [run_ofExcept] at i1
  have hdict : getGossipHeadersFromMsg env dr.decMsg = .ok dict := congrArg Prod.fst i1
  have hw2 : w2 = w2' := congrArg Prod.snd i1
  subst hw2
  have hgh : dr.decMsg.getAll (str!"Autocrypt-Gossip") = innerOuter env m dec (str!"Autocrypt-Gossip") := by
    rw [hdm]; exact getAll_transfer _ _ (by decide)
  rw [getGossipHeadersFromMsg, hgh] at hdict
  have htgt : getTargetEmailadr env dr.decMsg = decRecipients env m dec := by
    rw [hdm, getTargetEmailadr, getAll_transfer _ _ (by decide), getAll_transfer _ _ (by decide), decRecipients]
    simp only [innerOuter]
    rw [getAll_congr _ (show Py.lower (str!"To") = Py.lower (str!"to") by decide),
      getAll_congr _ (show Py.lower (str!"Cc") = Py.lower (str!"cc") by decide),
      getAll_congr m (show Py.lower (str!"To") = Py.lower (str!"to") by decide),
      getAll_congr m (show Py.lower (str!"Cc") = Py.lower (str!"cc") by decide)]
  rw [htgt] at i2
  have hlog2 : ∀ y, w2.log y = w1.log y := fun y => by unfold World.log; rw [hs2]
  have hstep : ∃ evs : List PeerEvent, w2.log (peerHead n a) = evs.foldl PeerEvent.apply (w.log (peerHead n a)) ∧ (senderAddr env m ≠ a → evs = []) ∧
      (senderAddr env m = a → ∃ u, evs = [.msg u] ∧ UpdateFor env m a t u ∧ HandleFor env w w2 u res.pah) := by
    rcases headerStep hh with ⟨_, e, hbad⟩ | ⟨u, hu, hg, hk⟩
    · rw [hrh] at hbad; cases hbad
    · by_cases ha : senderAddr env m = a
      · subst ha
        refine ⟨[.msg u], ?_, fun h => absurd rfl h, fun _ => ⟨u, rfl, hu, ?_⟩⟩
        · rw [hlog2]; unfold World.log; rw [hg, if_pos rfl]; rfl
        · obtain ⟨k1, k2⟩ := hk _ (hres res rfl).1
          refine ⟨fun hx => ?_, k2⟩
          obtain ⟨x, hx1, hx2⟩ := k1 hx
          exact ⟨x, hx1, hx2.extend List.suffix_rfl ht2⟩
      · refine ⟨[], ?_, fun _ => rfl, fun h => absurd h ha⟩
        rw [hlog2]; unfold World.log; rw [hg, if_neg fun h => ha (peerHead_inj_addr.mp h).symm]; rfl
  obtain ⟨evs, h1, h2, h3⟩ := hstep
  exact ⟨evs, dec, dict, w2, w3, _, hdt.mono htw (ht3.trans hst), h1, h2, h3, hdict, i2, by unfold World.log; rw [hs]⟩

theorem Received.follows {O : Oracle K} {env : Env} {n a : Str} {w w' : World Store K} {l : List Level1.Event} (h : Received O env n a w l w')
    (hw : w.log (peerHead n a) = []) (ht : Level1.Peer.new.AllTimely l) : Follows (w'.log (peerHead n a)) (l.foldl Level1.Peer.learn .new) := by
  induction h with
  | nil => exact ⟨[], [], .nil, trivial, hw, rfl⟩
  | other _ he ih => rw [he]; exact ih ht
  | @plain w1 w2 l l' m i nd res t _ hx hng hdate hs ih =>
    obtain ⟨ht1, ht2⟩ := allTimely_append.mp ht
    obtain ⟨evs, e1, e2, e3, e4⟩ := incoming_fold hx a
    have hg : ∀ u, .gossip u ∉ evs := by
      intro u hu
      obtain ⟨h3, h4, _⟩ := e3 u hu
      rcases hng with hng | hng
      · rw [h3] at hng; cases hng
      · exact hng (pgpMime_iff.mpr h4)
    rw [e1, List.foldl_append]
    refine mailSays_follows (w := w1) (w' := w2) hs (fun hne => ?_) (fun heq => ?_) (ih ht1) ht2
    · cases evs with
      | nil => rfl
      | cons e evs =>
        cases e with
        | msg u => obtain ⟨_, _, hu⟩ := e2 u (by simp); exact absurd hu.1 hne
        | gossip u => exact absurd (List.mem_cons_self ..) (hg u)
    · obtain ⟨u, gs, rfl, hgs, hh⟩ := e4 res rfl heq
      obtain ⟨t', ht', hu⟩ := e2 u (by simp)
      cases ht'.unique hdate
      refine ⟨u, ?_, hu, hh⟩
      cases gs with
      | nil => rfl
      | cons g gs =>
        obtain ⟨g', rfl⟩ := hgs g (List.mem_cons_self ..)
        exact absurd (by simp) (hg g')
  | @encrypted w1 w2 l l' l'' m i res t _ hx hpgp hdate hs hgs ih =>
    obtain ⟨ht0, ht3⟩ := allTimely_append.mp ht
    obtain ⟨ht1, ht2⟩ := allTimely_append.mp ht0
    obtain ⟨evs, dec, dict, w3, w4, out, hdec, h1, h2, h3, h4, h5, h6⟩ := incoming_gossip hx hpgp hdate a
    have hmid : Follows (w3.log (peerHead n a)) ((l ++ l').foldl Level1.Peer.learn .new) := by
      rw [h1, List.foldl_append]
      exact mailSays_follows hs h2 h3 (ih ht1) ht2
    rw [h6, List.foldl_append]
    generalize (l ++ l').foldl Level1.Peer.learn .new = p at hmid ht3
    have haddr : ∀ r, Account.peerHeadOf env n r = peerHead n a ↔ address env (some r) = a := fun r => peerHead_inj_addr
    rcases hgs dec hdec with ⟨hno, rfl⟩ | ⟨k, hk, ⟨r, hr, hra, v, q, hl, hv, hq⟩, hall, rfl⟩
    · have := (gossipLoop_updates h5 (hd := peerHead n a) (k := []) (P := fun _ => True) (Q := fun _ => True) (fun _ _ _ _ => trivial) (fun _ _ _ _ => trivial)
        (by
          intro r hr pah hp hra
          rcases collectGossip_get h4 r pah hp with ⟨h7, _⟩ | ⟨v, ⟨x, y, hl, _⟩, hv⟩
          · cases h7
          · exact absurd hv (hno r hr ((haddr r).mp hra) v (by rw [hl]; simp) _))).2.2
      rw [this]
      · exact hmid
      · intro r hr hs hra
        obtain ⟨pah, hp⟩ := Option.isSome_iff_exists.mp hs
        rcases collectGossip_get h4 r pah hp with ⟨h7, _⟩ | ⟨v, ⟨x, y, hl, _⟩, hv⟩
        · cases h7
        · exact hno r hr ((haddr r).mp hra) v (by rw [hl]; simp) _ hv
    · refine (gossipLoop_updates h5 (hd := peerHead n a) (k := k) (P := fun es => Follows es p) (Q := fun es => Follows es (p.learn (.gossip t k)))
        ?_ ?_ ?_).2.1 hmid ⟨r, hr, ?_, (haddr r).mpr hra⟩
      · intro es h hh hes
        exact hes.learn (u := .gossip ⟨messageId m, t, some k, some h⟩) (e := .gossip t k) ⟨rfl, hk, rfl, h, hh, rfl⟩ ht3.1
      · intro es h hh hes
        have := hes.learn (u := .gossip ⟨messageId m, t, some k, some h⟩) (e := .gossip t k) ⟨rfl, hk, rfl, h, hh, rfl⟩ (timely_gossip_twice ht3.1)
        rw [learn_gossip_twice] at this
        exact this
      · intro r hr pah hp hra
        rcases collectGossip_get h4 r pah hp with ⟨h7, _⟩ | ⟨v, hl, hv⟩
        · cases h7
        · cases hpk : pah.keydata with
          | none => exact absurd hpk (valid_keydata hv)
          | some k' => rw [hall r hr ((haddr r).mp hra) k' ⟨v, pah, hl, hv, hpk⟩]
      · rw [collectGossip_last h4 hl hv]; rfl

/-! ## Theorems -/

/-- C133, updates: if what is learned about a peer comes in time then times, key, and preference are those of the Autocrypt specification.
Missing for the full claim: updates which come late, see `C133_refuted_late` and `C133_refuted_gossip`, and keys which gpg does not import. -/
theorem C133_updates_partial (O : Oracle K) {env : Env} {n a : Str} (hn : env.isalnum n = true) {w : World Store K} (hw : w.log (peerOf env n a) = [])
    {us : List PeerEvent} {l : List Level1.Event} (hm : List.Forall₂ PeerEvent.Means us l) (ht : Level1.Peer.new.AllTimely l) :
    Follows ((runCalls Store.impl O env (us.map (PeerEvent.call n a)) w).log (peerOf env n a)) (l.foldl Level1.Peer.learn .new) ∧
    Shows ((runCalls Store.impl O env (us.map (PeerEvent.call n a)) w).log (peerOf env n a)) (l.foldl Level1.Peer.learn .new) := by
  have : Follows ((runCalls Store.impl O env (us.map (PeerEvent.call n a)) w).log (peerOf env n a)) (l.foldl Level1.Peer.learn .new) :=
    ⟨us, l, hm, ht, by rw [log_events O env n a hn, hw], rfl⟩
  exact ⟨this, this.tracks.shows⟩

/-- C133: mails from a peer and gossip, each in order of their dates, come in time. -/
theorem C133_in_order {l : List Level1.Event} (h : l.Pairwise LaterThan) : Level1.Peer.new.AllTimely l := later_allTimely (q := []) rfl h

/-- C133, mails: the same for mails which are processed one after the other, unencrypted ones and encrypted ones with gossip. A mail of a peer with
gossip about the same peer counts as the mail, then the gossip.
Missing for the full claim: as for updates, and mails which gossip different keys for the same address. -/
theorem C133_mails_partial {O : Oracle K} {env : Env} {n a : Str} {w w' : World Store K} (hw : w.log (peerHead n a) = []) {l : List Level1.Event}
    (h : Received O env n a w l w') (ht : Level1.Peer.new.AllTimely l) :
    Follows (w'.log (peerHead n a)) (l.foldl Level1.Peer.learn .new) ∧ Shows (w'.log (peerHead n a)) (l.foldl Level1.Peer.learn .new) := by
  exact ⟨h.follows hw ht, (h.follows hw ht).tracks.shows⟩

/-- C133, recommendation: for a peer of whom everything was learned in time, the recommendation is that of the Autocrypt specification. The only
exception is a mail to somebody who wants encrypted mail, like the user, but whose last mail had no key: the code recommends 'available'.
Missing for the full claim: this exception, see `C133_refuted_mutual`. -/
theorem C133_recommendation_partial (O : Oracle K) (env : Env) (w : World Store K) (n a : Str) (reply : Bool) (f : Option Str) (own : PE)
    (hown : OwnPreference w n own) (hf : f ≠ some (address env (some a))) {p : Level1.Peer}
    (hp : Follows (w.log (peerHead n (address env (some (address env (some a)))))) p) :
    (¬ (reply = false ∧ p.recommend own reply = .encrypt ∧ p.lastSeen ≠ p.timestamp) →
      (exec O (Account.recommendation env n [a] reply f) w).1 = .ok (p.recommend own reply)) ∧
    (reply = false ∧ p.recommend own reply = .encrypt ∧ p.lastSeen ≠ p.timestamp →
      (exec O (Account.recommendation env n [a] reply f) w).1 = .ok .available) := by
  rw [C30_single_peer O env w n a reply f own hown hf, hp.tracks.recommend]
  exact ⟨fun h => by rw [if_neg h], fun h => by rw [if_pos h]⟩


/-! ## What does not hold, and examples -/

open Concrete

/-- a mail of Bob with a key -/
def Concrete.keyMail (date : Int) (k : Bytes) (pe : PE) : PeerEvent := .msg ⟨str!"1", sec date, some pe.toStr, some k, some (str!"K")⟩
/-- a mail of Bob without key -/
def Concrete.plainMail (date : Int) : PeerEvent := .msg ⟨str!"2", sec date, none, none, none⟩
/-- gossip about Bob -/
def Concrete.bobGossip (date : Int) (k : Bytes) : PeerEvent := .gossip ⟨str!"3", sec date, some k, some (str!"G")⟩

theorem keyMail_means (d : Int) {k : Bytes} (hk : k ≠ []) (pe : PE) : (keyMail d k pe).Means (.mail (sec d) (some (k, pe))) :=
  ⟨rfl, hk, rfl, rfl, str!"K", by decide, rfl⟩
theorem plainMail_means (d : Int) : (plainMail d).Means (.mail (sec d) none) := ⟨rfl, .inl rfl⟩
theorem bobGossip_means (d : Int) {k : Bytes} (hk : k ≠ []) : (bobGossip d k).Means (.gossip (sec d) k) := ⟨rfl, hk, rfl, str!"G", by decide, rfl⟩

/-- an account with preference `mutual` after updates for Bob -/
def Concrete.learned (us : List PeerEvent) : World Store Unit :=
  runCalls Store.impl oracle env (us.map (PeerEvent.call (str!"a") bob)) (after [addA, .modAccount (str!"a") none none none (some (str!"mutual"))])

/-- C133 does not hold of the code as it is: a key is known, then a mail without key comes 57 days later, then a mail with a key which was
sent long before it. `last_seen` goes back, and the recommendation is 'available' where the specification says 'discourage'. -/
theorem C133_refuted_late : ∃ us l, List.Forall₂ PeerEvent.Means us l ∧
    Peer.lastSeen (bobs (Concrete.learned us)) < (l.foldl Level1.Peer.learn .new).lastSeen ∧
    (exec oracle (Account.recommendation env (str!"a") [bob] false none) (Concrete.learned us)).1.toOption = some .available ∧
    (l.foldl Level1.Peer.learn .new).recommend .mutual false = .discourage :=
  ⟨[keyMail 100 [1] .nopreference, plainMail 5000000, keyMail 200 [2] .nopreference],
   [.mail (sec 100) (some ([1], .nopreference)), .mail (sec 5000000) none, .mail (sec 200) (some ([2], .nopreference))],
   .cons (keyMail_means _ (by decide) _) (.cons (plainMail_means _) (.cons (keyMail_means _ (by decide) _) .nil)),
   by decide +kernel, by decide +kernel, by decide +kernel⟩

/-- C133 does not hold of the code as it is: gossip which comes late replaces newer gossip. -/
theorem C133_refuted_gossip : ∃ us l, List.Forall₂ PeerEvent.Means us l ∧
    Peer.publicKeydata (bobs (Concrete.learned us)) = [2] ∧ (l.foldl Level1.Peer.learn .new).target = some [1] :=
  ⟨[bobGossip 200 [1], bobGossip 100 [2]], [.gossip (sec 200) [1], .gossip (sec 100) [2]],
   .cons (bobGossip_means _ (by decide)) (.cons (bobGossip_means _ (by decide)) .nil), by decide +kernel, by decide +kernel⟩

/-- C133 does not hold of the code as it is: Bob prefers encrypted mail, and so does the user; then Bob sends a mail without key.
Everything comes in time. The specification still says 'encrypt', the code 'available'. -/
theorem C133_refuted_mutual : ∃ us l, List.Forall₂ PeerEvent.Means us l ∧ l.Pairwise LaterThan ∧
    (exec oracle (Account.recommendation env (str!"a") [bob] false none) (Concrete.learned us)).1.toOption = some .available ∧
    (l.foldl Level1.Peer.learn .new).recommend .mutual false = .encrypt :=
  ⟨[keyMail 100 [1] .mutual, plainMail 200], [.mail (sec 100) (some ([1], .mutual)), .mail (sec 200) none],
   .cons (keyMail_means _ (by decide) _) (.cons (plainMail_means _) .nil), by simp [LaterThan]; decide +kernel, by decide +kernel, by decide +kernel⟩

/-- C133: gossip, then a mail with a key, then further gossip -/
example :
    let us := [bobGossip 90 [3], keyMail 100 [1] .mutual, bobGossip 95 [4]]
    let l : List Level1.Event := [.gossip (sec 90) [3], .mail (sec 100) (some ([1], .mutual)), .gossip (sec 95) [4]]
    List.Forall₂ PeerEvent.Means us l ∧ l.Pairwise LaterThan ∧
    Peer.publicKeydata (bobs (Concrete.learned (us.take 1))) = [3] ∧ Peer.publicKeydata (bobs (Concrete.learned us)) = [1] ∧
    (exec oracle (Account.recommendation env (str!"a") [bob] false none) (Concrete.learned (us.take 1))).1.toOption = some .discourage ∧
    (exec oracle (Account.recommendation env (str!"a") [bob] false none) (Concrete.learned us)).1.toOption = some .encrypt :=
  ⟨.cons (bobGossip_means _ (by decide)) (.cons (keyMail_means _ (by decide) _) (.cons (bobGossip_means _ (by decide)) .nil)),
   by simp [LaterThan]; decide +kernel, by decide +kernel, by decide +kernel, by decide +kernel, by decide +kernel⟩

/-- C133: mails in time which are not in order -/
example : Level1.Peer.new.AllTimely [.mail (sec 100) (some ([1], .mutual)), .mail (sec 50) (some ([2], .mutual)), .mail (sec 300) none, .mail (sec 200) none] ∧
    ¬ [Level1.Event.mail (sec 100) (some ([1], .mutual)), .mail (sec 50) (some ([2], .mutual)), .mail (sec 300) none, .mail (sec 200) none].Pairwise LaterThan := by
  refine ⟨⟨.inr ⟨by decide +kernel, fun _ => .inl rfl⟩, .inl (by decide +kernel), trivial, trivial, trivial⟩, ?_⟩
  simp [LaterThan]; decide +kernel

/-- C133: two mails of Bob, a setting changed in between -/
example : ∃ w', Received oracle env (str!"a") bob (after [addA]) [.mail (sec 100) (some ([7], .nopreference)), .mail (sec 200) none] w' ∧
    w'.store = (after [addA, recv bob (str!"1") (str!"100") [7], .modAccount (str!"a") none none none (some (str!"mutual")), recv bob (str!"2") (str!"200") []]).store ∧
    (after [addA]).log (peerHead (str!"a") bob) = [] := by
  obtain ⟨res, h1, h2⟩ : ∃ res, (exec oracle (Account.processIncoming env (str!"a") (mail bob (str!"1") (str!"100") [7]) false false) (after [addA])).1 = .ok (some res) ∧
    res.pah.error = none := exc_some_of_map (by decide +kernel)
  obtain ⟨res', h3, -⟩ : ∃ res, (exec oracle (Account.processIncoming env (str!"a") (mail bob (str!"2") (str!"200") []) false false)
    (after [addA, recv bob (str!"1") (str!"100") [7], .modAccount (str!"a") none none none (some (str!"mutual"))])).1 = .ok (some res) ∧ () = () :=
    exc_some_of_map (f := fun _ => ()) (b := ()) (by decide +kernel)
  refine ⟨_, .plain (t := sec 200) (l := [.mail (sec 100) (some ([7], .nopreference))]) (.other (.plain (t := sec 100) (l := []) (.nil _) (Prod.ext h1 rfl) (.inr ?_)
    ⟨sec 100, .inl rfl, by decide +kernel⟩ (.inr (.inr ⟨[7], .nopreference,
      bob_carries _ _ _ (r := _) rfl (by decide +kernel) (by decide +kernel) (by decide +kernel) (by decide +kernel), h2, rfl⟩))) ?_)
    (Prod.ext h3 rfl) (.inr ?_) ⟨sec 200, .inl rfl, by decide +kernel⟩ (.inr (.inl ⟨by decide +kernel, ?_, rfl⟩)), by decide +kernel, by decide +kernel⟩
  · rw [pgpMime_iff]; decide +kernel
  · decide +kernel
  · rw [pgpMime_iff]; decide +kernel
  · rintro k pe ⟨_, _, _, _, v, r, ⟨pre, post, h, _⟩, _⟩
    have h0 : (mail bob (str!"2") (str!"200") []).getAll (str!"Autocrypt") = [] := by decide +kernel
    rw [h0] at h
    cases pre <;> cases h

/-- what gpg gives for an encrypted mail in an example, if everything which was decrypted is that -/
theorem decryptedTo_eq {σ : Type} {w w' : World σ K} {m : Msg} {dec x : Bytes} (h : DecryptedTo w w' m dec)
    (hx : ∀ e ∈ w'.trace, (match e with | ⟨.gpg argv _, .ok out⟩ => decide (str!"--decrypt" ∈ argv → out.out = x) | _ => true) = true) : dec = x := by
  obtain ⟨new, argv, enc, out, h1, h2, h3, -, -, h4⟩ := h
  have := hx _ (by rw [h1]; exact List.mem_append_left _ h2)
  rw [← h4]
  exact of_decide_eq_true this h3

/-- C133: an encrypted mail of Bob, with gossip about Carol -/
example : ∃ w', Received oracle env (str!"a") carol (after [addA]) [.gossip (sec 100) [8]] w' ∧
    w'.store = (after [addA, recvEnc (str!"1") (str!"100") [] [gossipField carol [8]]]).store ∧
    (after [addA]).log (peerHead (str!"a") carol) = [] ∧ Peer.publicKeydata (carols w') = [8] := by
  obtain ⟨res, h1, -⟩ : ∃ res, (exec oracle (Account.processIncoming env (str!"a") (encMail (str!"1") (str!"100") [] [gossipField carol [8]]) false false)
    (after [addA])).1 = .ok (some res) ∧ () = () := exc_some_of_map (f := fun _ => ()) (b := ()) (by decide +kernel)
  refine ⟨_, .encrypted (t := sec 100) (l := []) (l' := []) (.nil _) (Prod.ext h1 rfl) (pgpMime_iff.mpr (by decide +kernel)) ⟨sec 100, .inl rfl, by decide +kernel⟩
    (.inl ⟨by decide +kernel, rfl⟩) ?_, by decide +kernel, by decide +kernel, by decide +kernel⟩
  intro dec hdec
  cases decryptedTo_eq hdec (x := flat (.mk [gossipField carol [8]] (.text (str!"hi")))) (by decide +kernel)
  have hi : innerOuter env (encMail (str!"1") (str!"100") [] [gossipField carol [8]]) (flat (.mk [gossipField carol [8]] (.text (str!"hi")))) (str!"Autocrypt-Gossip") =
    [(gossipField carol [8]).2] := by decide +kernel
  have hr : decRecipients env (encMail (str!"1") (str!"100") [] [gossipField carol [8]]) (flat (.mk [gossipField carol [8]] (.text (str!"hi")))) = [carol] := by
    decide +kernel
  have hp : parseAcHeadervalue env (gossipField carol [8]).2 = .ok ⟨some [8], some carol, some (str!"nopreference"), some [], none⟩ := by rfl
  have hv : ValidFor env carol (gossipField carol [8]).2 _ := ⟨hp, rfl, rfl⟩
  refine .inr ⟨[8], by decide, ⟨carol, by rw [hr]; simp, by decide +kernel, _, _, ⟨[], [], hi, ⟨_, hv⟩, by simp⟩, hv, rfl⟩, ?_, rfl⟩
  rintro r - - k' ⟨v, p, ⟨pre, post, h2, -⟩, h3, h4⟩
  rw [hi] at h2
  cases pre with
  | nil =>
    cases h2
    have := h3.1
    rw [hp] at this
    cases this
    exact Option.some.inj h4.symm
  | cons x pre => cases pre <;> cases h2

end Verif
