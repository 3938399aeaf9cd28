import Verif.Props.PeerState
/-!
# Order of delivery: C08, C14, C15
-/
namespace Verif

variable {K : Type}

/-- what a peer state is told about: a message from the peer or gossip about it -/
inductive PeerEvent where
  | msg (u : Peer.MsgUpdate)
  | gossip (u : Peer.GossipUpdate)
deriving DecidableEq

/-- the API call reporting the event for peer `a` of account `n` -/
def PeerEvent.call (n a : Str) : PeerEvent → ApiCall
  | .msg u => .peerMsg n a u
  | .gossip u => .peerGossip n a u

/-- the log after an event -/
def PeerEvent.apply (es : List Entry) : PeerEvent → List Entry
  | .msg u => Peer.applyMsg es u
  | .gossip u => Peer.applyGossip es u

theorem run_onAccount {α : Type} (O : Oracle K) (env : Env) (n : Str) (p : Prog α) (hn : env.isalnum n = true) (w : World Store K) :
    (exec O (onAccount env n p) w).2 = (exec O p w).2 := by
  unfold onAccount Manager.account Prog.void
  rw [hn]
  show (run _ _ (p.bind _) w).2 = _
  rw [run_bind]
  rcases h : run Store.impl O p w with ⟨_ | _, _⟩ <;> simp [exec, h]

/-- the head of peer `a`, as the API normalises it -/
def peerOf (env : Env) (n a : Str) : Str := peerHead n (address env (some a))

theorem log_event (O : Oracle K) (env : Env) (n a : Str) (hn : env.isalnum n = true) (e : PeerEvent) (w : World Store K) :
    (exec O ((e.call n a).prog env) w).2.log (peerOf env n a) = e.apply (w.log (peerOf env n a)) := by
  cases e with
  | msg u =>
    show (exec O (onAccount env n _) w).2.log _ = _
    rw [run_onAccount O env n _ hn]
    simp only [World.log, Account.peerHeadOf, peerOf, address_eq, Peer.get_updateFromMsg, if_true]; rfl
  | gossip u =>
    show (exec O (onAccount env n _) w).2.log _ = _
    rw [run_onAccount O env n _ hn]
    simp only [World.log, Account.peerHeadOf, peerOf, address_eq, Peer.get_updateFromGossip, if_true]; rfl

theorem log_events (O : Oracle K) (env : Env) (n a : Str) (hn : env.isalnum n = true) (evs : List PeerEvent)
    (w : World Store K) :
    (runCalls Store.impl O env (evs.map (PeerEvent.call n a)) w).log (peerOf env n a) =
      evs.foldl PeerEvent.apply (w.log (peerOf env n a)) := by
  induction evs generalizing w with
  | nil => rfl
  | cons e evs ih =>
    show (runCalls _ _ _ _ _).log _ = _
    rw [List.map_cons]
    show (runCalls Store.impl O env (evs.map _) (exec O ((e.call n a).prog env) w).2).log _ = _
    rw [ih, log_event O env n a hn, List.foldl_cons]

/-! ## C08 -/

/-- a key which a message carried -/
structure DirectKey where
  date : Time
  keydata : Bytes
  keyhandle : Str
  pe : PE
deriving DecidableEq

/-- the direct key an event offers: a message dated 1970 or later with nonempty key data and a valid
preference. The key handle is empty if the key could not be imported. -/
def PeerEvent.offers (e : PeerEvent) (k : DirectKey) : Prop :=
  ∃ u, e = .msg u ∧ 0 ≤ u.date ∧ k.date = u.date ∧ u.keydata = some k.keydata ∧ k.keydata ≠ [] ∧
    u.pe = some k.pe.toStr ∧ (u.keyhandle = some k.keyhandle ∨ u.keyhandle = none ∧ k.keyhandle = [])

/-- some event of the list offers the key -/
def offered (evs : List PeerEvent) (k : DirectKey) : Prop := ∃ e ∈ evs, e.offers k

theorem peArg_ok {x : Option Str} {pe : PE} : Peer.peArg x = .ok pe ↔ x = some pe.toStr := by
  cases x with
  | none => simp [Peer.peArg]
  | some s =>
    simp only [Peer.peArg, PE.ofStr?]
    constructor
    · intro h
      split at h
      · cases h; subst_vars; rfl
      · split at h
        · cases h; subst_vars; rfl
        · cases h
    · intro h
      cases h
      cases pe <;> rfl

/-- the key of a recorded entry -/
def MsgEntry.key (m : MsgEntry) : DirectKey := ⟨m.date, m.keydata, m.keyhandle, m.pe⟩

/-- induction invariant: the newest Autocrypt entry is offered and has the largest date; no recorded key is
newer -/
structure OrderInv (evs : List PeerEvent) (es : List Entry) : Prop where
  none_ : Peer.latestAc es = none → ∀ k, ¬ offered evs k
  some_ : ∀ m, Peer.latestAc es = some m → offered evs m.key ∧ ∀ k, offered evs k → k.date ≤ m.date
  old_ : ∀ e ∈ Peer.msgs es, e.keydata.isEmpty = false → ∃ m, Peer.latestAc es = some m ∧ e.date ≤ m.date

theorem offered_snoc {evs : List PeerEvent} {e : PeerEvent} {k : DirectKey} :
    offered (evs ++ [e]) k ↔ offered evs k ∨ e.offers k := by
  simp only [offered, List.mem_append, List.mem_singleton]
  constructor
  · rintro ⟨x, hx | rfl, h⟩
    · exact Or.inl ⟨x, hx, h⟩
    · exact Or.inr h
  · rintro (⟨x, hx, h⟩ | h)
    · exact ⟨x, Or.inl hx, h⟩
    · exact ⟨e, Or.inr rfl, h⟩

/-- an event offering only keys which are not newer, and not changing the entries, keeps the invariant -/
theorem OrderInv.skip {evs : List PeerEvent} {es es' : List Entry} {e : PeerEvent} (h : OrderInv evs es)
    (hac : Peer.latestAc es' = Peer.latestAc es)
    (hold : ∀ x ∈ Peer.msgs es', x.keydata.isEmpty = false → x ∈ Peer.msgs es)
    (hoff : ∀ k, e.offers k → ∃ m, Peer.latestAc es = some m ∧ k.date ≤ m.date) : OrderInv (evs ++ [e]) es' := by
  refine ⟨?_, ?_, ?_⟩
  · intro hn k hk
    rw [hac] at hn
    rcases offered_snoc.mp hk with hk | hk
    · exact h.none_ hn k hk
    · obtain ⟨m, hm, _⟩ := hoff k hk
      rw [hn] at hm; cases hm
  · intro m hm
    rw [hac] at hm
    obtain ⟨h1, h2⟩ := h.some_ m hm
    refine ⟨offered_snoc.mpr (Or.inl h1), ?_⟩
    intro k hk
    rcases offered_snoc.mp hk with hk | hk
    · exact h2 k hk
    · obtain ⟨m', hm', hle⟩ := hoff k hk
      rw [hm] at hm'; cases hm'; exact hle
  · intro x hx hk
    rw [hac]; exact h.old_ x (hold x hx hk) hk

theorem OrderInv.step {evs : List PeerEvent} {es : List Entry} (h : OrderInv evs es) (e : PeerEvent) :
    OrderInv (evs ++ [e]) (e.apply es) := by
  cases e with
  | gossip u =>
    have hno : ∀ k, ¬ (PeerEvent.gossip u).offers k := by rintro k ⟨_, h, _⟩; cases h
    rcases Peer.applyGossip_cases es u with h' | ⟨x, _, h'⟩ <;> simp only [PeerEvent.apply, h']
    · exact h.skip rfl (fun _ hx _ => hx) fun k hk => absurd hk (hno k)
    · exact h.skip rfl (fun _ hx _ => hx) fun k hk => absurd hk (hno k)
  | msg u =>
    simp only [PeerEvent.apply]
    rcases Peer.applyMsg_cases es u with h' | ⟨x, hx, h'⟩
    · rw [h']
      refine h.skip rfl (fun _ hx _ => hx) ?_
      rintro k ⟨u', hu', h0, hd, hkd, hne, hpe, hkh⟩
      cases hu'
      -- the update was not appended although it offers a key
      have hupd : ∀ x, Peer.updateEntry es u ≠ .ok (some x) := by
        intro x hx
        have : Peer.applyMsg es u = .msg x :: es := by simp [Peer.applyMsg, hx]
        rw [this] at h'
        exact List.cons_ne_self _ _ h'
      unfold Peer.updateEntry at hupd
      split at hupd
      · rename_i hlt
        unfold Peer.acTimestamp at hlt
        split at hlt
        · rename_i m hm; exact ⟨m, hm, by omega⟩
        · omega
      · split at hupd
        · rename_i hrec
          unfold Peer.isRecorded at hrec
          split at hrec
          · rename_i e he
            have hmem := List.mem_of_find?_eq_some he
            simp only [Peer.sameMsg, Bool.and_eq_true, beq_iff_eq] at hrec
            obtain ⟨⟨⟨r1, r2⟩, r3⟩, r4⟩ := hrec
            have hek : e.keydata.isEmpty = false := by
              rw [hkd] at r2; rw [Option.some.inj r2]; simpa using hne
            obtain ⟨m, hm, hle⟩ := h.old_ e hmem hek
            exact ⟨m, hm, by omega⟩
          · cases hrec
        · rw [hkd, peArg_ok.mpr hpe] at hupd
          have : Peer.noKey (some k.keydata) = false := by
            simp only [Peer.noKey]; simpa using hne
          simp only [this, Bool.false_eq_true, if_false] at hupd
          exact absurd rfl (hupd _)
    · rw [h']
      obtain ⟨h1, h2, h3, h4⟩ := Peer.updateEntry_some hx
      rcases h4 with ⟨hnk, _, hk, _⟩ | ⟨hnk, hkd, hkh, hpe⟩
      · have hk' : x.keydata.isEmpty = true := by rw [hk]; rfl
        refine h.skip (Peer.latestAc_nokey _ hk') ?_ ?_
        · intro y hy hyk
          simp only [Peer.msgs_msg, List.mem_cons] at hy
          rcases hy with rfl | hy
          · rw [hk'] at hyk; cases hyk
          · exact hy
        · rintro k ⟨u', hu', _, _, hkd, hne, _⟩
          cases hu'
          rw [hkd] at hnk
          simp [Peer.noKey, hne] at hnk
      · have hk' : x.keydata.isEmpty = false := by rw [hkd] at hnk; exact hnk
        have hac := Peer.latestAc_key es hk'
        have h0 : 0 ≤ u.date := by
          unfold Peer.acTimestamp at h1
          cases hm : Peer.latestAc es with
          | none => rw [hm] at h1; exact h1
          | some m =>
            rw [hm] at h1
            obtain ⟨⟨e, _, ⟨v, _, hv0, hvd, _⟩⟩, _⟩ := h.some_ m hm
            have : m.date = m.key.date := rfl
            simp only at h1; omega
        have hoff : (PeerEvent.msg u).offers x.key := by
          refine ⟨u, rfl, h0, h3, hkd, by show x.keydata ≠ []; simpa using hk', peArg_ok.mp hpe, ?_⟩
          cases hh : u.keyhandle with
          | none => right; rw [hh] at hkh; exact ⟨rfl, hkh⟩
          | some s => left; rw [hh] at hkh; simp only [MsgEntry.key]; rw [hkh]; rfl
        have hmax : ∀ k, offered (evs ++ [.msg u]) k → k.date ≤ x.date := by
          intro k hk
          rcases offered_snoc.mp hk with hk | ⟨v, hv, _, hvd, _⟩
          · cases hm : Peer.latestAc es with
            | none => exact absurd hk (h.none_ hm k)
            | some m =>
              have := (h.some_ m hm).2 k hk
              unfold Peer.acTimestamp at h1; rw [hm] at h1
              simp only at h1; omega
          · cases hv; omega
        refine ⟨?_, ?_, ?_⟩
        · intro hn; rw [hac] at hn; cases hn
        · intro m hm
          rw [hac] at hm; cases hm
          exact ⟨offered_snoc.mpr (Or.inr hoff), hmax⟩
        · intro y hy hyk
          refine ⟨x, hac, ?_⟩
          simp only [Peer.msgs_msg, List.mem_cons] at hy
          rcases hy with rfl | hy
          · exact Int.le_refl _
          · obtain ⟨m, hm, hle⟩ := h.old_ y hy hyk
            unfold Peer.acTimestamp at h1; rw [hm] at h1
            simp only at h1; omega

theorem OrderInv.nil : OrderInv [] [] := by
  refine ⟨?_, ?_, ?_⟩
  · rintro _ k ⟨e, he, _⟩; cases he
  · intro m hm; cases hm
  · intro e he; cases he

theorem OrderInv.fold {evs : List PeerEvent} {es : List Entry} (h : OrderInv evs es) (l : List PeerEvent) :
    OrderInv (evs ++ l) (l.foldl PeerEvent.apply es) := by
  induction l generalizing evs es with
  | nil => simpa using h
  | cons e l ih => have := ih (h.step e); simpa using this

/-- the direct key which the API shows, if it is usable: key handle, key data, preference -/
def Peer.shown (es : List Entry) : Str × Bytes × Str :=
  (Peer.publicKeyhandle es, Peer.publicKeydata es, Peer.preferEncrypt es)

theorem Peer.shown_of_latestAc {es : List Entry} {m : MsgEntry} (h : Peer.latestAc es = some m)
    (hk : m.keyhandle ≠ []) : Peer.shown es = (m.keyhandle, m.keydata, m.pe.toStr) := by
  have : Peer.entryForEncryption es = some (.inl m) := by
    unfold Peer.entryForEncryption; rw [h]; simp [hk]
  simp [Peer.shown, Peer.publicKeyhandle, Peer.publicKeydata, Peer.preferEncrypt, this]

/-- C08: start from a peer about which nothing is recorded and report any messages and gossip in any order.
If no message offered a key, the timestamp is 0 and there is no direct key. Otherwise some offered key `k`
has the largest date of all, `autocrypt_timestamp` is that date, there is a usable direct key iff `k` was
imported, and then handle, data and preference shown are those of `k`. -/
theorem C08_newest_key_wins (O : Oracle K) (env : Env) (n a : Str) (hn : env.isalnum n = true)
    (evs : List PeerEvent) (w : World Store K) (hw : w.log (peerOf env n a) = []) (es : List Entry)
    (hes : es = (runCalls Store.impl O env (evs.map (PeerEvent.call n a)) w).log (peerOf env n a)) :
    ((∀ k, ¬ offered evs k) → Peer.acTimestamp es = 0 ∧ Peer.hasDirectKey es = false) ∧
    ((∃ k, offered evs k) → ∃ k, offered evs k ∧ (∀ k', offered evs k' → k'.date ≤ k.date) ∧
      Peer.acTimestamp es = k.date ∧ Peer.hasDirectKey es = decide (k.keyhandle ≠ []) ∧
      (k.keyhandle ≠ [] → Peer.shown es = (k.keyhandle, k.keydata, k.pe.toStr))) := by
  rw [log_events O env n a hn, hw] at hes
  have inv : OrderInv evs es := by
    rw [hes]; have := OrderInv.nil.fold evs; simpa using this
  cases hm : Peer.latestAc es with
  | none =>
    refine ⟨fun _ => by simp [Peer.acTimestamp, Peer.hasDirectKey, hm], ?_⟩
    rintro ⟨k, hk⟩; exact absurd hk (inv.none_ hm k)
  | some m =>
    obtain ⟨h1, h2⟩ := inv.some_ m hm
    refine ⟨fun h => absurd h1 (h _), fun _ => ⟨m.key, h1, h2, ?_, ?_, ?_⟩⟩
    · simp [Peer.acTimestamp, hm, MsgEntry.key]
    · simp only [Peer.hasDirectKey, hm, MsgEntry.key]
      by_cases h : m.keyhandle = [] <;> simp [h]
    · intro hk; exact Peer.shown_of_latestAc hm hk

/-- C08: if the offered keys with the largest date are all the same, the order of delivery does not matter:
any permutation of the events gives the same timestamp, direct-key flag and (if usable) direct key. -/
theorem C08_order_irrelevant (O : Oracle K) (env : Env) (n a : Str) (hn : env.isalnum n = true)
    (evs evs' : List PeerEvent) (hperm : evs.Perm evs')
    (huniq : ∀ k k', offered evs k → offered evs k' → (∀ k'', offered evs k'' → k''.date ≤ k.date) →
      (∀ k'', offered evs k'' → k''.date ≤ k'.date) → k = k')
    (w w' : World Store K) (hw : w.log (peerOf env n a) = []) (hw' : w'.log (peerOf env n a) = [])
    (es es' : List Entry)
    (hes : es = (runCalls Store.impl O env (evs.map (PeerEvent.call n a)) w).log (peerOf env n a))
    (hes' : es' = (runCalls Store.impl O env (evs'.map (PeerEvent.call n a)) w').log (peerOf env n a)) :
    Peer.acTimestamp es = Peer.acTimestamp es' ∧ Peer.hasDirectKey es = Peer.hasDirectKey es' ∧
    (Peer.hasDirectKey es = true → Peer.shown es = Peer.shown es') := by
  have hoff : ∀ k, offered evs' k ↔ offered evs k := fun k =>
    ⟨fun ⟨e, he, h⟩ => ⟨e, hperm.mem_iff.mpr he, h⟩, fun ⟨e, he, h⟩ => ⟨e, hperm.mem_iff.mp he, h⟩⟩
  obtain ⟨a1, a2⟩ := C08_newest_key_wins O env n a hn evs w hw es hes
  obtain ⟨b1, b2⟩ := C08_newest_key_wins O env n a hn evs' w' hw' es' hes'
  by_cases h : ∃ k, offered evs k
  · obtain ⟨k, k1, k2, k3, k4, k5⟩ := a2 h
    obtain ⟨k', k1', k2', k3', k4', k5'⟩ := b2 (by obtain ⟨x, hx⟩ := h; exact ⟨x, (hoff x).mpr hx⟩)
    have : k = k' := huniq k k' k1 ((hoff _).mp k1') k2 (fun x hx => k2' x ((hoff x).mpr hx))
    subst this
    refine ⟨k3.trans k3'.symm, k4.trans k4'.symm, ?_⟩
    intro hd
    rw [k4] at hd
    have hd' : k.keyhandle ≠ [] := by simpa using hd
    exact (k5 hd').trans (k5' hd').symm
  · have h' : ∀ k, ¬ offered evs k := fun k hk => h ⟨k, hk⟩
    obtain ⟨x1, x2⟩ := a1 h'
    obtain ⟨y1, y2⟩ := b1 (fun k hk => h' k ((hoff k).mp hk))
    exact ⟨x1.trans y1.symm, x2.trans y2.symm, fun hd => by rw [x2] at hd; cases hd⟩

/-- a non-trivial instance: three messages, one without key, whose newest key wins in all orders -/
example :
    let e1 := PeerEvent.msg ⟨str!"1", sec 10, some (str!"mutual"), some [1], some (str!"K1")⟩
    let e2 := PeerEvent.msg ⟨str!"2", sec 30, some (str!"nopreference"), some [2], some (str!"K2")⟩
    let e3 := PeerEvent.msg ⟨str!"3", sec 40, none, none, none⟩
    offered [e1, e2, e3] ⟨sec 30, [2], str!"K2", .nopreference⟩ ∧
    (∀ l ∈ [[e1, e2, e3], [e3, e2, e1], [e2, e3, e1]],
      Peer.shown (l.foldl PeerEvent.apply []) = (str!"K2", [2], str!"nopreference")) ∧
    ∀ k k', offered [e1, e2, e3] k → offered [e1, e2, e3] k' → (∀ k'', offered [e1, e2, e3] k'' → k''.date ≤ k.date) →
      (∀ k'', offered [e1, e2, e3] k'' → k''.date ≤ k'.date) → k = k' := by
  intro e1 e2 e3
  have h2 : offered [e1, e2, e3] ⟨sec 30, [2], str!"K2", .nopreference⟩ :=
    ⟨e2, by simp, _, rfl, by decide +kernel, rfl, rfl, by simp, rfl, Or.inl rfl⟩
  refine ⟨h2, by decide +kernel, ?_⟩
  have key : ∀ k, offered [e1, e2, e3] k → sec 30 ≤ k.date → k = ⟨sec 30, [2], str!"K2", .nopreference⟩ := by
    rintro ⟨d, kd, kh, pe⟩ ⟨e, he, v, hv, h0, hd, hkd, hne, hpe, hkh⟩ hle
    simp only [List.mem_cons, List.not_mem_nil, or_false] at he
    rcases he with rfl | rfl | rfl
    · injection (show PeerEvent.msg _ = PeerEvent.msg v from hv) with hv; subst hv
      simp only at hd hle; subst hd; exact absurd hle (by decide +kernel)
    · injection (show PeerEvent.msg _ = PeerEvent.msg v from hv) with hv; subst hv
      simp only [Option.some.injEq] at hd hkd hpe hkh
      subst hd hkd
      rcases hkh with rfl | ⟨h, _⟩
      · cases pe
        · rfl
        · exact absurd hpe (by decide)
      · cases h
    · injection (show PeerEvent.msg _ = PeerEvent.msg v from hv) with hv; subst hv
      cases hkd
  intro k k' hk hk' hm hm'
  have a1 := hm _ h2
  have a2 := hm' _ h2
  dsimp only at a1 a2
  exact (key k hk a1).trans (key k' hk' a2).symm

/-! ## C14: gossip fallback uses the newest gossip – false -/

open Concrete in
/-- C14 is false: gossip is used in the order of arrival; later arriving gossip with an older date
replaces a newer one (states.py:157-159, 201-214 compare dates only with the direct key). -/
theorem C14_refuted : ∃ (evs : List PeerEvent) (old new : Peer.GossipUpdate),
    .gossip old ∈ evs ∧ .gossip new ∈ evs ∧ old.date < new.date ∧
    let es := (runCalls Store.impl oracle env (evs.map (PeerEvent.call (str!"a") bob)) world0).log (peerOf env (str!"a") bob)
    Peer.hasDirectKey es = false ∧ some (Peer.publicKeyhandle es) = old.keyhandle ∧ old.keyhandle ≠ new.keyhandle :=
  ⟨[.gossip ⟨str!"1", sec 200, some [1], some (str!"NEW")⟩, .gossip ⟨str!"2", sec 100, some [2], some (str!"OLD")⟩],
   ⟨str!"2", sec 100, some [2], some (str!"OLD")⟩, ⟨str!"1", sec 200, some [1], some (str!"NEW")⟩,
   by simp, by simp, by decide +kernel, by decide +kernel⟩

/-- gossip entries are in order of date -/
def Peer.GossipSorted (es : List Entry) : Prop :=
  (Peer.gossips es).Pairwise (fun newer older => older.date ≤ newer.date)

/-- C14, the part that holds: as long as gossip arrives in order of date (each gossip update is at least as
new as all gossip recorded so far), the gossip key in use when there is no usable direct key is one with the
largest date among all recorded gossip; and an accepted gossip update that offers a key is in use at once.
Missing: gossip arriving out of order, for which the claim is false (`C14_refuted`). -/
theorem C14_newest_gossip_partial (O : Oracle K) (w : World Store K) (head : Str) (u : Peer.GossipUpdate)
    (hsorted : Peer.GossipSorted (w.log head)) (hnew : ∀ g ∈ Peer.gossips (w.log head), g.date ≤ u.date)
    (es : List Entry) (hes : es = (exec O (Peer.updateFromGossip head u) w).2.log head) :
    Peer.GossipSorted es ∧ (∀ g ∈ Peer.gossips es, g.date ≤ u.date) ∧
    (Peer.hasDirectKey es = false → ∀ g ∈ Peer.gossips es,
      ∃ top ∈ Peer.gossips es, g.date ≤ top.date ∧ Peer.publicKeyhandle es = top.keyhandle ∧
        Peer.publicKeydata es = top.keydata) ∧
    (Peer.hasDirectKey es = false → es ≠ w.log head →
      some (Peer.publicKeyhandle es) = u.keyhandle ∧ some (Peer.publicKeydata es) = u.keydata) := by
  have hes' : es = Peer.applyGossip (w.log head) u := by
    rw [hes]; simp only [World.log, Peer.get_updateFromGossip, if_true]
  have enc : ∀ g, Peer.hasDirectKey es = false → Peer.latestGossip es = some g →
      Peer.publicKeyhandle es = g.keyhandle ∧ Peer.publicKeydata es = g.keydata := by
    intro g hd hg
    have : Peer.entryForEncryption es = some (.inr g) := by
      unfold Peer.entryForEncryption
      unfold Peer.hasDirectKey at hd
      cases hac : Peer.latestAc es with
      | none => rw [hg]; rfl
      | some m => rw [hac] at hd; simp only at hd ⊢; rw [hd, hg]; rfl
    simp [Peer.publicKeyhandle, Peer.publicKeydata, this]
  have top : Peer.GossipSorted es → Peer.hasDirectKey es = false → ∀ g ∈ Peer.gossips es,
      ∃ top ∈ Peer.gossips es, g.date ≤ top.date ∧ Peer.publicKeyhandle es = top.keyhandle ∧
        Peer.publicKeydata es = top.keydata := by
    intro hs hd g hg
    cases hgs : Peer.gossips es with
    | nil => rw [hgs] at hg; cases hg
    | cons t ts =>
      refine ⟨t, List.mem_cons_self .., ?_, enc t hd (by simp [Peer.latestGossip, hgs])⟩
      rw [hgs] at hg
      unfold Peer.GossipSorted at hs; rw [hgs, List.pairwise_cons] at hs
      rcases List.mem_cons.mp hg with rfl | hg
      · exact Int.le_refl _
      · exact hs.1 g hg
  rcases Peer.applyGossip_cases (w.log head) u with h | ⟨e, he, h⟩ <;> rw [h] at hes'
  · rw [← hes'] at hsorted hnew
    exact ⟨hsorted, hnew, top hsorted, fun _ hne => absurd hes' hne⟩
  · obtain ⟨_, _, h3, h4, h5, _⟩ := Peer.gossipEntry_some he
    have hs : Peer.GossipSorted es := by
      unfold Peer.GossipSorted; rw [hes', Peer.gossips_gossip, List.pairwise_cons]
      exact ⟨fun g hg => by rw [h3]; exact hnew g hg, hsorted⟩
    refine ⟨hs, ?_, top hs, ?_⟩
    · intro g hg
      rw [hes', Peer.gossips_gossip] at hg
      rcases List.mem_cons.mp hg with rfl | hg
      · omega
      · exact hnew g hg
    · intro hd _
      obtain ⟨x1, x2⟩ := enc e hd (by rw [hes']; rfl)
      rw [x1, x2, h4, h5]; exact ⟨rfl, rfl⟩

example : Peer.GossipSorted [.gossip ⟨str!"2", sec 20, [2], str!"K2"⟩, .gossip ⟨str!"1", sec 10, [1], str!"K1"⟩] := by
  simp only [Peer.GossipSorted, Peer.gossips_gossip]
  refine List.pairwise_cons.mpr ⟨?_, List.pairwise_singleton _ _⟩
  intro g hg
  have : g = ⟨str!"1", sec 10, [1], str!"K1"⟩ := by simpa [Peer.gossips] using hg
  subst this; decide +kernel

end Verif
