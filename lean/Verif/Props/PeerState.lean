import Verif.Lemmas.Reach
import Verif.Spec.Concrete
/-!
# Peer state: C07, C09 – C15, C54
-/
namespace Verif

variable {K : Type}

/-! ## C54: history is append-only -/

/-- the log of a head in a world -/
def World.log (w : World Store K) (h : Str) : List Entry := w.store.get h

theorem Peer.applyMsg_suffix (es : List Entry) (u : Peer.MsgUpdate) : es <:+ Peer.applyMsg es u := by
  rcases Peer.applyMsg_cases es u with h | ⟨e, _, h⟩ <;> rw [h]
  · exact List.suffix_refl _
  · exact List.suffix_cons _ _

theorem Peer.applyGossip_suffix (es : List Entry) (u : Peer.GossipUpdate) : es <:+ Peer.applyGossip es u := by
  rcases Peer.applyGossip_cases es u with h | ⟨e, _, h⟩ <;> rw [h]
  · exact List.suffix_refl _
  · exact List.suffix_cons _ _

/-- an update which is not a removal only extends logs -/
theorem act_suffix (O : Oracle K) (a : Act) (w : World Store K) (h : Str)
    (hrm : ∀ n, a = .removeAccount n → matchAccount n h = false) (hwipe : a ≠ .wipe) :
    w.log h <:+ (exec O a.prog w).2.log h := by
  simp only [World.log]
  rw [get_act]
  cases a with
  | msg n ad u => dsimp only; split; exact Peer.applyMsg_suffix _ _; exact List.suffix_refl _
  | gossip n ad u => dsimp only; split; exact Peer.applyGossip_suffix _ _; exact List.suffix_refl _
  | cfg n c => dsimp only; split; exact List.suffix_cons _ _; exact List.suffix_refl _
  | keygen n c => dsimp only; split; exact List.suffix_cons _ _; exact List.suffix_refl _
  | oob n c => dsimp only; split; exact List.suffix_cons _ _; exact List.suffix_refl _
  | setVersion => dsimp only; split; exact List.suffix_cons _ _; exact List.suffix_refl _
  | removeAccount n => dsimp only; rw [hrm n rfl]; exact List.suffix_refl _
  | wipe => exact absurd rfl hwipe

theorem act_of_call {env : Env} {c : ApiCall} {a : Act} (ha : c.acts env a) :
    (∀ n, a = .removeAccount n → c = .delAccount n) ∧ (a = .wipe → c = .removeAll) := by
  constructor
  · rintro n rfl
    cases c <;> simp_all [ApiCall.acts, InitAct, OwnAct, CfgAct, Account.IncomingAct, Account.HeaderAct, Account.GossipAct, Account.ImportAct]
  · rintro rfl
    cases c <;> simp_all [ApiCall.acts, InitAct, OwnAct, CfgAct, Account.IncomingAct, Account.HeaderAct, Account.GossipAct, Account.ImportAct]

/-- the calls which remove stored state of account `n` -/
def ApiCall.removes (n : Str) (c : ApiCall) : Prop := c = .delAccount n ∨ c = .removeAll

/-- relations that hold over every update of every call which does not remove state hold over histories -/
theorem suffix_of_calls (O : Oracle K) (env : Env) (hist : List (Happening K)) (h : Str)
    (hh : ∀ c ∈ callsMade hist, c ≠ .removeAll ∧ ∀ n, c = .delAccount n → matchAccount n h = false) (w : World Store K) :
    w.log h <:+ (runHistory Store.impl O env hist w).log h := by
  refine runHistory_respects (R := fun w w' => w.log h <:+ w'.log h) (fun _ _ _ => List.IsSuffix.trans) ?_ hist ?_ w
  · intro w w' hs _ _ _; simp only [World.log]; rw [hs]; exact List.suffix_refl _
  · intro c hc a ha w
    obtain ⟨h1, h2⟩ := act_of_call ha
    exact act_suffix O a w h (fun n hn => (hh c hc).2 n (h1 n hn)) (fun hw => (hh c hc).1 (h2 hw))

/-- C54: what is read of a peer's chain or an account's own chain at one time is the oldest part of what is
read at any later time, unless the account was deleted or everything was reset in between; out-of-band
records and the manager's chain survive even account deletion. -/
theorem C54_append_only (O : Oracle K) (env : Env) (hist : List (Happening K)) (w : World Store K) (n : Str)
    (hn : env.isalnum n = true) :
    ((∀ c ∈ callsMade hist, ¬ c.removes n) →
      (∀ a, w.log (peerHead n a) <:+ (runHistory Store.impl O env hist w).log (peerHead n a)) ∧
      w.log (ownHead n) <:+ (runHistory Store.impl O env hist w).log (ownHead n)) ∧
    ((∀ c ∈ callsMade hist, c ≠ .removeAll) →
      w.log (oobHead n) <:+ (runHistory Store.impl O env hist w).log (oobHead n) ∧
      w.log managerHead <:+ (runHistory Store.impl O env hist w).log managerHead) := by
  have hc := colon_not_mem_of_isalnum hn
  constructor
  · intro h
    have h' : ∀ c ∈ callsMade hist, c ≠ .removeAll ∧ c ≠ .delAccount n := fun c hc =>
      ⟨fun hh => h c hc (Or.inr hh), fun hh => h c hc (Or.inl hh)⟩
    refine ⟨fun a => suffix_of_calls O env hist _ (fun c hcm => ⟨(h' c hcm).1, ?_⟩) w,
      suffix_of_calls O env hist _ (fun c hcm => ⟨(h' c hcm).1, ?_⟩) w⟩
    · rintro m rfl
      rw [matchAccount_peerHead hc, decide_eq_false_iff_not]
      rintro rfl; exact (h' _ hcm).2 rfl
    · rintro m rfl
      rw [matchAccount_ownHead hc, decide_eq_false_iff_not]
      rintro rfl; exact (h' _ hcm).2 rfl
  · intro h
    exact ⟨suffix_of_calls O env hist _ (fun c hc => ⟨h c hc, fun m _ => matchAccount_oobHead m n⟩) w,
      suffix_of_calls O env hist _ (fun c hc => ⟨h c hc, fun m _ => matchAccount_managerHead m⟩) w⟩

open Concrete in
example : ∀ c ∈ [addA, recv bob (str!"1") (str!"100") [7], .delAccount (str!"b"), recv bob (str!"2") (str!"200") []],
    ¬ c.removes (str!"a") := by
  simp [ApiCall.removes, addA, recv]

/-! ## C07: the Autocrypt timestamp never goes back -/

theorem Peer.acTimestamp_applyMsg (es : List Entry) (u : Peer.MsgUpdate) :
    Peer.acTimestamp es ≤ Peer.acTimestamp (Peer.applyMsg es u) := by
  rcases Peer.applyMsg_cases es u with h | ⟨e, he, h⟩ <;> rw [h]
  · exact Int.le_refl _
  · obtain ⟨h1, _, h3, h4⟩ := Peer.updateEntry_some he
    by_cases hk : e.keydata.isEmpty = true
    · rw [Peer.acTimestamp_nokey _ hk]; exact Int.le_refl _
    · rw [Peer.acTimestamp_key _ (by simpa using hk), h3]; exact h1

theorem Peer.acTimestamp_applyGossip (es : List Entry) (u : Peer.GossipUpdate) :
    Peer.acTimestamp (Peer.applyGossip es u) = Peer.acTimestamp es := by
  rcases Peer.applyGossip_cases es u with h | ⟨e, he, h⟩ <;> rw [h]
  exact Peer.acTimestamp_gossip _ _

/-- C07: `autocrypt_timestamp` of a peer never decreases under any calls of the API, unless the account is
deleted or everything is reset. -/
theorem C07_autocrypt_timestamp_monotone (O : Oracle K) (env : Env) (hist : List (Happening K)) (w : World Store K)
    (n a : Str) (hn : env.isalnum n = true) (hcalls : ∀ c ∈ callsMade hist, ¬ c.removes n) :
    Peer.acTimestamp (w.log (peerHead n a)) ≤
      Peer.acTimestamp ((runHistory Store.impl O env hist w).log (peerHead n a)) := by
  refine runHistory_respects
    (R := fun w w' => Peer.acTimestamp (w.log (peerHead n a)) ≤ Peer.acTimestamp (w'.log (peerHead n a)))
    (fun _ _ _ => Int.le_trans) ?_ hist ?_ w
  · intro w w' hs _ _ _; simp only [World.log]; rw [hs]; exact Int.le_refl _
  · intro c hc act hact w
    obtain ⟨h1, h2⟩ := act_of_call hact
    simp only [World.log]
    rw [get_act]
    cases act with
    | msg n ad u => dsimp only; split; exact Peer.acTimestamp_applyMsg _ _; exact Int.le_refl _
    | gossip n ad u =>
      dsimp only; split
      · rw [Peer.acTimestamp_applyGossip]; exact Int.le_refl _
      · exact Int.le_refl _
    | cfg m c => dsimp only; rw [if_neg (ownHead_ne_peerHead _ _ _).symm]; exact Int.le_refl _
    | keygen m c => dsimp only; rw [if_neg (ownHead_ne_peerHead _ _ _).symm]; exact Int.le_refl _
    | oob m c => dsimp only; rw [if_neg (oobHead_ne_peerHead _ _ _).symm]; exact Int.le_refl _
    | setVersion =>
      dsimp only; rw [if_neg (fun h => (managerHead_ne_peerHead _ _).symm h.1)]; exact Int.le_refl _
    | removeAccount m =>
      dsimp only
      rw [matchAccount_peerHead (colon_not_mem_of_isalnum hn), if_neg]
      · exact Int.le_refl _
      · simp only [decide_eq_true_eq]; rintro rfl
        exact hcalls c hc (Or.inl (h1 _ rfl))
    | wipe => exact absurd (Or.inr (h2 rfl)) (hcalls c hc)

open Concrete in
/-- the timestamp does change in histories like these -/
example : Peer.acTimestamp ((after [addA]).log (peerHead (str!"a") bob)) = 0 ∧
    Peer.acTimestamp ((after [addA, recv bob (str!"1") (str!"100") [7]]).log (peerHead (str!"a") bob)) = sec 100 ∧
    Peer.acTimestamp ((after [addA, recv bob (str!"1") (str!"100") [7], recv bob (str!"2") (str!"50") [8],
      recv bob (str!"3") (str!"200") [9]]).log (peerHead (str!"a") bob)) = sec 200 := by decide +kernel

/-! ## C11: `0 ≤ autocrypt_timestamp ≤ last_seen` -/

/-- C11: in every reachable state, for every peer, `0 ≤ autocrypt_timestamp ≤ last_seen`. -/
theorem C11_timestamps_ordered (O : Oracle K) (env : Env) (w : World Store K) (hw : Reachable O env w) (n a : Str) :
    0 ≤ Peer.acTimestamp (w.log (peerHead n a)) ∧
    Peer.acTimestamp (w.log (peerHead n a)) ≤ Peer.lastSeen (w.log (peerHead n a)) := by
  have hnil : 0 ≤ Peer.acTimestamp [] ∧ Peer.acTimestamp [] ≤ Peer.lastSeen [] := by decide
  refine reachable_inv (I := fun s => 0 ≤ Peer.acTimestamp (s.get (peerHead n a)) ∧
    Peer.acTimestamp (s.get (peerHead n a)) ≤ Peer.lastSeen (s.get (peerHead n a))) hnil ?_ hw
  intro c act _ w hI
  rw [get_act]
  cases act with
  | msg m ad u =>
    dsimp only; split
    · rcases Peer.applyMsg_cases (w.store.get (peerHead n a)) u with h | ⟨e, he, h⟩ <;> rw [h]
      · exact hI
      · obtain ⟨h1, _, h3, h4⟩ := Peer.updateEntry_some he
        rw [Peer.lastSeen_msg, h3]
        rcases h4 with ⟨_, h5, h6, _⟩ | ⟨h5, h6, _⟩
        · rw [Peer.acTimestamp_nokey _ (by rw [h6]; rfl)]; exact ⟨hI.1, by omega⟩
        · rw [Peer.acTimestamp_key, h3]
          · exact ⟨by omega, by omega⟩
          · rw [h6] at h5; exact h5
    · exact hI
  | gossip m ad u =>
    dsimp only; split
    · rcases Peer.applyGossip_cases (w.store.get (peerHead n a)) u with h | ⟨e, he, h⟩ <;> rw [h] <;> exact hI
    · exact hI
  | cfg m c => dsimp only; rw [if_neg (ownHead_ne_peerHead _ _ _).symm]; exact hI
  | keygen m c => dsimp only; rw [if_neg (ownHead_ne_peerHead _ _ _).symm]; exact hI
  | oob m c => dsimp only; rw [if_neg (oobHead_ne_peerHead _ _ _).symm]; exact hI
  | setVersion => dsimp only; rw [if_neg (fun h => (managerHead_ne_peerHead _ _).symm h.1)]; exact hI
  | removeAccount m => dsimp only; split; exact hnil; exact hI
  | wipe => exact hnil

open Concrete in
example : Reachable oracle env (after [addA, recv bob (str!"1") (str!"100") [7], recv bob (str!"2") (str!"300") []]) ∧
    Peer.acTimestamp ((after [addA, recv bob (str!"1") (str!"100") [7], recv bob (str!"2") (str!"300") []]).log
      (peerHead (str!"a") bob)) = sec 100 ∧
    Peer.lastSeen ((after [addA, recv bob (str!"1") (str!"100") [7], recv bob (str!"2") (str!"300") []]).log
      (peerHead (str!"a") bob)) = sec 300 := ⟨after_reachable _, by decide +kernel⟩

/-! ## C09: older messages change nothing -/

/-- C09: an update from a message, with or without key, or from gossip, with a date before
`autocrypt_timestamp` ends normally and leaves the whole world unchanged: no entry, no clock read, no external
operation. -/
theorem C09_older_changes_nothing (O : Oracle K) (w : World Store K) (head : Str) :
    (∀ u : Peer.MsgUpdate, u.date < Peer.acTimestamp (w.log head) →
      exec O (Peer.updateFromMsg head u) w = (.ok (), w)) ∧
    (∀ u : Peer.GossipUpdate, u.date < Peer.acTimestamp (w.log head) →
      exec O (Peer.updateFromGossip head u) w = (.ok (), w)) := by
  constructor
  · intro u hu
    simp only [World.log] at hu
    rw [Peer.exec_updateFromMsg]; simp [Peer.updateEntry, hu]
  · intro u hu
    simp only [World.log] at hu
    rw [Peer.exec_updateFromGossip]; simp [Peer.gossipEntry, hu]

open Concrete in
example : sec 99 < Peer.acTimestamp ((after [addA, recv bob (str!"1") (str!"100") [7]]).log (peerHead (str!"a") bob)) := by
  decide +kernel

/-! ## C10: a message without Autocrypt header never changes the key -/

/-- the observable values of a peer other than `last_seen` -/
structure PeerKeyView where
  keyhandle : Str
  keydata : Bytes
  preferEncrypt : Str
  acTimestamp : Time
  hasDirectKey : Bool
  gossip : Option GossipEntry
deriving DecidableEq

/-- the values the API shows -/
def Peer.keyView (es : List Entry) : PeerKeyView where
  keyhandle := Peer.publicKeyhandle es
  keydata := Peer.publicKeydata es
  preferEncrypt := Peer.preferEncrypt es
  acTimestamp := Peer.acTimestamp es
  hasDirectKey := Peer.hasDirectKey es
  gossip := Peer.latestGossip es

theorem Peer.keyView_congr {es es' : List Entry} (h1 : Peer.latestAc es' = Peer.latestAc es)
    (h2 : Peer.latestGossip es' = Peer.latestGossip es) : Peer.keyView es' = Peer.keyView es := by
  simp only [Peer.keyView, Peer.publicKeyhandle, Peer.publicKeydata, Peer.preferEncrypt, Peer.acTimestamp,
    Peer.hasDirectKey, Peer.entryForEncryption, h1, h2]

/-- C10: an update from a message without key (`None` or empty key data) never raises and changes nothing but
possibly `last_seen`, which it only moves forward, to the date of the message. -/
theorem C10_no_key_no_change (O : Oracle K) (w : World Store K) (head : Str) (u : Peer.MsgUpdate)
    (hk : u.keydata = none ∨ u.keydata = some []) (w' : World Store K)
    (hw' : w' = (exec O (Peer.updateFromMsg head u) w).2) :
    (exec O (Peer.updateFromMsg head u) w).1 = .ok () ∧
    Peer.keyView (w'.log head) = Peer.keyView (w.log head) ∧
    (Peer.lastSeen (w'.log head) = Peer.lastSeen (w.log head) ∨
     Peer.lastSeen (w.log head) < u.date ∧ Peer.lastSeen (w'.log head) = u.date) ∧
    ∀ h, h ≠ head → w'.log h = w.log h := by
  have hno : Peer.noKey u.keydata = true := by rcases hk with h | h <;> rw [h] <;> rfl
  subst hw'
  refine ⟨?_, ?_, ?_, ?_⟩
  · rw [Peer.exec_updateFromMsg]
    have : ∃ x, Peer.updateEntry (w.store.get head) u = .ok x := by
      unfold Peer.updateEntry; simp only [hno]
      repeat' split
      all_goals first | exact ⟨_, rfl⟩ | simp_all
    obtain ⟨x, hx⟩ := this
    rw [hx]; cases x <;> rfl
  all_goals simp only [World.log, Peer.get_updateFromMsg]
  · rw [if_pos trivial]
    rcases Peer.applyMsg_cases (w.store.get head) u with h | ⟨e, he, h⟩ <;> rw [h]
    obtain ⟨_, _, _, h4⟩ := Peer.updateEntry_some he
    rcases h4 with ⟨_, _, h6, _⟩ | ⟨h5, _⟩
    · exact Peer.keyView_congr (Peer.latestAc_nokey _ (by rw [h6]; rfl)) (Peer.latestGossip_msg _ _)
    · rw [hno] at h5; cases h5
  · rw [if_pos trivial]
    rcases Peer.applyMsg_cases (w.store.get head) u with h | ⟨e, he, h⟩ <;> rw [h]
    · exact Or.inl rfl
    · obtain ⟨_, _, h3, h4⟩ := Peer.updateEntry_some he
      rcases h4 with ⟨_, h5, h6, _⟩ | ⟨h5, _⟩
      · exact Or.inr ⟨h5, h3⟩
      · rw [hno] at h5; cases h5
  · intro h hh; rw [if_neg hh]

/-- C10, exact form for a message without header (key data `None`) in a reachable state: `last_seen` becomes
the maximum of its value and the date. -/
theorem C10_last_seen_is_maximum (O : Oracle K) (env : Env) (w : World Store K) (hw : Reachable O env w)
    (n a : Str) (u : Peer.MsgUpdate) (hk : u.keydata = none) :
    Peer.lastSeen ((exec O (Peer.updateFromMsg (peerHead n a) u) w).2.log (peerHead n a)) =
      max (Peer.lastSeen (w.log (peerHead n a))) u.date := by
  obtain ⟨_, h2⟩ := C11_timestamps_ordered O env w hw n a
  simp only [World.log, Peer.get_updateFromMsg, if_true] at *
  unfold Peer.applyMsg Peer.updateEntry
  have hr : Peer.isRecorded (w.store.get (peerHead n a)) u = false := by
    unfold Peer.isRecorded
    split
    · simp [Peer.sameMsg, hk]
    · rfl
  rw [hr, hk]
  by_cases h1 : u.date < Peer.acTimestamp (w.store.get (peerHead n a))
  · simp only [h1, if_true]; omega
  · simp only [h1, if_false, Peer.noKey, if_true]
    by_cases h3 : u.date > Peer.lastSeen (w.store.get (peerHead n a))
    · simp only [h3, if_true]; simp; omega
    · simp only [h3, if_false]; simp; omega

open Concrete in
example : Peer.lastSeen ((exec oracle (Peer.updateFromMsg (peerHead (str!"a") bob) ⟨str!"2", sec 300, none, none, none⟩)
    (after [addA, recv bob (str!"1") (str!"100") [7]])).2.log (peerHead (str!"a") bob)) = sec 300 := by decide +kernel

/-! ## C12: last_seen never goes back – false -/

open Concrete in
/-- C12 is false: a message with a key, dated between `autocrypt_timestamp` and `last_seen`, moves
`last_seen` back (states.py:195, 121-122). The witness processes three messages. -/
theorem C12_refuted : ∃ calls c,
    Peer.lastSeen (bobs (after (calls ++ [c]))) < Peer.lastSeen (bobs (after calls)) ∧
    (∀ x ∈ calls ++ [c], ¬ x.removes (str!"a")) :=
  ⟨[addA, recv bob (str!"1") (str!"100") [7], recv bob (str!"2") (str!"300") []], recv bob (str!"3") (str!"200") [8],
    by decide +kernel, by simp [ApiCall.removes, addA, recv]⟩

/-- C12, the part that holds: an update lowers `last_seen` only if the message carries a key and its date lies
between `autocrypt_timestamp` and `last_seen`, and then `last_seen` is that date. Gossip never changes it. The
full claim (`last_seen` never decreases) is refuted by `C12_refuted`. -/
theorem C12_last_seen_monotone_partial (O : Oracle K) (w : World Store K) (head : Str) :
    (∀ u : Peer.MsgUpdate,
      Peer.lastSeen (w.log head) ≤ Peer.lastSeen ((exec O (Peer.updateFromMsg head u) w).2.log head) ∨
      ((∃ k, u.keydata = some k ∧ k ≠ []) ∧ Peer.acTimestamp (w.log head) ≤ u.date ∧
        u.date < Peer.lastSeen (w.log head) ∧
        Peer.lastSeen ((exec O (Peer.updateFromMsg head u) w).2.log head) = u.date)) ∧
    (∀ u : Peer.GossipUpdate,
      Peer.lastSeen ((exec O (Peer.updateFromGossip head u) w).2.log head) = Peer.lastSeen (w.log head)) := by
  constructor
  · intro u
    simp only [World.log, Peer.get_updateFromMsg, if_true]
    rcases Peer.applyMsg_cases (w.store.get head) u with h | ⟨e, he, h⟩ <;> rw [h]
    · exact Or.inl (Int.le_refl _)
    · obtain ⟨h1, _, h3, h4⟩ := Peer.updateEntry_some he
      rw [Peer.lastSeen_msg, h3]
      by_cases hlt : u.date < Peer.lastSeen (w.store.get head)
      · rcases h4 with ⟨_, h5, _⟩ | ⟨h5, h6, _⟩
        · omega
        · refine Or.inr ⟨⟨e.keydata, h6, ?_⟩, h1, hlt, rfl⟩
          rw [h6] at h5; simpa [Peer.noKey] using h5
      · left; omega
  · intro u
    simp only [World.log, Peer.get_updateFromGossip, if_true]
    rcases Peer.applyGossip_cases (w.store.get head) u with h | ⟨e, he, h⟩ <;> rw [h]
    exact Peer.lastSeen_gossip _ _

/-! ## C13: gossip never overrides a usable direct key -/

/-- C13: gossip for a peer never changes `last_seen`, `autocrypt_timestamp`, the direct-key flag or the newest
Autocrypt entry; with a usable direct key it changes neither key handle nor key data nor preference. -/
theorem C13_gossip_keeps_direct_key (O : Oracle K) (w : World Store K) (head : Str) (u : Peer.GossipUpdate)
    (es es' : List Entry) (hes : es = w.log head)
    (hes' : es' = (exec O (Peer.updateFromGossip head u) w).2.log head) :
    Peer.lastSeen es' = Peer.lastSeen es ∧ Peer.acTimestamp es' = Peer.acTimestamp es ∧
    Peer.hasDirectKey es' = Peer.hasDirectKey es ∧ Peer.latestAc es' = Peer.latestAc es ∧
    (Peer.hasDirectKey es = true → Peer.publicKeyhandle es' = Peer.publicKeyhandle es ∧
      Peer.publicKeydata es' = Peer.publicKeydata es ∧ Peer.preferEncrypt es' = Peer.preferEncrypt es) := by
  subst hes hes'
  simp only [World.log, Peer.get_updateFromGossip, if_true]
  rcases Peer.applyGossip_cases (w.store.get head) u with h | ⟨e, he, h⟩ <;> rw [h]
  · simp
  · refine ⟨rfl, rfl, rfl, rfl, ?_⟩
    intro hd
    have : Peer.entryForEncryption (.gossip e :: w.store.get head) = Peer.entryForEncryption (w.store.get head) := by
      unfold Peer.hasDirectKey at hd
      unfold Peer.entryForEncryption
      rw [Peer.latestAc_gossip]
      cases hm : Peer.latestAc (w.store.get head) with
      | none => rw [hm] at hd; cases hd
      | some m => rw [hm] at hd; simp only [hd, if_true]
    simp only [Peer.publicKeyhandle, Peer.publicKeydata, Peer.preferEncrypt, this]
    exact ⟨trivial, trivial, trivial⟩

open Concrete in
example : Peer.hasDirectKey ((after [addA, recv bob (str!"1") (str!"100") [7]]).log (peerHead (str!"a") bob)) = true ∧
    (exec oracle (Peer.updateFromGossip (peerHead (str!"a") bob) ⟨str!"2", sec 300, some [9], some (str!"K")⟩)
      (after [addA, recv bob (str!"1") (str!"100") [7]])).2.log (peerHead (str!"a") bob) ≠
    (after [addA, recv bob (str!"1") (str!"100") [7]]).log (peerHead (str!"a") bob) := by decide +kernel

end Verif
