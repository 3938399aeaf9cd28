import Verif.Props.PeerOrder
/-!
# Re-processing, message ids and dates: C15, C17, C18
-/
namespace Verif

variable {K : Type}

/-! ## C15: re-processing a message is idempotent – false in general -/

/-- the calls which can record entries with message id `id` for peers of account `n`; key imports record
entries with an empty id -/
def ApiCall.reports (n id : Str) : ApiCall → Prop
  | .processIncoming n' m _ _ => n' = n ∧ mailId m = id
  | .importKey n' _ _ _ => n' = n ∧ id = []
  | .peerMsg n' _ u => n' = n ∧ u.msgId = id
  | .peerGossip n' _ u => n' = n ∧ u.msgId = id
  | _ => False

/-- an update of a peer made by a call carries an id which the call reports -/
theorem reports_of_act {env : Env} {c : ApiCall} {a : Act} (h : c.acts env a) :
    (∀ n ad u, a = .msg n ad u → c.reports n u.msgId) ∧ (∀ n ad u, a = .gossip n ad u → c.reports n u.msgId) := by
  constructor
  · rintro n ad u rfl
    cases c <;> simp_all [ApiCall.acts, InitAct, OwnAct, CfgAct, Account.IncomingAct, Account.HeaderAct,
      Account.GossipAct, Account.ImportAct, ApiCall.reports, mailId_eq]
    all_goals (try (obtain ⟨_, d, h1, h2⟩ := h; simp_all))
  · rintro n ad u rfl
    cases c <;> simp_all [ApiCall.acts, InitAct, OwnAct, CfgAct, Account.IncomingAct, Account.HeaderAct,
      Account.GossipAct, Account.ImportAct, ApiCall.reports, mailId_eq]

/-- the account of the update -/
theorem isalnum_of_act {env : Env} {c : ApiCall} {a : Act} (h : c.acts env a) :
    (∀ n ad u, a = .msg n ad u → env.isalnum n = true) ∧ (∀ n ad u, a = .gossip n ad u → env.isalnum n = true) := by
  constructor
  · rintro n ad u rfl
    cases c <;> simp_all [ApiCall.acts, InitAct, OwnAct, CfgAct, Account.IncomingAct, Account.HeaderAct,
      Account.GossipAct, Account.ImportAct]
    all_goals (try (obtain ⟨_, d, h1, h2⟩ := h; simp_all))
  · rintro n ad u rfl
    cases c <;> simp_all [ApiCall.acts, InitAct, OwnAct, CfgAct, Account.IncomingAct, Account.HeaderAct,
      Account.GossipAct, Account.ImportAct]

/-- a property of the log of a peer which is preserved by all updates except those excluded -/
theorem peerLog_invariant (O : Oracle K) (env : Env) (hist : List (Happening K)) (n a : Str) (hn : env.isalnum n = true)
    (hrm : ∀ c ∈ callsMade hist, ¬ c.removes n) (I : List Entry → Prop)
    (hmsg : ∀ es u, (∃ c ∈ callsMade hist, c.reports n u.msgId) → I es → I (Peer.applyMsg es u))
    (hgossip : ∀ es u, (∃ c ∈ callsMade hist, c.reports n u.msgId) → I es → I (Peer.applyGossip es u))
    (w : World Store K) (hw : I (w.log (peerHead n a))) :
    I ((runHistory Store.impl O env hist w).log (peerHead n a)) := by
  refine runHistory_inv (I := fun s => I (s.get (peerHead n a))) hist ?_ w hw
  intro c hc act hact w hI
  obtain ⟨h1, h2⟩ := act_of_call hact
  obtain ⟨h3, h4⟩ := reports_of_act hact
  obtain ⟨h5, h6⟩ := isalnum_of_act hact
  have hcol := colon_not_mem_of_isalnum hn
  rw [get_act]
  cases act with
  | msg m ad u =>
    dsimp only; split
    · rename_i heq
      obtain ⟨rfl, rfl⟩ := (peerHead_inj hcol (colon_not_mem_of_isalnum (h5 m ad u rfl))).mp heq
      exact hmsg _ _ ⟨c, hc, h3 _ _ _ rfl⟩ hI
    · exact hI
  | gossip m ad u =>
    dsimp only; split
    · rename_i heq
      obtain ⟨rfl, rfl⟩ := (peerHead_inj hcol (colon_not_mem_of_isalnum (h6 m ad u rfl))).mp heq
      exact hgossip _ _ ⟨c, hc, h4 _ _ _ rfl⟩ hI
    · exact hI
  | cfg m c => dsimp only; rw [if_neg (ownHead_ne_peerHead _ _ _).symm]; exact hI
  | keygen m c => dsimp only; rw [if_neg (ownHead_ne_peerHead _ _ _).symm]; exact hI
  | oob m c => dsimp only; rw [if_neg (oobHead_ne_peerHead _ _ _).symm]; exact hI
  | setVersion => dsimp only; rw [if_neg (fun h => (managerHead_ne_peerHead _ _).symm h.1)]; exact hI
  | removeAccount m =>
    dsimp only
    rw [matchAccount_peerHead hcol, if_neg]
    · exact hI
    · simp only [decide_eq_true_eq]; rintro rfl
      exact hrm c hc (Or.inl (h1 _ rfl))
  | wipe => exact absurd (Or.inr (h2 rfl)) (hrm c hc)

theorem Peer.getMessageEntry_applyMsg {es : List Entry} {u : Peer.MsgUpdate} {id : Str} (h : u.msgId ≠ id) :
    Peer.getMessageEntry (Peer.applyMsg es u) id = Peer.getMessageEntry es id := by
  rcases Peer.applyMsg_cases es u with h' | ⟨e, he, h'⟩ <;> rw [h']
  obtain ⟨_, h2, _⟩ := Peer.updateEntry_some he
  simp [Peer.getMessageEntry, h2, h]

theorem Peer.getMessageEntry_applyGossip {es : List Entry} {u : Peer.GossipUpdate} {id : Str} :
    Peer.getMessageEntry (Peer.applyGossip es u) id = Peer.getMessageEntry es id := by
  rcases Peer.applyGossip_cases es u with h' | ⟨e, he, h'⟩ <;> rw [h']; rfl

theorem Peer.getGossipEntry_applyGossip {es : List Entry} {u : Peer.GossipUpdate} {id : Str} (h : u.msgId ≠ id) :
    Peer.getGossipEntry (Peer.applyGossip es u) id = Peer.getGossipEntry es id := by
  rcases Peer.applyGossip_cases es u with h' | ⟨e, he, h'⟩ <;> rw [h']
  obtain ⟨_, h2, _⟩ := Peer.gossipEntry_some he
  simp [Peer.getGossipEntry, h2, h]

theorem Peer.getGossipEntry_applyMsg {es : List Entry} {u : Peer.MsgUpdate} {id : Str} :
    Peer.getGossipEntry (Peer.applyMsg es u) id = Peer.getGossipEntry es id := by
  rcases Peer.applyMsg_cases es u with h' | ⟨e, he, h'⟩ <;> rw [h']; rfl

/-- the update would be a no-op -/
def Peer.Settled (u : Peer.MsgUpdate) (es : List Entry) : Prop :=
  u.date < Peer.acTimestamp es ∨ Peer.isRecorded es u = true

theorem Peer.Settled.noop {u : Peer.MsgUpdate} {head : Str} (O : Oracle K) {w : World Store K}
    (h : Peer.Settled u (w.log head)) : exec O (Peer.updateFromMsg head u) w = (.ok (), w) := by
  rw [Peer.exec_updateFromMsg]
  have : Peer.updateEntry (w.store.get head) u = .ok none := by
    unfold Peer.updateEntry
    rcases h with h | h
    · simp only [World.log] at h; rw [if_pos h]
    · simp only [World.log] at h; rw [if_pos h]; split <;> rfl
  rw [this]

/-- the gossip update would be a no-op -/
def Peer.SettledGossip (u : Peer.GossipUpdate) (es : List Entry) : Prop :=
  u.date < Peer.acTimestamp es ∨ Peer.isRecordedGossip es u = true

/-- C15, the part that holds for messages with a key: if a message with an imported key is processed, then any
other API calls follow which neither remove the account nor process a message with the same Message-Id, and then
the same update arrives again, it changes nothing at all. Missing, and false
(`C15_refuted_failed_import`, `C15_refuted_future_date`, `C15_refuted_no_key`): messages whose key cannot be
imported, messages dated in the future, and messages without key after other messages. -/
theorem C15_reprocessing_partial (O : Oracle K) (env : Env) (n a : Str) (hn : env.isalnum n = true)
    (id : Str) (date : Time) (pe : PE) (k : Bytes) (hk : k ≠ []) (kh : Str) (u : Peer.MsgUpdate)
    (hu : u = ⟨id, date, some pe.toStr, some k, some kh⟩)
    (hist : List (Happening K)) (hrm : ∀ c ∈ callsMade hist, ¬ c.removes n) (hid : ∀ c ∈ callsMade hist, ¬ c.reports n id)
    (w w1 w2 : World Store K) (hw1 : w1 = (exec O (Peer.updateFromMsg (peerHead n a) u) w).2)
    (hw2 : w2 = runHistory Store.impl O env hist w1) :
    exec O (Peer.updateFromMsg (peerHead n a) u) w2 = (.ok (), w2) := by
  apply Peer.Settled.noop
  rw [hw2]
  have hidu : u.msgId = id := by rw [hu]
  refine peerLog_invariant O env hist n a hn hrm (Peer.Settled u) ?_ ?_ w1 ?_
  · rintro es v ⟨c, hc, hrep⟩ (h | h)
    · left; have := Peer.acTimestamp_applyMsg es v; omega
    · right
      have hne : v.msgId ≠ u.msgId := by
        intro heq; rw [heq, hidu] at hrep; exact hid c hc hrep
      unfold Peer.isRecorded at h ⊢
      rw [Peer.getMessageEntry_applyMsg hne]; exact h
  · rintro es v ⟨c, hc, hrep⟩ (h | h)
    · left; rw [Peer.acTimestamp_applyGossip]; exact h
    · right
      unfold Peer.isRecorded at h ⊢
      rw [Peer.getMessageEntry_applyGossip]; exact h
  · rw [hw1]
    simp only [World.log, Peer.get_updateFromMsg, if_true]
    generalize w.store.get (peerHead n a) = es
    by_cases h1 : u.date < Peer.acTimestamp es
    · left; have := Peer.acTimestamp_applyMsg es u; omega
    by_cases h2 : Peer.isRecorded es u = true
    · right
      have : Peer.applyMsg es u = es := by
        unfold Peer.applyMsg Peer.updateEntry; simp [h1, h2]
      rw [this]; exact h2
    · right
      have hnk : Peer.noKey u.keydata = false := by rw [hu]; simpa [Peer.noKey] using hk
      have hpe : Peer.peArg u.pe = .ok pe := by rw [hu]; exact peArg_ok.mpr rfl
      have : Peer.applyMsg es u = .msg ⟨id, date, pe, k, kh⟩ :: es := by
        unfold Peer.applyMsg Peer.updateEntry
        simp only [h1, h2, hnk, hpe, if_false, Bool.false_eq_true]
        rw [hu]; rfl
      rw [this, hu]
      simp [Peer.isRecorded, Peer.getMessageEntry, Peer.sameMsg]

open Concrete in
/-- an instance of the hypotheses with other mail in between -/
example : (∀ c ∈ [recv bob (str!"2") (str!"300") [], recv (str!"carol@x.org") (str!"3") (str!"200") [8]],
    ¬ c.removes (str!"a") ∧ ¬ c.reports (str!"a") (str!"1")) := by
  intro c hc
  simp only [List.mem_cons, List.not_mem_nil, or_false] at hc
  rcases hc with rfl | rfl <;> refine ⟨by simp [ApiCall.removes, recv], ?_⟩ <;>
    simp only [ApiCall.reports, recv] <;> decide +kernel

/-- C15, the part that holds for gossip with an imported key. -/
theorem C15_reprocessing_gossip_partial (O : Oracle K) (env : Env) (n a : Str) (hn : env.isalnum n = true)
    (id : Str) (date : Time) (k : Bytes) (hk : k ≠ []) (kh : Str) (u : Peer.GossipUpdate)
    (hu : u = ⟨id, date, some k, some kh⟩)
    (hist : List (Happening K)) (hrm : ∀ c ∈ callsMade hist, ¬ c.removes n) (hid : ∀ c ∈ callsMade hist, ¬ c.reports n id)
    (w w1 w2 : World Store K) (hw1 : w1 = (exec O (Peer.updateFromGossip (peerHead n a) u) w).2)
    (hw2 : w2 = runHistory Store.impl O env hist w1) :
    exec O (Peer.updateFromGossip (peerHead n a) u) w2 = (.ok (), w2) := by
  have hidu : u.msgId = id := by rw [hu]
  have hnk : Peer.noKey u.keydata = false := by rw [hu]; simpa [Peer.noKey] using hk
  have key : Peer.SettledGossip u (w2.log (peerHead n a)) := by
    rw [hw2]
    refine peerLog_invariant O env hist n a hn hrm (Peer.SettledGossip u) ?_ ?_ w1 ?_
    · rintro es v ⟨c, hc, hrep⟩ (h | h)
      · left; have := Peer.acTimestamp_applyMsg es v; omega
      · right
        unfold Peer.isRecordedGossip at h ⊢
        rw [Peer.getGossipEntry_applyMsg]; exact h
    · rintro es v ⟨c, hc, hrep⟩ (h | h)
      · left; rw [Peer.acTimestamp_applyGossip]; exact h
      · right
        have hne : v.msgId ≠ u.msgId := by
          intro heq; rw [heq, hidu] at hrep; exact hid c hc hrep
        unfold Peer.isRecordedGossip at h ⊢
        rw [Peer.getGossipEntry_applyGossip hne]; exact h
    · rw [hw1]
      simp only [World.log, Peer.get_updateFromGossip, if_true]
      generalize w.store.get (peerHead n a) = es
      by_cases h1 : u.date < Peer.acTimestamp es
      · left; rw [Peer.acTimestamp_applyGossip]; exact h1
      by_cases h2 : Peer.isRecordedGossip es u = true
      · right
        have : Peer.applyGossip es u = es := by
          unfold Peer.applyGossip Peer.gossipEntry; simp [h1, h2, hnk]
        rw [this]; exact h2
      · right
        have : Peer.applyGossip es u = .gossip ⟨id, date, k, kh⟩ :: es := by
          unfold Peer.applyGossip Peer.gossipEntry
          simp only [h1, h2, hnk, if_false, Bool.false_eq_true]
          rw [hu]; rfl
        rw [this, hu]
        simp [Peer.isRecordedGossip, Peer.getGossipEntry]
  rw [Peer.exec_updateFromGossip]
  have : Peer.gossipEntry (w2.store.get (peerHead n a)) u = .ok none := by
    unfold Peer.gossipEntry
    rcases key with h | h
    · simp only [World.log] at h; rw [if_pos h]
    · simp only [World.log] at h
      split
      · rfl
      · simp [hnk]
  rw [this]

/-- C15, the part that holds for messages without key: processing one twice in a row is the same as once. -/
theorem C15_no_key_twice_partial (O : Oracle K) (w : World Store K) (head : Str) (u : Peer.MsgUpdate)
    (hk : u.keydata = none) (w1 : World Store K) (hw1 : w1 = (exec O (Peer.updateFromMsg head u) w).2) :
    exec O (Peer.updateFromMsg head u) w1 = (.ok (), w1) := by
  rw [Peer.exec_updateFromMsg]
  have : Peer.updateEntry (w1.store.get head) u = .ok none := by
    have h1 : w1.store.get head = Peer.applyMsg (w.store.get head) u := by
      rw [hw1, Peer.get_updateFromMsg, if_pos rfl]
    rw [h1]
    generalize w.store.get head = es
    have hupd : ∀ es, Peer.updateEntry es u = if u.date < Peer.acTimestamp es then .ok none else
        if u.date > Peer.lastSeen es then .ok (some ⟨u.msgId, u.date, .nopreference, [], []⟩) else .ok none := by
      intro es
      unfold Peer.updateEntry
      have hr : Peer.isRecorded es u = false := by
        unfold Peer.isRecorded
        split
        · simp [Peer.sameMsg, hk]
        · rfl
      simp only [hr, hk, Peer.noKey, if_true, Bool.false_eq_true, if_false]
    by_cases h2 : u.date < Peer.acTimestamp es
    · have : Peer.applyMsg es u = es := by simp [Peer.applyMsg, hupd, h2]
      rw [this, hupd, if_pos h2]
    · by_cases h3 : u.date > Peer.lastSeen es
      · have : Peer.applyMsg es u = .msg ⟨u.msgId, u.date, .nopreference, [], []⟩ :: es := by
          simp [Peer.applyMsg, hupd, h2, h3]
        rw [this, hupd, Peer.acTimestamp_nokey _ rfl, if_neg h2, Peer.lastSeen_msg, if_neg (by simp)]
      · have : Peer.applyMsg es u = es := by simp [Peer.applyMsg, hupd, h2, h3]
        rw [this, hupd, if_neg h2, if_neg h3]
  rw [this]

open Concrete in
/-- C15 is false for a message whose key gpg refuses: the stored key handle is '' but the compared one is
`None` (states.py:183, 198), so every processing appends an entry. -/
theorem C15_refuted_failed_import : ∃ m : ApiCall,
    (bobs (after [addA, m])).length = 1 ∧ (bobs (after [addA, m, m])).length = 2 :=
  ⟨recv bob (str!"1") (str!"100") [0, 1], by decide +kernel⟩

open Concrete in
/-- C15 is false for a message dated in the future: the effective date is the time of processing
(account.py:36-38), so processing it again moves `last_seen` and `autocrypt_timestamp`. -/
theorem C15_refuted_future_date : ∃ m : ApiCall,
    Peer.acTimestamp (bobs (after [addA, m])) < Peer.acTimestamp (bobs (after [addA, m, m])) :=
  ⟨recv bob (str!"1") (str!"9999999") [7], by decide +kernel⟩

open Concrete in
/-- C15 is false for a message without key that is processed again after a key message with an earlier date
which moved `last_seen` back. -/
theorem C15_refuted_no_key : ∃ (m : ApiCall) (calls : List ApiCall),
    m ∈ calls ∧ Peer.lastSeen (bobs (after calls)) ≠ Peer.lastSeen (bobs (after (calls ++ [m]))) :=
  ⟨recv bob (str!"2") (str!"300") [],
   [addA, recv bob (str!"2") (str!"300") [], recv bob (str!"3") (str!"200") [8]], by simp, by decide +kernel⟩

/-! ## C17: distinct messages are never mistaken for one another – false without Message-Id -/

open Concrete in
/-- C17 is false: messages without Message-Id all get the id "None" (account.py:334), so the second one from
the same sender is taken for known. -/
theorem C17_refuted : ∃ m1 m2 : Msg, m1.headers ≠ m2.headers ∧
    (match (exec oracle (Account.processIncoming env (str!"a") m2 true false)
      (after [addA, .processIncoming (str!"a") m1 true false])).1 with | .ok none => true | _ => false) = true :=
  ⟨.mk [(str!"From", bob), (str!"To", str!"a@x.org"), (str!"Date", str!"100"), (str!"Subject", str!"one")] (.text (str!"1")),
   .mk [(str!"From", bob), (str!"To", str!"a@x.org"), (str!"Date", str!"200"), (str!"Subject", str!"two"),
     (str!"Autocrypt", str!"addr=bob@x.org; keydata=Bwg=")] (.text (str!"2")),
   by decide, by decide +kernel⟩

/-- a recorded message id was reported by some call -/
theorem hasMessage_reported (O : Oracle K) (env : Env) (hist : List (Happening K)) (w : World Store K)
    (n a : Str) (hn : env.isalnum n = true) (id : Str)
    (hw : Peer.hasMessage (w.log (peerHead n a)) id = false)
    (h : Peer.hasMessage ((runHistory Store.impl O env hist w).log (peerHead n a)) id = true) :
    ∃ c ∈ callsMade hist, c.reports n id := by
  by_cases hex : ∃ c ∈ callsMade hist, c.reports n id
  · exact hex
  exfalso
  have hno : ∀ c ∈ callsMade hist, ¬ c.reports n id := fun c hc hr => hex ⟨c, hc, hr⟩
  have hcol := colon_not_mem_of_isalnum hn
  have : Peer.hasMessage ((runHistory Store.impl O env hist w).log (peerHead n a)) id = false := by
    refine runHistory_inv (I := fun s => Peer.hasMessage (s.get (peerHead n a)) id = false) hist ?_ w hw
    intro c hc act hact w hI
    obtain ⟨h3, h4⟩ := reports_of_act hact
    obtain ⟨h5, h6⟩ := isalnum_of_act hact
    rw [get_act]
    cases act with
    | msg m ad u =>
      dsimp only; split
      · rename_i heq
        obtain ⟨rfl, rfl⟩ := (peerHead_inj hcol (colon_not_mem_of_isalnum (h5 m ad u rfl))).mp heq
        unfold Peer.hasMessage
        rw [Peer.getMessageEntry_applyMsg]
        · exact hI
        · rintro rfl; exact hno c hc (h3 _ _ _ rfl)
      · exact hI
    | gossip m ad u =>
      dsimp only; split
      · unfold Peer.hasMessage; rw [Peer.getMessageEntry_applyGossip]; exact hI
      · exact hI
    | cfg m c => dsimp only; rw [if_neg (ownHead_ne_peerHead _ _ _).symm]; exact hI
    | keygen m c => dsimp only; rw [if_neg (ownHead_ne_peerHead _ _ _).symm]; exact hI
    | oob m c => dsimp only; rw [if_neg (oobHead_ne_peerHead _ _ _).symm]; exact hI
    | setVersion => dsimp only; rw [if_neg (fun h => (managerHead_ne_peerHead _ _).symm h.1)]; exact hI
    | removeAccount m => dsimp only; split; rfl; exact hI
    | wipe => rfl
  rw [this] at h; cases h

/-- C17, the part that holds: in a history starting from nothing, a message whose Message-Id text was not
reported by any earlier call for the account is never skipped: `process_incoming` with `ignore_existing` does
not return `None`. Missing, and false (`C17_refuted`): messages without Message-Id, which all count as
having the id "None". -/
theorem C17_new_messages_processed_partial (O : Oracle K) (env : Env) (hist : List (Happening K)) (clock : Nat → Time)
    (k : K) (w : World Store K)
    (hw : w = runHistory Store.impl O env hist { store := [], clock, tick := 0, env := k, trace := [] })
    (n : Str) (hn : env.isalnum n = true) (m : Msg) (noDecrypt : Bool)
    (hid : ∀ c ∈ callsMade hist, ¬ c.reports n (mailId m)) :
    (exec O (Account.processIncoming env n m true noDecrypt) w).1 ≠ .ok none := by
  spec_mail
  have hnot : ∀ a, Peer.hasMessage (w.log (peerHead n a)) (messageId m) = false := by
    intro a
    cases h : Peer.hasMessage (w.log (peerHead n a)) (messageId m) with
    | false => rfl
    | true =>
      rw [hw] at h
      obtain ⟨c, hc, hr⟩ := hasMessage_reported O env hist _ n a hn _ rfl h
      exact absurd hr (hid c hc)
  simp only [exec, Account.run_processIncoming]
  cases parseDateToFloat env (m.get (str!"Date")) with
  | error e => simp
  | ok d =>
    dsimp only
    unfold Account.incomingRest
    simp only [bind_eq, pure_eq, if_true, run_bind]
    rw [show ∀ w : World Store K, run Store.impl O (Prog.chain (Account.peerHeadOf env n
      (Mime.parseEmailAddr env (m.get (str!"From"))))) w = (.ok (w.store.get _), w) from fun _ => rfl]
    simp only [run_pure]
    have := hnot (Mime.parseEmailAddr env (some (Mime.parseEmailAddr env (m.get (str!"From")))))
    simp only [World.log] at this
    simp only [Account.peerHeadOf, this, Bool.false_eq_true, if_false, run_bind]
    intro h
    split at h
    · rename_i heq; 
      split at h
      · split at h
        · simp at h
        · cases h
      · cases h
    · cases h

open Concrete in
example : ∀ c ∈ [addA, recv bob (str!"1") (str!"100") [7]],
    ¬ c.reports (str!"a") (messageId (mail bob (str!"2") (str!"100") [8])) := by
  intro c hc
  simp only [List.mem_cons, List.not_mem_nil, or_false] at hc
  rcases hc with rfl | rfl <;> simp only [ApiCall.reports, recv, addA] <;> decide +kernel

end Verif
