import Verif.Lemmas.Mime
import Verif.Lemmas.Provenance
import Verif.Props.PeerHistory
/-!
# Processing incoming mail: C16, C18 – C24
-/
namespace Verif
open Mime

variable {K : Type}

/-- the normalised sender address of a message, as used for its peer state -/
def senderAddr (env : Env) (m : Msg) : Str :=
  address env (some (address env (m.get (str!"From"))))

/-- the date of a message: the time its Date header stands for, and 0 if it is missing or cannot be parsed -/
def DateOf (env : Env) (m : Msg) (d : Time) : Prop :=
  env.mktimeParsedate (m.get (str!"Date")) = .ok d ∨ (env.mktimeParsedate (m.get (str!"Date")) = .error .typeError ∧ d = 0)

theorem parseDateToFloat_ok {env : Env} {m : Msg} {d : Time} : parseDateToFloat env (m.get (str!"Date")) = .ok d ↔ DateOf env m d := by
  unfold parseDateToFloat DateOf
  cases h : env.mktimeParsedate (m.get (str!"Date")) with
  | ok t => simp
  | error e =>
    cases e <;> simp [eq_comm]

/-! ## C16: known messages are skipped entirely -/

/-- C16, what holds: with `ignore_existing`, a message whose Message-Id is recorded for its sender changes no stored state,
runs no external operation (gpg, hook, file) and returns `None`, unless its date makes `mktime` raise something else than a
`TypeError`; then the call raises, also without any effect.

Missing from the full statement: it returns `None` for all dates, see `C16_refuted`. -/
theorem C16_known_message_skipped_partial (O : Oracle K) (env : Env) (w : World Store K) (n : Str) (m : Msg) (noDecrypt : Bool)
    (hknown : ∃ e, .msg e ∈ w.log (peerHead n (senderAddr env m)) ∧ e.msgId = mailId m)
    (r : Except Exc (Option Account.IncomingResult)) (w' : World Store K)
    (hr : exec O (Account.processIncoming env n m true noDecrypt) w = (r, w')) :
    w'.store = w.store ∧ w'.env = w.env ∧ w'.trace = w.trace ∧
    (∀ d, DateOf env m d → r = .ok none) := by
  spec_mail
  simp only [← parseDateToFloat_ok]
  have hk : Peer.hasMessage (w.store.get (peerHead n (senderAddr env m))) (messageId m) = true := by
    obtain ⟨e, he, hid⟩ := hknown
    simp only [Peer.hasMessage, Peer.getMessageEntry, List.find?_isSome]
    refine ⟨e, ?_, by simpa using hid⟩
    simp only [Peer.msgs, List.mem_filterMap]
    exact ⟨_, he, rfl⟩
  simp only [exec, Account.run_processIncoming] at hr
  cases hd : parseDateToFloat env (m.get (str!"Date")) with
  | error e => rw [hd] at hr; cases hr; exact ⟨rfl, rfl, rfl, by rintro d hd; cases hd⟩
  | ok d =>
    rw [hd] at hr
    dsimp only at hr
    unfold Account.incomingRest at hr
    simp only [bind_eq, pure_eq, if_true, run_bind] at hr
    rw [show ∀ w : World Store K, run Store.impl O (Prog.chain (Account.peerHeadOf env n
      (Mime.parseEmailAddr env (m.get (str!"From"))))) w = (.ok (w.store.get _), w) from fun _ => rfl] at hr
    simp only [run_pure, Account.peerHeadOf] at hr
    rw [show parseEmailAddr env (some (parseEmailAddr env (m.get (str!"From")))) = senderAddr env m from rfl, hk] at hr
    cases hr
    exact ⟨rfl, rfl, rfl, fun _ _ => rfl⟩

open Concrete in
example : ∃ e, .msg e ∈ (after [addA, recv bob (str!"1") (str!"100") [7]]).log
      (peerHead (str!"a") (senderAddr env (mail bob (str!"1") (str!"500") [8]))) ∧
    e.msgId = messageId (mail bob (str!"1") (str!"500") [8]) :=
  ⟨⟨str!"1", sec 100, .nopreference, [7], str!"AAAAAAAAAAAA07"⟩, by decide +kernel⟩

open Concrete in
/-- The full C16 fails: if `mktime` raises an `OverflowError` for the date of a known message then the call raises it as well. -/
theorem C16_refuted : ∃ (env : Env) (w : World Store Unit) (m : Msg), Reachable oracle env w ∧
    (∃ e, .msg e ∈ w.log (peerHead (str!"a") (senderAddr env m)) ∧ e.msgId = mailId m) ∧
    (exec oracle (Account.processIncoming env (str!"a") m true false) w).1 = .error .overflowError := by
  spec_mail
  let env' : Env := { env with mktimeParsedate := fun d => if d = some (str!"1 Jan 99999999999") then .error .overflowError else env.mktimeParsedate d }
  exact ⟨env', runCalls Store.impl oracle env' [recv bob (str!"1") (str!"100") []] world0, mail bob (str!"1") (str!"1 Jan 99999999999") [],
    .of_calls _, ⟨⟨str!"1", sec 100, .nopreference, [], []⟩, by decide +kernel⟩, rfl⟩

/-! ## C18: no recorded date lies in the future -/

/-- the date recorded in an entry of a peer's chain -/
def Entry.date? : Entry → Option Time
  | .msg e => some e.date
  | .gossip e => some e.date
  | _ => none

/-- C18 for one message: every date newly recorded by processing it, in any chain, is the smaller of the
message's date and the one clock value read at the start. -/
theorem C18_incoming_date (O : Oracle K) (env : Env) (w : World Store K) (n : Str) (m : Msg) (i nd : Bool)
    (h : Str) (e : Entry) (t : Time) (ht : e.date? = some t)
    (he : e ∈ (exec O (Account.processIncoming env n m i nd) w).2.log h) (hold : e ∉ w.log h) :
    t ≤ w.clock w.tick ∧ ∃ d, DateOf env m d ∧ t = min d (w.clock w.tick) := by
  simp only [← parseDateToFloat_ok]
  simp only [exec, Account.run_processIncoming] at he
  cases hd : parseDateToFloat env (m.get (str!"Date")) with
  | error e' => rw [hd] at he; exact absurd he hold
  | ok d =>
    rw [hd] at he; dsimp only at he
    rcases (Account.safe_incomingRest env n m i nd _).new (O := O) { w with tick := w.tick + 1 } h e he with h1 | ⟨a, ha, had⟩
    · exact absurd h1 hold
    · have : t = min d (w.clock w.tick) := by
        rcases ha with ha | ⟨dec, _, ha⟩
        · cases a <;> simp only [Account.HeaderAct] at ha
          cases e <;> simp only [Act.Adds] at had
          cases ht
          obtain ⟨_, _, h3, _⟩ := had
          obtain ⟨_, _, _, h4, _⟩ := ha
          rw [h3, h4]
        · cases a <;> simp only [Account.GossipAct] at ha
          cases e <;> simp only [Act.Adds] at had
          cases ht
          obtain ⟨_, _, h3, _⟩ := had
          obtain ⟨_, _, h4, _⟩ := ha
          rw [h3, h4]
      exact ⟨by rw [this]; exact Int.min_le_right .., d, rfl, this⟩

/-- what is new in the second world is dated with a clock value read in between -/
def NewDatesRead (w w' : World Store K) : Prop :=
  w'.clock = w.clock ∧ w.tick ≤ w'.tick ∧
  ∀ h e t, e ∈ w'.log h → e.date? = some t → e ∈ w.log h ∨ ∃ i, w.tick ≤ i ∧ i < w'.tick ∧ t ≤ w.clock i

theorem NewDatesRead.trans {a b c : World Store K} (h1 : NewDatesRead a b) (h2 : NewDatesRead b c) : NewDatesRead a c := by
  refine ⟨h2.1.trans h1.1, Nat.le_trans h1.2.1 h2.2.1, ?_⟩
  intro h e t he ht
  rcases h2.2.2 h e t he ht with h3 | ⟨i, h3, h4, h5⟩
  · rcases h1.2.2 h e t h3 ht with h6 | ⟨i, h6, h7, h8⟩
    · exact Or.inl h6
    · exact Or.inr ⟨i, h6, Nat.lt_of_lt_of_le h7 h2.2.1, h8⟩
  · exact Or.inr ⟨i, Nat.le_trans h1.2.1 h3, h4, by rw [← h1.1]; exact h5⟩

theorem NewDatesRead.of_store {w w' : World Store K} (hs : w'.store = w.store) (hc : w'.clock = w.clock)
    (ht : w.tick ≤ w'.tick) : NewDatesRead w w' :=
  ⟨hc, ht, fun h e t he _ => Or.inl (by simpa only [World.log, hs] using he)⟩

/-- what the program records anew is dated with a clock value read within it, also if the process dies -/
def DatesRead (O : Oracle K) {α : Type} (p : Prog α) : Prop := ∀ n w, NewDatesRead w (runFor Store.impl O n p w)

theorem DatesRead.done {O : Oracle K} {α : Type} {p : Prog α} (h : DatesRead O p) (w : World Store K) : NewDatesRead w (exec O p w).2 := by
  obtain ⟨n, hn⟩ := runFor_run Store.impl O p w
  rw [exec, ← hn]; exact h n w

theorem DatesRead.ro {O : Oracle K} {α : Type} {p : Prog α} (h : p.AllOps Op.readOnly) : DatesRead O p := fun n w => by
  obtain ⟨h1, h2, h3, -⟩ := Safe.runFor_ro (O := O) h n w
  exact .of_store h1 h2 h3

theorem DatesRead.bind {O : Oracle K} {α β : Type} {p : Prog α} {f : α → Prog β} (hp : DatesRead O p) (hf : ∀ a, DatesRead O (f a)) :
    DatesRead O (p.bind f) := by
  intro n w
  rcases Safe.runFor_bind Store.impl O n p f w with h | ⟨a, w1, m, h1, h⟩ <;> rw [h]
  · exact hp n w
  · have := hp.done w
    rw [exec, h1] at this
    exact this.trans (hf a m w1)

/-- the clock is read once and then the updates are dated with a value which is not later -/
theorem DatesRead.now {O : Oracle K} {α : Type} {A : Time → Act → Prop} {k : Time → Prog α} (hk : ∀ t, Safe (A t) (k t))
    (hA : ∀ t a h e d, A t a → a.Adds h e → e.date? = some d → d ≤ t) : DatesRead O (Prog.now.bind k) := by
  intro n w
  cases n with
  | zero => exact .of_store rfl rfl (Nat.le_refl _)
  | succ n =>
    show NewDatesRead w (runFor Store.impl O n (k (w.clock w.tick)) { w with tick := w.tick + 1 })
    obtain ⟨h1, h2, h3⟩ := (hk (w.clock w.tick)).new_killed (O := O) n { w with tick := w.tick + 1 }
    refine ⟨h1, Nat.le_trans (Nat.le_succ _) h2, fun h e t he ht => ?_⟩
    rcases h3 h e he with h4 | ⟨a, ha, h4⟩
    · exact Or.inl h4
    · exact Or.inr ⟨w.tick, Nat.le_refl _, h2, hA _ a h e t ha h4 ht⟩

theorem datesRead_importLoop (O : Oracle K) (env : Env) (n pe kh : Str) (l : List Str) : DatesRead O (Account.importLoop env n pe kh l) := by
  induction l with
  | nil => exact .ro trivial
  | cons a l ih =>
    have : Account.importLoop env n pe kh (a :: l) = (Prog.now.bind fun t => (Account.bingpg env n).bind fun g =>
        (BinGPG.getPublicKeydata env g kh).bind fun kd => Peer.updateFromMsg (Account.peerHeadOf env n a)
          { msgId := [], date := t, pe := some pe, keydata := some kd, keyhandle := some kh }).bind fun _ =>
        Account.importLoop env n pe kh l := by
      rw [Account.importLoop]; simp only [bind_eq, Prog.bind_assoc]
    rw [this]
    refine .bind (.now (A := fun t a => ∃ ad u, a = .msg n ad u ∧ u.date = t) (fun t => ?_) ?_) fun _ => ih
    · exact .bind (.ro (Account.bingpg_ops permissive_readOnly env n)) fun _ =>
        .bind (.ro (BinGPG.getPublicKeydata_ops permissive_readOnly.2.2.2 env _ _ _)) fun _ => .msg ⟨_, _, rfl, rfl⟩
    · rintro t _ h e d ⟨ad, u, rfl, rfl⟩ had hd
      cases e <;> simp only [Act.Adds] at had
      cases hd
      rw [had.2.2.1]; exact Int.le_refl _

theorem datesRead_import (O : Oracle K) (env : Env) (n : Str) (a : Option Str) (k : Bytes) (pe : Str) :
    DatesRead O (Account.importKeydataAsAutocrypt env n a k pe) := by
  unfold Account.importKeydataAsAutocrypt; simp only [bind_eq, pure_eq]
  have h1 := Account.bingpg_ops permissive_readOnly env n
  have h2 := fun g k b => BinGPG.importKeydata_ops permissive_readOnly.2.2.2 env g k b
  refine .bind (.ro h1) fun _ => .bind (.ro (h2 _ _ _)) fun _ => .bind (.ro ?_) fun _ => .bind (.ro h1) fun _ => .bind (.ro (h2 _ _ _)) fun _ =>
    .bind (datesRead_importLoop O env n pe _ _) fun _ => .bind (.ro h1) fun _ => .bind (.ro (BinGPG.getPublicKeydata_ops permissive_readOnly.2.2.2 env _ _ _)) fun _ =>
    .ro trivial
  split
  · trivial
  · exact .bind h1 fun _ => .bind (BinGPG.listPublicKeyinfos_ops permissive_readOnly.2.2.2 env _ _) fun _ => trivial

/-- C18 for a key import: every date newly recorded is a clock value read during the import. -/
theorem C18_import_date (O : Oracle K) (env : Env) (w : World Store K) (n : Str) (a : Option Str) (k : Bytes) (pe : Str) :
    NewDatesRead w (exec O (Account.importKeydataAsAutocrypt env n a k pe) w).2 := (datesRead_import O env n a k pe).done w

theorem datesRead_incoming (O : Oracle K) (env : Env) (n : Str) (m : Msg) (i d : Bool) : DatesRead O (Account.processIncoming env n m i d) := by
  have : Account.processIncoming env n m i d = (Prog.ofExcept (parseDateToFloat env (m.get (str!"Date")))).bind fun x =>
      Prog.now.bind fun t => Account.incomingRest env n m i d (min x t) := by
    unfold Account.processIncoming Account.incomingRest effectiveDate
    simp only [bind_eq, pure_eq]
    cases parseDateToFloat env (m.get (str!"Date")) <;> rfl
  rw [this]
  refine .bind (.ro (.ofExcept _)) fun x => .now (A := fun t => Account.IncomingAct env n m (min x t)) (fun t => Account.safe_incomingRest ..) ?_
  rintro t a h e d (ha | ⟨dec, _, ha⟩) had hd
  · cases a <;> simp only [Account.HeaderAct] at ha
    cases e <;> simp only [Act.Adds] at had
    cases hd
    rw [had.2.2.1, ha.2.2.2.1]; exact Int.min_le_right ..
  · cases a <;> simp only [Account.GossipAct] at ha
    cases e <;> simp only [Act.Adds] at had
    cases hd
    rw [had.2.2.1, ha.2.2.1]; exact Int.min_le_right ..

/-- calls which give a date directly to the peer state, without looking at the clock -/
def ApiCall.setsDate : ApiCall → Prop
  | .peerMsg .. | .peerGossip .. => True
  | _ => False

theorem datesRead_onAccount {O : Oracle K} {α : Type} (env : Env) (n : Str) {p : Prog α} (hp : DatesRead O p) : DatesRead O (onAccount env n p) := by
  unfold onAccount Manager.account
  rw [Prog.assert_bind]
  split
  · exact .bind hp fun _ => .ro trivial
  · exact .ro trivial

theorem datesRead_call (O : Oracle K) (env : Env) (c : ApiCall) (hc : ¬ c.setsDate) : DatesRead O (c.prog env) := by
  by_cases h1 : ∃ n m i d, c = .processIncoming n m i d
  · obtain ⟨n, m, i, d, rfl⟩ := h1
    exact datesRead_onAccount env n (datesRead_incoming O env n m i d)
  by_cases h2 : ∃ n a k p, c = .importKey n a k p
  · obtain ⟨n, a, k, p, rfl⟩ := h2
    exact datesRead_onAccount env n (datesRead_import O env n a k p)
  · intro n w
    obtain ⟨k1, k2, k3⟩ := (safe_call env c).new_killed (O := O) n w
    refine ⟨k1, k2, ?_⟩
    intro h e t he ht
    rcases k3 h e he with h3 | ⟨a, ha, had⟩
    · exact Or.inl h3
    · exfalso
      clear k1 k2 k3 he
      cases c <;> first
        | exact h1 ⟨_, _, _, _, rfl⟩
        | exact h2 ⟨_, _, _, _, rfl⟩
        | exact hc trivial
        | (cases e <;> cases ht <;> cases a <;> simp_all [Act.Adds, ApiCall.acts, InitAct, OwnAct, CfgAct])

/-- C18 for histories: whatever mail is processed and whatever keys are imported, and also if the process dies in the middle of this,
every date recorded for a peer is at most one of the clock values read so far. (Calls which pass a date directly to
`update_from_msg` are excluded.) -/
theorem C18_no_future_dates (O : Oracle K) (env : Env) (hist : List (Happening K)) (hcalls : ∀ c ∈ callsMade hist, ¬ c.setsDate)
    (clock : Nat → Time) (k : K) (w : World Store K)
    (hw : w = runHistory Store.impl O env hist { store := [], clock, tick := 0, env := k, trace := [] })
    (h : Str) (e : Entry) (t : Time) (he : e ∈ w.log h) (ht : e.date? = some t) :
    ∃ i < w.tick, t ≤ clock i := by
  have h1 : NewDatesRead { store := [], clock, tick := 0, env := k, trace := [] } (runHistory Store.impl O env hist _) :=
    runHistory_ind hist (fun _ _ ⟨h1, h2, h3, _⟩ h => h.trans (.of_store h1 h2 h3)) (fun c hc n w h => h.trans (datesRead_call O env c (hcalls c hc) n w)) _
      (.of_store rfl rfl (Nat.le_refl _))
  rw [← hw] at h1
  rcases h1.2.2 h e t he ht with h2 | ⟨i, _, h3, h4⟩
  · cases h2
  · exact ⟨i, h3, h4⟩

open Concrete in
/-- a message dated far in the future is recorded with the time of processing -/
example : (∀ c ∈ [addA, recv bob (str!"1") (str!"9999999") [7]], ¬ c.setsDate) ∧
    Peer.lastSeen (bobs (after [addA, recv bob (str!"1") (str!"9999999") [7]])) < sec 2000 := by
  refine ⟨by simp [ApiCall.setsDate, addA, recv], by decide +kernel⟩

/-! ## C19: a header whose key cannot be imported does not displace a working key – false -/

open Concrete in
/-- C19 is false: Bob's key is known and usable; a newer message with a key which gpg refuses leaves no usable
key at all (the key data is recorded with an empty handle, states.py:195-199). -/
theorem C19_refuted : ∃ calls c,
    Peer.publicKeyhandle (bobs (after calls)) ≠ [] ∧ Peer.publicKeyhandle (bobs (after (calls ++ [c]))) = [] ∧
    (∃ m, c = .processIncoming (str!"a") m false false) :=
  ⟨[addA, recv bob (str!"1") (str!"100") [7]], recv bob (str!"2") (str!"200") [0, 1], by decide +kernel,
    by decide +kernel, _, rfl⟩

/-- C19, the part that holds: when gpg refuses the key of a header, then what is used for encryption stays the
same if the peer has no usable direct key (a gossiped key stays in use), or if the message is older than the
newest Autocrypt header. The full claim (also with a usable direct key) is refuted by `C19_refuted`: in the
remaining case the key in use is the newest gossip key, if any. -/
theorem C19_failed_import_partial (O : Oracle K) (env : Env) (n : Str) (m : Msg) (f : Str) (head : Str) (date : Time)
    (id : Str) (w w1 : World Store K) (r : ACResult) (hr : parseOneAcHeaderFromMsg env m [f] = .ok r)
    (herr : r.error = none)
    (himp : exec O (Account.importKey env n (r.keydata.getD [])) w = (.ok none, w1))
    (es es' : List Entry) (hes : es = w.log head)
    (hes' : es' = (exec O (Account.processAutocryptHeader env n m f head date id) w).2.log head) :
    (Peer.hasDirectKey es = false ∨ date < Peer.acTimestamp es → Peer.shown es' = Peer.shown es) ∧
    (Peer.shown es' = Peer.shown es ∨
      Peer.entryForEncryption es' = (Peer.latestGossip es).map Sum.inr) := by
  have hro := run_ro (O := O) (Account.importKey_ops permissive_readOnly env n (r.keydata.getD [])) w
  rw [himp] at hro
  have hlog : es' = Peer.applyMsg es ⟨id, date, r.pe, r.keydata, none⟩ := by
    rw [hes', hes]
    unfold Account.processAutocryptHeader Account.importPah
    simp only [bind_eq, pure_eq, exec, run_bind, run_ofExcept, hr, herr, Option.isSome_none, Bool.false_eq_true, if_false]
    simp only [exec] at himp
    rw [himp]
    simp only [run_pure]
    have := Peer.get_updateFromMsg O head head ⟨id, date, r.pe, r.keydata, none⟩ w1
    rw [if_pos rfl] at this
    simp only [exec] at this
    rcases hrun : run Store.impl O (Peer.updateFromMsg head ⟨id, date, r.pe, r.keydata, none⟩) w1 with ⟨_ | _, w2⟩ <;>
      rw [hrun] at this <;> dsimp only [World.log] at this ⊢ <;> rw [this, hro.1]
  subst hlog
  rcases Peer.applyMsg_cases es ⟨id, date, r.pe, r.keydata, none⟩ with h | ⟨e, he, h⟩ <;> rw [h]
  · exact ⟨fun _ => rfl, Or.inl rfl⟩
  · obtain ⟨h1, h2, h3, h4⟩ := Peer.updateEntry_some he
    rcases h4 with ⟨_, _, h5, h6, _⟩ | ⟨h5, h6, h7, h8⟩
    · have : Peer.shown (.msg e :: es) = Peer.shown es := by
        have := Peer.keyView_congr (es := es) (es' := .msg e :: es) (Peer.latestAc_nokey _ (by rw [h5]; rfl)) rfl
        simp only [Peer.keyView, PeerKeyView.mk.injEq] at this
        simp [Peer.shown, this]
      exact ⟨fun _ => this, Or.inl this⟩
    · have hk : e.keydata.isEmpty = false := by rw [h6] at h5; exact h5
      have hac := Peer.latestAc_key es hk
      have hee : Peer.entryForEncryption (.msg e :: es) = (Peer.latestGossip es).map Sum.inr := by
        unfold Peer.entryForEncryption
        rw [hac]
        have : e.keyhandle = [] := h7
        simp [this]
      refine ⟨?_, Or.inr hee⟩
      rintro (hd | hd)
      · have : Peer.entryForEncryption es = (Peer.latestGossip es).map Sum.inr := by
          unfold Peer.entryForEncryption
          unfold Peer.hasDirectKey at hd
          cases hm : Peer.latestAc es with
          | none => rfl
          | some x => rw [hm] at hd; dsimp only at hd ⊢; rw [if_neg (by simpa using hd)]
        simp only [Peer.shown, Peer.publicKeyhandle, Peer.publicKeydata, Peer.preferEncrypt, hee, this]
      · exfalso; dsimp only at h1; omega

open Concrete in
/-- a header with a key that gpg refuses, for a peer without direct key but with gossip -/
example : ∃ w : World Store Unit, ∃ r w1, parseOneAcHeaderFromMsg env (mail bob (str!"2") (str!"200") [0, 1]) [bob] = .ok r ∧
    r.error = none ∧ exec oracle (Account.importKey env (str!"a") (r.keydata.getD [])) w = (.ok none, w1) ∧
    Peer.hasDirectKey (w.log (peerHead (str!"a") bob)) = false ∧ Peer.publicKeyhandle (w.log (peerHead (str!"a") bob)) ≠ [] := by
  refine ⟨after [addA, .peerGossip (str!"a") bob ⟨str!"1", sec 100, some [5], some (str!"K")⟩],
    { keydata := some [0, 1], addr := some bob, pe := some (str!"nopreference"), extra := some [], error := none }, _,
    Except.eq_ok_of_toOption (by decide +kernel), rfl,
    Prod.ext (Except.eq_ok_of_toOption (by decide +kernel)) rfl, ?_, ?_⟩ <;> decide +kernel

/-! ## C20 – C23: what processing a message can change -/

namespace Account

/-- the possible courses of `process_incoming` -/
theorem incomingRest_cases (O : Oracle K) (env : Env) (n : Str) (m : Msg) (i nd : Bool) (date : Time)
    (w : World Store K) :
    (exec O (incomingRest env n m i nd date) w = (.ok none, w)) ∨
    ∃ rh w1, exec O (processAutocryptHeader env n m (parseEmailAddr env (m.get (str!"From")))
        (peerHeadOf env n (parseEmailAddr env (m.get (str!"From")))) date (messageId m)) w = (rh, w1) ∧
      ((∃ r w', exec O (incomingRest env n m i nd date) w = (r, w') ∧ w'.store = w1.store ∧ w1.trace <:+ w'.trace ∧
          r ≠ .ok none ∧ ∀ res, r = .ok (some res) → rh = .ok res.pah ∧ res.gossip = [] ∧ (nd = true ∨ isEncrypted m = .ok false)) ∨
       ∃ r w' dr w2 rg w3 pah, exec O (incomingRest env n m i nd date) w = (r, w') ∧ rh = .ok pah ∧
         nd = false ∧ isEncrypted m = .ok true ∧
         exec O (decryptMime env n m) w1 = (.ok dr, w2) ∧
         exec O (processGossipHeaders env n dr.decMsg date (messageId m)) w2 = (rg, w3) ∧
         w'.store = w3.store ∧ w3.trace <:+ w'.trace ∧
         r ≠ .ok none ∧ ∀ res, r = .ok (some res) → rh = .ok res.pah ∧ rg = .ok res.gossip) := by
  unfold incomingRest
  simp only [bind_eq, pure_eq, exec]
  generalize hf : parseEmailAddr env (m.get (str!"From")) = f
  have hknown : ∃ b, run Store.impl O (if i = true then (Prog.chain (peerHeadOf env n f)).bind fun es =>
      Prog.pure (Peer.hasMessage es (messageId m)) else Prog.pure false) w = (.ok b, w) := by
    cases i
    · exact ⟨_, rfl⟩
    · exact ⟨_, rfl⟩
  obtain ⟨b, hb⟩ := hknown
  rw [run_bind, hb]
  dsimp only
  cases b
  · right
    rw [if_neg (by simp), run_bind]
    rcases hrun : run Store.impl O (processAutocryptHeader env n m f (peerHeadOf env n f) date (messageId m)) w with ⟨e | pah, w1⟩
    · exact ⟨_, _, rfl, Or.inl ⟨_, _, rfl, rfl, List.suffix_rfl, by simp, by rintro res h; cases h⟩⟩
    refine ⟨_, _, rfl, ?_⟩
    dsimp only
    have hplain : ∀ p : Prog Bool, run Store.impl O p w1 = (.ok false, w1) → (nd = true ∨ isEncrypted m = .ok false) →
        ∃ r w', run Store.impl O (p.bind fun enc => ((if enc = true then (decryptMime env n m).bind fun r =>
          (processGossipHeaders env n r.decMsg date (messageId m)).bind fun gossip =>
            (ownKeyhandle n).bind fun key => (Prog.hookIncomingGossip (gossip.map (·.1)) key r.decMsg).bind fun _ =>
              Prog.pure gossip
          else Prog.pure []) : Prog (List (Str × ACResult))).bind fun gossip => Prog.pure (some (⟨messageId m, date, peerHeadOf env n f, n, pah, gossip⟩ : IncomingResult))) w1 = (r, w') ∧
        w'.store = w1.store ∧ w1.trace <:+ w'.trace ∧ r ≠ .ok none ∧ ∀ res, r = .ok (some res) → (Except.ok pah : Except Exc ACResult) = .ok res.pah ∧ res.gossip = [] ∧
          (nd = true ∨ isEncrypted m = .ok false) := by
      intro p hp hwhy
      rw [run_bind, hp]
      exact ⟨_, _, rfl, rfl, List.suffix_rfl, by simp, by rintro res h; cases h; exact ⟨rfl, rfl, hwhy⟩⟩
    cases nd
    · rw [if_neg (by simp)]
      cases he : isEncrypted m with
      | error e => exact Or.inl ⟨_, _, rfl, rfl, List.suffix_rfl, by simp, by rintro res h; cases h⟩
      | ok enc =>
        cases enc
        · rw [he] at hplain; exact Or.inl (hplain _ rfl (Or.inr rfl))
        · rw [run_bind, run_ofExcept]
          dsimp only
          rw [if_pos rfl, run_bind, run_bind]
          have hd := run_ro (O := O) (decryptMime_ops permissive_readOnly env n m) w1
          have hdt := run_trace (S := Store.impl) (O := O) (decryptMime env n m) w1
          rcases hrun2 : run Store.impl O (decryptMime env n m) w1 with ⟨e | dr, w2⟩
          · simp only [exec, hrun2] at hd hdt
            exact Or.inl ⟨_, _, rfl, hd.1, hdt, by simp, by rintro res h; cases h⟩
          right
          dsimp only
          rw [run_bind]
          rcases hrun3 : run Store.impl O (processGossipHeaders env n dr.decMsg date (messageId m)) w2 with ⟨e | g, w3⟩
          · exact ⟨_, _, dr, w2, _, w3, pah, rfl, rfl, rfl, rfl, rfl, hrun3, rfl, List.suffix_rfl, by simp, by rintro res h; cases h⟩
          dsimp only
          rw [run_bind]
          have ho := run_ro (O := O) (ownKeyhandle_ops permissive_readOnly n) w3
          have hot := run_trace (S := Store.impl) (O := O) (ownKeyhandle n) w3
          rcases hrun4 : run Store.impl O (ownKeyhandle n) w3 with ⟨e | kh, w4⟩ <;> simp only [exec, hrun4] at ho hot
          · exact ⟨_, _, dr, w2, _, w3, pah, rfl, rfl, rfl, rfl, rfl, hrun3, ho.1, hot, by simp, by rintro res h; cases h⟩
          dsimp only
          rw [run_bind]
          have hh : (Prog.hookIncomingGossip (g.map (·.1)) kh dr.decMsg).AllOps Op.readOnly := by
            refine ⟨trivial, fun r => ?_⟩
            exact .ofExcept _
          have hh' := run_ro (O := O) hh w4
          have hht := run_trace (S := Store.impl) (O := O) (Prog.hookIncomingGossip (g.map (·.1)) kh dr.decMsg) w4
          rcases hrun5 : run Store.impl O (Prog.hookIncomingGossip (g.map (·.1)) kh dr.decMsg) w4 with ⟨e | u, w5⟩ <;>
            simp only [exec, hrun5] at hh' hht <;> rw [hrun5]
          · exact ⟨_, _, dr, w2, _, w3, pah, rfl, rfl, rfl, rfl, rfl, hrun3, hh'.1.trans ho.1, hot.trans hht,
              by simp, by rintro res h; cases h⟩
          · exact ⟨_, _, dr, w2, _, w3, pah, rfl, rfl, rfl, rfl, rfl, hrun3, hh'.1.trans ho.1, hot.trans hht,
              by simp, by rintro res h; cases h; exact ⟨rfl, rfl⟩⟩
    · exact Or.inl (hplain _ rfl (Or.inl rfl))
  · left; rfl

end Account
end Verif
