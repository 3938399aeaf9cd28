import Verif.Props.Header
import Verif.Props.Import
/-!
# Peer states and whole messages: C08 – C10, C77

The properties of single updates of a peer state, lifted to `process_incoming`.
-/
namespace Verif
open Mime

variable {K : Type}

/-- the message is from `a` and has exactly one valid Autocrypt header for `a`, with key `k` and preference `pe`; it is no report and
has at most one From address -/
def CarriesKey (env : Env) (m : Msg) (a : Str) (k : Bytes) (pe : PE) : Prop :=
  senderAddr env m = a ∧ k ≠ [] ∧ m.contentType ≠ str!"multipart/report" ∧ (env.getaddresses (m.getAll (str!"From"))).length ≤ 1 ∧
  ∃ v r, OnlyOne (fun v => ∃ r, ValidFor env a v r) (m.getAll (str!"Autocrypt")) v ∧ ValidFor env a v r ∧
    r.keydata = some k ∧ r.pe = some pe.toStr

/-- the time recorded for a message which is processed in `w`: its date, but not later than the clock -/
def EffectiveDate (env : Env) (w : World Store K) (m : Msg) (t : Time) : Prop :=
  ∃ d, DateOf env m d ∧ t = min d (w.clock w.tick)

/-- gpg imported the key data `k` successfully between `w` and `w'`, and `kh` is the first key named in its messages, or the id of a
key which gpg lists for that if it is a short one -/
def ImportedKey (env : Env) (w w' : World Store K) (k : Bytes) (kh : Str) : Prop :=
  ∃ new argv out text x, w'.trace = new ++ w.trace ∧ Event.gpg argv (some k) (.ok out) ∈ new ∧ str!"--import" ∈ argv ∧ out.ret = 0 ∧
    env.utf8Decode out.err = .ok text ∧ FirstKey text x ∧
    (8 < x.length ∧ kh = x ∨ x.length ≤ 8 ∧ (EndsWith kh x ∨ EndsWith x kh) ∧ kh ≠ [])

theorem ImportedKey.ne_nil {env : Env} {w w' : World Store K} {k : Bytes} {kh : Str} (h : ImportedKey env w w' k kh) : kh ≠ [] := by
  obtain ⟨_, _, _, _, x, _, _, _, _, _, _, h | h⟩ := h
  · rintro rfl; rw [← h.2] at h; simp at h
  · exact h.2.2

theorem ImportedKey.extend {env : Env} {w w1 w2 w3 : World Store K} {k : Bytes} {kh : Str} (h : ImportedKey env w1 w2 k kh)
    (h1 : w.trace <:+ w1.trace) (h2 : w2.trace <:+ w3.trace) : ImportedKey env w w3 k kh := by
  obtain ⟨new, argv, out, text, x, ht, hm, h⟩ := h
  obtain ⟨a, ha⟩ := h1
  obtain ⟨b, hb⟩ := h2
  exact ⟨b ++ (new ++ a), argv, out, text, x, by rw [← hb, ht, ← ha]; simp, by simp [hm], h⟩

theorem importKeydata_ran {O : Oracle K} {env : Env} {g : BinGPG} {d : Bytes} {k : Str} {w w' : World Store K}
    (h : run Store.impl O (BinGPG.importKeydata env g d) w = (.ok k, w')) : ImportedKey env w w' d k := by
  unfold BinGPG.importKeydata at h
  simp only [bind_eq, pure_eq] at h
  obtain ⟨r, w1, h1, h⟩ := run_bind_ok.mp h
  obtain ⟨k1, w2, h2, h⟩ := run_bind_ok.mp h
  rw [if_neg (by simp)] at h
  cases h
  obtain ⟨x, hx, hk⟩ := C60_handle_partial h2
  obtain ⟨ret, w1', e1, htr, -⟩ := run_gpgOuterr Store.impl O env g [str!"--skip-verify", str!"--import"] (some d) false true w
  rw [h1] at e1
  cases ret with
  | error e => cases e1
  | ok out =>
    have hc : BinGPG.checkResult env false true out = .ok r := (congrArg Prod.fst e1).symm
    have hw : w1 = w1' := congrArg Prod.snd e1
    obtain ⟨h0, ho, he, -⟩ := checkResult_returns hc
    obtain ⟨y, hy⟩ := trace_le h2
    refine ⟨y ++ [Event.gpg (g.argv [str!"--skip-verify", str!"--import"]) (some d) (.ok out)], _, out, r.2, x, ?_, ?_,
      mem_argv (g := g) (args := [str!"--skip-verify", str!"--import"]) (by simp), h0, he, hx, ?_⟩
    · rw [← hy, hw, htr]; simp [Event.gpg]
    · exact List.mem_append_right _ (List.mem_singleton.mpr rfl)
    · exact hk.imp (fun h => ⟨h.1, h.2.1⟩) fun h => ⟨h.1, h.2.1, h.2.2.1⟩

/-- a successful import of a key from a message -/
theorem importKey_ran {O : Oracle K} {env : Env} {n : Str} {d : Bytes} {k : Str} {w w' : World Store K}
    (h : run Store.impl O (Account.importKey env n d) w = (.ok (some k), w')) : ImportedKey env w w' d k := by
  unfold Account.importKey at h
  simp only [bind_eq, pure_eq] at h
  obtain ⟨x, w1, h1, h⟩ := run_bind_ok.mp h
  cases x with
  | error e =>
    obtain ⟨_, w2, _, h⟩ := run_bind_ok.mp h
    split at h <;> cases h
  | ok g =>
    obtain ⟨y, w2, h2, h⟩ := run_bind_ok.mp h
    cases y with
    | error e => dsimp only at h; split at h <;> cases h
    | ok kh =>
      cases h
      have h3 : run Store.impl O (BinGPG.importKeydata env g d) w1 = (.ok k, w') := by
        rw [run_attempt] at h2
        rcases hx : run Store.impl O (BinGPG.importKeydata env g d) w1 with ⟨e | a, w3⟩ <;> rw [hx] at h2 <;> cases h2
        rfl
      exact (importKeydata_ran h3).extend (trace_le h1) List.suffix_rfl

/-- if the headers can be parsed, the only valid one is the result -/
theorem parseOne_only {env : Env} {m : Msg} {x a v : Str} {pr r : ACResult} (h : parseOneAcHeaderFromMsg env m [x] = .ok pr)
    (hrep : m.contentType ≠ str!"multipart/report") (hfrom : (env.getaddresses (m.getAll (str!"From"))).length ≤ 1)
    (ha : a = parseEmailAddr env (some x)) (hone : OnlyOne (fun v => ∃ r, ValidFor env a v r) (m.getAll (str!"Autocrypt")) v)
    (hv : ValidFor env a v r) : pr = r := by
  unfold parseOneAcHeaderFromMsg at h
  rw [if_neg hrep, if_neg (by omega), List.map_singleton, ← ha] at h
  generalize m.getAll (str!"Autocrypt") = vs at h hone
  cases hc : collectAc env [a] vs with
  | error e => rw [hc] at h; cases h
  | ok q =>
    obtain ⟨rs, es⟩ := q
    obtain ⟨h1, h2⟩ := collectAc_valid hc
    obtain ⟨pre, post, rfl, _, hno⟩ := hone
    have hnone : ∀ l : List Str, (∀ y ∈ l, ¬ ∃ r, ValidFor env a y r) → l.filterMap (validOf env a) = [] := by
      intro l hl
      rw [List.filterMap_eq_nil_iff]
      intro y hy
      cases hvo : validOf env a y with
      | none => rfl
      | some r' => exact absurd ⟨r', validOf_iff.mp hvo⟩ (hl y hy)
    rw [List.filterMap_append, List.filterMap_cons, validOf_iff.mpr hv,
      hnone pre (fun y hy => hno y (List.mem_append_left _ hy)),
      hnone post (fun y hy => hno y (List.mem_append_right _ hy))] at h1
    subst h1
    rw [hc] at h
    cases h
    rfl

/-- what an update reported for a message can be -/
def UpdateFor (env : Env) (m : Msg) (a : Str) (t : Time) (u : Peer.MsgUpdate) : Prop :=
  senderAddr env m = a ∧ u.msgId = mailId m ∧ u.date = t ∧
    ∃ r, parseOneAcHeaderFromMsg env m [fromAddr env m] = .ok r ∧ u.keydata = r.keydata ∧ u.pe = r.pe

theorem UpdateFor.carries {env : Env} {m : Msg} {a : Str} {t : Time} {u : Peer.MsgUpdate} (h : UpdateFor env m a t u) {k : Bytes}
    (hk : u.keydata = some k) (hne : k ≠ []) {pe : PE} (hpe : u.pe = some pe.toStr) : CarriesKey env m a k pe := by
  obtain ⟨rfl, _, _, r, h1, h2, h3⟩ := h
  obtain ⟨h4, h5, v, h6, h7⟩ := parseOne_key h1 (by rw [← h2, hk])
  exact ⟨rfl, hne, h4, h5, v, r, h6, h7, by rw [← h2, hk], by rw [← h3, hpe]⟩

theorem UpdateFor.key {env : Env} {m : Msg} {a : Str} {t : Time} {u : Peer.MsgUpdate} (h : UpdateFor env m a t u) {k : Bytes} {pe : PE}
    (hc : CarriesKey env m a k pe) : u.keydata = some k ∧ u.pe = some pe.toStr := by
  obtain ⟨rfl, _, _, r, h1, h2, h3⟩ := h
  obtain ⟨_, _, h4, h5, v, r', h6, h7, h8, h9⟩ := hc
  have := parseOne_only h1 h4 h5 rfl h6 h7
  subst this
  exact ⟨h2.trans h8, h3.trans h9⟩

/-- the log of a peer after a run whose updates are known -/
theorem Safe.log_fold {O : Oracle K} {A : Act → Prop} {α : Type} {p : Prog α} (hp : Safe A p) (n a : Str) {E : PeerEvent → Prop}
    (hA : ∀ x, A x → (∃ n' a' u, x = .msg n' a' u ∧ (n' = n → a' = a → E (.msg u))) ∨
      ∃ n' a' u, x = .gossip n' a' u ∧ (n' = n → a' = a → E (.gossip u)))
    (hname : ∀ x n' a' u, A x → x = .msg n' a' u → n' = n) (hname' : ∀ x n' a' u, A x → x = .gossip n' a' u → n' = n)
    (w : World Store K) :
    ∃ evs : List PeerEvent, (exec O p w).2.log (peerHead n a) = evs.foldl PeerEvent.apply (w.log (peerHead n a)) ∧ ∀ e ∈ evs, E e := by
  refine Safe.respects (O := O) (A := A)
    (R := fun w w' => ∃ evs : List PeerEvent, w'.log (peerHead n a) = evs.foldl PeerEvent.apply (w.log (peerHead n a)) ∧ ∀ e ∈ evs, E e)
    ?_ ?_ ?_ hp w
  · rintro w1 w2 w3 ⟨e1, h1, h1'⟩ ⟨e2, h2, h2'⟩
    refine ⟨e1 ++ e2, by rw [h2, h1, List.foldl_append], fun e he => ?_⟩
    rcases List.mem_append.mp he with he | he
    · exact h1' e he
    · exact h2' e he
  · intro w1 w2 hs _ _ _
    exact ⟨[], by unfold World.log; rw [hs]; rfl, by simp⟩
  · intro x hx w1
    rcases hA x hx with ⟨n', a', u, rfl, hE⟩ | ⟨n', a', u, rfl, hE⟩
    · have hn := hname _ _ _ _ hx rfl
      subst hn
      simp only [World.log, get_act]
      by_cases ha : a' = a
      · subst ha
        exact ⟨[.msg u], by rw [if_pos rfl]; rfl, by simpa using hE rfl rfl⟩
      · exact ⟨[], by rw [if_neg fun h => ha (peerHead_inj_addr.mp h).symm]; rfl, by simp⟩
    · have hn := hname' _ _ _ _ hx rfl
      subst hn
      simp only [World.log, get_act]
      by_cases ha : a' = a
      · subst ha
        exact ⟨[.gossip u], by rw [if_pos rfl]; rfl, by simpa using hE rfl rfl⟩
      · exact ⟨[], by rw [if_neg fun h => ha (peerHead_inj_addr.mp h).symm]; rfl, by simp⟩

/-- the handle reported with an update: that of the imported key if the result has no error, and none otherwise -/
def HandleFor (env : Env) (w w' : World Store K) (u : Peer.MsgUpdate) (pah : ACResult) : Prop :=
  (pah.error = none → ∃ kh, u.keyhandle = some kh ∧ ImportedKey env w w' (u.keydata.getD []) kh) ∧
  (pah.error ≠ none → u.keyhandle = none)

/-- the header step: an update of the sender's peer, or an exception without any -/
theorem headerStep {O : Oracle K} {env : Env} {n : Str} {m : Msg} {t : Time} {w w1 : World Store K} {rh : Except Exc ACResult}
    (h : exec O (Account.processAutocryptHeader env n m (fromAddr env m) (Account.peerHeadOf env n (fromAddr env m)) t (messageId m)) w =
      (rh, w1)) :
    w1.store = w.store ∧ (∃ e, rh = .error e) ∨
    ∃ u, UpdateFor env m (senderAddr env m) t u ∧
      (∀ x, w1.store.get x = if x = peerHead n (senderAddr env m) then Peer.applyMsg (w.store.get x) u else w.store.get x) ∧
      ∀ pah, rh = .ok pah → HandleFor env w w1 u pah := by
  unfold Account.processAutocryptHeader at h
  simp only [bind_eq, pure_eq, exec] at h
  rw [run_bind, run_ofExcept] at h
  cases hp : parseOneAcHeaderFromMsg env m [fromAddr env m] with
  | error e => rw [hp] at h; cases h; exact .inl ⟨rfl, e, rfl⟩
  | ok pah =>
    rw [hp] at h
    dsimp only at h
    rw [run_bind] at h
    have hhand : ∀ kh pah' w2, run Store.impl O (if pah.error.isSome = true then Prog.pure (none, pah) else Account.importPah env n pah) w =
        (.ok (kh, pah'), w2) → (pah'.error = none → ∃ k, kh = some k ∧ ImportedKey env w w2 (pah.keydata.getD []) k) ∧
          (pah'.error ≠ none → kh = none) := by
      intro kh pah' w2 hx
      split at hx
      · cases hx
        rename_i hsome
        exact ⟨(fun h => by rw [h] at hsome; cases hsome), fun _ => rfl⟩
      · rename_i hnone
        unfold Account.importPah at hx
        simp only [bind_eq, pure_eq] at hx
        obtain ⟨y, w3, h3, hx⟩ := run_bind_ok.mp hx
        cases y with
        | none => cases hx; exact ⟨(fun h => by cases h), fun _ => rfl⟩
        | some k =>
          cases hx
          refine ⟨fun _ => ⟨k, rfl, importKey_ran h3⟩, fun h => absurd ?_ h⟩
          simpa using hnone
    have hret : ((if pah.error.isSome = true then Prog.pure (none, pah) else Account.importPah env n pah) :
        Prog (Option Str × ACResult)).Returns fun r => r.2.keydata = pah.keydata ∧ r.2.pe = pah.pe := by
      split
      · exact ⟨rfl, rfl⟩
      · exact Account.importPah_returns env n pah
    have hro : ((if pah.error.isSome = true then Prog.pure (none, pah) else Account.importPah env n pah) :
        Prog (Option Str × ACResult)).AllOps Op.readOnly := by
      split
      · trivial
      · exact Account.importPah_ops permissive_readOnly env n _
    have hs := (run_ro (O := O) hro w).1
    simp only [exec] at hs
    rcases hx : run Store.impl O (if pah.error.isSome = true then Prog.pure (none, pah) else Account.importPah env n pah) w with ⟨e | ⟨kh, pah'⟩, w2⟩
    · rw [hx] at h hs; cases h; exact .inl ⟨hs, e, rfl⟩
    · rw [hx] at h hs
      dsimp only at h hs
      obtain ⟨hr1, hr2⟩ := hret.of_run hx
      obtain ⟨hk1, hk2⟩ := hhand _ _ _ hx
      right
      have hg := Peer.get_updateFromMsg O (peerHead n (senderAddr env m)) (u := ⟨messageId m, t, pah'.pe, pah'.keydata, kh⟩) (w := w2)
      rw [run_bind] at h
      rw [show Account.peerHeadOf env n (fromAddr env m) = peerHead n (senderAddr env m) from rfl] at h
      simp only [exec] at hg
      rw [hs] at hg
      rcases hy : run Store.impl O (Peer.updateFromMsg (peerHead n (senderAddr env m)) ⟨messageId m, t, pah'.pe, pah'.keydata, kh⟩) w2 with ⟨e | _, w3⟩
      all_goals
        rw [hy] at h hg
        cases h
        refine ⟨⟨messageId m, t, pah'.pe, pah'.keydata, kh⟩, ⟨rfl, (congrFun mailId_eq m).symm, rfl, pah, hp, hr1, hr2⟩, fun x => ?_, ?_⟩
        · rw [hg]
          split
          · rename_i hxx; rw [hxx]
          · rfl
      · intro _ h; cases h
      · rintro _ ⟨⟩
        refine ⟨fun h => ?_, hk2⟩
        obtain ⟨k, hk, hi⟩ := hk1 h
        exact ⟨k, hk, hr1 ▸ hi.extend List.suffix_rfl (trace_le hy)⟩

/-- the log of any peer after processing a message: the updates made have the effective date and are for the message; if the call
returns a result then an update was reported for the sender; gossip is only reported for encrypted messages which are decrypted -/
theorem incoming_fold {O : Oracle K} {env : Env} {n : Str} {m : Msg} {i nd : Bool} {w w' : World Store K}
    {r : Except Exc (Option Account.IncomingResult)} (h : exec O (Account.processIncoming env n m i nd) w = (r, w')) (a : Str) :
    ∃ evs : List PeerEvent, w'.log (peerHead n a) = evs.foldl PeerEvent.apply (w.log (peerHead n a)) ∧
      (∀ u, .msg u ∈ evs → ∃ t, EffectiveDate env w m t ∧ UpdateFor env m a t u) ∧
      (∀ u, .gossip u ∈ evs → nd = false ∧ isEncrypted m = .ok true ∧ ∃ t, EffectiveDate env w m t ∧ u.date = t) ∧
      (∀ res, r = .ok (some res) → senderAddr env m = a → ∃ u gs, evs = .msg u :: gs ∧ (∀ e ∈ gs, ∃ g, e = .gossip g) ∧
        HandleFor env w w' u res.pah) := by
  simp only [exec, Account.run_processIncoming] at h
  cases hd : parseDateToFloat env (m.get (str!"Date")) with
  | error e =>
    rw [hd] at h; cases h
    exact ⟨[], rfl, by simp, by simp, by simp⟩
  | ok d =>
  rw [hd] at h
  dsimp only at h
  have hdate : EffectiveDate env w m (min d (w.clock w.tick)) := ⟨d, parseDateToFloat_ok.mp hd, rfl⟩
  generalize hdef : min d (w.clock w.tick) = t at h hdate
  rcases Account.incomingRest_cases O env n m i nd t { w with tick := w.tick + 1 } with hn | ⟨rh, w1, hh, hrest⟩
  · simp only [exec] at hn; rw [hn] at h; cases h
    exact ⟨[], rfl, by simp, by simp, by simp⟩
  -- the header step as a list of at most one event
  have hstep : ∃ evs : List PeerEvent, w1.log (peerHead n a) = evs.foldl PeerEvent.apply (w.log (peerHead n a)) ∧
      (∀ e ∈ evs, ∃ u, e = .msg u ∧ UpdateFor env m a t u) ∧ (∀ x, rh = .ok x → senderAddr env m = a →
        ∃ u, evs = [.msg u] ∧ HandleFor env w w1 u x) := by
    rcases headerStep hh with ⟨hs, e, rfl⟩ | ⟨u, hu, hg, hk⟩
    · exact ⟨[], by unfold World.log; rw [hs]; rfl, by simp, by rintro x hx; cases hx⟩
    · by_cases ha : senderAddr env m = a
      · subst ha
        refine ⟨[.msg u], ?_, by simpa using hu, fun x hx _ => ⟨u, rfl, hk x hx⟩⟩
        unfold World.log; rw [hg, if_pos rfl]; rfl
      · refine ⟨[], ?_, by simp, fun _ _ h => absurd h ha⟩
        unfold World.log; rw [hg, if_neg fun h => ha (peerHead_inj_addr.mp h).symm]; rfl
  obtain ⟨evs, h1, h2, h3⟩ := hstep
  rcases hrest with ⟨r', w'', hr, hs, htr, hne, hres⟩ | ⟨r', w'', dr, w2, rg, w3, pah, hr, hrh, hnd, hie, hdec, hgo, hs, hst, hne, hres⟩
  · simp only [exec] at hr; rw [hr] at h; cases h
    refine ⟨evs, by unfold World.log at h1 ⊢; rw [hs]; exact h1, ?_, ?_, ?_⟩
    · intro u hu
      obtain ⟨u', he, hu'⟩ := h2 _ hu
      cases he; exact ⟨t, hdate, hu'⟩
    · intro u hu
      obtain ⟨u', he, _⟩ := h2 _ hu
      cases he
    · intro res hr' ha
      obtain ⟨u, hu, hh1, hh2⟩ := h3 _ (hres res hr').1 ha
      refine ⟨u, [], hu, by simp, fun hx => ?_, hh2⟩
      obtain ⟨k, hk, hi⟩ := hh1 hx
      exact ⟨k, hk, hi.extend List.suffix_rfl htr⟩
  · simp only [exec] at hr; rw [hr] at h; cases h
    have hs2 : w2.store = w1.store := by
      have := (run_ro (O := O) (Account.decryptMime_ops permissive_readOnly env n m) w1).1
      rw [hdec] at this; exact this
    have hsafe := Account.safe_processGossipHeaders env n (A := Account.GossipAct env n dr.decMsg (messageId m) t) dr.decMsg t (messageId m)
      fun _ ha => ha
    obtain ⟨gevs, hg1, hg2⟩ := hsafe.log_fold (O := O) n a (E := fun e => ∃ u, e = .gossip u ∧ u.date = t) (by
        intro x hx
        cases x <;> simp only [Account.GossipAct] at hx
        rename_i n' a' u
        exact .inr ⟨n', a', u, rfl, fun _ _ => ⟨u, rfl, hx.2.2.1⟩⟩)
      (by rintro x n' a' u hx rfl; exact hx.elim) (by rintro x n' a' u hx rfl; exact hx.1) w2
    rw [hgo] at hg1
    refine ⟨evs ++ gevs, ?_, ?_, ?_, ?_⟩
    · rw [List.foldl_append, ← h1]
      unfold World.log at hg1 ⊢; rw [hs, hg1, hs2]
    · intro u hu
      rcases List.mem_append.mp hu with hu | hu
      · obtain ⟨u', he, hu'⟩ := h2 _ hu
        cases he; exact ⟨t, hdate, hu'⟩
      · obtain ⟨u', he, _⟩ := hg2 _ hu
        cases he
    · intro u hu
      rcases List.mem_append.mp hu with hu | hu
      · obtain ⟨u', he, _⟩ := h2 _ hu
        cases he
      · obtain ⟨u', he, hu'⟩ := hg2 _ hu
        cases he; exact ⟨hnd, hie, t, hdate, hu'⟩
    · intro res hr' ha
      obtain ⟨u, hu, hh1, hh2⟩ := h3 _ (hres res hr').1 ha
      refine ⟨u, gevs, by rw [hu]; rfl, fun e he => (hg2 e he).imp fun _ h => h.1, fun hx => ?_, hh2⟩
      obtain ⟨k, hk, hi⟩ := hh1 hx
      exact ⟨k, hk, hi.extend List.suffix_rfl ((trace_le hdec).trans ((trace_le hgo).trans hst))⟩

theorem DateOf.unique {env : Env} {m : Msg} {d d' : Time} (h : DateOf env m d) (h' : DateOf env m d') : d = d' := by
  rw [← parseDateToFloat_ok] at h h'
  rw [h] at h'; cases h'; rfl

theorem EffectiveDate.unique {env : Env} {w : World Store K} {m : Msg} {t t' : Time} (h : EffectiveDate env w m t)
    (h' : EffectiveDate env w m t') : t = t' := by
  obtain ⟨d, hd, rfl⟩ := h
  obtain ⟨d', hd', rfl⟩ := h'
  rw [hd.unique hd']

/-! ## C09 and C10 for messages -/

/-- the date of an event -/
def PeerEvent.date : PeerEvent → Time
  | .msg u => u.date
  | .gossip u => u.date

theorem fold_old {evs : List PeerEvent} {es : List Entry} (h : ∀ e ∈ evs, e.date < Peer.acTimestamp es) :
    evs.foldl PeerEvent.apply es = es := by
  induction evs with
  | nil => rfl
  | cons e evs ih =>
    have he : e.apply es = es := by
      have := h e (List.mem_cons_self ..)
      cases e with
      | msg u => simp only [PeerEvent.apply, PeerEvent.date] at this ⊢; unfold Peer.applyMsg Peer.updateEntry; simp [this]
      | gossip u => simp only [PeerEvent.apply, PeerEvent.date] at this ⊢; unfold Peer.applyGossip Peer.gossipEntry; simp [this]
    rw [List.foldl_cons, he]
    exact ih fun x hx => h x (List.mem_cons_of_mem _ hx)

/-- C09 for a whole message: if its effective date is before the `autocrypt_timestamp` of a peer, whether the sender or one the message
has gossip about, then nothing is recorded for that peer, also if the call fails. -/
theorem C09_message {O : Oracle K} {env : Env} {n : Str} {m : Msg} {i nd : Bool} {w w' : World Store K}
    {r : Except Exc (Option Account.IncomingResult)} (h : exec O (Account.processIncoming env n m i nd) w = (r, w')) (a : Str) {t : Time}
    (ht : EffectiveDate env w m t) (hold : t < Peer.acTimestamp (w.log (peerHead n a))) :
    w'.log (peerHead n a) = w.log (peerHead n a) := by
  obtain ⟨evs, h1, h2, h3, _⟩ := incoming_fold h a
  rw [h1]
  refine fold_old fun e he => ?_
  cases e with
  | msg u =>
    obtain ⟨t', ht', hu⟩ := h2 u he
    rw [ht'.unique ht] at hu
    show u.date < _
    rw [hu.2.2.1]; exact hold
  | gossip u =>
    obtain ⟨_, _, t', ht', hu⟩ := h3 u he
    rw [ht'.unique ht] at hu
    show u.date < _
    rw [hu]; exact hold

/-- one update without key -/
theorem applyMsg_nokey {es : List Entry} {u : Peer.MsgUpdate} (h : ∀ k pe, u.keydata = some k → k ≠ [] → u.pe ≠ some (PE.toStr pe)) :
    Peer.latestAc (Peer.applyMsg es u) = Peer.latestAc es ∧ Peer.latestGossip (Peer.applyMsg es u) = Peer.latestGossip es ∧
    (Peer.lastSeen (Peer.applyMsg es u) = Peer.lastSeen es ∨
      Peer.lastSeen es < u.date ∧ Peer.lastSeen (Peer.applyMsg es u) = u.date) := by
  rcases Peer.applyMsg_cases es u with h' | ⟨e, he, h'⟩ <;> rw [h']
  · exact ⟨rfl, rfl, .inl rfl⟩
  · obtain ⟨_, _, h3, h4⟩ := Peer.updateEntry_some he
    rcases h4 with ⟨_, h5, h6, _⟩ | ⟨h5, h6, _, h7⟩
    · exact ⟨Peer.latestAc_nokey _ (by rw [h6]; rfl), Peer.latestGossip_msg _ _, .inr ⟨h5, h3⟩⟩
    · exfalso
      refine h e.keydata e.pe h6 ?_ (peArg_ok.mp h7)
      rintro hk; rw [h6, hk] at h5; cases h5

/-- C10 for a whole message: a message which carries no key changes no peer's direct key, timestamp or direct-key flag. It moves
`last_seen` of the sender forward to its effective date, or leaves it; that of other peers stays. If the message is not encrypted, or
not decrypted, then for all peers also the key in use and the gossip stay as they are. -/
theorem C10_message {O : Oracle K} {env : Env} {n : Str} {m : Msg} {i nd : Bool} {w w' : World Store K}
    {r : Except Exc (Option Account.IncomingResult)} (h : exec O (Account.processIncoming env n m i nd) w = (r, w')) (a : Str)
    (hno : ∀ k pe, ¬ CarriesKey env m (senderAddr env m) k pe) :
    Peer.latestAc (w'.log (peerHead n a)) = Peer.latestAc (w.log (peerHead n a)) ∧
    Peer.acTimestamp (w'.log (peerHead n a)) = Peer.acTimestamp (w.log (peerHead n a)) ∧
    Peer.hasDirectKey (w'.log (peerHead n a)) = Peer.hasDirectKey (w.log (peerHead n a)) ∧
    (Peer.lastSeen (w'.log (peerHead n a)) = Peer.lastSeen (w.log (peerHead n a)) ∨
      senderAddr env m = a ∧ Peer.lastSeen (w.log (peerHead n a)) < Peer.lastSeen (w'.log (peerHead n a)) ∧
      EffectiveDate env w m (Peer.lastSeen (w'.log (peerHead n a)))) ∧
    (nd = true ∨ ¬ PgpMime m → Peer.keyView (w'.log (peerHead n a)) = Peer.keyView (w.log (peerHead n a))) := by
  spec_mail
  obtain ⟨evs, h1, h2, h3, h4⟩ := incoming_fold h a
  clear h4
  have key : ∀ es, Peer.latestAc (evs.foldl PeerEvent.apply es) = Peer.latestAc es ∧
      (Peer.lastSeen (evs.foldl PeerEvent.apply es) = Peer.lastSeen es ∨
        senderAddr env m = a ∧ Peer.lastSeen es < Peer.lastSeen (evs.foldl PeerEvent.apply es) ∧
        EffectiveDate env w m (Peer.lastSeen (evs.foldl PeerEvent.apply es))) ∧
      (nd = true ∨ isEncrypted m ≠ .ok true → Peer.latestGossip (evs.foldl PeerEvent.apply es) = Peer.latestGossip es) := by
    clear h1
    induction evs with
    | nil => exact fun es => ⟨rfl, .inl rfl, fun _ => rfl⟩
    | cons e evs ih =>
      intro es
      obtain ⟨i1, i2, i3⟩ := ih (fun u hu => h2 u (List.mem_cons_of_mem _ hu)) (fun u hu => h3 u (List.mem_cons_of_mem _ hu)) (e.apply es)
      rw [List.foldl_cons]
      have he : Peer.latestAc (e.apply es) = Peer.latestAc es ∧
          (nd = true ∨ isEncrypted m ≠ .ok true → Peer.latestGossip (e.apply es) = Peer.latestGossip es) ∧
          (Peer.lastSeen (e.apply es) = Peer.lastSeen es ∨
            senderAddr env m = a ∧ Peer.lastSeen es < Peer.lastSeen (e.apply es) ∧ EffectiveDate env w m (Peer.lastSeen (e.apply es))) := by
        cases e with
        | gossip u =>
          obtain ⟨hnd, hie, _⟩ := h3 u (List.mem_cons_self ..)
          refine ⟨?_, fun h => ?_, .inl ?_⟩
          · simp only [PeerEvent.apply]
            rcases Peer.applyGossip_cases es u with h' | ⟨x, _, h'⟩ <;> rw [h'] <;> rfl
          · rcases h with h | h
            · rw [h] at hnd; cases hnd
            · exact absurd hie h
          · simp only [PeerEvent.apply]
            rcases Peer.applyGossip_cases es u with h' | ⟨x, _, h'⟩ <;> rw [h']
            exact Peer.lastSeen_gossip _ _
        | msg u =>
          obtain ⟨t, ht, hu⟩ := h2 u (List.mem_cons_self ..)
          have hsend := hu.1
          obtain ⟨a1, a2, a3⟩ := applyMsg_nokey (es := es) (u := u) fun k pe hk hne hpe => hno k pe (hsend ▸ hu.carries hk hne hpe)
          refine ⟨a1, fun _ => a2, a3.imp_right fun hx => ⟨hsend, ?_, ?_⟩⟩
          · show _ < Peer.lastSeen (Peer.applyMsg es u)
            rw [hx.2]; exact hx.1
          · show EffectiveDate env w m (Peer.lastSeen (Peer.applyMsg es u))
            rw [hx.2, hu.2.2.1]; exact ht
      refine ⟨i1.trans he.1, ?_, fun h => (i3 h).trans (he.2.1 h)⟩
      rcases i2 with i2 | ⟨i2, i4, i5⟩
      · rw [i2]; exact he.2.2
      · rcases he.2.2 with h6 | ⟨_, h6, _⟩
        · exact .inr ⟨i2, by omega, i5⟩
        · exact .inr ⟨i2, by omega, i5⟩
  obtain ⟨k1, k2, k3⟩ := key (w.log (peerHead n a))
  rw [← h1] at k1 k2 k3
  exact ⟨k1, by simp only [Peer.acTimestamp, k1], by simp only [Peer.hasDirectKey, k1], k2, fun h => Peer.keyView_congr k1 (k3 h)⟩

/-! ## C77: a newer key is recorded -/

theorem fold_gossip {evs : List PeerEvent} {es : List Entry} (h : ∀ e ∈ evs, ∃ g, e = .gossip g) :
    Peer.msgs (evs.foldl PeerEvent.apply es) = Peer.msgs es := by
  induction evs generalizing es with
  | nil => rfl
  | cons e evs ih =>
    obtain ⟨u, rfl⟩ := h e (List.mem_cons_self ..)
    rw [List.foldl_cons, ih fun x hx => h x (List.mem_cons_of_mem _ hx)]
    simp only [PeerEvent.apply]
    rcases Peer.applyGossip_cases es u with h' | ⟨x, _, h'⟩ <;> rw [h'] <;> rfl

/-- C13 for a whole message: whoever is not the sender keeps `last_seen`, `autocrypt_timestamp`, direct key and direct-key flag, also if
the call fails; with a usable direct key also the key, its handle and the preference in use stay the same. -/
theorem C13_message {O : Oracle K} {env : Env} {n : Str} {m : Msg} {i nd : Bool} {w w' : World Store K}
    {r : Except Exc (Option Account.IncomingResult)} (h : exec O (Account.processIncoming env n m i nd) w = (r, w')) (a : Str)
    (ha : senderAddr env m ≠ a) {es es' : List Entry} (hes : es = w.log (peerHead n a)) (hes' : es' = w'.log (peerHead n a)) :
    Peer.lastSeen es' = Peer.lastSeen es ∧ Peer.acTimestamp es' = Peer.acTimestamp es ∧
    Peer.hasDirectKey es' = Peer.hasDirectKey es ∧ Peer.latestAc es' = Peer.latestAc es ∧
    (Peer.hasDirectKey es = true → Peer.publicKeyhandle es' = Peer.publicKeyhandle es ∧
      Peer.publicKeydata es' = Peer.publicKeydata es ∧ Peer.preferEncrypt es' = Peer.preferEncrypt es) := by
  obtain ⟨evs, h1, h2, -, -⟩ := incoming_fold h a
  rw [hes', h1, ← hes]
  have hg : ∀ e ∈ evs, ∃ g, e = PeerEvent.gossip g := by
    intro e he
    cases e with
    | msg u => obtain ⟨_, _, hu⟩ := h2 u he; exact absurd hu.1 ha
    | gossip u => exact ⟨u, rfl⟩
  have key : ∀ es : List Entry, Peer.latestAc (evs.foldl PeerEvent.apply es) = Peer.latestAc es ∧
      Peer.lastSeen (evs.foldl PeerEvent.apply es) = Peer.lastSeen es := by
    clear h1 h2
    induction evs with
    | nil => exact fun es => ⟨rfl, rfl⟩
    | cons e evs ih =>
      intro es
      obtain ⟨u, rfl⟩ := hg e (List.mem_cons_self ..)
      obtain ⟨i1, i2⟩ := ih (fun x hx => hg x (List.mem_cons_of_mem _ hx)) (PeerEvent.apply es (.gossip u))
      rw [List.foldl_cons]
      rw [i1, i2]
      simp only [PeerEvent.apply]
      rcases Peer.applyGossip_cases es u with h' | ⟨x, _, h'⟩ <;> rw [h']
      · exact ⟨rfl, rfl⟩
      · exact ⟨rfl, Peer.lastSeen_gossip _ _⟩
  obtain ⟨k1, k2⟩ := key es
  refine ⟨k2, by simp only [Peer.acTimestamp, k1], by simp only [Peer.hasDirectKey, k1], k1, fun hd => ?_⟩
  have : Peer.entryForEncryption (evs.foldl PeerEvent.apply es) = Peer.entryForEncryption es := by
    unfold Peer.hasDirectKey at hd
    unfold Peer.entryForEncryption
    rw [k1]
    cases hm : Peer.latestAc es with
    | none => rw [hm] at hd; cases hd
    | some m => rw [hm] at hd; simp only [hd, if_true]
  simp only [Peer.publicKeyhandle, Peer.publicKeydata, Peer.preferEncrypt, this]
  exact ⟨trivial, trivial, trivial⟩

open Concrete in
/-- Carol has a direct key, and gossip about her is recorded from an encrypted message of Bob -/
example : let w := after [addA, recv carol (str!"0") (str!"50") [7]]
    let m := encMail (str!"1") (str!"100") [] [gossipField carol [8]]
    let w' := (exec oracle (Account.processIncoming env (str!"a") m false false) w).2
    senderAddr env m ≠ carol ∧ Peer.hasDirectKey (carols w) = true ∧ carols w' ≠ carols w := by decide +kernel

/-- the log of a peer comes from updates -/
theorem Reachable.peer_log {O : Oracle K} {env : Env} {w : World Store K} (hw : Reachable O env w) (n a : Str) :
    ∃ evs : List PeerEvent, w.log (peerHead n a) = evs.foldl PeerEvent.apply [] := by
  refine reachable_inv (O := O) (env := env) (I := fun s => ∃ evs : List PeerEvent, s.get (peerHead n a) = evs.foldl PeerEvent.apply [])
    ⟨[], rfl⟩ ?_ hw
  rintro c x - w ⟨evs, he⟩
  rw [get_act]
  cases x with
  | msg n' a' u =>
    dsimp only
    split
    · exact ⟨evs ++ [.msg u], by rw [List.foldl_append, ← he]; rfl⟩
    · exact ⟨evs, he⟩
  | gossip n' a' u =>
    dsimp only
    split
    · exact ⟨evs ++ [.gossip u], by rw [List.foldl_append, ← he]; rfl⟩
    · exact ⟨evs, he⟩
  | cfg n' c => dsimp only; rw [if_neg fun h => ownHead_ne_peerHead _ _ _ h.symm]; exact ⟨evs, he⟩
  | keygen n' c => dsimp only; rw [if_neg fun h => ownHead_ne_peerHead _ _ _ h.symm]; exact ⟨evs, he⟩
  | oob n' c => dsimp only; rw [if_neg fun h => oobHead_ne_peerHead _ _ _ h.symm]; exact ⟨evs, he⟩
  | setVersion => dsimp only; rw [if_neg fun h => managerHead_ne_peerHead _ _ h.1.symm]; exact ⟨evs, he⟩
  | removeAccount n' =>
    dsimp only
    split
    · exact ⟨[], rfl⟩
    · exact ⟨evs, he⟩
  | wipe => exact ⟨[], rfl⟩

/-- C77: a message with a key of its sender, whose effective date is after the sender's `autocrypt_timestamp`, is recorded when
`process_incoming` returns: key data and preference are those of the message, `autocrypt_timestamp` and `last_seen` its effective date.
If the result says so then gpg imported just this key, its handle is recorded, and handle, data and preference to be used for encryption
are those of the message. If the result has an error then there is no direct key. -/
theorem C77_newer_key {O : Oracle K} {env : Env} {n : Str} {m : Msg} {i nd : Bool} {w w' : World Store K} {res : Account.IncomingResult}
    (hw : Reachable O env w) (h : exec O (Account.processIncoming env n m i nd) w = (.ok (some res), w')) {a : Str} {k : Bytes} {pe : PE}
    {t : Time} (hc : CarriesKey env m a k pe) (ht : EffectiveDate env w m t) (hnew : Peer.acTimestamp (w.log (peerHead n a)) < t)
    {es : List Entry} (hes : es = w'.log (peerHead n a)) :
    Peer.acTimestamp es = t ∧ Peer.lastSeen es = t ∧
    (∃ e, Peer.latestAc es = some e ∧ Peer.latestMsg es = some e ∧ e.msgId = mailId m ∧ e.date = t ∧ e.keydata = k ∧ e.pe = pe) ∧
    (res.pah.error = none → Peer.hasDirectKey es = true ∧ Peer.publicKeydata es = k ∧ Peer.preferEncrypt es = pe.toStr ∧
      ImportedKey env w w' k (Peer.publicKeyhandle es)) ∧
    (res.pah.error ≠ none → Peer.hasDirectKey es = false) := by
  spec_mail
  obtain ⟨evs, h1, h2, h3, h4⟩ := incoming_fold h a
  obtain ⟨u, gs, rfl, hgs, hh⟩ := h4 res rfl hc.1
  obtain ⟨t', ht', hu⟩ := h2 u (by simp)
  cases ht'.unique ht
  obtain ⟨hk, hpe⟩ := hu.key hc
  have hku : k ≠ [] := hc.2.1
  rw [List.foldl_cons] at h1
  -- the update is appended
  have hrec : Peer.isRecorded (w.log (peerHead n a)) u = false := by
    obtain ⟨evs0, h0⟩ := hw.peer_log n a
    have hinv : OrderInv ([] ++ evs0) (w.log (peerHead n a)) := by rw [h0]; exact OrderInv.nil.fold evs0
    cases hr : Peer.isRecorded (w.log (peerHead n a)) u with
    | false => rfl
    | true =>
      exfalso
      unfold Peer.isRecorded at hr
      split at hr
      · rename_i e he
        simp only [Peer.sameMsg, Bool.and_eq_true, beq_iff_eq] at hr
        obtain ⟨⟨⟨r1, r2⟩, r3⟩, r4⟩ := hr
        have hek : e.keydata.isEmpty = false := by
          rw [hk] at r2; rw [Option.some.inj r2]; simpa using hku
        obtain ⟨x, hx, hle⟩ := hinv.old_ e (List.mem_of_find?_eq_some he) hek
        rw [Peer.acTimestamp, hx] at hnew
        have := hu.2.2.1
        dsimp only at hnew
        omega
      · cases hr
  have hnk : Peer.noKey u.keydata = false := by rw [hk]; simp [Peer.noKey, hku]
  obtain ⟨e, he⟩ : ∃ e, Peer.updateEntry (w.log (peerHead n a)) u = .ok (some e) := by
    unfold Peer.updateEntry
    rw [if_neg (by rw [hu.2.2.1]; omega), hrec, hnk, peArg_ok.mpr hpe]
    exact ⟨_, rfl⟩
  obtain ⟨_, hid, hdate, h5⟩ := Peer.updateEntry_some he
  rcases h5 with ⟨h5, _⟩ | ⟨_, hkd, hkh, hpe'⟩
  · rw [hnk] at h5; cases h5
  have happ : PeerEvent.apply (w.log (peerHead n a)) (.msg u) = .msg e :: w.log (peerHead n a) := by
    simp only [PeerEvent.apply, Peer.applyMsg, he]
  have hmsgs : Peer.msgs es = e :: Peer.msgs (w.log (peerHead n a)) := by
    rw [hes, h1, fold_gossip hgs, happ]; rfl
  have hek : e.keydata = k := by rw [hk] at hkd; exact (Option.some.inj hkd).symm
  have hac : Peer.latestAc es = some e := by
    rw [Peer.latestAc, hmsgs, List.find?_cons_of_pos]
    rw [hek]; simpa using hku
  have hepe : e.pe = pe := by
    rw [peArg_ok.mpr hpe] at hpe'; cases hpe'; rfl
  have ht : e.date = t := by rw [hdate, hu.2.2.1]
  refine ⟨by simp [Peer.acTimestamp, hac, ht], by simp [Peer.lastSeen, Peer.latestMsg, hmsgs, ht],
    ⟨e, hac, by rw [Peer.latestMsg, hmsgs]; rfl, by rw [hid, hu.2.1, mailId_eq], ht, hek, hepe⟩, fun hn => ?_, fun hn => ?_⟩
  · obtain ⟨kh, hkh1, hi⟩ := hh.1 hn
    have hkh2 : e.keyhandle = kh := by rw [hkh, hkh1]; rfl
    have hne : e.keyhandle ≠ [] := by rw [hkh2]; exact hi.ne_nil
    have hs := Peer.shown_of_latestAc hac hne
    simp only [Peer.shown, Prod.mk.injEq] at hs
    refine ⟨by simp [Peer.hasDirectKey, hac, hne], by rw [hs.2.1, hek], by rw [hs.2.2, hepe], ?_⟩
    rw [hs.1, hkh2]; rw [hk] at hi; exact hi
  · have : e.keyhandle = [] := by rw [hkh, hh.2 hn]; rfl
    simp [Peer.hasDirectKey, hac, this]

/-! ## C08 for messages -/

/-- a message to be processed: the message, the flags `ignore_existing` and `no_decrypt` -/
structure Delivery where
  msg : Msg
  ign : Bool
  nd : Bool

/-- the call which processes it for account `n` -/
def Delivery.call (n : Str) (d : Delivery) : ApiCall := .processIncoming n d.msg d.ign d.nd

/-- the state after some messages -/
def afterMessages (O : Oracle K) (env : Env) (n : Str) (ds : List Delivery) (w : World Store K) : World Store K :=
  runCalls Store.impl O env (ds.map (Delivery.call n)) w

/-- the call for `d` returns a result -/
def Processed (O : Oracle K) (env : Env) (n : Str) (d : Delivery) (w : World Store K) : Prop :=
  ∃ res, (exec O (Account.processIncoming env n d.msg d.ign d.nd) w).1 = .ok (some res)

theorem afterMessages_cons {O : Oracle K} {env : Env} {n : Str} (hn : env.isalnum n = true) {d : Delivery} {ds : List Delivery} {w : World Store K} :
    afterMessages O env n (d :: ds) w = afterMessages O env n ds (exec O (Account.processIncoming env n d.msg d.ign d.nd) w).2 := by
  unfold afterMessages
  rw [List.map_cons]
  show runCalls Store.impl O env _ (exec O (onAccount env n _) w).2 = _
  rw [run_onAccount O env n _ hn]

theorem afterMessages_fold {O : Oracle K} {env : Env} {n : Str} (hn : env.isalnum n = true) (a : Str) (ds : List Delivery) (w : World Store K) :
    ∃ evs : List PeerEvent, (afterMessages O env n ds w).log (peerHead n a) = evs.foldl PeerEvent.apply (w.log (peerHead n a)) ∧
      (∀ u, .msg u ∈ evs → ∃ pre d post t, ds = pre ++ d :: post ∧ EffectiveDate env (afterMessages O env n pre w) d.msg t ∧
        UpdateFor env d.msg a t u) ∧
      (∀ pre d post, ds = pre ++ d :: post → Processed O env n d (afterMessages O env n pre w) → senderAddr env d.msg = a →
        ∃ u t, .msg u ∈ evs ∧ EffectiveDate env (afterMessages O env n pre w) d.msg t ∧ UpdateFor env d.msg a t u) := by
  induction ds generalizing w with
  | nil => exact ⟨[], rfl, by simp, by rintro (_ | _) d post h <;> cases h⟩
  | cons d ds ih =>
    rcases hr : exec O (Account.processIncoming env n d.msg d.ign d.nd) w with ⟨r, w1⟩
    have hd : ∀ l, afterMessages O env n (d :: l) w = afterMessages O env n l w1 := fun l => by rw [afterMessages_cons hn, hr]
    obtain ⟨e1, h1, h2, _, h4⟩ := incoming_fold hr a
    obtain ⟨e2, i1, i2, i3⟩ := ih w1
    refine ⟨e1 ++ e2, by rw [hd, i1, h1, List.foldl_append], ?_, ?_⟩
    · intro u hu
      rcases List.mem_append.mp hu with hu | hu
      · obtain ⟨t, ht, hu⟩ := h2 u hu
        exact ⟨[], d, ds, t, rfl, ht, hu⟩
      · obtain ⟨pre, d', post, t, hl, ht, hu⟩ := i2 u hu
        exact ⟨d :: pre, d', post, t, by rw [hl]; rfl, by rw [hd]; exact ht, hu⟩
    · rintro (_ | ⟨d0, pre⟩) d' post hl hp ha
      · cases hl
        obtain ⟨res, hres⟩ := hp
        change (exec O _ w).1 = _ at hres
        rw [hr] at hres
        obtain ⟨u, gs, he, _⟩ := h4 res hres ha
        obtain ⟨t, ht, hu⟩ := h2 u (by rw [he]; simp)
        exact ⟨u, t, by rw [he]; simp, ht, hu⟩
      · simp only [List.cons_append, List.cons.injEq] at hl
        obtain ⟨rfl, hl⟩ := hl
        rw [hd] at hp
        obtain ⟨u, t, hu, ht, hu'⟩ := i3 pre d' post hl hp ha
        exact ⟨u, t, List.mem_append_right _ hu, by rw [hd]; exact ht, hu'⟩

/-- C08 for messages: process any messages one after the other for an account which knows nothing about `a`. Then no message of `a` with a
key, whose processing returned a result, has an effective date after the `autocrypt_timestamp` of `a`. And either the timestamp is 0 and
there is no direct key, or the timestamp is the effective date of one of the messages which carries a key of `a`, and the direct key, if
it is usable, and the preference are those of this message. -/
theorem C08_messages {O : Oracle K} {env : Env} {n : Str} (hn : env.isalnum n = true) {a : Str} {ds : List Delivery} {w : World Store K}
    (hw : w.log (peerHead n a) = []) {es : List Entry} (hes : es = (afterMessages O env n ds w).log (peerHead n a)) :
    (∀ pre d post k pe t, ds = pre ++ d :: post → Processed O env n d (afterMessages O env n pre w) → CarriesKey env d.msg a k pe →
      EffectiveDate env (afterMessages O env n pre w) d.msg t → t ≤ Peer.acTimestamp es) ∧
    (Peer.acTimestamp es = 0 ∧ Peer.hasDirectKey es = false ∨
      ∃ pre d post k pe, ds = pre ++ d :: post ∧ CarriesKey env d.msg a k pe ∧
        EffectiveDate env (afterMessages O env n pre w) d.msg (Peer.acTimestamp es) ∧ 0 ≤ Peer.acTimestamp es ∧
        (Peer.hasDirectKey es = true → Peer.publicKeydata es = k ∧ Peer.preferEncrypt es = pe.toStr)) := by
  obtain ⟨evs, h1, h2, h3⟩ := afterMessages_fold (O := O) hn a ds w
  rw [hw, ← hes] at h1
  have inv : OrderInv evs es := by
    rw [h1]; have := OrderInv.nil.fold evs; simpa using this
  have h0 : 0 ≤ Peer.acTimestamp es := by
    unfold Peer.acTimestamp
    cases hm : Peer.latestAc es with
    | none => exact Int.le_refl _
    | some e =>
      obtain ⟨⟨_, _, u, _, hu, hd, _⟩, _⟩ := inv.some_ e hm
      show 0 ≤ e.date
      have : e.date = e.key.date := rfl
      omega
  refine ⟨?_, ?_⟩
  · intro pre d post k pe t hl hp hc ht
    obtain ⟨u, t', hu, ht', hu'⟩ := h3 pre d post hl hp hc.1
    cases ht'.unique ht
    obtain ⟨hk, hpe⟩ := hu'.key hc
    by_cases hneg : t < 0
    · omega
    have hoff : offered evs ⟨t, k, Peer.orEmpty u.keyhandle, pe⟩ := by
      refine ⟨_, hu, u, rfl, by rw [hu'.2.2.1]; omega, hu'.2.2.1.symm, hk, hc.2.1, hpe, ?_⟩
      cases u.keyhandle with
      | none => exact .inr ⟨rfl, rfl⟩
      | some s => exact .inl rfl
    cases hm : Peer.latestAc es with
    | none => exact absurd hoff (inv.none_ hm _)
    | some e =>
      have := (inv.some_ e hm).2 _ hoff
      simpa [Peer.acTimestamp, hm] using this
  · cases hm : Peer.latestAc es with
    | none => exact .inl ⟨by simp [Peer.acTimestamp, hm], by simp [Peer.hasDirectKey, hm]⟩
    | some e =>
      obtain ⟨⟨_, hmem, u, rfl, hu0, hd, hk, hne, hpe, _⟩, _⟩ := inv.some_ e hm
      obtain ⟨pre, d, post, t, hl, ht, hu⟩ := h2 u hmem
      have hts : Peer.acTimestamp es = t := by
        simp only [Peer.acTimestamp, hm]
        rw [← hu.2.2.1, ← hd]; rfl
      refine .inr ⟨pre, d, post, e.keydata, e.pe, hl, hu.carries hk hne hpe, by rw [hts]; exact ht, h0, fun hdk => ?_⟩
      have hkh : e.keyhandle ≠ [] := by simpa [Peer.hasDirectKey, hm] using hdk
      have hs := Peer.shown_of_latestAc hm hkh
      simp only [Peer.shown, Prod.mk.injEq] at hs
      exact ⟨hs.2.1, hs.2.2⟩

/-- some message of the list carries the key, with the date `t` -/
def CarriedAt (env : Env) (ds : List Delivery) (a : Str) (k : Bytes) (pe : PE) (t : Time) : Prop :=
  ∃ d ∈ ds, CarriesKey env d.msg a k pe ∧ DateOf env d.msg t

/-- C08 for messages: if no message is dated in the future and the processing of each returns a result, then the order of the messages is
irrelevant: `autocrypt_timestamp` is the same, and so is the usable direct key with its preference, unless messages of the newest date
carry different ones. -/
theorem C08_messages_order {O : Oracle K} {env : Env} {n : Str} (hn : env.isalnum n = true) {a : Str} {ds ds' : List Delivery}
    (hperm : ds.Perm ds') {w w' : World Store K} (hw : w.log (peerHead n a) = []) (hw' : w'.log (peerHead n a) = [])
    (hpast : ∀ d ∈ ds, ∀ t, DateOf env d.msg t → ∀ j, t ≤ w.clock j ∧ t ≤ w'.clock j)
    (hproc : ∀ pre d post, ds = pre ++ d :: post → Processed O env n d (afterMessages O env n pre w))
    (hproc' : ∀ pre d post, ds' = pre ++ d :: post → Processed O env n d (afterMessages O env n pre w'))
    {es es' : List Entry} (hes : es = (afterMessages O env n ds w).log (peerHead n a))
    (hes' : es' = (afterMessages O env n ds' w').log (peerHead n a)) :
    Peer.acTimestamp es = Peer.acTimestamp es' ∧
    ((∀ k pe k' pe', CarriedAt env ds a k pe (Peer.acTimestamp es) → CarriedAt env ds a k' pe' (Peer.acTimestamp es) → k = k' ∧ pe = pe') →
      Peer.hasDirectKey es = true → Peer.hasDirectKey es' = true →
      Peer.publicKeydata es = Peer.publicKeydata es' ∧ Peer.preferEncrypt es = Peer.preferEncrypt es') := by
  obtain ⟨a1, a2⟩ := C08_messages hn hw hes
  obtain ⟨b1, b2⟩ := C08_messages hn hw' hes'
  have hclock : ∀ (l : List Delivery) (w : World Store K), (afterMessages O env n l w).clock = w.clock := by
    intro l
    induction l with
    | nil => exact fun _ => rfl
    | cons d l ih => intro w; rw [afterMessages_cons hn, ih]; exact (run_clock _ _).1
  have eff : ∀ (l : List Delivery) (d : Delivery) (t t' : Time), d ∈ ds → DateOf env d.msg t →
      (EffectiveDate env (afterMessages O env n l w) d.msg t' ↔ t' = t) ∧ (EffectiveDate env (afterMessages O env n l w') d.msg t' ↔ t' = t) := by
    intro l d t t' hd ht
    constructor
    · constructor
      · rintro ⟨x, hx, rfl⟩
        cases hx.unique ht
        have := (hpast d hd t ht (afterMessages O env n l w).tick).1
        rw [hclock]; omega
      · rintro rfl
        refine ⟨_, ht, ?_⟩
        have := (hpast d hd t' ht (afterMessages O env n l w).tick).1
        rw [hclock]; omega
    · constructor
      · rintro ⟨x, hx, rfl⟩
        cases hx.unique ht
        have := (hpast d hd t ht (afterMessages O env n l w').tick).2
        rw [hclock]; omega
      · rintro rfl
        refine ⟨_, ht, ?_⟩
        have := (hpast d hd t' ht (afterMessages O env n l w').tick).2
        rw [hclock]; omega
  -- every carried key is at most as new as the timestamp of either run
  have upA : ∀ k pe t, CarriedAt env ds a k pe t → t ≤ Peer.acTimestamp es := by
    rintro k pe t ⟨d, hd, hc, ht⟩
    obtain ⟨pre, post, hl⟩ := List.append_of_mem hd
    exact a1 pre d post k pe t hl (hproc pre d post hl) hc ((eff pre d t t hd ht).1.mpr rfl)
  have upB : ∀ k pe t, CarriedAt env ds a k pe t → t ≤ Peer.acTimestamp es' := by
    rintro k pe t ⟨d, hd, hc, ht⟩
    obtain ⟨pre, post, hl⟩ := List.append_of_mem (hperm.mem_iff.mp hd)
    exact b1 pre d post k pe t hl (hproc' pre d post hl) hc ((eff pre d t t hd ht).2.mpr rfl)
  have getA : Peer.acTimestamp es = 0 ∧ Peer.hasDirectKey es = false ∨ ∃ k pe, CarriedAt env ds a k pe (Peer.acTimestamp es) ∧
      0 ≤ Peer.acTimestamp es ∧ (Peer.hasDirectKey es = true → Peer.publicKeydata es = k ∧ Peer.preferEncrypt es = pe.toStr) := by
    refine a2.imp_right ?_
    rintro ⟨pre, d, post, k, pe, hl, hc, ht, h0, h⟩
    have hd : d ∈ ds := by rw [hl]; simp
    obtain ⟨x, hx, -⟩ := id ht
    have := (eff pre d x _ hd hx).1.mp ht
    exact ⟨k, pe, ⟨d, hd, hc, by rw [this]; exact hx⟩, h0, h⟩
  have getB : Peer.acTimestamp es' = 0 ∧ Peer.hasDirectKey es' = false ∨ ∃ k pe, CarriedAt env ds a k pe (Peer.acTimestamp es') ∧
      0 ≤ Peer.acTimestamp es' ∧ (Peer.hasDirectKey es' = true → Peer.publicKeydata es' = k ∧ Peer.preferEncrypt es' = pe.toStr) := by
    refine b2.imp_right ?_
    rintro ⟨pre, d, post, k, pe, hl, hc, ht, h0, h⟩
    have hd : d ∈ ds := hperm.mem_iff.mpr (by rw [hl]; simp)
    obtain ⟨x, hx, -⟩ := id ht
    have := (eff pre d x _ hd hx).2.mp ht
    exact ⟨k, pe, ⟨d, hd, hc, by rw [this]; exact hx⟩, h0, h⟩
  have hT : Peer.acTimestamp es = Peer.acTimestamp es' := by
    rcases getA with ⟨hA, _⟩ | ⟨k, pe, hA, hA0, _⟩ <;> rcases getB with ⟨hB, _⟩ | ⟨k', pe', hB, hB0, _⟩
    · omega
    · have := upA _ _ _ hB; omega
    · have := upB _ _ _ hA; omega
    · have := upA _ _ _ hB; have := upB _ _ _ hA; omega
  refine ⟨hT, fun huniq hk hk' => ?_⟩
  rcases getA with ⟨_, hA⟩ | ⟨k, pe, hA, _, hA'⟩
  · rw [hk] at hA; cases hA
  rcases getB with ⟨_, hB⟩ | ⟨k', pe', hB, _, hB'⟩
  · rw [hk'] at hB; cases hB
  rw [← hT] at hB
  obtain ⟨rfl, rfl⟩ := huniq _ _ _ _ hA hB
  exact ⟨(hA' hk).1.trans (hB' hk').1.symm, (hA' hk).2.trans (hB' hk').2.symm⟩

/-! ## the hypotheses can be met -/

/-- what the parser finds is carried -/
theorem carriesKey_of_parse {env : Env} {m : Msg} {r : ACResult} {k : Bytes} {pe : PE}
    (h : parseOneAcHeaderFromMsg env m [fromAddr env m] = .ok r) (hk : r.keydata = some k) (hne : k ≠ []) (hpe : r.pe = some pe.toStr) :
    CarriesKey env m (senderAddr env m) k pe :=
  UpdateFor.carries (t := 0) (u := ⟨messageId m, 0, r.pe, r.keydata, none⟩) ⟨rfl, (congrFun mailId_eq m).symm, rfl, r, h, rfl, rfl⟩ hk hne hpe

section examples
open Concrete

theorem exc_some_of_map {α β : Type} {x : Except Exc (Option α)} {f : α → β} {b : β}
    (h : (x.toOption.bind id).map f = some b) : ∃ r, x = .ok (some r) ∧ f r = b := by
  cases x with
  | error e => cases h
  | ok o =>
    cases o with
    | none => cases h
    | some r => exact ⟨r, rfl, Option.some.inj h⟩

/-- Bob's messages with a key carry it -/
theorem bob_carries (id date : Str) (k : Bytes) {r : ACResult}
    (h : parseOneAcHeaderFromMsg env (mail bob id date k) [fromAddr env (mail bob id date k)] = .ok r) (hk : r.keydata = some k)
    (hne : k ≠ []) (hpe : r.pe = some PE.nopreference.toStr) (hs : senderAddr env (mail bob id date k) = bob) :
    CarriesKey env (mail bob id date k) bob k .nopreference := by
  have := carriesKey_of_parse h hk hne hpe
  rwa [hs] at this

/-- C77: Bob's second key is newer; gpg imports it -/
example : Reachable oracle env (after [addA, recv bob (str!"1") (str!"100") [7]]) ∧
    (∃ res, (exec oracle (Account.processIncoming env (str!"a") (mail bob (str!"2") (str!"200") [8]) false false)
      (after [addA, recv bob (str!"1") (str!"100") [7]])).1 = .ok (some res) ∧ res.pah.error = none) ∧
    CarriesKey env (mail bob (str!"2") (str!"200") [8]) bob [8] .nopreference ∧
    EffectiveDate env (after [addA, recv bob (str!"1") (str!"100") [7]]) (mail bob (str!"2") (str!"200") [8]) (sec 200) ∧
    Peer.acTimestamp ((after [addA, recv bob (str!"1") (str!"100") [7]]).log (peerHead (str!"a") bob)) = sec 100 ∧
    Peer.acTimestamp (bobs (after [addA, recv bob (str!"1") (str!"100") [7], recv bob (str!"2") (str!"200") [8]])) = sec 200 ∧
    Peer.publicKeydata (bobs (after [addA, recv bob (str!"1") (str!"100") [7], recv bob (str!"2") (str!"200") [8]])) = [8] := by
  refine ⟨after_reachable _, exc_some_of_map (by decide +kernel), bob_carries _ _ _ (r := _) rfl (by decide +kernel) (by decide +kernel)
    (by decide +kernel) (by decide +kernel), ⟨sec 200, .inl rfl, by decide +kernel⟩, by decide +kernel, by decide +kernel, by decide +kernel⟩

/-- C09: a message older than Bob's key; C10: a message without key -/
example : EffectiveDate env (after [addA, recv bob (str!"1") (str!"100") [7]]) (mail bob (str!"2") (str!"50") [8]) (sec 50) ∧
    sec 50 < Peer.acTimestamp ((after [addA, recv bob (str!"1") (str!"100") [7]]).log (peerHead (str!"a") bob)) ∧
    ∀ k pe, ¬ CarriesKey env (mail bob (str!"2") (str!"200") []) (senderAddr env (mail bob (str!"2") (str!"200") [])) k pe := by
  refine ⟨⟨sec 50, .inl rfl, by decide +kernel⟩, by decide +kernel, ?_⟩
  rintro k pe ⟨_, _, _, _, v, r, ⟨pre, post, h, _⟩, _⟩
  have h0 : (mail bob (str!"2") (str!"200") []).getAll (str!"Autocrypt") = [] := by decide +kernel
  rw [h0] at h
  cases pre <;> cases h

/-- C08: two messages of Bob, in both orders; the newest wins -/
example :
    let d1 : Delivery := ⟨mail bob (str!"1") (str!"100") [7], false, false⟩
    let d2 : Delivery := ⟨mail bob (str!"2") (str!"200") [8], false, false⟩
    let w := after [addA]
    [d1, d2].Perm [d2, d1] ∧ w.log (peerHead (str!"a") bob) = [] ∧
    (∀ pre d post, [d1, d2] = pre ++ d :: post → Processed oracle env (str!"a") d (afterMessages oracle env (str!"a") pre w)) ∧
    (∀ pre d post, [d2, d1] = pre ++ d :: post → Processed oracle env (str!"a") d (afterMessages oracle env (str!"a") pre w)) ∧
    (∀ d ∈ [d1, d2], ∀ t, DateOf env d.msg t → ∀ j, t ≤ w.clock j ∧ t ≤ w.clock j) ∧
    CarriedAt env [d1, d2] bob [8] .nopreference (sec 200) ∧
    (∀ l ∈ [[d1, d2], [d2, d1]], Peer.publicKeydata ((afterMessages oracle env (str!"a") l w).log (peerHead (str!"a") bob)) = [8]) := by
  intro d1 d2 w
  refine ⟨List.Perm.swap .., by decide +kernel, ?_, ?_, ?_, ⟨d2, by simp, bob_carries _ _ _ (r := _) rfl (by decide +kernel) (by decide +kernel)
    (by decide +kernel) (by decide +kernel), .inl rfl⟩, by decide +kernel⟩
  · rintro (_ | ⟨x, _ | ⟨y, pre⟩⟩) d post h
    · cases h; exact (exc_some_of_map (f := fun _ => ()) (b := ()) (by decide +kernel)).imp fun _ h => h.1
    · cases h; exact (exc_some_of_map (f := fun _ => ()) (b := ()) (by decide +kernel)).imp fun _ h => h.1
    · simp at h
  · rintro (_ | ⟨x, _ | ⟨y, pre⟩⟩) d post h
    · cases h; exact (exc_some_of_map (f := fun _ => ()) (b := ()) (by decide +kernel)).imp fun _ h => h.1
    · cases h; exact (exc_some_of_map (f := fun _ => ()) (b := ()) (by decide +kernel)).imp fun _ h => h.1
    · simp at h
  · intro d hd t ht j
    have hc : w.clock = fun i : Nat => sec (1000 + (i : Int)) := rfl
    have h1 : DateOf env d1.msg (sec 100) := .inl rfl
    have h2 : DateOf env d2.msg (sec 200) := .inl rfl
    rw [hc]
    simp only [List.mem_cons, List.not_mem_nil, or_false] at hd
    rcases hd with rfl | rfl
    · cases ht.unique h1; dsimp only; unfold sec; constructor <;> exact Int.mul_le_mul_of_nonneg_right (by omega) (Int.le_of_lt (Int.pow_pos (by omega)))
    · cases ht.unique h2; dsimp only; unfold sec; constructor <;> exact Int.mul_le_mul_of_nonneg_right (by omega) (Int.le_of_lt (Int.pow_pos (by omega)))

end examples

end Verif
