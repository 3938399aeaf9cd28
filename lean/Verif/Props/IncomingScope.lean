import Verif.Props.Incoming
/-!
# What processing a message can change: C20 – C23
-/
namespace Verif
open Mime

variable {K : Type}

/-! ## Specification -/

/-- the header value `v` parses without error, gives the address `a` and the result `r` -/
def ValidFor (env : Env) (a v : Str) (r : ACResult) : Prop :=
  parseAcHeadervalue env v = .ok r ∧ r.error = none ∧ r.addr = some a

/-- `v` is the only element of `l` with `P` (it occurs once) -/
def OnlyOne {α : Type} (P : α → Prop) (l : List α) (v : α) : Prop :=
  ∃ pre post, l = pre ++ v :: post ∧ P v ∧ ∀ x ∈ pre ++ post, ¬ P x

/-- `v` is the last element of `l` with `P` -/
def LastOne {α : Type} (P : α → Prop) (l : List α) (v : α) : Prop :=
  ∃ pre post, l = pre ++ v :: post ∧ P v ∧ ∀ x ∈ post, ¬ P x

/-- between `w` and `w'` gpg was run to decrypt the encrypted part of `m` and gave `dec` -/
def DecryptedTo {σ : Type} (w w' : World σ K) (m : Msg) (dec : Bytes) : Prop :=
  ∃ new argv enc out, w'.trace = new ++ w.trace ∧
    (⟨.gpg argv (some enc), (.ok out : Except Exc GpgOut)⟩ : Event) ∈ new ∧
    str!"--decrypt" ∈ argv ∧ EncryptedData m enc ∧ out.ret = 0 ∧ out.out = dec

/-- header values of the decrypted message: those of the inner message, then those of the outer one -/
def innerOuter (env : Env) (m : Msg) (dec : Bytes) (name : Str) : List Str :=
  (env.messageFromBytes dec).getAll name ++ m.getAll name

/-- the addresses in To and Cc of the decrypted message -/
def decRecipients (env : Env) (m : Msg) (dec : Bytes) : List Str :=
  env.getaddresses (innerOuter env m dec (str!"To") ++ innerOuter env m dec (str!"Cc"))

/-! ## Lemmas -/

theorem DecryptedTo.mono {σ : Type} {w0 w w' w'' : World σ K} {m : Msg} {dec : Bytes} (h : DecryptedTo w w' m dec)
    (h0 : w0.trace <:+ w.trace) (h1 : w'.trace <:+ w''.trace) : DecryptedTo w0 w'' m dec := by
  obtain ⟨new, argv, enc, out, h2, h3, h4⟩ := h
  obtain ⟨a, ha⟩ := h0
  obtain ⟨b, hb⟩ := h1
  exact ⟨b ++ (new ++ a), argv, enc, out, by rw [← hb, h2, ← ha]; simp, by simp [h3], h4⟩

theorem getAll_congr (m : Msg) {a b : Str} (h : Py.lower a = Py.lower b) : m.getAll a = m.getAll b := by
  simp only [Msg.getAll, Msg.nameEq, h]

theorem getAll_transfer (m new : Msg) {name : Str}
    (h : Py.lower name ∉ [str!"content-type", str!"mime-version", str!"content-transfer-encoding"]) :
    (transferNonContentHeaders m new).getAll name = new.getAll name ++ m.getAll name := by
  simp only [Msg.getAll, transferNonContentHeaders, Msg.headers, nonContentHeaders, List.filter_append, List.map_append,
    List.filter_filter]
  congr 2
  apply List.filter_congr
  intro x _
  by_cases hx : Py.lower x.1 = Py.lower name
  · simp only [Msg.nameEq, hx, beq_self_eq_true, Bool.true_and, h, not_false_eq_true, decide_true]
  · have : Msg.nameEq x.1 name = false := by simpa [Msg.nameEq] using hx
    simp [this]

/-- a successful run of gpg: what is recorded in the trace -/
theorem gpgOuterr_ok {S : StoreImpl σ} {O : Oracle K} {env : Env} {g : BinGPG} {args : List Str} {input : Option Bytes}
    {strict decode : Bool} {w w' : World σ K} {o : Bytes} {er : Str}
    (h : run S O (BinGPG.gpgOuterr env g args input strict decode) w = (.ok (o, er), w')) :
    ∃ out ev, ev = (⟨.gpg (g.argv args) input, (.ok out : Except Exc GpgOut)⟩ : Event) ∧ w'.trace = ev :: w.trace ∧
      out.ret = 0 ∧ out.out = o := by
  unfold BinGPG.gpgOuterr at h
  simp only [bind_eq] at h
  obtain ⟨out, w7, h7, h5⟩ := run_bind_ok.mp h
  rw [run_ofExcept] at h5
  have hw7 : w7 = w' := congrArg Prod.snd h5
  have h5 : BinGPG.checkResult env strict decode out = .ok (o, er) := congrArg Prod.fst h5
  subst hw7
  rw [run_gpg] at h7
  have h8 := congrArg Prod.snd h7
  have h7 := congrArg Prod.fst h7
  dsimp only at h7 h8
  refine ⟨out, _, rfl, ?_, ?_⟩
  · rw [← h8]; exact congrArg (fun x => (⟨.gpg (g.argv args) input, x⟩ : Event) :: w.trace) h7
  · unfold BinGPG.checkResult at h5
    split at h5
    · cases h5
    · split at h5
      · cases h5
      · split at h5
        · cases h5
        · split at h5
          · cases h5
          · rename_i hr
            cases h5
            exact ⟨Classical.byContradiction fun h => hr (Or.inl h), rfl⟩

theorem decryptMime_ok {S : StoreImpl σ} {O : Oracle K} {env : Env} {n : Str} {m : Msg} {w w' : World σ K}
    {r : Account.DecryptResult} (h : run S O (Account.decryptMime env n m) w = (.ok r, w')) :
    ∃ dec, r.decMsg = transferNonContentHeaders m (env.messageFromBytes dec) ∧ DecryptedTo w w' m dec := by
  unfold Account.decryptMime at h
  simp only [bind_eq, pure_eq] at h
  obtain ⟨enc, w1, h1, h⟩ := run_bind_ok.mp h
  obtain ⟨g, w2, h2, h⟩ := run_bind_ok.mp h
  obtain ⟨⟨dec, infos⟩, w3, h3, h⟩ := run_bind_ok.mp h
  rw [run_ofExcept] at h1
  simp only [run_pure, Prod.mk.injEq, Except.ok.injEq] at h
  obtain ⟨hres, rfl⟩ := h
  have h1' : Account.encData m = .ok enc := congrArg Prod.fst h1
  have h1w : w = w1 := congrArg Prod.snd h1
  refine ⟨dec, by rw [← hres], ?_⟩
  unfold BinGPG.decrypt at h3
  simp only [bind_eq, pure_eq] at h3
  obtain ⟨np, w4, h4, h3⟩ := run_bind_ok.mp h3
  obtain ⟨⟨o, er⟩, w5, h5, h3⟩ := run_bind_ok.mp h3
  obtain ⟨inf, w6, h6, h3⟩ := run_bind_ok.mp h3
  simp only [run_pure, Prod.mk.injEq, Except.ok.injEq] at h3
  obtain ⟨⟨hdec, _⟩, h3w⟩ := h3
  rw [run_ofExcept] at h6
  have h6w : w5 = w3 := (congrArg Prod.snd h6).trans h3w
  subst hdec
  obtain ⟨out, ev, hev, htr, hret, hout⟩ := gpgOuterr_ok h5
  have t1 : w.trace <:+ w4.trace := by
    subst h1w
    have a := run_trace (S := S) (O := O) (Account.bingpg env n) w
    have b := run_trace (S := S) (O := O) (BinGPG.nopassphrase env g) w2
    rw [h2] at a; rw [h4] at b
    exact a.trans b
  obtain ⟨t, ht⟩ := t1
  refine ⟨ev :: t, g.argv (np ++ [str!"--with-colons", str!"--decrypt"]), enc, out, ?_, ?_, ?_, encryptedData_iff.mpr h1', hret, hout⟩
  · rw [← h6w, htr, ← ht]; rfl
  · rw [hev]; exact List.mem_cons_self ..
  · simp [BinGPG.argv]

/-- the dictionary of gossip headers maps an address to the last valid header for it -/
theorem collectGossip_get {env : Env} {vs : List Str} {d d' : List (Str × ACResult)} (h : collectGossip env d vs = .ok d')
    (a : Str) (r : ACResult) (hr : dictGet d' a = some r) :
    dictGet d a = some r ∧ (∀ v ∈ vs, ¬ ∃ r', ValidFor env a v r') ∨
    ∃ v, LastOne (fun v => ∃ r', ValidFor env a v r') vs v ∧ ValidFor env a v r := by
  induction vs generalizing d with
  | nil => cases h; exact Or.inl ⟨hr, by simp⟩
  | cons v vs ih =>
    simp only [collectGossip] at h
    split at h
    · cases h
    · rename_i r0 hr0
      have hval : ∀ r', ValidFor env a v r' ↔ r' = r0 ∧ r0.error = none ∧ r0.addr = some a := by
        intro r'
        simp only [ValidFor, hr0]
        constructor
        · rintro ⟨h, h1, h2⟩; cases h; exact ⟨rfl, h1, h2⟩
        · rintro ⟨rfl, h1, h2⟩; exact ⟨rfl, h1, h2⟩
      have lift : (∃ v, LastOne (fun v => ∃ r', ValidFor env a v r') vs v ∧ ValidFor env a v r) →
          ∃ v', LastOne (fun v => ∃ r', ValidFor env a v r') (v :: vs) v' ∧ ValidFor env a v' r := by
        rintro ⟨v', ⟨pre, post, h1, h2, h3⟩, h4⟩
        exact ⟨v', ⟨v :: pre, post, by rw [h1]; rfl, h2, h3⟩, h4⟩
      split at h
      · rename_i he
        have he : r0.error = none := Option.isNone_iff_eq_none.mp he
        rcases ih h with ⟨h1, h2⟩ | h1
        · rw [dictGet_dictSet] at h1
          have had : ∃ x, r0.addr = some x := by
            rcases parseAcHeadervalue_shape hr0 with ⟨e, hx⟩ | ⟨_, x, _, _, hx⟩
            · rw [hx] at he; cases he
            · exact ⟨x, by rw [hx]⟩
          obtain ⟨x, hx⟩ := had
          rw [hx, Option.getD_some] at h1
          split at h1
          · rename_i hax
            cases h1; subst hax
            right
            have hv : ValidFor env a v r := (hval r).mpr ⟨rfl, he, hx⟩
            exact ⟨v, ⟨[], vs, rfl, ⟨r, hv⟩, h2⟩, hv⟩
          · rename_i hax
            left
            refine ⟨h1, ?_⟩
            intro v' hv'
            rcases List.mem_cons.mp hv' with rfl | hv'
            · rintro ⟨r', hr'⟩
              rw [hval, hx] at hr'
              exact hax (Option.some.inj hr'.2.2).symm
            · exact h2 v' hv'
        · exact Or.inr (lift h1)
      · rename_i he
        rcases ih h with ⟨h1, h2⟩ | h1
        · left
          refine ⟨h1, ?_⟩
          intro v' hv'
          rcases List.mem_cons.mp hv' with rfl | hv'
          · rintro ⟨r', hr'⟩
            rw [hval] at hr'
            rw [hr'.2.1] at he; exact he rfl
          · exact h2 v' hv'
        · exact Or.inr (lift h1)

/-- the logs changed by the loop over recipients belong to addresses in its result -/
theorem gossipLoop_changed {O : Oracle K} {env : Env} {n : Str} {dict : List (Str × ACResult)} {date : Time} {id : Str}
    {l : List Str} {pr g : List (Str × ACResult)} {w w' : World Store K}
    (h : exec O (Account.gossipLoop env n dict date id pr l) w = (.ok g, w')) :
    (∀ k ∈ pr.map (·.1), k ∈ g.map (·.1)) ∧
    ∀ hd, w'.log hd = w.log hd ∨ ∃ r ∈ g.map (·.1), hd = peerHead n (parseEmailAddr env (some r)) := by
  induction l generalizing pr w with
  | nil => cases h; exact ⟨fun _ h => h, fun _ => Or.inl rfl⟩
  | cons r rs ih =>
    unfold Account.gossipLoop at h
    split at h
    · exact ih h
    · rename_i pah _
      simp only [bind_eq] at h
      obtain ⟨⟨kh, pah'⟩, w1, h1, h⟩ := run_bind_ok.mp h
      obtain ⟨⟨⟩, w2, h2, h⟩ := run_bind_ok.mp h
      obtain ⟨h3, h4⟩ := ih h
      have hmem : r ∈ g.map (·.1) := h3 r ((mem_keys_dictSet _ _ _ _).mpr (Or.inl rfl))
      refine ⟨fun k hk => h3 k ((mem_keys_dictSet _ _ _ _).mpr (Or.inr hk)), ?_⟩
      intro hd
      rcases h4 hd with h5 | h5
      · by_cases hr : hd = peerHead n (parseEmailAddr env (some r))
        · exact Or.inr ⟨r, hmem, hr⟩
        · left
          have h6 := act_frame O (.gossip n (parseEmailAddr env (some r)) ⟨id, date, pah'.keydata, kh⟩) w1 hd hr
          have h7 := run_ro (O := O) (Account.importPah_ops permissive_readOnly env n pah) w
          rw [h5]
          have h6 : w2.log hd = w1.log hd := by
            rw [← h6]
            exact congrArg (fun x => World.log x.2 hd) h2.symm
          rw [h6]
          have : w1.store = w.store := by
            rw [← h7.1]
            exact congrArg (fun x => World.store x.2) h1.symm
          simp only [World.log, this]
      · exact Or.inr h5

/-! ## The course of processing a message -/

/-- the address of the sender and the head of their chain, as the code computes them -/
abbrev fromAddr (env : Env) (m : Msg) : Str := address env (m.get (str!"From"))

/-- processing stores nothing; or it runs the Autocrypt header step only; or then also decrypts and runs the
gossip step -/
theorem incoming_course (O : Oracle K) (env : Env) (w : World Store K) (n : Str) (m : Msg) (i nd : Bool)
    (r : Except Exc (Option Account.IncomingResult)) (w' : World Store K)
    (hr : exec O (Account.processIncoming env n m i nd) w = (r, w')) :
    (w'.store = w.store ∧ ∀ res, r ≠ .ok (some res)) ∨
    ∃ d w0 rh w1, parseDateToFloat env (m.get (str!"Date")) = .ok d ∧ w0.store = w.store ∧
      exec O (Account.processAutocryptHeader env n m (fromAddr env m) (Account.peerHeadOf env n (fromAddr env m))
        (min d (w.clock w.tick)) (messageId m)) w0 = (rh, w1) ∧ r ≠ .ok none ∧
      (∀ res, r = .ok (some res) → rh = .ok res.pah) ∧
      ((w'.store = w1.store ∧ ∀ res, r = .ok (some res) → res.gossip = []) ∨
       ∃ dec w2 rg w3, nd = false ∧ isEncrypted m = .ok true ∧ DecryptedTo w w' m dec ∧ w2.store = w1.store ∧
         exec O (Account.processGossipHeaders env n (transferNonContentHeaders m (env.messageFromBytes dec))
           (min d (w.clock w.tick)) (messageId m)) w2 = (rg, w3) ∧ w'.store = w3.store ∧
         ∀ res, r = .ok (some res) → rg = .ok res.gossip) := by
  simp only [exec, Account.run_processIncoming] at hr
  cases hd : parseDateToFloat env (m.get (str!"Date")) with
  | error e' => rw [hd] at hr; cases hr; exact Or.inl ⟨rfl, by rintro res h; cases h⟩
  | ok d =>
    rw [hd] at hr; dsimp only at hr
    generalize hdate : min d (w.clock w.tick) = date at hr
    rcases Account.incomingRest_cases O env n m i nd date { w with tick := w.tick + 1 } with h1 | ⟨rh, w1, h1, h2⟩
    · simp only [exec] at h1; rw [h1] at hr; cases hr
      exact Or.inl ⟨rfl, by rintro res h; cases h⟩
    right
    refine ⟨d, { w with tick := w.tick + 1 }, rh, w1, rfl, rfl, by rw [hdate]; exact h1, ?_⟩
    rcases h2 with ⟨r, w', h3, h4, _, hn, h5⟩ | ⟨r, w', dr, w2, rg, w3, pah, h3, _, h4, h5, h6, h7, h8, h9, hn, h10⟩
    · simp only [exec] at h3; rw [h3] at hr; cases hr
      exact ⟨hn, fun res h => (h5 res h).1, Or.inl ⟨h4, fun res h => (h5 res h).2.1⟩⟩
    · simp only [exec] at h3; rw [h3] at hr; cases hr
      refine ⟨hn, fun res h => (h10 res h).1, Or.inr ?_⟩
      obtain ⟨dec, hdec, hdt⟩ := decryptMime_ok h6
      rw [hdec] at h7
      refine ⟨dec, w2, rg, w3, h4, h5, ?_, ?_, by rw [hdate]; exact h7, h8, fun res h => (h10 res h).2⟩
      · refine hdt.mono ?_ (List.IsSuffix.trans ?_ h9)
        · have := run_trace (S := Store.impl) (O := O) (Account.processAutocryptHeader env n m
            (parseEmailAddr env (m.get (str!"From"))) (Account.peerHeadOf env n (parseEmailAddr env (m.get (str!"From"))))
            date (messageId m)) { w with tick := w.tick + 1 }
          simp only [exec] at h1
          rw [h1] at this; exact this
        · have := run_trace (S := Store.impl) (O := O) (Account.processGossipHeaders env n
            (transferNonContentHeaders m (env.messageFromBytes dec)) date (messageId m)) w2
          simp only [exec] at h7
          rw [h7] at this; exact this
      · have := run_ro (O := O) (Account.decryptMime_ops permissive_readOnly env n m) w1
        rw [h6] at this; exact this.1

/-- every entry that processing a message adds comes from its Autocrypt header, or from gossip headers of the
message which gpg decrypted -/
theorem incoming_new (O : Oracle K) (env : Env) (w : World Store K) (n : Str) (m : Msg) (i nd : Bool) (h : Str) (e : Entry)
    (w' : World Store K) (hw' : w' = (exec O (Account.processIncoming env n m i nd) w).2)
    (he : e ∈ w'.log h) (hold : e ∉ w.log h) :
    ∃ d, parseDateToFloat env (m.get (str!"Date")) = .ok d ∧
     ((∃ a, Account.HeaderAct env n m (fromAddr env m) (min d (w.clock w.tick)) a ∧ a.Adds h e) ∨
      (nd = false ∧ isEncrypted m = .ok true ∧ ∃ dec, DecryptedTo w w' m dec ∧
        ∃ a, Account.GossipAct env n (transferNonContentHeaders m (env.messageFromBytes dec)) (messageId m)
          (min d (w.clock w.tick)) a ∧ a.Adds h e)) := by
  rcases incoming_course O env w n m i nd _ w' (Prod.ext rfl hw'.symm) with ⟨h1, _⟩ | ⟨d, w0, rh, w1, h1, h2, h3, hn, _, h4⟩
  · exfalso; apply hold; simpa only [World.log, h1] using he
  refine ⟨d, h1, ?_⟩
  have hh : e ∈ w1.log h → ∃ a, Account.HeaderAct env n m (fromAddr env m) (min d (w.clock w.tick)) a ∧ a.Adds h e := by
    intro hx
    rcases (Account.safe_processAutocryptHeader env n m (fromAddr env m) (min d (w.clock w.tick))
      (A := Account.HeaderAct env n m (fromAddr env m) (min d (w.clock w.tick))) (fun a ha => ha)).new (O := O) w0 h e
        (by rw [h3]; exact hx) with h5 | h5
    · exfalso; apply hold; simpa only [World.log, h2] using h5
    · exact h5
  rcases h4 with ⟨h5, _⟩ | ⟨dec, w2, rg, w3, h5, h6, h7, h8, h9, h10, _⟩
  · exact Or.inl (hh (by simpa only [World.log, h5] using he))
  · by_cases hx : e ∈ w1.log h
    · exact Or.inl (hh hx)
    · refine Or.inr ⟨h5, h6, dec, h7, ?_⟩
      rcases (Account.safe_processGossipHeaders env n _ (min d (w.clock w.tick)) (messageId m)
        (A := Account.GossipAct env n _ (messageId m) (min d (w.clock w.tick))) (fun a ha => ha)).new (O := O) w2 h e
        (by rw [h9]; simpa only [World.log, h10] using he) with h11 | h11
      · exfalso; apply hx; simpa only [World.log, h8] using h11
      · exact h11

/-- only the logs named by the header step and the gossip step differ -/
theorem incoming_touched (O : Oracle K) (env : Env) (w : World Store K) (n : Str) (m : Msg) (i nd : Bool) (h : Str)
    (w' : World Store K) (hw' : w' = (exec O (Account.processIncoming env n m i nd) w).2)
    (hne : w'.log h ≠ w.log h) :
    h = peerHead n (senderAddr env m) ∨
      (nd = false ∧ isEncrypted m = .ok true ∧ ∃ dec, DecryptedTo w w' m dec ∧
        ∃ d a, Account.GossipAct env n (transferNonContentHeaders m (env.messageFromBytes dec)) (messageId m) d a ∧
          a.Touches h) := by
  rcases incoming_course O env w n m i nd _ w' (Prod.ext rfl hw'.symm) with ⟨h1, _⟩ | ⟨d, w0, rh, w1, h1, h2, h3, hn, _, h4⟩
  · exact absurd (by simp only [World.log, h1]) hne
  by_cases hs : h = peerHead n (senderAddr env m)
  · exact Or.inl hs
  right
  have hh : w1.log h = w.log h := by
    have := (Account.safe_processAutocryptHeader env n m (fromAddr env m) (min d (w.clock w.tick))
      (A := Account.HeaderAct env n m (fromAddr env m) (min d (w.clock w.tick))) (fun a ha => ha)).frame (O := O) w0 h
        (by
          intro a ha ht
          cases a <;> simp only [Account.HeaderAct] at ha
          obtain ⟨rfl, rfl, _⟩ := ha
          exact hs ht)
    rw [h3] at this
    simpa only [World.log, h2] using this
  rcases h4 with ⟨h5, _⟩ | ⟨dec, w2, rg, w3, h5, h6, h7, h8, h9, h10, _⟩
  · exfalso; apply hne; rw [← hh]; simp only [World.log, h5]
  · refine ⟨h5, h6, dec, h7, min d (w.clock w.tick), ?_⟩
    refine Classical.byContradiction fun hno => hne ?_
    have := (Account.safe_processGossipHeaders env n (transferNonContentHeaders m (env.messageFromBytes dec))
        (min d (w.clock w.tick)) (messageId m)
        (A := Account.GossipAct env n _ (messageId m) (min d (w.clock w.tick))) (fun a ha => ha)).frame (O := O) w2 h
      (fun a ha ht => hno ⟨a, ha, ht⟩)
    rw [h9] at this
    rw [← hh]
    simpa only [World.log, h8, h10] using this

/-- a gossip update, in terms of the inner and the outer message -/
theorem gossipAct_spec {env : Env} {n : Str} {m : Msg} {dec : Bytes} {id : Str} {d : Time} {a : Act}
    (h : Account.GossipAct env n (transferNonContentHeaders m (env.messageFromBytes dec)) id d a) :
    ∃ u r v res, a = .gossip n (parseEmailAddr env (some r)) u ∧ u.msgId = id ∧ u.date = d ∧ u.keydata = res.keydata ∧
      r ∈ decRecipients env m dec ∧ ValidFor env r v res ∧
      LastOne (fun v => ∃ res', ValidFor env r v res') (innerOuter env m dec (str!"Autocrypt-Gossip")) v := by
  cases a <;> simp only [Account.GossipAct] at h
  rename_i n' ad u
  obtain ⟨rfl, h1, h2, dict, r, pah, h3, h4, h5, rfl, h6⟩ := h
  have hg : (transferNonContentHeaders m (env.messageFromBytes dec)).getAll (str!"Autocrypt-Gossip") =
      innerOuter env m dec (str!"Autocrypt-Gossip") := getAll_transfer _ _ (by decide)
  rw [getGossipHeadersFromMsg, hg] at h3
  rcases collectGossip_get h3 r pah h5 with ⟨h7, _⟩ | ⟨v, h7, h8⟩
  · cases h7
  · refine ⟨u, r, v, pah, rfl, h1, h2, h6, ?_, h8, h7⟩
    rw [getTargetEmailadr, getAll_transfer _ _ (by decide), getAll_transfer _ _ (by decide)] at h4
    rw [decRecipients]
    simp only [innerOuter]
    rw [getAll_congr _ (show Py.lower (str!"To") = Py.lower (str!"to") by decide),
      getAll_congr _ (show Py.lower (str!"Cc") = Py.lower (str!"cc") by decide),
      getAll_congr m (show Py.lower (str!"To") = Py.lower (str!"to") by decide),
      getAll_congr m (show Py.lower (str!"Cc") = Py.lower (str!"cc") by decide)]
    exact h4

/-! ## C20 -/

/-- C20 (logs only grow): processing a message removes and rewrites nothing, whether it succeeds or not. -/
theorem C20_logs_grow (O : Oracle K) (env : Env) (w : World Store K) (n : Str) (m : Msg) (i nd : Bool) (h : Str) :
    w.log h <:+ (exec O (Account.processIncoming env n m i nd) w).2.log h := by
  simp only [exec, Account.run_processIncoming]
  cases hd : parseDateToFloat env (m.get (str!"Date")) with
  | error e' => exact List.suffix_rfl
  | ok d =>
    dsimp only
    refine (Account.safe_incomingRest env n m i nd _).suffix (O := O) { w with tick := w.tick + 1 } h ?_
    rintro a (ha | ⟨_, _, ha⟩)
    · cases a <;> simp_all [Account.HeaderAct]
    · cases a <;> simp_all [Account.GossipAct]

/-- C20: after processing a message, however it ends, a stored log differs only if it is the log of the sender,
or the log of an address which occurs among the To/Cc addresses of the message that gpg decrypted and has a
valid gossip header there. -/
theorem C20_scope (O : Oracle K) (env : Env) (w : World Store K) (n : Str) (m : Msg) (i nd : Bool) (h : Str)
    (w' : World Store K) (hw' : w' = (exec O (Account.processIncoming env n m i nd) w).2) (hne : w'.log h ≠ w.log h) :
    h = peerHead n (senderAddr env m) ∨
    ∃ dec r v res, DecryptedTo w w' m dec ∧ r ∈ decRecipients env m dec ∧
      v ∈ innerOuter env m dec (str!"Autocrypt-Gossip") ∧ ValidFor env r v res ∧
      h = peerHead n (address env (some r)) := by
  spec_mail
  rcases incoming_touched O env w n m i nd h w' hw' hne with h1 | ⟨_, _, dec, h2, d, a, h3, h4⟩
  · exact Or.inl h1
  · right
    obtain ⟨u, r, v, res, rfl, _, _, _, h5, h6, ⟨pre, post, h7, _⟩⟩ := gossipAct_spec h3
    exact ⟨dec, r, v, res, h2, h5, by rw [h7]; simp, h6, h4⟩

/-- C20 for a run which returns a result: only the sender and the addresses for which the result reports gossip
are affected. With `None` as result nothing is. -/
theorem C20_scope_result (O : Oracle K) (env : Env) (w : World Store K) (n : Str) (m : Msg) (i nd : Bool) (h : Str)
    (w' : World Store K) (r : Option Account.IncomingResult)
    (hr : exec O (Account.processIncoming env n m i nd) w = (.ok r, w')) (hne : w'.log h ≠ w.log h) :
    ∃ res, r = some res ∧ (h = peerHead n (senderAddr env m) ∨
      ∃ a ∈ res.gossip.map (·.1), h = peerHead n (address env (some a))) := by
  spec_mail
  rcases incoming_course O env w n m i nd _ w' hr with ⟨h1, _⟩ | ⟨d, w0, rh, w1, h1, h2, h3, hn, _, h4⟩
  · exact absurd (by simp only [World.log, h1]) hne
  cases r with
  | none => exact absurd rfl hn
  | some res =>
    refine ⟨res, rfl, ?_⟩
    by_cases hs : h = peerHead n (senderAddr env m)
    · exact Or.inl hs
    right
    have hh : w1.log h = w.log h := by
      have := (Account.safe_processAutocryptHeader env n m (fromAddr env m) (min d (w.clock w.tick))
        (A := Account.HeaderAct env n m (fromAddr env m) (min d (w.clock w.tick))) (fun a ha => ha)).frame (O := O) w0 h
          (by
            intro a ha ht
            cases a <;> simp only [Account.HeaderAct] at ha
            obtain ⟨rfl, rfl, _⟩ := ha
            exact hs ht)
      rw [h3] at this
      simpa only [World.log, h2] using this
    rcases h4 with ⟨h5, _⟩ | ⟨dec, w2, rg, w3, h5, h6, h7, h8, h9, h10, h11⟩
    · exfalso; apply hne; rw [← hh]; simp only [World.log, h5]
    · rw [h11 res rfl] at h9
      unfold Account.processGossipHeaders at h9
      simp only [bind_eq] at h9
      obtain ⟨dict, w4, h12, h13⟩ := run_bind_ok.mp h9
      rw [run_ofExcept] at h12
      have hw4 : w2 = w4 := congrArg Prod.snd h12
      subst hw4
      rcases (gossipLoop_changed h13).2 h with h14 | h14
      · exfalso; apply hne; rw [← hh]
        simpa only [World.log, h8, h10] using h14
      · exact h14

open Concrete in
/-- a message which changes the state of its sender and, by gossip, of a recipient, and of nobody else -/
example :
    let w := after [addA]
    let w' := after [addA, recvEnc (str!"1") (str!"100") [] [gossipField carol [7]]]
    w'.log (peerHead (str!"a") bob) ≠ w.log (peerHead (str!"a") bob) ∧
    w'.log (peerHead (str!"a") carol) ≠ w.log (peerHead (str!"a") carol) ∧
    w'.log (ownHead (str!"a")) = w.log (ownHead (str!"a")) := by decide +kernel

/-! ## C21: direct keys are learned from the one valid header of the sender -/

/-- a key is only found if exactly one header is valid for the sender, in a message which is no report and has at most one From -/
theorem parseOne_key {env : Env} {m : Msg} {r : ACResult} {k : Bytes} (h1 : parseOneAcHeaderFromMsg env m [fromAddr env m] = .ok r)
    (hk : r.keydata = some k) :
    m.contentType ≠ str!"multipart/report" ∧ (env.getaddresses (m.getAll (str!"From"))).length ≤ 1 ∧
    ∃ v, OnlyOne (fun v => ∃ r, ValidFor env (senderAddr env m) v r) (m.getAll (str!"Autocrypt")) v ∧
      ValidFor env (senderAddr env m) v r := by
  rcases parseOne_shape h1 with ⟨x, rfl⟩ | ⟨h7, h8, h9⟩
  · cases hk
  · refine ⟨h7, h8, ?_⟩
    obtain ⟨pre, v, post, h10, h11, h12, h13⟩ := List.filterMap_eq_cons_iff.mp h9
    have hval : ∀ x y, accepted env ([fromAddr env m].map fun x => parseEmailAddr env (some x)) x = some y ↔
        ValidFor env (senderAddr env m) x y := by
      intro x y
      rw [accepted_eq_some]
      simp only [List.map_cons, List.map_nil, List.cons_ne_nil, false_or, List.mem_singleton, ValidFor, senderAddr]
      constructor
      · rintro ⟨h1, h2, h3⟩
        rcases parseAcHeadervalue_shape h1 with ⟨z, hz⟩ | ⟨_, z, _, _, hz⟩
        · rw [hz] at h2; cases h2
        · rw [hz] at h3 ⊢; exact ⟨by rw [← hz]; exact h1, rfl, congrArg some h3⟩
      · rintro ⟨h1, h2, h3⟩; exact ⟨h1, h2, by rw [h3]; rfl⟩
    refine ⟨v, ⟨pre, post, h10, ⟨r, (hval _ _).mp h12⟩, ?_⟩, (hval _ _).mp h12⟩
    rintro x hx ⟨y, hy⟩
    rw [← hval] at hy
    rcases List.mem_append.mp hx with hx | hx
    · rw [h11 x hx] at hy; cases hy
    · rw [List.filterMap_eq_nil_iff.mp h13 x hx] at hy; cases hy

/-- C21: if processing a message adds an entry with a key to a peer's direct keys, then the peer is the sender,
the message is no report and has at most one From address, exactly one of its Autocrypt headers is valid for the
sender's address, and the key and the setting recorded are those of that header. -/
theorem C21_direct_key_origin (O : Oracle K) (env : Env) (w : World Store K) (n : Str) (m : Msg) (i nd : Bool) (h : Str)
    (e : MsgEntry) (he : .msg e ∈ (exec O (Account.processIncoming env n m i nd) w).2.log h) (hold : .msg e ∉ w.log h)
    (hkey : e.keydata ≠ []) :
    h = peerHead n (senderAddr env m) ∧ m.contentType ≠ str!"multipart/report" ∧
    (env.getaddresses (m.getAll (str!"From"))).length ≤ 1 ∧
    ∃ v r, OnlyOne (fun v => ∃ r, ValidFor env (senderAddr env m) v r) (m.getAll (str!"Autocrypt")) v ∧
      ValidFor env (senderAddr env m) v r ∧ r.keydata = some e.keydata ∧ r.pe = some e.pe.toStr := by
  obtain ⟨d, _, ⟨a, ha, had⟩ | ⟨_, _, dec, _, a, ha, had⟩⟩ := incoming_new O env w n m i nd h (.msg e) _ rfl he hold
  · cases a <;> simp only [Account.HeaderAct] at ha
    rename_i n' ad u
    obtain ⟨rfl, rfl, _, _, r, h1, h2, h3, _⟩ := ha
    simp only [Act.Adds] at had
    obtain ⟨h4, _, _, h5⟩ := had
    rcases h5 with ⟨h5, _⟩ | ⟨_, h5, h6, _⟩
    · exact absurd h5 hkey
    obtain ⟨h7, h8, v, h9, h10⟩ := parseOne_key h1 (by rw [← h2, h5])
    exact ⟨h4, h7, h8, v, r, h9, h10, by rw [← h2, h5], by rw [← h3, h6]⟩
  · obtain ⟨u, r, v, res, rfl, _⟩ := gossipAct_spec ha
    exact had.elim

open Concrete in
/-- an entry with a key is added, from the one valid header among two -/
example :
    let m := (mail bob (str!"1") (str!"100") [7]).add (str!"Autocrypt") (str!"addr=carol@x.org; keydata=AAAA")
    let e : MsgEntry := ⟨str!"1", sec 100, .nopreference, [7], str!"AAAAAAAAAAAA07"⟩
    .msg e ∈ (exec oracle (Account.processIncoming env (str!"a") m false false) (after [addA])).2.log (peerHead (str!"a") bob) ∧
    .msg e ∉ (after [addA]).log (peerHead (str!"a") bob) ∧ e.keydata ≠ [] := by decide +kernel

/-! ## C22: gossip is learned for recipients only, from the last valid header -/

/-- C22: if processing a message adds a gossip entry, then gpg decrypted the message, the peer is one of the To/Cc
addresses of the decrypted message, some gossip header is valid for literally that address, and the key recorded
is that of the last such header. -/
theorem C22_gossip_origin (O : Oracle K) (env : Env) (w : World Store K) (n : Str) (m : Msg) (i nd : Bool) (h : Str)
    (e : GossipEntry) (w' : World Store K) (hw' : w' = (exec O (Account.processIncoming env n m i nd) w).2)
    (he : .gossip e ∈ w'.log h) (hold : .gossip e ∉ w.log h) :
    ∃ dec r v res, PgpMime m ∧ nd = false ∧ DecryptedTo w w' m dec ∧
      r ∈ decRecipients env m dec ∧ h = peerHead n (address env (some r)) ∧
      LastOne (fun v => ∃ res, ValidFor env r v res) (innerOuter env m dec (str!"Autocrypt-Gossip")) v ∧
      ValidFor env r v res ∧ res.keydata = some e.keydata := by
  spec_mail
  obtain ⟨d, _, ⟨a, ha, had⟩ | ⟨h1, h2, dec, h3, a, ha, had⟩⟩ := incoming_new O env w n m i nd h (.gossip e) w' hw' he hold
  · cases a <;> simp only [Account.HeaderAct] at ha
    exact had.elim
  · obtain ⟨u, r, v, res, rfl, h4, h5, h6, h7, h8, h9⟩ := gossipAct_spec ha
    simp only [Act.Adds] at had
    obtain ⟨h10, _, _, h11, _⟩ := had
    exact ⟨dec, r, v, res, h2, h1, h3, h7, h10, h9, h8, by rw [← h6, h11]⟩

open Concrete in
/-- two gossip headers for the same recipient: the last one is recorded -/
example :
    let m := encMail (str!"1") (str!"100") [] [gossipField carol [7], gossipField carol [8]]
    let e : GossipEntry := ⟨str!"1", sec 100, [8], str!"AAAAAAAAAAAA08"⟩
    .gossip e ∈ (exec oracle (Account.processIncoming env (str!"a") m false false) (after [addA])).2.log (peerHead (str!"a") carol) ∧
    .gossip e ∉ (after [addA]).log (peerHead (str!"a") carol) := by decide +kernel

/-! ## C23: gossip headers outside of the encrypted part – they do count -/

open Concrete in
/-- C23 is false: an Autocrypt-Gossip header on the outside of an encrypted message, which anybody on the way can
add, gives Carol a key although the encrypted message holds no gossip; and it replaces the key gossiped inside the
encrypted message. (`decrypt_mime` adds the outer headers to the decrypted message, account.py:546, before the
gossip headers are read.) -/
theorem C23_refuted :
    (∃ m, Peer.publicKeydata (carols (after [addA, .processIncoming (str!"a") m false false])) = [6] ∧
      Peer.publicKeydata (carols (after [addA, .processIncoming (str!"a") (m.del (str!"Autocrypt-Gossip")) false false])) = []) ∧
    (∃ m, Peer.publicKeydata (carols (after [addA, .processIncoming (str!"a") m false false])) = [6] ∧
      Peer.publicKeydata (carols (after [addA, .processIncoming (str!"a") (m.del (str!"Autocrypt-Gossip")) false false])) = [7]) :=
  ⟨⟨encMail (str!"1") (str!"100") [gossipField carol [6]] [], by decide +kernel⟩,
   ⟨encMail (str!"1") (str!"100") [gossipField carol [6]] [gossipField carol [7]], by decide +kernel⟩⟩

/-- equal in everything that processing an unencrypted message looks at -/
theorem getAll_del (m : Msg) {a b : Str} (h : Py.lower a ≠ Py.lower b) : (m.del a).getAll b = m.getAll b := by
  simp only [Msg.getAll, Msg.del, Msg.headers, List.filter_filter]
  congr 1
  apply List.filter_congr
  intro x _
  simp only [Msg.nameEq]
  by_cases hx : Py.lower x.1 = Py.lower b
  · have : (Py.lower x.1 == Py.lower a) = false := by
      rw [hx]; simpa using Ne.symm h
    simp [hx, Ne.symm h]
  · simp [hx]

/-- C23, the part that holds: (1) when the message is not encrypted or is not to be decrypted, Autocrypt-Gossip headers
have no effect at all: the run is the same, with the same results and the same final state, if they are deleted;
(2) when there is no gossip header on the outside, everything learned by gossip comes from a gossip header of the
message that gpg decrypted. The full claim fails for headers on the outside of an encrypted message, see
`C23_refuted`. -/
theorem C23_no_outer_gossip_partial (O : Oracle K) (env : Env) (n : Str) (m : Msg) (i nd : Bool) (w : World Store K) :
    ((nd = true ∨ PlainMail m) →
      exec O (Account.processIncoming env n (m.del (str!"Autocrypt-Gossip")) i nd) w =
        exec O (Account.processIncoming env n m i nd) w) ∧
    (m.getAll (str!"Autocrypt-Gossip") = [] → ∀ h e w', w' = (exec O (Account.processIncoming env n m i nd) w).2 →
      .gossip e ∈ w'.log h → .gossip e ∉ w.log h →
      ∃ dec r v res, DecryptedTo w w' m dec ∧ v ∈ (env.messageFromBytes dec).getAll (str!"Autocrypt-Gossip") ∧
        ValidFor env r v res ∧ h = peerHead n (address env (some r)) ∧ res.keydata = some e.keydata) := by
  spec_mail
  constructor
  · intro hplain
    have g : ∀ name, Py.lower (str!"Autocrypt-Gossip") ≠ Py.lower name →
        (m.del (str!"Autocrypt-Gossip")).getAll name = m.getAll name := fun name h => getAll_del m h
    have hct : (m.del (str!"Autocrypt-Gossip")).contentType = m.contentType := by
      unfold Msg.contentType Msg.get; rw [g _ (by decide)]
    have hpl : (m.del (str!"Autocrypt-Gossip")).payload = m.payload := rfl
    have henc : isEncrypted (m.del (str!"Autocrypt-Gossip")) = isEncrypted m := by
      unfold isEncrypted; rw [hct, hpl]
    have hone : ∀ l, parseOneAcHeaderFromMsg env (m.del (str!"Autocrypt-Gossip")) l = parseOneAcHeaderFromMsg env m l := by
      intro l; unfold parseOneAcHeaderFromMsg; rw [hct, g _ (by decide), g _ (by decide)]
    have hid : messageId (m.del (str!"Autocrypt-Gossip")) = messageId m := by
      unfold messageId Msg.get; rw [g _ (by decide)]
    have hfrom : (m.del (str!"Autocrypt-Gossip")).get (str!"From") = m.get (str!"From") := by
      unfold Msg.get; rw [g _ (by decide)]
    have hdate : (m.del (str!"Autocrypt-Gossip")).get (str!"Date") = m.get (str!"Date") := by
      unfold Msg.get; rw [g _ (by decide)]
    unfold Account.processIncoming Account.processAutocryptHeader
    simp only [hfrom, hdate, hid, henc, hone]
    rcases hplain with rfl | hp
    · rfl
    · rw [hp]; cases nd <;> rfl
  · intro hno h e w' hw' he hold
    obtain ⟨dec, r, v, res, _, _, h1, _, h2, ⟨pre, post, h3, _⟩, h4, h5⟩ := C22_gossip_origin O env w n m i nd h e w' hw' he hold
    refine ⟨dec, r, v, res, h1, ?_, h4, h2, h5⟩
    rw [innerOuter, hno, List.append_nil] at h3
    rw [h3]; simp

open Concrete in
/-- an unencrypted message with a gossip header, and an encrypted one without gossip header on the outside -/
example : isEncrypted ((mail bob (str!"1") (str!"100") [7]).add (str!"Autocrypt-Gossip") (str!"addr=carol@x.org; keydata=AAAA"))
      = .ok false ∧
    (encMail (str!"1") (str!"100") [] [gossipField carol [7]]).getAll (str!"Autocrypt-Gossip") = [] :=
  ⟨rfl, by decide +kernel⟩

end Verif
