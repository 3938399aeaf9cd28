import Verif.Props.SameMail
import Verif.Props.Gossip

/-!
C15 for encrypted messages with gossip (`account.py:321-356, 410-432`, `states.py:201-214`): processed a second time, after whatever else was done in
between, they change no log.
-/
namespace Verif
open Mime

variable {K : Type}

/-- what gossip leaves behind, as long as no other message with its id is reported and the account is not removed -/
theorem settledGossip_history {O : Oracle K} {env : Env} {n a : Str} (hn : env.isalnum n = true) {u : Peer.GossipUpdate}
    {hist : List (Happening K)} (hrm : ∀ c ∈ callsMade hist, ¬ c.removes n) (hid : ∀ c ∈ callsMade hist, ¬ c.reports n u.msgId)
    {w : World Store K} (h : Peer.SettledGossip u (w.log (peerHead n a))) :
    Peer.SettledGossip u ((runHistory Store.impl O env hist w).log (peerHead n a)) := by
  refine peerLog_invariant O env hist n a hn hrm (Peer.SettledGossip u) ?_ ?_ w h
  · rintro es v ⟨c, hc, hrep⟩ (h | h)
    · left; have := Peer.acTimestamp_applyMsg es v; omega
    · right
      unfold Peer.isRecordedGossip at h ⊢
      rw [Peer.getGossipEntry_applyMsg]; exact h
  · rintro es v ⟨c, hc, hrep⟩ (h | h)
    · left; rw [Peer.acTimestamp_applyGossip]; exact h
    · right
      have hne : v.msgId ≠ u.msgId := by
        intro heq; rw [heq] at hrep; exact hid c hc hrep
      unfold Peer.isRecordedGossip at h ⊢
      rw [Peer.getGossipEntry_applyGossip hne]; exact h

theorem Peer.SettledGossip.applyGossip {u : Peer.GossipUpdate} {es : List Entry} (hk : Peer.noKey u.keydata = false) (h : Peer.SettledGossip u es) :
    Peer.applyGossip es u = es := by
  unfold Peer.applyGossip Peer.gossipEntry
  rcases h with h | h
  · rw [if_pos h]
  · rw [hk, h]; simp only [Bool.false_eq_true, if_false, if_true]; split <;> simp_all

/-- after the gossip of a message is recorded, recording it again would do nothing -/
theorem gossipLoop_settled {O : Oracle K} {env : Env} {n id : Str} {t : Time} {dict pr out : List (Str × ACResult)} {l : List Str}
    {w0 w w' : World Store K} (h : run Store.impl O (Account.gossipLoop env n dict t id pr l) w = (.ok out, w')) {hd : Str} {k : Bytes} {kh : Str}
    (hsame : ∀ r ∈ l, ∀ pah, dictGet dict r = some pah → hd = Account.peerHeadOf env n r → pah.keydata = some k)
    (hw0 : w0.trace <:+ w.trace) (hname : ∀ x, ImportedKey env w0 w' k x → x = kh)
    (hex : Peer.SettledGossip ⟨id, t, some k, some kh⟩ (w.log hd) ∨ ∃ r ∈ l, (dictGet dict r).isSome = true ∧ hd = Account.peerHeadOf env n r) :
    Peer.SettledGossip ⟨id, t, some k, some kh⟩ (w'.log hd) := by
  induction l generalizing pr w with
  | nil =>
    cases h
    rcases hex with h | ⟨r, hr, -⟩
    · exact h
    · cases hr
  | cons r0 rs ih =>
    have hs' := fun r hr => hsame r (List.mem_cons_of_mem _ hr)
    unfold Account.gossipLoop at h
    split at h
    · rename_i hp0
      refine ih h hs' hw0 ?_
      rcases hex with h | ⟨r, hr, h1, h2⟩
      · exact .inl h
      · rcases List.mem_cons.mp hr with rfl | hr
        · rw [hp0] at h1; cases h1
        · exact .inr ⟨r, hr, h1, h2⟩
    · rename_i pah0 hp0
      simp only [bind_eq] at h
      obtain ⟨⟨kh0, pah'⟩, w1, h1, h⟩ := run_bind_ok.mp h
      obtain ⟨⟨⟩, w2, h2, h⟩ := run_bind_ok.mp h
      obtain ⟨g1, g2, g3⟩ := gossip_recipient h1 h2
      have htr : w.trace <:+ w2.trace := (trace_le h1).trans (trace_le h2)
      refine ih h hs' (hw0.trans htr) ?_
      by_cases hr : hd = Account.peerHeadOf env n r0
      · left
        have hk := hsame r0 List.mem_cons_self pah0 hp0 hr
        subst hr
        by_cases ht : Peer.acTimestamp (w.log (Account.peerHeadOf env n r0)) ≤ t
        · obtain ⟨g, ⟨e1, e2, e3, e4⟩, hor⟩ := g3 k hk ht
          have e5 := hname _ (e4.extend hw0 (trace_le h))
          right
          unfold Peer.isRecordedGossip
          have hf : Peer.getGossipEntry (w2.log (Account.peerHeadOf env n r0)) id = some g := by
            rcases hor with hor | ⟨hor, hf⟩
            · rw [hor]
              simp [Peer.getGossipEntry, Peer.gossips, Entry.gossip?, e1]
            · rw [hor]; exact hf
          dsimp only
          rw [hf]
          simp [e2, e3, e5]
        · left
          rw [(g2 _).2]
          show t < _
          omega
      · rw [g1 _ hr]
        rcases hex with h | ⟨r, hm, h3, h4⟩
        · exact .inl h
        · rcases List.mem_cons.mp hm with rfl | hm
          · exact absurd h4 hr
          · exact .inr ⟨r, hm, h3, h4⟩

/-- recording gossip which is settled changes no log -/
theorem gossipLoop_again {O : Oracle K} {env : Env} {n id : Str} {t : Time} {dict pr out : List (Str × ACResult)} {l : List Str}
    {w0 w w' : World Store K} (h : run Store.impl O (Account.gossipLoop env n dict t id pr l) w = (.ok out, w')) {name : Bytes → Str}
    (hw0 : w0.trace <:+ w.trace) (hname : ∀ k x, ImportedKey env w0 w' k x → x = name k)
    (hset : ∀ r ∈ l, ∀ pah k, dictGet dict r = some pah → pah.keydata = some k →
      Peer.SettledGossip ⟨id, t, some k, some (name k)⟩ (w.log (Account.peerHeadOf env n r))) :
    ∀ hd, w'.log hd = w.log hd := by
  induction l generalizing pr w with
  | nil => cases h; exact fun _ => rfl
  | cons r0 rs ih =>
    unfold Account.gossipLoop at h
    split at h
    · exact ih h hw0 fun r hr => hset r (List.mem_cons_of_mem _ hr)
    · rename_i pah0 hp0
      simp only [bind_eq] at h
      obtain ⟨⟨kh0, pah'⟩, w1, h1, h⟩ := run_bind_ok.mp h
      obtain ⟨⟨⟩, w2, h2, h⟩ := run_bind_ok.mp h
      obtain ⟨g1, g2, g3⟩ := gossip_recipient h1 h2
      have htr : w.trace <:+ w2.trace := (trace_le h1).trans (trace_le h2)
      have hsame : ∀ hd, w2.log hd = w.log hd := by
        intro hd
        by_cases hr : hd = Account.peerHeadOf env n r0
        · subst hr
          have hs : w1.store = w.store := by
            have := (run_ro (O := O) (Account.importPah_ops permissive_readOnly env n pah0) w).1
            rw [exec, h1] at this; exact this
          have hlog : ∀ h, w1.log h = w.log h := fun h => by unfold World.log; rw [hs]
          have hget : w2.log (Account.peerHeadOf env n r0) = Peer.applyGossip (w.log (Account.peerHeadOf env n r0)) ⟨id, t, pah'.keydata, kh0⟩ := by
            have := Peer.get_updateFromGossip O (Account.peerHeadOf env n r0) (Account.peerHeadOf env n r0) ⟨id, t, pah'.keydata, kh0⟩ w1
            rw [exec, h2, hs, if_pos rfl] at this
            exact this
          by_cases ht : Peer.acTimestamp (w.log (Account.peerHeadOf env n r0)) ≤ t
          · have hret := (Account.importPah_returns env n pah0).of_run h1
            dsimp only at hret
            cases hk : pah0.keydata with
            | none =>
              exfalso
              rw [hret.1, hk] at h2
              have h2' := h2
              rw [show run Store.impl O _ w1 = exec O _ w1 from rfl, Peer.exec_updateFromGossip] at h2'
              unfold Peer.gossipEntry at h2'
              rw [if_neg (by have := hlog (Account.peerHeadOf env n r0); unfold World.log at this ht; rw [this]; show ¬ t < _; omega), if_pos (show Peer.noKey (none : Option Bytes) = true from rfl)] at h2'
              cases h2'
            | some k =>
              obtain ⟨g, ⟨e1, e2, e3, e4⟩, hor⟩ := g3 k hk ht
              have hst := hset r0 List.mem_cons_self pah0 k hp0 hk
              have e5 := hname k _ (e4.extend hw0 (trace_le h))
              rcases hor with hor | ⟨hor, -⟩
              · exfalso
                rcases hst with hst | hst
                · have : t < Peer.acTimestamp (w.log (Account.peerHeadOf env n r0)) := hst
                  omega
                · rw [hor, hret.1, hk] at hget
                  have hg := Peer.applyGossip_cases (w.log (Account.peerHeadOf env n r0)) ⟨id, t, some k, kh0⟩
                  rcases hg with hg | ⟨e, he, hg⟩
                  · rw [hg] at hget
                    exact absurd (congrArg List.length hget) (by simp)
                  · obtain ⟨_, f2, f3, f4, f5, _⟩ := Peer.gossipEntry_some he
                    rw [hg] at hget
                    cases (List.cons.inj hget).1
                    dsimp only at f5
                    rw [f5, e5] at he
                    unfold Peer.gossipEntry at he
                    rw [if_neg (by show ¬ t < _; omega)] at he
                    split at he
                    · cases he
                    · cases he
              · exact hor
          · rw [hget]
            unfold Peer.applyGossip Peer.gossipEntry
            rw [if_pos (by show t < _; omega)]
        · exact g1 _ hr
      intro hd
      rw [ih h (hw0.trans htr) (fun r hr pah k hp hk => by rw [hsame]; exact hset r (List.mem_cons_of_mem _ hr) pah k hp hk) hd, hsame]

/-- the steps of processing an encrypted message -/
theorem incoming_parts {O : Oracle K} {env : Env} {n : Str} {m : Msg} {i : Bool} {w w' : World Store K} {res : Account.IncomingResult}
    (h : exec O (Account.processIncoming env n m i false) w = (.ok (some res), w')) (he : PgpMime m)
    {t : Time} (ht : EffectiveDate env w m t) :
    ∃ dec w1 w2 w3 dict res1, exec O (Account.processIncoming env n m false true) w = (.ok (some res1), w1) ∧ res1.pah = res.pah ∧
      DecryptedTo w w' m dec ∧ w2.store = w1.store ∧ w.trace <:+ w1.trace ∧ w1.trace <:+ w2.trace ∧ w2.trace <:+ w3.trace ∧ w3.trace <:+ w'.trace ∧
      w'.store = w3.store ∧ collectGossip env [] (innerOuter env m dec (str!"Autocrypt-Gossip")) = .ok dict ∧
      run Store.impl O (Account.gossipLoop env n dict t (mailId m) [] (decRecipients env m dec)) w2 = (.ok res.gossip, w3) := by
  spec_mail
  simp only [exec, Account.run_processIncoming] at h ⊢
  cases hd : parseDateToFloat env (m.get (str!"Date")) with
  | error e => rw [hd] at h; cases h
  | ok d =>
  rw [hd] at h
  dsimp only at h ⊢
  have hdate : EffectiveDate env w m (min d (w.clock w.tick)) := ⟨d, parseDateToFloat_ok.mp hd, rfl⟩
  cases hdate.unique ht
  generalize hdef : min d (w.clock w.tick) = t at h hdate ⊢
  rcases Account.incomingRest_cases O env n m i false t { w with tick := w.tick + 1 } with hn | ⟨rh, w1, hh, hrest⟩
  · simp only [exec] at hn; rw [hn] at h; cases h
  have htw : w.trace <:+ w1.trace := trace_le (w := { w with tick := w.tick + 1 }) hh
  rcases hrest with ⟨r', w'', hr, hs, _, hne, hres⟩ | ⟨r', w'', dr, w2, rg, w3, pah, hr, hrh, hnd, hie, hdec, hgo, hs, hst, hne, hres⟩
  · simp only [exec] at hr; rw [hr] at h; cases h
    rcases (hres res rfl).2.2 with h' | h'
    · cases h'
    · rw [he] at h'; cases h'
  simp only [exec] at hr; rw [hr] at h; cases h
  obtain ⟨dec, hdm, hdt⟩ := decryptMime_ok hdec
  have ht2 : w1.trace <:+ w2.trace := trace_le hdec
  have ht3 : w2.trace <:+ w3.trace := trace_le hgo
  have hs2 : w2.store = w1.store := by
    have := (run_ro (O := O) (Account.decryptMime_ops permissive_readOnly env n m) w1).1
    rw [hdec] at this; exact this
  have hpah := (hres res rfl).1
  rw [(hres res rfl).2] at hgo
  unfold Account.processGossipHeaders at hgo
  simp only [bind_eq, exec] at hgo
  obtain ⟨dict, w2', i1, i2⟩ := run_bind_ok.mp hgo
  rw [run_ofExcept] at i1
  have hdict : getGossipHeadersFromMsg env dr.decMsg = .ok dict := congrArg Prod.fst i1
  have hw2 : w2 = w2' := congrArg Prod.snd i1
  subst hw2
  have hgh : dr.decMsg.getAll (str!"Autocrypt-Gossip") = innerOuter env m dec (str!"Autocrypt-Gossip") := by
    rw [hdm]; exact getAll_transfer _ _ (by decide)
  rw [getGossipHeadersFromMsg, hgh] at hdict
  have htgt : getTargetEmailadr env dr.decMsg = decRecipients env m dec := by
    rw [hdm, getTargetEmailadr, getAll_transfer _ _ (by decide), getAll_transfer _ _ (by decide), decRecipients]
    simp only [innerOuter]
    rw [getAll_congr _ (show Py.lower (str!"To") = Py.lower (str!"to") by decide),
      getAll_congr _ (show Py.lower (str!"Cc") = Py.lower (str!"cc") by decide),
      getAll_congr m (show Py.lower (str!"To") = Py.lower (str!"to") by decide),
      getAll_congr m (show Py.lower (str!"Cc") = Py.lower (str!"cc") by decide)]
  rw [htgt] at i2
  rw [hpah] at hh
  refine ⟨dec, w1, w2, w3, dict, ⟨messageId m, t,
    Account.peerHeadOf env n (parseEmailAddr env (m.get (str!"From"))), n, res.pah, []⟩, ?_, rfl, hdt.mono htw (ht3.trans hst), hs2, htw, ht2, ht3, hst, hs, hdict, i2⟩
  unfold Account.incomingRest
  simp only [bind_eq, pure_eq, Bool.false_eq_true, if_false, if_true, run_bind, run_pure]
  simp only [exec] at hh
  rw [hh]

/-- C15 for encrypted messages with gossip: an encrypted message which carries a key and is not from the future was processed without error; then
anything was done except removing the account and reporting another message with the same Message-Id; then the message is processed
again without error. If gpg names the same key for the same data and decrypts the message to the same text both times, and gossip headers of
different recipients which are about the same peer carry the same key, then no log changes at all.

(Headers give addresses in lower case and are compared with recipients literally, so that different recipients with headers are the same peer only
if `parseaddr` changes an address which it gave itself.)

Missing: `C15_mail_partial` says what is false of messages in general. -/
theorem C15_encrypted_partial {O : Oracle K} {env : Env} {n : Str} (hn : env.isalnum n = true) {m : Msg} {k : Bytes} {pe : PE}
    (hc : CarriesKey env m (senderAddr env m) k pe) (he : PgpMime m)
    {i i' : Bool} {w w1 w2 w3 : World Store K} {res res' : Account.IncomingResult}
    (h1 : exec O (Account.processIncoming env n m i false) w = (.ok (some res), w1)) (herr : res.pah.error = none)
    {hist : List (Happening K)} (hrm : ∀ c ∈ callsMade hist, ¬ c.removes n) (hid : ∀ c ∈ callsMade hist, ¬ c.reports n (mailId m))
    (hw2 : w2 = runHistory Store.impl O env hist w1)
    (h2 : exec O (Account.processIncoming env n m i' false) w2 = (.ok (some res'), w3)) (herr' : res'.pah.error = none)
    (hpast : ∀ d, DateOf env m d → d ≤ w.clock w.tick ∧ d ≤ w2.clock w2.tick)
    {name : Bytes → Str} (hname : ∀ k kh, ImportedKey env w w1 k kh ∨ ImportedKey env w2 w3 k kh → kh = name k)
    (hdec : ∀ dec dec', DecryptedTo w w1 m dec → DecryptedTo w2 w3 m dec' → dec' = dec)
    (hone : ∀ dec, DecryptedTo w w1 m dec → ∀ r ∈ decRecipients env m dec, ∀ r' ∈ decRecipients env m dec,
      address env (some r) = address env (some r') → r ≠ r' → ∀ v ∈ innerOuter env m dec (str!"Autocrypt-Gossip"),
      ∀ v' ∈ innerOuter env m dec (str!"Autocrypt-Gossip"), ∀ p p', ValidFor env r v p → ValidFor env r' v' p' → p.keydata = p'.keydata) :
    ∀ hd, w3.log hd = w2.log hd := by
  have hd : ∃ d, DateOf env m d := by
    have := h1
    simp only [exec, Account.run_processIncoming] at this
    cases hd : parseDateToFloat env (m.get (str!"Date")) with
    | error e => rw [hd] at this; cases this
    | ok d => exact ⟨d, parseDateToFloat_ok.mp hd⟩
  obtain ⟨d, hd⟩ := hd
  obtain ⟨p1, p2⟩ := hpast d hd
  have t1 : EffectiveDate env w m d := ⟨d, hd, (Int.min_eq_left p1).symm⟩
  have t2 : EffectiveDate env w2 m d := ⟨d, hd, (Int.min_eq_left p2).symm⟩
  obtain ⟨dec, a1, a2, a3, dict, ra, ea, epa, da, sa, ta0, ta1, ta2, ta3, sa3, ca, ga⟩ := incoming_parts h1 he t1
  obtain ⟨dec', b1, b2, b3, dict', rb, eb, epb, db, sb, tb0, tb1, tb2, tb3, sb3, cb, gb⟩ := incoming_parts h2 he t2
  cases hdec _ _ da db
  rw [ca] at cb
  cases cb
  have hlogb : ∀ y, b1.log y = w2.log y := by
    refine C15_mail_partial hn hc h1 herr hrm hid hw2 eb (by rw [epb]; exact herr') (.inl rfl) hpast fun kh kh' i1 i2 => ?_
    rw [hname _ _ (.inl i1), hname _ _ (.inr (i2.extend List.suffix_rfl (tb1.trans (tb2.trans tb3))))]
  have hlogb2 : ∀ y, b2.log y = w2.log y := fun y => by rw [← hlogb y]; unfold World.log; rw [sb]
  have hvalid : ∀ r pah, dictGet dict r = some pah → ∃ v ∈ innerOuter env m dec (str!"Autocrypt-Gossip"), ValidFor env r v pah := by
    intro r pah hp
    rcases collectGossip_get ca r pah hp with ⟨e, -⟩ | ⟨v, ⟨pre, post, e, -⟩, hv⟩
    · cases e
    · exact ⟨v, by rw [e]; simp, hv⟩
  have hset : ∀ r ∈ decRecipients env m dec, ∀ pah k, dictGet dict r = some pah → pah.keydata = some k →
      Peer.SettledGossip ⟨mailId m, d, some k, some (name k)⟩ (b2.log (Account.peerHeadOf env n r)) := by
    intro r hr pah k hp hk
    rw [hlogb2, hw2]
    refine settledGossip_history (a := address env (some r)) hn hrm hid ?_
    have : w1.log (Account.peerHeadOf env n r) = a3.log (Account.peerHeadOf env n r) := by unfold World.log; rw [sa3]
    show Peer.SettledGossip _ (w1.log (Account.peerHeadOf env n r))
    rw [this]
    refine gossipLoop_settled (w0 := w) ga ?_ (ta0.trans ta1) (fun x hx => hname _ _ (.inl (hx.extend List.suffix_rfl ta3)))
      (.inr ⟨r, hr, by rw [hp]; rfl, rfl⟩)
    intro r' hr' pah' hp' heq
    by_cases hrr : r = r'
    · subst hrr
      rw [hp] at hp'; cases hp'; exact hk
    · obtain ⟨v, hv, hvf⟩ := hvalid r pah hp
      obtain ⟨v', hv', hvf'⟩ := hvalid r' pah' hp'
      rw [← hk]
      exact (hone dec da r hr r' hr' (peerHead_inj_addr.mp heq) hrr v hv v' hv' _ _ hvf hvf').symm
  intro y
  have := gossipLoop_again (w0 := w2) gb (tb0.trans tb1) (fun k x hx => hname _ _ (.inr (hx.extend List.suffix_rfl tb3))) hset y
  rw [← hlogb2, ← this]
  unfold World.log; rw [sb3]

/-! ## An example -/

/-- the data which gpg imports and the key which it names -/
def importedNames (env : Env) : Event → List (Bytes × Str)
  | ⟨.gpg argv (some d), .ok out⟩ =>
    if str!"--import" ∈ argv then (((env.utf8Decode out.err).toOption.bind BinGPG.searchKey).map (d, ·)).toList else []
  | _ => []

/-- what gpg decrypts -/
def decryptedTexts : Event → List Bytes
  | ⟨.gpg argv _, .ok out⟩ => if str!"--decrypt" ∈ argv then [out.out] else []
  | _ => []

/-- the events between two worlds -/
def newEvents (w w' : World Store K) : List Event := w'.trace.take (w'.trace.length - w.trace.length)

theorem ImportedKey.name {env : Env} {w w' : World Store K} {k : Bytes} {kh : Str} {name : Bytes → Str} (h : ImportedKey env w w' k kh)
    (hx : ∀ p ∈ (newEvents w w').flatMap (importedNames env), p.2 = name p.1 ∧ 8 < p.2.length) : kh = name k := by
  obtain ⟨new, argv, out, text, y, h1, h2, h6, -, h3, h4, h5⟩ := h
  have : (k, y) ∈ (newEvents w w').flatMap (importedNames env) := by
    rw [newEvents, h1]
    simp only [List.length_append, Nat.add_sub_cancel, List.take_left']
    refine List.mem_flatMap.mpr ⟨_, h2, ?_⟩
    simp [importedNames, Event.gpg, h3, h6, Except.toOption, (C60_search _ _).mpr h4]
  obtain ⟨e1, e2⟩ := hx _ this
  rcases h5 with ⟨-, rfl⟩ | ⟨h5, -⟩
  · exact e1
  · simp only at e2; omega

theorem DecryptedTo.text {w w' : World Store K} {m : Msg} {dec x : Bytes} (h : DecryptedTo w w' m dec)
    (hx : ∀ y ∈ (newEvents w w').flatMap decryptedTexts, y = x) : dec = x := by
  obtain ⟨new, argv, enc, out, h1, h2, h3, -, -, h4⟩ := h
  refine hx dec ?_
  rw [newEvents, h1]
  simp only [List.length_append, Nat.add_sub_cancel, List.take_left']
  exact List.mem_flatMap.mpr ⟨_, h2, by simp [decryptedTexts, h3, h4]⟩

section
open Concrete

/-- an encrypted mail of Bob with Bob's key, which gossips Carol's -/
def bobEnc : Msg := encMail (str!"3") (str!"300") [(str!"Autocrypt", str!"addr=bob@x.org; keydata=" ++ Py.b64encode [5])] [gossipField carol [7]]

/-- what is done before it is processed again -/
def bobBetween : List (Happening Unit) := [.call (.processIncoming (str!"a") bob1 false false)]

def encW1 : World Store Unit := (exec oracle (Account.processIncoming Concrete.env (str!"a") bobEnc false false) (device [])).2
def encW2 : World Store Unit := runHistory Store.impl oracle Concrete.env bobBetween encW1
def encW3 : World Store Unit := (exec oracle (Account.processIncoming Concrete.env (str!"a") bobEnc false false) encW2).2

/-- the decrypted text -/
def encText : Bytes := flat (.mk [gossipField carol [7]] (.text (str!"hi")))

/-- the names which gpg gives to keys -/
def encName (k : Bytes) : Str := if k = [5] then str!"AAAAAAAAAAAA05" else str!"AAAAAAAAAAAA07"

/-- gossip about Carol was recorded by the first run, and the hypotheses of `C15_encrypted_partial` hold of the second one -/
example : (∃ g, .gossip g ∈ encW1.log (peerHead (str!"a") carol)) ∧ PgpMime bobEnc ∧
    CarriesKey Concrete.env bobEnc (senderAddr Concrete.env bobEnc) [5] .nopreference ∧
    (∃ res res', exec oracle (Account.processIncoming Concrete.env (str!"a") bobEnc false false) (device []) = (.ok (some res), encW1) ∧
      res.pah.error = none ∧
      exec oracle (Account.processIncoming Concrete.env (str!"a") bobEnc false false) encW2 = (.ok (some res'), encW3) ∧ res'.pah.error = none) ∧
    (∀ k kh, ImportedKey Concrete.env (device []) encW1 k kh ∨ ImportedKey Concrete.env encW2 encW3 k kh → kh = encName k) ∧
    (∀ dec dec', DecryptedTo (device []) encW1 bobEnc dec → DecryptedTo encW2 encW3 bobEnc dec' → dec' = dec) ∧
    (∀ dec, DecryptedTo (device []) encW1 bobEnc dec → ∀ r ∈ decRecipients Concrete.env bobEnc dec, ∀ r' ∈ decRecipients Concrete.env bobEnc dec,
      address Concrete.env (some r) = address Concrete.env (some r') → r = r') ∧
    (∀ c ∈ callsMade bobBetween, ¬ c.removes (str!"a") ∧ ¬ c.reports (str!"a") (mailId bobEnc)) := by
  have hx : ∀ {w : World Store Unit}, ((exec oracle (Account.processIncoming Concrete.env (str!"a") bobEnc false false) w).1.toOption.map
      (·.map (·.pah.error)) = some (some none)) → ∃ res, exec oracle (Account.processIncoming Concrete.env (str!"a") bobEnc false false) w =
      (.ok (some res), (exec oracle (Account.processIncoming Concrete.env (str!"a") bobEnc false false) w).2) ∧ res.pah.error = none := by
    intro w h1
    cases hx : (exec oracle (Account.processIncoming Concrete.env (str!"a") bobEnc false false) w).1 with
    | error e => rw [hx] at h1; cases h1
    | ok o =>
      cases o with
      | none => rw [hx] at h1; cases h1
      | some res => rw [hx] at h1; exact ⟨res, Prod.ext hx rfl, by simpa [Except.toOption] using h1⟩
  have hd : ∀ dec, DecryptedTo (device []) encW1 bobEnc dec → dec = encText := fun dec h => h.text (by decide +kernel)
  refine ⟨⟨⟨str!"3", sec 300, [7], str!"AAAAAAAAAAAA07"⟩, by decide +kernel⟩, by rw [pgpMime_iff]; decide +kernel, ?_, ?_, ?_, ?_, ?_, ?_⟩
  · exact carriesKey_of_parse (r := _) rfl (by decide +kernel) (by decide +kernel) (by decide +kernel)
  · obtain ⟨res, h1, h2⟩ := hx (w := device []) (by decide +kernel)
    obtain ⟨res', h3, h4⟩ := hx (w := encW2) (by decide +kernel)
    exact ⟨res, res', h1, h2, h3, h4⟩
  · rintro k kh (h | h)
    · exact h.name (by decide +kernel)
    · exact h.name (by decide +kernel)
  · intro dec dec' h1 h2
    rw [hd _ h1]
    exact h2.text (by decide +kernel)
  · intro dec h
    rw [hd _ h]
    decide +kernel
  · intro c hc
    obtain ⟨h, hm, hc⟩ := hc
    cases List.mem_singleton.mp hm
    cases hc
    exact ⟨by simp [ApiCall.removes], by simp only [ApiCall.reports]; decide +kernel⟩

end

end Verif
