import Verif.Props.CommandChanges
/-!
# Keys and state of the bot: C90, C91
-/
namespace Verif
open Mime

variable {K : Type}

/-! ## Specification -/

/-- `v` is the Autocrypt header value of the account `a` for the address `d`, with the key which gpg exported between `w` and `w'` -/
def HeaderOf (env : Env) (w w' : World Store K) (a d v : Str) : Prop :=
  ∃ kd kh c, Exported w w' kh kd ∧ OwnKey w' a kh ∧ OwnConf w' a c ∧ makeAcHeaderValue env (some d) kd c.pe.toStr = .ok v

/-- between `w` and `w'` gpg encrypted the report to the keys of the addresses, with their gossip, signed it with the key of `a`, and `x` is the result -/
def EncryptedFor (env : Env) (w w' : World Store K) (body : Str) (a : Str) (as : List Str) (x : Msg) : Prop :=
  ∃ new khs own argv data out s kh r2k p p', w'.trace = new ++ w.trace ∧ List.Forall₂ (RecipientKey env w' a) as khs ∧ OwnKey w' a own ∧
    EncryptArgs khs own argv ∧ Event.gpg argv (some data) (.ok out) ∈ new ∧ out.ret = 0 ∧
    Event.hook s kh r2k p (.ok p') ∈ new ∧ env.msg2bytes p' = .ok data ∧ p.payload = .text body ∧
    (∃ cs gs, p.headers = cs ++ gs ∧ (∀ h ∈ cs, ContentName h.1) ∧ List.Forall₂ (GossipField env w' a) (knownAddrs env w' a as) gs) ∧
    x.payload = .multi [
      .mk [(str!"Content-Type", str!"application/pgp-encrypted")] (.text (str!"version: 1")),
      .mk [(str!"Content-Type", str!"application/octet-stream")] (.text (Py.asciiDecode out.out))]

/-! ## Lemmas -/

theorem Replied.of_events {w w' : World Store K} {P : Event → Prop} (h : Events P w w') {x : Msg} (hx : Replied w w' x) : ∃ ev, P ev ∧ Delivers ev x := by
  obtain ⟨new, ev, hn, hev, hd⟩ := hx
  exact ⟨ev, h.all hn ev hev, hd⟩

theorem not_replied_rfl {w : World Store K} {x : Msg} : ¬ Replied w w x := fun h => by
  obtain ⟨_, h, _⟩ := h.of_events (P := fun _ => False) .rfl'
  exact h

theorem replied_bind {O : Oracle K} {α β : Type} {p : Prog α} {f : α → Prog β} (hp : p.AllOps Op.silent) {w w' : World Store K} {r : Except Exc β}
    (h : run Store.impl O (p.bind f) w = (r, w')) {x : Msg} (hx : Replied w w' x) :
    ∃ a w1, run Store.impl O p w = (.ok a, w1) ∧ run Store.impl O (f a) w1 = (r, w') ∧ Replied w1 w' x := by
  have he := silent_events (O := O) hp w fun _ => False
  rw [run_bind] at h
  rcases h1 : run Store.impl O p w with ⟨e | a, w1⟩ <;> rw [h1] at h he <;> dsimp only at h he
  · cases h
    obtain ⟨ev, h2, h3⟩ := hx.of_events he
    exact (h2 x h3).elim
  · refine ⟨a, w1, rfl, h, ?_⟩
    obtain ⟨new, ev, hn, hev, hd⟩ := hx
    obtain ⟨n1, e1, e2⟩ := he
    obtain ⟨n2, e3⟩ := trace_le h
    have : new = n2 ++ n1 := List.append_cancel_right (bs := w.trace) (by rw [← hn, ← e3, e1, List.append_assoc])
    rw [this, List.mem_append] at hev
    rcases hev with hev | hev
    · exact ⟨n2, ev, e3.symm, hev, hd⟩
    · exact (e2 ev hev x hd).elim

theorem replied_ofExcept {O : Oracle K} {α β : Type} {x : Except Exc α} {f : α → Prog β} {w w' : World Store K} {r : Except Exc β}
    (h : run Store.impl O ((Prog.ofExcept x).bind f) w = (r, w')) {y : Msg} (hx : Replied w w' y) :
    ∃ a, x = .ok a ∧ run Store.impl O (f a) w = (r, w') := by
  obtain ⟨a, w1, h1, h2, -⟩ := replied_bind (.ofExcept _) h hx
  rw [run_ofExcept] at h1
  cases h1
  exact ⟨a, rfl, h2⟩

/-- how a delivered reply came about: what each step gave -/
structure SentBy (O : Oracle K) (env : Env) (be : BotEnv) (v : BotStamp) (m : Msg) (w w' : World Store K) (x : Msg) (d a f : Str) (r : Rec.Rec)
    (res : Account.IncomingResult) (told : Report.Told) (keys : Option (List BinGPG.KeyInfo)) (kh : Str)
    (w1 w2 w3 w4 w5 w6 w7 : World Store K) : Prop where
  from_ : m.get (str!"From") = some f
  lookup : run Store.impl O (Manager.getAccountFromEmailadr env d false) w = (.ok (some a), w1)
  incoming : run Store.impl O (Account.processIncoming env a m false false) w1 = (.ok (some res), w2)
  processed : run Store.impl O (Report.processed env be.rep m res) w2 = (.ok told, w3)
  keysOf : run Store.impl O (Bot.keysOf env a m) w3 = (.ok keys, w4)
  own : run Store.impl O (Account.ownKeyhandle a) w4 = (.ok kh, w5)
  rec_ : run Store.impl O (Account.recommendation env a [f] (m.contentType == str!"multipart/encrypted") none) w5 = (.ok r, w6)
  made : run Store.impl O (Bot.makeReply env be ⟨v, be.rep.encodeText (Report.text (Report.script be.rep m d res.account told keys kh r))⟩ a d f
    (r == Rec.Rec.encrypt) m) w6 = (.ok x, w7)
  rest : w7.trace <:+ w'.trace
  store : w'.store = w2.store

theorem reply_sent {O : Oracle K} {env : Env} {be : BotEnv} {v : BotStamp} {smtp fallback : Option Str} {m : Msg} {w w' : World Store K}
    {res : Except Exc Unit} (h : exec O (Bot.reply env be v smtp fallback m) w = (res, w')) {x : Msg} (hx : Replied w w' x) :
    ∃ d a f r pr told keys kh w1 w2 w3 w4 w5 w6 w7, getDeliveredTo env m fallback = .ok d ∧
      SentBy O env be v m w w' x d a f r pr told keys kh w1 w2 w3 w4 w5 w6 w7 := by
  have hro := fun d a res w1 => (run_ro (O := O) (answer_ops permissive_readOnly env be v smtp d a m res (fun _ => trivial) (fun _ => trivial) (fun _ _ _ => trivial)) w1).1
  simp only [exec, Bot.reply, bind_eq] at h
  obtain ⟨d, hd, h⟩ := replied_ofExcept h hx
  obtain ⟨o, w1, h1, h, hx⟩ := replied_bind (lookup_silent env d false) h hx
  cases o with
  | none => cases h; exact (not_replied_rfl hx).elim
  | some a =>
  dsimp only at h
  obtain ⟨pr, w2, h2, h, hx⟩ := replied_bind (processIncoming_silent env a m false false) h hx
  cases pr with
  | none => cases h; exact (not_replied_rfl hx).elim
  | some pr =>
  dsimp only at h
  have hst : w'.store = w2.store := by have := hro d a pr w2; rw [exec, h] at this; exact this
  simp only [Bot.answer, bind_eq, pure_eq] at h
  obtain ⟨told, w3, h3, h, hx⟩ := replied_bind (processed_ops permissive_silent env be.rep m pr) h hx
  obtain ⟨keys, w4, h4, h, hx⟩ := replied_bind (keysOf_ops permissive_silent env a m) h hx
  obtain ⟨kh, w5, h5, h, hx⟩ := replied_bind (Account.ownKeyhandle_ops permissive_silent a) h hx
  obtain ⟨o, w6, h6, h, hx⟩ := replied_bind (recFor_ops permissive_silent env a m) h hx
  split at h
  · cases h; exact (not_replied_rfl hx).elim
  split at h
  · cases h; exact (not_replied_rfl hx).elim
  cases o with
  | none =>
    dsimp only at h
    unfold Bot.replyNoFrom at h; simp only [bind_eq] at h
    obtain ⟨_, w5, _, h, hx⟩ := replied_bind (.ofExcept _) h hx
    obtain ⟨_, w6, _, h, hx⟩ := replied_bind (Account.makeAcHeader_ops permissive_silent env a _) h hx
    cases h; exact (not_replied_rfl hx).elim
  | some fr =>
    obtain ⟨f, r⟩ := fr
    dsimp only at h
    obtain ⟨y, w7, h7, h, hx⟩ := replied_bind (makeReply_ops permissive_silent env be _ a d f _ m) h hx
    have hdel := deliver_course O env smtp y w7
    rw [h] at hdel
    obtain ⟨ev, k1, k2⟩ := hx.of_events hdel
    obtain rfl := k1 x k2
    unfold Bot.recFor at h6
    simp only [bind_eq, pure_eq] at h6
    rcases hf : m.get (str!"From") with _ | f' <;> rw [hf] at h6 <;> dsimp only at h6
    · cases h6
    · obtain ⟨r', w8, h8, h9⟩ := run_bind_ok.mp h6
      cases h9
      exact ⟨d, a, f, r, pr, told, keys, kh, w1, w2, w3, w4, w5, w6, w7, hd, hf, h1, h2, h3, h4, h5, h8, h7, trace_le h, hst⟩

theorem SentBy.store6 {O : Oracle K} {env : Env} {be : BotEnv} {v : BotStamp} {m : Msg} {w w' : World Store K} {x : Msg} {d a f : Str} {r : Rec.Rec}
    {res : Account.IncomingResult} {told : Report.Told} {keys : Option (List BinGPG.KeyInfo)} {kh : Str} {w1 w2 w3 w4 w5 w6 w7 : World Store K}
    (h : SentBy O env be v m w w' x d a f r res told keys kh w1 w2 w3 w4 w5 w6 w7) :
    w3.store = w2.store ∧ w4.store = w2.store ∧ w5.store = w2.store ∧ w6.store = w2.store ∧ w.trace <:+ w1.trace ∧ w2.trace <:+ w3.trace ∧
      w2.trace <:+ w6.trace ∧ w.trace <:+ w6.trace := by
  have s3 := ro_store (processed_ops permissive_readOnly env be.rep m res) h.processed
  have s4 := (ro_store (keysOf_ops permissive_readOnly env a m) h.keysOf).trans s3
  have s5 := (ro_store (Account.ownKeyhandle_ops permissive_readOnly a) h.own).trans s4
  have s6 := (ro_store (Account.recommendation_ops permissive_readOnly env a _ _ _) h.rec_).trans s5
  have t6 : w2.trace <:+ w6.trace := (((trace_le h.processed).trans (trace_le h.keysOf)).trans (trace_le h.own)).trans (trace_le h.rec_)
  exact ⟨s3, s4, s5, s6, trace_le h.lookup, trace_le h.processed, t6, ((trace_le h.lookup).trans (trace_le h.incoming)).trans t6⟩

theorem makeAcHeaderValue_ne {env : Env} {a : Option Str} {kd : Bytes} {pe v : Str} (h : makeAcHeaderValue env a kd pe = .ok v) : v ≠ [] := by
  unfold makeAcHeaderValue at h
  split at h
  · cases h
  · split at h
    · cases h
    · cases h
      split <;> simp [Py.join]

/-! ## C90: keys in the reply -/

/-- the parts of a reply, where `r` is the recommendation -/
theorem SentBy.parts {O : Oracle K} {env : Env} {be : BotEnv} {v : BotStamp} {m : Msg} {w w' : World Store K} {x : Msg} {d a f : Str} {r : Rec.Rec}
    {pr : Account.IncomingResult} {told : Report.Told} {keys : Option (List BinGPG.KeyInfo)} {kh0 : Str} {w1 w2 u3 u4 u5 w3 w4 : World Store K}
    (hw : Reachable O env w) (hset : SetOrder be) (hs : SentBy O env be v m w w' x d a f r pr told keys kh0 w1 w2 u3 u4 u5 w3 w4) :
    ∃ ac cc, FirstAccount env w d a ∧ x.getAll (str!"Autocrypt") = [ac] ∧ HeaderOf env w w' a d ac ∧ (∀ s, s ∈ cc ↔ OtherRecipient be m d s) ∧
      (isEncrypted x = .ok false ∧ r ≠ .encrypt ∧
        x.payload = .text (be.rep.encodeText (Report.text (Report.script be.rep m d pr.account told keys kh0 r))) ∨
       isEncrypted x = .ok true ∧ r = .encrypt ∧
        EncryptedFor env w w' (be.rep.encodeText (Report.text (Report.script be.rep m d pr.account told keys kh0 r))) a
          ((f :: cc).map fun a => parseEmailAddr env (some a)) x) := by
  obtain ⟨-, -, -, s3, -, -, t3, lo⟩ := hs.store6
  have h1 := hs.lookup
  have hm := hs.made
  have t4 := hs.rest
  have hst := hs.store
  clear hs
  have hfa := (C49_sound hw d false (some a) (by rw [exec, h1])).1 a rfl
  generalize Report.text (Report.script be.rep m d pr.account told keys kh0 r) = report at hm ⊢
  obtain ⟨vv, hvv, hvb⟩ : ∃ vv : BotValues, (⟨v, be.rep.encodeText report⟩ : BotValues) = vv ∧ vv.body = be.rep.encodeText report := ⟨_, rfl, rfl⟩
  rw [hvv] at hm
  rw [← hvb]
  simp only [Bot.makeReply, bind_eq, pure_eq] at hm
  obtain ⟨cc, w5, h5, hm⟩ := run_bind_ok.mp hm
  rw [run_ofExcept] at h5
  have hcc : ∀ s, s ∈ cc ↔ OtherRecipient be m d s := by
    intro s
    rw [ccList_mem (congrArg Prod.fst h5)]
    unfold OtherRecipient
    simp only [hset _ _]
    rfl
  obtain rfl : w3 = w5 := congrArg Prod.snd h5
  obtain ⟨ac, w6, h6, hm⟩ := run_bind_ok.mp hm
  have s6 := (ro_store (Account.makeAcHeader_ops permissive_readOnly env a d) h6).trans s3
  have hlog3 : ∀ hd, w3.log hd = w'.log hd := fun hd => by unfold World.log; rw [s3, hst]
  have hlog6 : ∀ hd, w6.log hd = w'.log hd := fun hd => by unfold World.log; rw [s6, hst]
  obtain ⟨kd, c, ⟨new, pre, kh, out, k1, k2, k3, k4, k5⟩, k6, k7⟩ := makeAcHeader_ok h6
  have hac := makeAcHeaderValue_ne k7
  have hexp : Exported w3 w6 kh kd := ⟨new, _, none, out, k1, k3, k4, by simp, by simp, k5⟩
  have hhead : w6.trace <:+ w'.trace → HeaderOf env w w' a d ac := fun t6 =>
    ⟨kd, kh, c, hexp.extend lo t6, by unfold OwnKey; rw [← hlog3]; exact k2, by unfold OwnConf; rw [← hlog3]; exact k6, k7⟩
  have hG : ∀ g, g = Bot.genReply vv d f cc (str!"Re: " ++ (m.get (str!"Subject")).getD []) (m.get (str!"Message-ID")) ac →
      g.getAll (str!"Autocrypt") = [ac] ∧ isEncrypted g = .ok false ∧ g.payload = .text vv.body := by
    rintro g rfl
    cases ac with
    | nil => exact absurd rfl hac
    | cons y ys => cases cc <;> exact ⟨rfl, rfl, rfl⟩
  obtain ⟨g1, g2, g3⟩ := hG _ rfl
  generalize Bot.genReply vv d f cc (str!"Re: " ++ (m.get (str!"Subject")).getD []) (m.get (str!"Message-ID")) ac = g at hm g1 g2 g3
  refine ⟨ac, cc, hfa, ?_⟩
  split at hm
  · next hr =>
    obtain ⟨er, w7, h7, hm⟩ := run_bind_ok.mp hm
    obtain ⟨ok, w8, h8, hm⟩ := run_bind_ok.mp hm
    rw [run_ofExcept] at h8
    obtain rfl : w7 = w8 := congrArg Prod.snd h8
    obtain ⟨_, w9, h9, hm⟩ := run_bind_ok.mp hm
    cases hm
    have t9 := trace_le h9
    obtain ⟨new7, e7⟩ := trace_le h7
    obtain ⟨khs, own, r2k, p, p', data, argv, out', p1, p2, p3, p4, p5, p6, p7, -⟩ := encryptMime_ok h7 e7.symm
    obtain ⟨gs, q1, q2⟩ := p1.gossip
    have t7 := t9.trans t4
    refine ⟨by rw [p7, getAll_encMessage _ _ (by decide)]; exact g1, hhead ((trace_le h7).trans t7), hcc, .inr ⟨by rw [p7]; exact isEncrypted_encMessage _ _, by simpa using hr, ?_⟩⟩
    obtain ⟨n0, e0⟩ := (lo.trans (trace_le h6))
    obtain ⟨n1, e1⟩ := t7
    have hpl : ∀ b, peerLog env w6 a b = peerLog env w' a b := fun b => hlog6 _
    have hkn : knownAddrs env w6 a = knownAddrs env w' a := by funext as; exact List.filter_congr fun b _ => by rw [hpl]
    have hok : ∀ k, OwnKey w6 a k ↔ OwnKey w' a k := fun k => by unfold OwnKey; rw [hlog6]
    have hoa : ∀ b, OwnAddress env w6 a b ↔ OwnAddress env w' a b := fun b => by unfold OwnAddress OwnConf; rw [hlog6]
    refine ⟨n1 ++ (new7 ++ n0), khs, own, argv, data, out', _, own, r2k, p, p', ?_, ?_, (hok _).mp p1.ownKey, p4,
      List.mem_append_right _ (List.mem_append_left _ p5), p6, List.mem_append_right _ (List.mem_append_left _ p2), p3, ?_, ⟨(makeContentMessage g).headers, gs, ?_, ?_, ?_⟩, ?_⟩
    · rw [← e1, ← e7, ← e0]; simp
    · refine p1.keys.imp fun b k hb => ?_
      unfold RecipientKey at hb ⊢
      rw [hpl, hoa, hok] at hb
      exact hb
    · rw [q1]; exact g3
    · rw [q1]; rfl
    · intro hd hmem
      simp only [makeContentMessage, Msg.headers, List.mem_filter, decide_eq_true_eq] at hmem
      exact hmem.2.symm
    · rw [hkn] at q2
      refine q2.imp fun b k hb => ?_
      unfold GossipField at hb ⊢
      rw [hpl] at hb
      exact hb
    · rw [p7]; rfl
  · next hr =>
    cases hm
    exact ⟨g1, hhead t4, hcc, .inl ⟨g2, by simpa using hr, g3⟩⟩

/-- C90: the reply has exactly one Autocrypt header, that of the account which got the mail. It is either a report in clear, or gpg encrypted the
report, with gossip, to the keys of the sender and of all other recipients. -/
theorem C90_keys {O : Oracle K} {env : Env} {be : BotEnv} {v : BotStamp} {smtp fallback : Option Str} {m : Msg} {w w' : World Store K}
    {res : Except Exc Unit} (hw : Reachable O env w) (hset : SetOrder be) (h : exec O (Bot.reply env be v smtp fallback m) w = (res, w')) {x : Msg}
    (hx : Replied w w' x) :
    ∃ d a f ac cc report, DeliveredTo env m fallback d ∧ FirstAccount env w d a ∧ m.get (str!"From") = some f ∧
      x.getAll (str!"Autocrypt") = [ac] ∧ HeaderOf env w w' a d ac ∧ (∀ s, s ∈ cc ↔ OtherRecipient be m d s) ∧
      (PlainMail x ∧ x.payload = .text (be.rep.encodeText report) ∨
       PgpMime x ∧ EncryptedFor env w w' (be.rep.encodeText report) a ((f :: cc).map fun a => address env (some a)) x) := by
  spec_mail
  obtain ⟨d, a, f, r, pr, told, keys, kh0, w1, w2, _, _, _, w3, w4, hd, hs⟩ := reply_sent h hx
  obtain ⟨ac, cc, h1, h2, h3, h4, h5⟩ := hs.parts hw hset
  exact ⟨d, a, f, ac, cc, _, hd, h1, hs.from_, h2, h3, h4, h5.imp (fun h => ⟨h.1, h.2.2⟩) fun h => ⟨h.1, h.2.2⟩⟩

/-! ## C91: state of the bot -/

/-- C91: bot-reply stores what process_incoming stores for the first account which serves the address of delivery, and only state about peers of this account;
if it replies then the mail was processed without an error. -/
theorem C91_state {O : Oracle K} {env : Env} {be : BotEnv} {v : BotStamp} {smtp fallback : Option Str} {m : Msg} {w w' : World Store K}
    {res : Except Exc Unit} (hw : Reachable O env w) (h : exec O (Bot.reply env be v smtp fallback m) w = (res, w')) :
    (w'.store = w.store ∧ (∀ x, ¬ Replied w w' x) ∧ ∃ e, res = .error e) ∨
    ∃ d a w1 w2 pr, DeliveredTo env m fallback d ∧ FirstAccount env w d a ∧ w1.store = w.store ∧
      exec O (Account.processIncoming env a m false false) w1 = (pr, w2) ∧ w'.store = w2.store ∧
      (∀ hd, (∀ p, hd ≠ peerHead a p) → w'.log hd = w.log hd) ∧ ∀ e, pr = .error e → res = .error e ∧ ∀ x, ¬ Replied w w' x := by
  spec_mail
  have hro := fun d a res w1 => (run_ro (O := O) (answer_ops permissive_readOnly env be v smtp d a m res (fun _ => trivial) (fun _ => trivial) (fun _ _ _ => trivial)) w1).1
  simp only [exec, Bot.reply, bind_eq, run_bind, run_ofExcept] at h
  cases hd : getDeliveredTo env m fallback with
  | error e =>
    rw [hd] at h; cases h
    exact .inl ⟨rfl, fun x => not_replied_rfl, e, rfl⟩
  | ok d =>
    rw [hd] at h
    dsimp only at h
    have hs1 := lookup_store (O := O) hw.sane d false
    have e1 := silent_events (O := O) (lookup_silent env d false) w fun _ => False
    have hso := C49_sound hw d false
    rcases h1 : run Store.impl O (Manager.getAccountFromEmailadr env d false) w with ⟨e | o, w1⟩ <;> simp only [h1, exec] at h hs1 hso <;> rw [h1] at e1
    · cases h
      refine .inl ⟨hs1, fun x hx => ?_, e, rfl⟩
      obtain ⟨ev, k1, k2⟩ := hx.of_events e1
      exact k1 x k2
    cases o with
    | none =>
      cases h
      refine .inl ⟨hs1, fun x hx => ?_, _, rfl⟩
      obtain ⟨ev, k1, k2⟩ := hx.of_events e1
      exact k1 x k2
    | some a =>
      dsimp only at h
      rw [run_bind] at h
      have e2 := silent_events (O := O) (processIncoming_silent env a m false false) w1 fun _ => False
      have hfr : ∀ hd, (∀ p, hd ≠ peerHead a p) → (exec O (Account.processIncoming env a m false false) w1).2.log hd = w1.log hd := fun hd hne =>
        (Account.safe_processIncoming env a m false false).frame w1 hd fun act hact ht => by
          obtain ⟨dt, hact | ⟨dec, -, hact⟩⟩ := hact <;> cases act <;> first | exact hact.elim | (obtain ⟨rfl, -⟩ := hact; exact hne _ ht)
      rcases h2 : run Store.impl O (Account.processIncoming env a m false false) w1 with ⟨e | r, w2⟩ <;> rw [h2] at h e2
      · cases h
        refine .inr ⟨d, a, w1, w', .error e, rfl, (hso _ rfl).1 a rfl, hs1, h2, rfl, ?_, ?_⟩
        · intro hd hne
          have := hfr hd hne
          rw [exec, h2] at this
          rw [this]; unfold World.log; rw [hs1]
        · rintro e' he
          cases he
          refine ⟨rfl, fun x hx => ?_⟩
          obtain ⟨ev, k1, k2⟩ := hx.of_events (e1.trans e2)
          exact k1 x k2
      · have hst : w'.store = w2.store := by
          cases r with
          | none => cases h; rfl
          | some r => dsimp only at h; have := hro d a r w2; rw [exec, h] at this; exact this
        refine .inr ⟨d, a, w1, w2, .ok r, rfl, (hso _ rfl).1 a rfl, hs1, h2, hst, ?_, fun e he => by cases he⟩
        intro hd hne
        have := hfr hd hne
        rw [exec, h2] at this
        have h3 : w'.log hd = w2.log hd := by unfold World.log; rw [hst]
        rw [h3, this]; unfold World.log; rw [hs1]

/-! ## Examples -/

open Concrete

/-- C90, C91: an encrypted reply to Bob and Carol's unencrypted one; mail without an address of delivery -/
example : SetOrder botEnv ∧ Reachable oracle env recWorld ∧
    (delivered (botRun none (botMail bob (str!"bot@x.org") [])).2.trace).map (fun x => (isEncrypted x).toOption) = [some true] ∧
    (delivered (botRun none (botMail carol (str!"bot@x.org") [])).2.trace).map (fun x => (isEncrypted x).toOption) = [some false] ∧
    (botRun none (botMail bob (str!"bot@x.org") [])).1.toOption = some () ∧
    (botRun none (.mk [(str!"From", bob), (str!"To", str!"bot@x.org")] (.text []))).1.toOption = none :=
  ⟨botEnv_set, after_reachable _, by decide +kernel, by decide +kernel, by decide +kernel, by decide +kernel⟩

end Verif
