import Verif.Model.Bot
import Verif.Props.Decision
import Verif.Props.Accounts
import Verif.Props.MimeStructure
/-!
# The bot: C63, C64
-/
namespace Verif
open Mime Rec

variable {K : Type}

/-! ## Specification -/

/-- the event is the delivery of a reply -/
def Delivers (ev : Event) (x : Msg) : Prop :=
  ev.op = .emit (.mail x) ∨ ∃ h p f l, ev.op = .emit (.smtp h p f l x)

/-- somewhere between `w` and `w'` the reply `x` is delivered -/
def Replied (w w' : World Store K) (x : Msg) : Prop := ∃ new ev, w'.trace = new ++ w.trace ∧ ev ∈ new ∧ Delivers ev x

/-- iterating over a set gives its elements -/
def SetOrder (be : BotEnv) : Prop := ∀ l x, x ∈ be.setOrder l ↔ x ∈ l

/-- the other recipients of a message, as they appear in Cc of a reply -/
def OtherRecipient (be : BotEnv) (m : Msg) (d s : Str) : Prop :=
  ∃ name addr, (name, addr) ∈ be.getaddressesFull (m.getAll (str!"To") ++ m.getAll (str!"Cc")) ∧ addr ≠ [] ∧ addr ≠ d ∧
    be.formataddr (name, addr) = .ok s

/-! ## Lemmas -/

/-- operations which write nothing for the user -/
def Op.silent : Op → Prop
  | .ext (.emit _) => False
  | .ext (.sendmail _ _) => False
  | _ => True

theorem permissive_silent : Permissive Op.silent := ⟨trivial, fun _ => trivial, trivial, fun o h => by cases o <;> first | trivial | cases h⟩

theorem getAccount_silent (env : Env) (n : Str) (b : Bool) : (Manager.getAccount env n b).AllOps Op.silent := by
  unfold Manager.getAccount Manager.account Account.exists_ Manager.ensureInit Manager.init Mgr.setVersion; simp only [bind_eq, pure_eq]
  allops
  all_goals exact .append trivial

theorem lookup_silent (env : Env) (a : Str) (b : Bool) : (Manager.getAccountFromEmailadr env a b).AllOps Op.silent := by
  have h1 : ∀ l, (Manager.firstMatch env a l).AllOps Op.silent := by
    intro l
    induction l with
    | nil => trivial
    | cons n l ih =>
      unfold Manager.firstMatch; simp only [bind_eq, pure_eq]
      refine .bind (getAccount_silent env n _) fun _ => .bind (Account.config_ops permissive_silent _) fun _ => .bind (.ofExcept _) fun _ => ?_
      split
      · trivial
      · exact ih
  unfold Manager.getAccountFromEmailadr getAccountNames; simp only [bind_eq, pure_eq]
  allops <;> exact h1 _

theorem processIncoming_silent (env : Env) (n : Str) (m : Msg) (i d : Bool) : (Account.processIncoming env n m i d).AllOps Op.silent := by
  have h1 : ∀ h u, (Peer.updateFromMsg h u).AllOps Op.silent := by
    intro h u; unfold Peer.updateFromMsg; simp only [bind_eq, pure_eq]; allops; all_goals exact .append trivial
  have h2 : ∀ h u, (Peer.updateFromGossip h u).AllOps Op.silent := by
    intro h u; unfold Peer.updateFromGossip; simp only [bind_eq, pure_eq]; allops; all_goals exact .append trivial
  have h3 := fun p => Account.importPah_ops permissive_silent env n p
  have h4 := Account.decryptMime_ops permissive_silent env n m
  have h5 := Account.ownKeyhandle_ops permissive_silent n
  have h6 : ∀ m d i, (Account.processGossipHeaders env n m d i).AllOps Op.silent := by
    intro m d i
    unfold Account.processGossipHeaders
    refine .bind (.ofExcept _) fun dict => ?_
    generalize getTargetEmailadr env m = l
    generalize ([] : List (Str × ACResult)) = pr
    induction l generalizing pr with
    | nil => trivial
    | cons r l ih =>
      unfold Account.gossipLoop
      split
      · exact ih _
      · exact .bind (h3 _) fun _ => .bind (h2 _ _) fun _ => ih _
  unfold Account.processIncoming Account.processAutocryptHeader effectiveDate; simp only [bind_eq, pure_eq]
  allops <;> first | exact h1 _ _ | exact h3 _ | exact h6 _ _ _

/-- what a delivered reply is made of, where `s` is the stored state when it is made -/
structure ReplyMade (O : Oracle K) (env : Env) (be : BotEnv) (v : BotStamp) (m : Msg) (s : Store) (x : Msg) (d a f to_ : Str) (r : Rec) : Prop where
  from_ : m.get (str!"From") = some f
  toHdr : m.get (str!"To") = some to_
  sub : Py.contains d to_ = true
  rec_ : ∃ w1 : World Store K, w1.store = s ∧
    (exec O (Account.recommendation env a [f] (m.contentType == str!"multipart/encrypted") none) w1).1 = .ok r
  made : ∃ body, ∃ w1 w2 : World Store K, w1.store = s ∧ exec O (Bot.makeReply env be ⟨v, body⟩ a d f (r == .encrypt) m) w1 = (.ok x, w2)

theorem Op.silent.not_delivers {ev : Event} (h : Op.silent (.ext ev.op)) (x : Msg) : ¬ Delivers ev x := by
  rintro (he | ⟨_, _, _, _, he⟩) <;> rw [he] at h <;> exact h

theorem silent_events {O : Oracle K} {α : Type} {p : Prog α} (hp : p.AllOps Op.silent) (w : World Store K) (Q : Msg → Prop) :
    Events (fun ev => ∀ x, Delivers ev x → Q x) w (run Store.impl O p w).2 :=
  (run_events hp w).mono fun _ h x hx => absurd hx (h.not_delivers x)

theorem deliver_course (O : Oracle K) (env : Env) (smtp : Option Str) (x : Msg) (w : World Store K) :
    Events (fun ev => ∀ y, Delivers ev y → y = x) w (run Store.impl O (Bot.deliver env smtp x) w).2 := by
  have hp : (Bot.deliver env smtp x).AllOps (fun o => ∀ e, o = .ext e → ∀ t, Delivers ⟨e, t⟩ x ∨ ∀ y, ¬ Delivers ⟨e, t⟩ y) := by
    unfold Bot.deliver; simp only [bind_eq]
    split
    · exact .emit fun e he t => by cases he; exact .inl (.inl rfl)
    · split
      · exact .bind (.ofExcept _) fun p => .bind (.emit fun e he t => by cases he; exact .inl (.inr ⟨_, _, _, _, rfl⟩)) fun _ =>
          .emit fun e he t => by
            cases he
            refine .inr fun y hy => ?_
            rcases hy with hy | ⟨_, _, _, _, hy⟩ <;> cases hy
      · trivial
  refine (run_events hp w).mono fun ev h y hy => ?_
  rcases h ev.op rfl ev.ret with h | h
  · rcases h with h | ⟨_, _, _, _, h⟩ <;> rcases hy with hy | ⟨_, _, _, _, hy⟩ <;> rw [h] at hy <;> cases hy <;> rfl
  · exact absurd hy (h y)

theorem answer_course (O : Oracle K) (env : Env) (be : BotEnv) (v : BotStamp) (smtp : Option Str) (d a : Str) (m : Msg) (res : Account.IncomingResult)
    (w : World Store K) :
    Events (fun ev => ∀ x, Delivers ev x → ∃ f to_ r, ReplyMade O env be v m w.store x d a f to_ r) w
      (run Store.impl O (Bot.answer env be v smtp d a m res) w).2 := by
  have ro : ∀ {α : Type} {p : Prog α} (_ : p.AllOps Op.readOnly) {w1 w2 : World Store K} {x : Except Exc α}, run Store.impl O p w1 = (x, w2) →
      w2.store = w1.store := fun hp w1 w2 x h => by have := (run_ro (O := O) hp w1).1; simp only [exec, h] at this; exact this
  unfold Bot.answer; simp only [bind_eq, pure_eq]
  refine events_bind (silent_events (processed_ops permissive_silent env be.rep m res) _ _) fun told w0 h0 => ?_
  have hw0 := ro (processed_ops permissive_readOnly env be.rep m res) h0
  refine events_bind (silent_events (keysOf_ops permissive_silent env a m) _ _) fun keys w1 h1 => ?_
  have hw1 := (ro (keysOf_ops permissive_readOnly env a m) h1).trans hw0
  refine events_bind (silent_events (Account.ownKeyhandle_ops permissive_silent a) _ _) fun kh w2 h2 => ?_
  have hw2 := (ro (Account.ownKeyhandle_ops permissive_readOnly a) h2).trans hw1
  refine events_bind (silent_events (recFor_ops permissive_silent env a m) _ _) fun rec_ w3 h3 => ?_
  have hw3 := (ro (recFor_ops permissive_readOnly env a m) h3).trans hw2
  rcases ht : m.get (str!"To") with _ | t
  · exact .rfl'
  dsimp only
  by_cases hc : Py.contains d t = true
  · rw [hc, Bool.not_true, if_neg (by simp)]
    cases rec_ with
    | none => exact silent_events (replyNoFrom_ops permissive_silent env be a d m) _ _
    | some fr =>
      obtain ⟨f, r⟩ := fr
      dsimp only
      refine events_bind (silent_events (makeReply_ops permissive_silent env be _ a d f _ m) _ _) fun x w4 h4 => ?_
      refine (deliver_course O env smtp x w4).mono fun ev h y hy => ?_
      obtain rfl := h y hy
      unfold Bot.recFor at h3
      simp only [bind_eq, pure_eq] at h3
      rcases hf : m.get (str!"From") with _ | f' <;> rw [hf] at h3 <;> dsimp only at h3
      · cases h3
      · obtain ⟨r', w5, h5, h6⟩ := run_bind_ok.mp h3
        cases h6
        exact ⟨f, t, r, hf, ht, hc, ⟨w2, hw2, by rw [exec, h5]⟩, ⟨_, w3, w4, hw3, h4⟩⟩
  · rw [Bool.not_eq_true] at hc
    rw [hc, Bool.not_false, if_pos rfl]
    exact .rfl'

theorem reply_course {O : Oracle K} {env : Env} {be : BotEnv} {v : BotStamp} {smtp fallback : Option Str} {m : Msg} {w w' : World Store K}
    {res : Except Exc Unit} (h : exec O (Bot.reply env be v smtp fallback m) w = (res, w')) :
    Events (fun ev => ∀ x, Delivers ev x → ∃ d a f to_ r, getDeliveredTo env m fallback = .ok d ∧
      (exec O (Manager.getAccountFromEmailadr env d false) w).1 = .ok (some a) ∧ ReplyMade O env be v m w'.store x d a f to_ r) w w' := by
  have ro := fun d a res w1 => (run_ro (O := O) (answer_ops permissive_readOnly env be v smtp d a m res (fun _ => trivial) (fun _ => trivial) (fun _ _ _ => trivial)) w1).1
  simp only [exec, Bot.reply, bind_eq, run_bind, run_ofExcept] at h
  cases hd : getDeliveredTo env m fallback with
  | error e => rw [hd] at h; cases h; exact .rfl'
  | ok d =>
    rw [hd] at h
    dsimp only at h
    have e1 := fun Q => silent_events (O := O) (lookup_silent env d false) w Q
    rcases h1 : run Store.impl O (Manager.getAccountFromEmailadr env d false) w with ⟨e | o, w1⟩
    · simp only [h1] at h e1; cases h; exact e1 _
    simp only [h1] at h e1
    cases o with
    | none => cases h; exact e1 _
    | some a =>
      dsimp only at h
      rw [run_bind] at h
      have e2 := fun Q => silent_events (O := O) (processIncoming_silent env a m false false) w1 Q
      rcases h2 : run Store.impl O (Account.processIncoming env a m false false) w1 with ⟨e | r, w2⟩
      · simp only [h2] at h e2; cases h; exact (e1 _).trans (e2 _)
      simp only [h2] at h e2
      cases r with
      | none => cases h; exact (e1 _).trans (e2 _)
      | some r =>
      dsimp only at h
      have e3 := answer_course O env be v smtp d a m r w2
      have hs := ro d a r w2
      simp only [exec] at hs
      rw [h] at e3 hs
      refine ((e1 _).trans (e2 _)).trans (e3.mono ?_)
      intro ev hev x hx
      obtain ⟨f, t, r, hr⟩ := hev x hx
      exact ⟨d, a, f, t, r, rfl, by simp only [exec, h1], hs ▸ hr⟩

/-! ## C63 -/

/-- C63, as far as it holds: the bot replies only if the address to which the message was delivered is part of the text of
the To header. -/
theorem C63_partial {O : Oracle K} {env : Env} {be : BotEnv} {v : BotStamp} {smtp fallback : Option Str} {m : Msg} {w w' : World Store K}
    {res : Except Exc Unit} (h : exec O (Bot.reply env be v smtp fallback m) w = (res, w')) {x : Msg} (hx : Replied w w' x) :
    ∃ d t, DeliveredTo env m fallback d ∧ m.get (str!"To") = some t ∧ d <:+: t := by
  spec_mail
  obtain ⟨new, ev, hn, hev, hx⟩ := hx
  obtain ⟨d, a, f, t, r, hd, _, hr⟩ := (reply_course h).all hn ev hev x hx
  exact ⟨d, t, hd, hr.toHdr, contains_iff.mp hr.sub⟩

/-! ## C64 -/

theorem ccList_mem {be : BotEnv} {d : Str} {l : List (Str × Str)} {r : List Str} (h : Bot.ccList be d l = .ok r) (s : Str) :
    s ∈ r ↔ ∃ name addr, (name, addr) ∈ l ∧ addr ≠ [] ∧ addr ≠ d ∧ be.formataddr (name, addr) = .ok s := by
  induction l generalizing r with
  | nil => cases h; simp
  | cons p l ih =>
    obtain ⟨n, a⟩ := p
    unfold Bot.ccList at h
    by_cases hc : (!a.isEmpty && decide (a ≠ d)) = true
    · rw [if_pos hc] at h
      simp only [Bool.and_eq_true, Bool.not_eq_true', List.isEmpty_eq_false_iff, decide_eq_true_eq] at hc
      cases hf : be.formataddr (n, a) with
      | error e => rw [hf] at h; cases h
      | ok s' =>
        rw [hf] at h
        dsimp only at h
        cases hl : Bot.ccList be d l with
        | error e => rw [hl] at h; cases h
        | ok r' =>
          rw [hl] at h
          cases h
          rw [List.mem_cons, ih hl]
          constructor
          · rintro (rfl | ⟨n', a', h1, h2⟩)
            · exact ⟨n, a, .head _, hc.1, hc.2, hf⟩
            · exact ⟨n', a', .tail _ h1, h2⟩
          · rintro ⟨n', a', h1, h2⟩
            cases h1 with
            | head => rw [hf] at h2; exact .inl (Except.ok.inj h2.2.2).symm
            | tail _ h1 => exact .inr ⟨n', a', h1, h2⟩
    · rw [if_neg hc] at h
      rw [ih h]
      constructor
      · rintro ⟨n', a', h1, h2⟩; exact ⟨n', a', .tail _ h1, h2⟩
      · rintro ⟨n', a', h1, h2⟩
        cases h1 with
        | head => exact absurd (by simpa using ⟨h2.1, h2.2.1⟩) hc
        | tail _ h1 => exact ⟨n', a', h1, h2⟩

/-- the reply, in terms of the functions of the model -/
theorem reply_form {O : Oracle K} {env : Env} {be : BotEnv} {v : BotStamp} {smtp fallback : Option Str} {m : Msg} {w w' : World Store K}
    {res : Except Exc Unit} (hset : SetOrder be) (h : exec O (Bot.reply env be v smtp fallback m) w = (res, w')) {x : Msg} (hx : Replied w w' x) :
    ∃ d a f own, getDeliveredTo env m fallback = .ok d ∧ (exec O (Manager.getAccountFromEmailadr env d false) w).1 = .ok (some a) ∧
      m.get (str!"From") = some f ∧ OwnPreference w' a own ∧
      x.getAll (str!"From") = [d] ∧ x.getAll (str!"To") = [f] ∧
      (∃ cc, (∀ s, s ∈ cc ↔ OtherRecipient be m d s) ∧ x.getAll (str!"Cc") = if cc = [] then [] else [Py.join (str!",") cc]) ∧
      x.getAll (str!"Subject") = [str!"Re: " ++ (m.get (str!"Subject")).getD []] ∧
      x.getAll (str!"In-Reply-To") = [(m.get (str!"Message-ID")).getD []] ∧
      isEncrypted x = .ok (recSpec (w'.log (peerHead a (parseEmailAddr env (some (parseEmailAddr env (some f)))))) own (m.contentType == str!"multipart/encrypted") == .encrypt) := by
  obtain ⟨new, ev, hn, hev, hx⟩ := hx
  obtain ⟨d, a, f, t, r, hd, ha, hr⟩ := (reply_course h).all hn ev hev x hx
  obtain ⟨w1, hs1, hrec⟩ := hr.rec_
  have hlog : ∀ h, w1.log h = w'.log h := fun h => by unfold World.log; rw [hs1]
  obtain ⟨c, hc⟩ : ∃ c, OwnConf w1 a c := by
    unfold Account.recommendation at hrec
    simp only [bind_eq, exec, run_bind] at hrec
    rcases h1 : run Store.impl O (Own.config a) w1 with ⟨e | c, w2⟩
    · rw [h1] at hrec; cases hrec
    · exact ⟨c, (exec_config_ok h1).1⟩
  have hown : OwnPreference w1 a c.pe := ⟨c, hc, rfl⟩
  have hr1 := (C30_single_peer O env w1 a f (m.contentType == str!"multipart/encrypted") none c.pe hown nofun).symm.trans hrec
  rw [address_eq] at hr1
  have hr1 := Except.ok.inj hr1
  rw [hlog] at hr1
  refine ⟨d, a, f, c.pe, hd, ha, hr.from_, ?_, ?_⟩
  · obtain ⟨c', h1, h2⟩ := hown; exact ⟨c', hlog _ ▸ h1, h2⟩
  obtain ⟨body, w2, w3, hs2, hm⟩ := hr.made
  rw [hr1]
  clear hr1 hown hc hrec hlog
  simp only [exec, Bot.makeReply, bind_eq, pure_eq] at hm
  obtain ⟨cc, w4, h4, hm⟩ := run_bind_ok.mp hm
  obtain ⟨ac, w5, h5, hm⟩ := run_bind_ok.mp hm
  rw [run_ofExcept] at h4
  have hcc : ∀ s, s ∈ cc ↔ OtherRecipient be m d s := by
    intro s
    rw [ccList_mem (congrArg Prod.fst h4)]
    unfold OtherRecipient
    simp only [hset _ _]
    rfl
  generalize hg : Bot.genReply ⟨v, body⟩ d f cc (str!"Re: " ++ (m.get (str!"Subject")).getD []) (m.get (str!"Message-ID")) ac = g at hm
  have hG : g.getAll (str!"From") = [d] ∧ g.getAll (str!"To") = [f] ∧ g.getAll (str!"Cc") = (if cc = [] then [] else [Py.join (str!",") cc]) ∧
      g.getAll (str!"Subject") = [str!"Re: " ++ (m.get (str!"Subject")).getD []] ∧
      g.getAll (str!"In-Reply-To") = [(m.get (str!"Message-ID")).getD []] ∧ isEncrypted g = .ok false := by
    subst hg
    clear hm
    cases cc <;> cases ac <;> exact ⟨rfl, rfl, rfl, rfl, rfl, rfl⟩
  obtain ⟨g1, g2, g3, g4, g5, g6⟩ := hG
  by_cases hre : (r == Rec.encrypt) = true
  · rw [hre] at hm ⊢
    rw [if_pos rfl] at hm
    obtain ⟨er, w6, h6, hm⟩ := run_bind_ok.mp hm
    obtain ⟨ok, w7, h7, hm⟩ := run_bind_ok.mp hm
    obtain ⟨_, w8, h8, hm⟩ := run_bind_ok.mp hm
    cases hm
    obtain ⟨new', hn'⟩ := run_trace (S := Store.impl) (O := O) (Account.encryptMime env a g (f :: cc)) w5
    rw [h6] at hn'
    obtain ⟨_, _, _, _, _, _, _, out, _, _, _, _, _, _, h9, _⟩ := encryptMime_ok h6 hn'.symm
    rw [h9]
    refine ⟨?_, ?_, ⟨cc, hcc, ?_⟩, ?_, ?_, isEncrypted_encMessage _ _⟩ <;> rw [getAll_encMessage _ _ (by decide)] <;> assumption
  · rw [Bool.not_eq_true] at hre
    rw [hre] at hm ⊢
    rw [if_neg (by simp)] at hm
    cases hm
    exact ⟨g1, g2, ⟨cc, hcc, g3⟩, g4, g5, g6⟩

/-- C64, as far as it holds: the reply comes from the address to which the message was delivered, goes to the sender with the
other recipients of To and Cc in Cc, refers to the message, and is encrypted exactly if that is recommended for the sender (whose address is normalised twice). -/
theorem C64_partial {O : Oracle K} {env : Env} {be : BotEnv} {v : BotStamp} {smtp fallback : Option Str} {m : Msg} {w w' : World Store K}
    {res : Except Exc Unit} (hset : SetOrder be) (h : exec O (Bot.reply env be v smtp fallback m) w = (res, w')) {x : Msg} (hx : Replied w w' x) :
    ∃ d a f own, DeliveredTo env m fallback d ∧ (exec O (Manager.getAccountFromEmailadr env d false) w).1 = .ok (some a) ∧
      m.get (str!"From") = some f ∧ OwnPreference w' a own ∧
      x.getAll (str!"From") = [d] ∧ x.getAll (str!"To") = [f] ∧
      (∃ cc, (∀ s, s ∈ cc ↔ OtherRecipient be m d s) ∧ x.getAll (str!"Cc") = if cc = [] then [] else [Py.join (str!",") cc]) ∧
      x.getAll (str!"Subject") = [str!"Re: " ++ (m.get (str!"Subject")).getD []] ∧
      x.getAll (str!"In-Reply-To") = [(m.get (str!"Message-ID")).getD []] ∧
      (PgpMime x ↔ recSpec (w'.log (peerHead a (address env (some (address env (some f)))))) own (m.contentType == str!"multipart/encrypted") = .encrypt) ∧
      (PlainMail x ↔ recSpec (w'.log (peerHead a (address env (some (address env (some f)))))) own (m.contentType == str!"multipart/encrypted") ≠ .encrypt) := by
  spec_mail
  obtain ⟨d, a, f, own, h1, h2, h3, h4, h5, h6, h7, h8, h9, h10⟩ := reply_form hset h hx
  exact ⟨d, a, f, own, h1, h2, h3, h4, h5, h6, h7, h8, h9, by rw [h10]; simp, by rw [h10]; simp⟩

/-- C64: what goes out by SMTP has as recipients exactly the addresses in To and Cc of the reply, and its From as sender. -/
theorem C64_smtp {O : Oracle K} {env : Env} {be : BotEnv} {v : BotStamp} {smtp fallback : Option Str} {m : Msg} {w w' : World Store K}
    {res : Except Exc Unit} (h : exec O (Bot.reply env be v smtp fallback m) w = (res, w')) {new : List Event} (hn : w'.trace = new ++ w.trace)
    {host : Str} {port : Int} {fr : Option Str} {to_ : List Str} {x : Msg} {ev : Event} (hev : ev ∈ new) (hx : ev.op = .emit (.smtp host port fr to_ x)) :
    fr = x.get (str!"From") ∧ to_ = env.getaddresses (x.getAll (str!"To") ++ x.getAll (str!"Cc")) := by
  let P : Op → Prop := fun o => ∀ host port fr to_ x, o = .ext (.emit (.smtp host port fr to_ x)) → fr = x.get (str!"From") ∧ to_ = getTargetEmailadr env x
  have hs : ∀ o : Op, o.silent → P o := by
    intro o ho host port fr to_ x hx
    rw [hx] at ho; exact ho.elim
  have hP : Permissive P := ⟨hs _ trivial, fun _ => hs _ trivial, hs _ trivial, fun o h => hs _ (permissive_silent.2.2.2 o h)⟩
  have hp : (Bot.reply env be v smtp fallback m).AllOps P := by
    unfold Bot.reply; simp only [bind_eq]
    refine .bind (.ofExcept _) fun d => .bind ((lookup_silent env d false).mono hs) fun o => ?_
    split
    · trivial
    · refine .bind ((processIncoming_silent env _ m false false).mono hs) fun o => ?_
      cases o with
      | none => trivial
      | some res =>
        exact answer_ops hP env be v smtp d _ m res (by intro x _ _ _ _ _ hx; cases hx) (by intro x _ _ _ _ _ hx; cases hx)
          (by intro _ _ _ _ _ _ _ _ hx; cases hx; exact ⟨rfl, rfl⟩)
  have he := run_events (S := Store.impl) (O := O) hp w
  simp only [exec] at h
  rw [h] at he
  obtain ⟨h1, h2⟩ := he.all hn ev hev host port fr to_ x (by rw [hx])
  exact ⟨h1, h2.trans rfl⟩

/-! ## Examples -/

/-- all replies in a trace -/
def delivered (t : List Event) : List Msg :=
  t.filterMap fun ev => match ev.op with
    | .emit (.mail x) => some x
    | .emit (.smtp _ _ _ _ x) => some x
    | _ => none

theorem mem_delivered {t : List Event} {x : Msg} : x ∈ delivered t ↔ ∃ ev ∈ t, Delivers ev x := by
  unfold delivered Delivers
  rw [List.mem_filterMap]
  refine exists_congr fun ev => and_congr_right fun _ => ?_
  constructor
  · intro h
    split at h
    · rename_i he; cases h; exact .inl he
    · rename_i he; cases h; exact .inr ⟨_, _, _, _, he⟩
    · cases h
  · rintro (h | ⟨_, _, _, _, h⟩) <;> rw [h]

theorem replied_of {O : Oracle K} {α : Type} {p : Prog α} {w w' : World Store K} {r : Except Exc α} (h : exec O p w = (r, w')) (h0 : delivered w.trace = [])
    {x : Msg} (hx : x ∈ delivered w'.trace) : Replied w w' x := by
  obtain ⟨new, hn⟩ := run_trace (S := Store.impl) (O := O) p w
  simp only [exec] at h
  rw [h] at hn
  obtain ⟨ev, hev, hd⟩ := mem_delivered.mp hx
  rw [← hn] at hev
  rcases List.mem_append.mp hev with hev | hev
  · exact ⟨new, ev, hn.symm, hev, hd⟩
  · have := mem_delivered.mpr ⟨ev, hev, hd⟩
    rw [h0] at this; cases this

namespace Concrete

/-- the functions of the bot for addresses without names -/
def botEnv : BotEnv where
  getaddressesFull l := (env.getaddresses l).map fun a => ([], a)
  formataddr p := .ok p.2
  setOrder l := l.eraseDups
  rep := reportEnv

/-- values -/
def botValues : BotStamp := ⟨str!"<1@x.org>", str!"now"⟩

/-- mail to the bot, whose address is bot@x.org -/
def botMail (from_ to_ cc : Str) : Msg :=
  .mk [(str!"Delivered-To", str!"bot@x.org"), (str!"From", from_), (str!"To", to_), (str!"Cc", cc), (str!"Message-ID", str!"7"),
    (str!"Date", str!"100"), (str!"Subject", str!"s")] (.text (str!"hi"))

/-- the bot is run with this mail -/
def botRun (smtp : Option Str) (m : Msg) : Except Exc Unit × World Store Unit :=
  exec oracle (Bot.reply env botEnv botValues smtp none m) recWorld

theorem botEnv_set : SetOrder botEnv := fun _ _ => List.mem_eraseDups

theorem botRun_replied {smtp : Option Str} {m : Msg} {α : Type} {g : Msg → α} {y : α} (h : (delivered (botRun smtp m).2.trace).map g = [y]) :
    ∃ x, Replied recWorld (botRun smtp m).2 x ∧ g x = y := by
  have h1 : y ∈ (delivered (botRun smtp m).2.trace).map g := by rw [h]; exact .head _
  obtain ⟨x, hx, he⟩ := List.mem_map.mp h1
  refine ⟨x, replied_of (O := oracle) (p := Bot.reply env botEnv botValues smtp none m) (r := (botRun smtp m).1) rfl ?_ hx, he⟩
  have : (delivered recWorld.trace).length = 0 := by decide +kernel
  exact List.eq_nil_of_length_eq_zero this

/-- C63, C64: replies to Bob, for whom encryption is recommended, and to Carol, in clear; by SMTP -/
example : SetOrder botEnv ∧
    (delivered (botRun none (botMail bob (str!"bot@x.org,carol@x.org") [])).2.trace).map
      (fun x => (x.headers.drop 1, (isEncrypted x).toOption)) =
      [([(str!"From", str!"bot@x.org"), (str!"To", bob), (str!"Cc", carol), (str!"Message-ID", str!"<1@x.org>"), (str!"Subject", str!"Re: s"),
        (str!"Date", str!"now"), (str!"In-Reply-To", str!"7"), (str!"Autocrypt", str!"addr=bot@x.org; prefer-encrypt=mutual; keydata=\n  QkJCQkJCQkJCQkJCQkJCQg==")], some true)] ∧
    (delivered (botRun (some (str!"localhost,25")) (botMail carol (str!"bot@x.org") bob)).2.trace).map
      (fun x => (x.getAll (str!"Cc"), (isEncrypted x).toOption)) = [([bob], some false)] ∧
    (delivered (botRun none (botMail carol bob (str!"bot@x.org"))).2.trace).length = 0 :=
  ⟨botEnv_set, by decide +kernel, by decide +kernel, by decide +kernel⟩

end Concrete

open Concrete

/-- The full C63 fails: the bot replies to mail which isn't addressed to it, if the text of To contains its address. -/
theorem C63_refuted : ∃ (w w' : World Store Unit) (m : Msg) (res : Except Exc Unit) (x : Msg) (d : Str), Reachable oracle env w ∧
    exec oracle (Bot.reply env botEnv botValues none none m) w = (res, w') ∧ Replied w w' x ∧ DeliveredTo env m none d ∧
    ∀ a ∈ env.getaddresses (m.getAll (str!"To")), address env (some a) ≠ d := by
  spec_mail
  obtain ⟨x, hx, _⟩ := botRun_replied (smtp := none) (m := botMail bob (str!"robot@x.org") (str!"bot@x.org")) (g := fun _ => ()) (y := ()) (by decide +kernel)
  exact ⟨recWorld, _, botMail bob (str!"robot@x.org") (str!"bot@x.org"), _, x, str!"bot@x.org", after_reachable _, rfl, hx, rfl, by decide +kernel⟩

/-- The full C64 fails: mail with the bot's address as sender makes it reply to itself, and its own address in other case stays in
Cc. -/
theorem C64_refuted : (∃ (w w' : World Store Unit) (m : Msg) (res : Except Exc Unit) (x : Msg) (d : Str), Reachable oracle env w ∧
      exec oracle (Bot.reply env botEnv botValues none none m) w = (res, w') ∧ Replied w w' x ∧ DeliveredTo env m none d ∧
      x.getAll (str!"To") = [d]) ∧
    (∃ (w w' : World Store Unit) (m : Msg) (res : Except Exc Unit) (x : Msg) (d a : Str), Reachable oracle env w ∧
      exec oracle (Bot.reply env botEnv botValues none none m) w = (res, w') ∧ Replied w w' x ∧ DeliveredTo env m none d ∧
      x.getAll (str!"Cc") = [a] ∧ address env (some a) = d) := by
  spec_mail
  constructor
  · obtain ⟨x, hx, h⟩ := botRun_replied (smtp := none) (m := botMail (str!"bot@x.org") (str!"bot@x.org") []) (g := fun x => x.getAll (str!"To"))
      (y := [str!"bot@x.org"]) (by decide +kernel)
    exact ⟨recWorld, _, _, _, x, str!"bot@x.org", after_reachable _, rfl, hx, rfl, h⟩
  · obtain ⟨x, hx, h⟩ := botRun_replied (smtp := none) (m := botMail carol (str!"bot@x.org") (str!"BOT@x.org")) (g := fun x => x.getAll (str!"Cc"))
      (y := [str!"BOT@x.org"]) (by decide +kernel)
    exact ⟨recWorld, _, _, _, x, str!"bot@x.org", str!"BOT@x.org", after_reachable _, rfl, hx, rfl, h, by decide +kernel⟩

end Verif
