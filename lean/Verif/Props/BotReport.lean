import Verif.Props.BotReply
import Verif.Props.Result
import Verif.Props.Log
import Verif.Props.DecryptKeys
/-!
# The bot's report: C103
-/
namespace Verif
open Mime

variable {K : Type}

/-! ## Specification -/

/-- `name` filled up with blanks to 15 characters -/
def Padded (name line : Str) : Prop := ∃ k, line = name ++ List.replicate k ' ' ∧ line.length = max name.length 15

/-- a text with newlines written as `\n` -/
def escaped (v : Str) : Str := (v.map fun c => if c = '\n' then ['\\', 'n'] else [c]).flatten

/-- a text of at most 60 characters, or the first 40 characters and how many there are besides -/
def Clipped (v t : Str) : Prop :=
  v.length ≤ 60 ∧ t = v ∨ 60 < v.length ∧ ∃ shown rest, v = shown ++ rest ∧ shown.length = 40 ∧
    t = shown ++ str!"[truncated " ++ (Nat.repr rest.length).toList ++ str!" chars]"

/-- what the report shows of a header: the first value, or that there is none -/
inductive HeaderShown (m : Msg) (name : Str) : Str → Prop
  | found (v l p t) : m.getAll name = v :: l → Padded (name ++ [':']) p → Clipped (escaped v) t → HeaderShown m name (p ++ ' ' :: t)
  | absent (p) : m.getAll name = [] → Padded name p → HeaderShown m name (p ++ str!" NOTFOUND")

/-- the headers shown -/
def reportedHeaders : List Str :=
  [str!"Message-ID", str!"Delivered-To", str!"From", str!"To", str!"Subject", str!"Date", str!"DKIM-Signature", str!"Autocrypt"]

/-- the lines about the mime structure: the drawing, or the traceback if it cannot be drawn -/
inductive MimeShown (re : ReportEnv) (m : Msg) : List Str → Prop
  | drawn (ls) : Drawn re [] true m ls → MimeShown re m (indented 1 (Py.join (str!"\n") ls))
  | failed (e) : (¬ ∃ ls, Drawn re [] true m ls) → MimeShown re m (indented 0 (re.traceback e))

/-- what is told about the Autocrypt header: the key which is now shown for the sender, or why there was none -/
inductive HeaderTold (O : Oracle K) (re : ReportEnv) (env : Env) (m : Msg) (a : Str) (w w' : World Store K) : Str → Prop
  | key (v r k kh' kh pref) : Regular env m → OnlyOne (ValidHeader env m) (m.getAll (str!"Autocrypt")) v → ValidFor env (senderAddr env m) v r →
      r.keydata = some k → ImportedKey env w w' k kh' →
      ShownKey (w'.log (peerHead a (senderAddr env m))) kh → ShownPref (w'.log (peerHead a (senderAddr env m))) pref →
      HeaderTold O re env m a w w' (str!"found peeraddr=" ++ senderAddr env m ++ str!" keyhandle=" ++ kh ++ str!" prefer_encrypt=" ++ pref)
  | refused (v) : Regular env m → OnlyOne (ValidHeader env m) (m.getAll (str!"Autocrypt")) v → GpgFailed w w' →
      HeaderTold O re env m a w w' (str!"failed to import key")
  | complaint (t) : (∀ v, Regular env m → ¬ OnlyOne (ValidHeader env m) (m.getAll (str!"Autocrypt")) v) → Complaint O re.cmd env m a t →
      HeaderTold O re env m a w w' t

/-- the keys which gpg named when it decrypted the message, see C102 -/
def GpgKeys (env : Env) (w w' : World Store K) (m : Msg) (ks : List BinGPG.KeyInfo) : Prop :=
  ∃ new argv enc out err, w'.trace = new ++ w.trace ∧ Event.gpg argv (some enc) (.ok out) ∈ new ∧ str!"--decrypt" ∈ argv ∧
    EncryptedData m enc ∧ out.ret = 0 ∧ env.utf8Decode out.err = .ok err ∧
    (∃ ls, ls.Sublist (Py.splitlines err) ∧ List.Forall₂ (NamesKey env) ls ks) ∧
    (UidsFollow env (Py.splitlines err) → KeyLines env (Py.splitlines err) ks)

/-- how python shows a key -/
def keyText (ce : CmdEnv) (k : BinGPG.KeyInfo) : Str :=
  str!"KeyInfo(id=" ++ ce.repr k.id ++ str!", uids=[" ++ Py.join (str!", ") (k.uids.map ce.repr) ++ str!"], bits=" ++ ce.intRepr k.bits ++
    str!", type=" ++ k.type ++ str!")"

/-- the lines about encryption -/
inductive KeysTold (re : ReportEnv) (env : Env) (m : Msg) (w w' : World Store K) : List Str → Prop
  | clear : m.contentType ≠ str!"multipart/encrypted" → KeysTold re env m w w' []
  | encrypted (ks) : m.contentType = str!"multipart/encrypted" → GpgKeys env w w' m ks →
      KeysTold re env m w w' ([str!"Your message was encrypted."] ++
        indented 0 (str!"It was encrypted to the following keys:[" ++ Py.join (str!", ") (ks.map (keyText re.cmd)) ++ str!"]"))

/-- a section of the report: its title and its lines -/
def sectionLines (title : Str) (body : List Str) : List Str := indented 0 title ++ [[]] ++ body ++ [[]]

/-- the text of the report about a message for the account `a`, which has the key `kh`, if `r` is recommended for the reply -/
def ReportText (O : Oracle K) (re : ReportEnv) (env : Env) (m : Msg) (d a kh : Str) (r : Rec.Rec) (w w' : World Store K) (text : Str) : Prop :=
  ∃ hs mime told keys word, List.Forall₂ (HeaderShown m) reportedHeaders hs ∧ MimeShown re m mime ∧ HeaderTold O re env m a w w' told ∧
    KeysTold re env m w w' keys ∧ RecWord r word ∧ text = Py.join (str!"\n") (
      sectionLines (str!"reading headers") (indented 1 (str!"determined Delivered-To: " ++ d)) ++ [[]] ++
      sectionLines (str!"Got your mail, here is what i found in headers:") (hs.flatMap (indented 1)) ++ [[]] ++
      sectionLines (str!"And this is the mime structure i saw:") mime ++ [[]] ++
      sectionLines (str!"processed incoming mail for account " ++ a ++ str!":") (indented 1 told) ++ [[]] ++
      keys ++ indented 0 (str!"have a nice day, " ++ d) ++ [[]] ++
      indented 0 (str!"P.S.: my current key " ++ kh ++ str!" is in the Autocrypt header of this reply.") ++
      [str!"P.P.S.: For this reply the encryption recommendation is " ++ word])

/-! ## Lemmas -/

theorem pad15_spec (s : Str) : Padded s (Report.pad15 s) := by
  refine ⟨15 - s.length, rfl, ?_⟩
  simp [Report.pad15]; omega

theorem escaped_eq (v : Str) : Report.escapeNewlines v = escaped v := by
  unfold Report.escapeNewlines escaped
  rw [List.flatMap_def]
  congr 1
  apply List.map_congr_left
  intro c _
  by_cases h : c = '\n' <;> simp [h]

theorem clipped_spec (v : Str) : Clipped v (truncString v 60) := by
  obtain ⟨h1, h2⟩ := C66_truncated v 60 (by omega)
  by_cases h : v.length ≤ 60
  · exact .inl ⟨h, h1 h⟩
  · exact .inr ⟨by omega, h2 (by omega)⟩

theorem headerLine_spec (m : Msg) (hn : Str) : HeaderShown m hn (Report.headerLine m hn) := by
  unfold Report.headerLine Msg.get
  cases h : m.getAll hn with
  | nil => exact .absent _ h (pad15_spec _)
  | cons v l =>
    dsimp only [List.head?]
    rw [List.append_assoc, escaped_eq]
    exact .found v l _ _ h (pad15_spec _) (clipped_spec _)

theorem headers_spec (m : Msg) : List.Forall₂ (HeaderShown m) reportedHeaders (Report.shownHeaders.map (Report.headerLine m)) := by
  rw [show Report.shownHeaders = reportedHeaders from rfl, List.forall₂_map_right_iff]
  exact List.forall₂_same.mpr fun _ _ => headerLine_spec m _

theorem mime_spec (re : ReportEnv) (m : Msg) : MimeShown re m (match Report.mimeTold re m with | .text t => indented 1 t | .failed e => indented 0 (re.traceback e)) := by
  unfold Report.mimeTold
  cases h : Report.render re (str!"└") m with
  | ok t => obtain ⟨ls, h1, rfl⟩ := (C101_drawn re m t).mp h; exact .drawn ls h1
  | error e =>
    refine .failed e fun ⟨ls, h1⟩ => ?_
    rw [(C101_drawn re m _).mpr ⟨ls, h1, rfl⟩] at h
    cases h

theorem reportLines_headers (m : Msg) (l : List Str) (d : Nat) (b : Bool) :
    reportLines d b (l.foldr (fun hn s => SimpleLog.Script.call (Report.headerLine m hn) s) .done) = ((l.map (Report.headerLine m)).flatMap (indented d), none) := by
  induction l generalizing b with
  | nil => rfl
  | cons x l ih => simp only [List.foldr_cons, reportLines, ih, List.map_cons, List.flatMap_cons]

theorem reportLines_section (re : ReportEnv) (title : Str) (t : Report.Told) (next : SimpleLog.Script) :
    reportLines 0 false (Report.section_ re title t next) =
      ([[]] ++ sectionLines title (match t with | .text t => indented 1 t | .failed e => indented 0 (re.traceback e)) ++ (reportLines 0 false next).1,
        (reportLines 0 false next).2) := by
  have e0 : indented 0 [] = [[]] := rfl
  cases t <;> simp [Report.section_, reportLines, sectionLines, e0]

theorem lines_gen (re : ReportEnv) (m : Msg) (hs : List Str) (mime : Report.Told) (told t1 b1 t2 t3 t4 : Str) (next : SimpleLog.Script) :
    (reportLines 0 true (.sect t1 true [] (.call b1 .done) (.sect t2 false [] (hs.foldr (fun hn s => SimpleLog.Script.call (Report.headerLine m hn) s) .done)
      (Report.section_ re t3 mime (Report.section_ re t4 (.text told) next))))).1 =
    sectionLines t1 (indented 1 b1) ++ [[]] ++ sectionLines t2 ((hs.map (Report.headerLine m)).flatMap (indented 1)) ++ [[]] ++
      sectionLines t3 (match mime with | .text t => indented 1 t | .failed e => indented 0 (re.traceback e)) ++ [[]] ++
      sectionLines t4 (indented 1 told) ++ (reportLines 0 false next).1 := by
  have e0 : indented 0 [] = [[]] := rfl
  simp only [reportLines, reportLines_headers, reportLines_section, e0, sectionLines, List.append_assoc, List.cons_append, List.nil_append,
    if_true, List.append_nil, Bool.false_eq_true, if_false]

theorem tail_gen (n d p q : Str) (keys : Option (Str × Str)) :
    (reportLines 0 false (.call n ((fun next => match keys with | none => next | some (a, b) => .call a (.call b next)) (.call d (.call [] (.call p (.call q .done))))))).1 =
      indented 0 n ++ ((match keys with | none => [] | some (a, b) => indented 0 a ++ indented 0 b) ++ (indented 0 d ++ ([[]] ++ (indented 0 p ++ indented 0 q)))) := by
  have e0 : indented 0 [] = [[]] := rfl
  cases keys <;> simp only [reportLines, e0, List.append_nil, List.append_assoc, List.nil_append]

theorem text_of (s : SimpleLog.Script) : Report.text s = Py.join (str!"\n") (reportLines 0 true s).1 := by
  unfold Report.text SimpleLog.text
  rw [C65_sections]
  rfl

/-- the lines about encryption, from the keys found -/
def encryptedLines (re : ReportEnv) : Option (List BinGPG.KeyInfo) → List Str
  | none => []
  | some l => [str!"Your message was encrypted."] ++ indented 0 (str!"It was encrypted to the following keys:[" ++ Py.join (str!", ") (l.map (keyText re.cmd)) ++ str!"]")

theorem report_lines (re : ReportEnv) (m : Msg) (d a kh told : Str) (keys : Option (List BinGPG.KeyInfo)) (r : Rec.Rec) :
    Report.text (Report.script re m d a (.text told) keys kh r) = Py.join (str!"\n") (
      sectionLines (str!"reading headers") (indented 1 (str!"determined Delivered-To: " ++ d)) ++ [[]] ++
      sectionLines (str!"Got your mail, here is what i found in headers:") ((Report.shownHeaders.map (Report.headerLine m)).flatMap (indented 1)) ++ [[]] ++
      sectionLines (str!"And this is the mime structure i saw:")
        (match Report.mimeTold re m with | .text t => indented 1 t | .failed e => indented 0 (re.traceback e)) ++ [[]] ++
      sectionLines (str!"processed incoming mail for account " ++ a ++ str!":") (indented 1 told) ++ [[]] ++
      encryptedLines re keys ++
      indented 0 (str!"have a nice day, " ++ d) ++ [[]] ++
      indented 0 (str!"P.S.: my current key " ++ kh ++ str!" is in the Autocrypt header of this reply.") ++
      [str!"P.P.S.: For this reply the encryption recommendation is " ++ Cmd.recStr r]) := by
  have e0 : indented 0 [] = [[]] := rfl
  have e1 : indented 0 (str!"\n") = [[]] := rfl
  have e2 : indented 0 (str!"Your message was encrypted.") = [str!"Your message was encrypted."] := rfl
  have e3 : indented 0 (str!"P.P.S.: For this reply the encryption recommendation is " ++ Cmd.recStr r) =
      [str!"P.P.S.: For this reply the encryption recommendation is " ++ Cmd.recStr r] := by cases r <;> rfl
  have e4 : ∀ l : List BinGPG.KeyInfo, str!"It was encrypted to the following keys:" ++ Report.listRepr (l.map (Report.keyInfoRepr re.cmd)) =
      str!"It was encrypted to the following keys:[" ++ Py.join (str!", ") (l.map (keyText re.cmd)) ++ str!"]" := by
    intro l
    have : l.map (Report.keyInfoRepr re.cmd) = l.map (keyText re.cmd) := by
      apply List.map_congr_left
      intro k _
      simp [Report.keyInfoRepr, keyText, Report.listRepr]
    rw [this]
    simp [Report.listRepr]
  have e5 := fun N D P Q ks => tail_gen N D P Q ks
  refine (text_of _).trans (congrArg _ ?_)
  unfold Report.script
  cases keys with
  | none =>
    refine (lines_gen re m Report.shownHeaders (Report.mimeTold re m) told _ _ _ _ _ _).trans ?_
    refine (congrArg _ (e5 _ _ _ _ none)).trans ?_
    rw [e1, e3]
    simp only [encryptedLines, List.append_assoc, List.nil_append]
  | some l =>
    refine (lines_gen re m Report.shownHeaders (Report.mimeTold re m) told _ _ _ _ _ _).trans ?_
    refine (congrArg _ (e5 _ _ _ _ (some (_, _)))).trans ?_
    dsimp only
    rw [e1, e2, e3, e4]
    simp only [encryptedLines, List.append_assoc, List.nil_append]

theorem processed_told {O : Oracle K} {env : Env} {re : ReportEnv} {m : Msg} {a : Str} {pr : Account.IncomingResult} {told : Report.Told}
    {w w1 w2 w3 w' : World Store K} (ha : env.isalnum a = true) (hp : pr.peer = peerHead a (senderAddr env m))
    (hr : HeaderResult O env a m w1 w2 pr.pah) (h : run Store.impl O (Report.processed env re m pr) w2 = (.ok told, w3))
    (t1 : w.trace <:+ w1.trace) (t2 : w2.trace <:+ w'.trace) (hs : w'.store = w2.store) :
    ∃ t, told = .text t ∧ HeaderTold O re env m a w w' t := by
  have hlog : ∀ hd, w2.log hd = w'.log hd := fun hd => by unfold World.log; rw [hs]
  have hsa : parseEmailAddr env (some (parseEmailAddr env (m.get (str!"From")))) = senderAddr env m := rfl
  unfold Report.processed at h
  simp only [bind_eq, pure_eq] at h
  have hok : pr.pah.error = none → told = .text (str!"found peeraddr=" ++ senderAddr env m ++ str!" keyhandle=" ++
      Peer.publicKeyhandle (w'.log (peerHead a (senderAddr env m))) ++ str!" prefer_encrypt=" ++ Peer.preferEncrypt (w'.log (peerHead a (senderAddr env m)))) := by
    intro he
    rw [he] at h
    dsimp only at h
    rw [run_bind, run_attempt, run_chain] at h
    have := Except.ok.inj (congrArg Prod.fst h)
    rw [← this, hp, C06_addr env ha, ← hlog]
    rfl
  generalize hpah : pr.pah = pah at hr
  rw [hpah] at h hok
  cases hr with
  | key v r p h1 h2 h3 h4 =>
    cases h4 with
    | done k kh h5 h6 => exact ⟨_, hok h3.2.1, .key v _ k kh _ _ h1 h2 h3 h5 (h6.extend t1 t2) (shownKey _) (shownPref _)⟩
    | refused h5 =>
      cases h
      exact ⟨_, rfl, .refused v h1 h2 (h5.extend t1 t2)⟩
  | none e h1 h2 =>
    cases h
    exact ⟨_, rfl, .complaint _ h1 (h2 re.cmd)⟩

theorem keysOf_told {O : Oracle K} {env : Env} {re : ReportEnv} {m : Msg} {a : Str} {keys : Option (List BinGPG.KeyInfo)} {w w3 w4 w' : World Store K}
    (h : run Store.impl O (Bot.keysOf env a m) w3 = (.ok keys, w4)) (t1 : w.trace <:+ w3.trace) (t2 : w4.trace <:+ w'.trace) :
    KeysTold re env m w w' (encryptedLines re keys) := by
  unfold Bot.keysOf at h
  simp only [bind_eq, pure_eq] at h
  split at h
  · next hc =>
    obtain ⟨r, w5, h5, h6⟩ := run_bind_ok.mp h
    cases h6
    refine .encrypted _ (by simpa using hc) ?_
    unfold Account.decryptMime at h5
    simp only [bind_eq, pure_eq] at h5
    obtain ⟨enc, u1, g1, h7⟩ := run_bind_ok.mp h5
    rw [run_ofExcept] at g1
    have henc : Account.encData m = .ok enc := congrArg Prod.fst g1
    obtain rfl : w3 = u1 := congrArg Prod.snd g1
    obtain ⟨g, u2, g2, h8⟩ := run_bind_ok.mp h7
    obtain ⟨⟨dec, ks⟩, u3, g3, h9⟩ := run_bind_ok.mp h8
    have hk : ks = r.keyinfos := by
      have := Except.ok.inj (congrArg Prod.fst h9)
      rw [← this]
    obtain rfl : u3 = w4 := congrArg Prod.snd h9
    subst hk
    obtain ⟨new, argv, out, err, k1, k2, k3, k4, k5, k6, k7⟩ := C102_keys_partial (w := u2) (w' := u3) (by rw [exec]; exact g3)
    obtain ⟨x, hx⟩ := t1.trans (trace_le g2)
    obtain ⟨y, hy⟩ := t2
    refine ⟨y ++ (Event.gpg argv (some enc) (.ok out) :: (new ++ x)), argv, enc, out, err, ?_, by simp, k2, encryptedData_iff.mpr henc, k3, k5, k6, k7⟩
    rw [← hy, k1, ← hx]
    simp [Gpg, Event.gpg]
  · next hc =>
    cases h
    exact .clear (by simpa using hc)

theorem report_text {O : Oracle K} {re : ReportEnv} {env : Env} {m : Msg} {d a kh t : Str} {keys : Option (List BinGPG.KeyInfo)} {r : Rec.Rec} {w w' : World Store K}
    (h1 : HeaderTold O re env m a w w' t)
    (h2 : KeysTold re env m w w' (encryptedLines re keys)) :
    ReportText O re env m d a kh r w w' (Report.text (Report.script re m d a (.text t) keys kh r)) :=
  ⟨_, _, t, _, _, headers_spec m, mime_spec re m, h1, h2, recStr_word r, report_lines re m d a kh t keys r⟩

/-! ## C103 -/

/-- C103: the reply of the bot, encrypted or not, has as its text the report which tells what happened: where the mail came to, its headers and structure,
what was found in the Autocrypt header and recorded, to which keys it was encrypted, which key is in the Autocrypt header of the reply, and which
recommendation decided whether the reply is encrypted. -/
theorem C103_report {O : Oracle K} {env : Env} {be : BotEnv} {v : BotStamp} {smtp fallback : Option Str} {m : Msg} {w w' : World Store K}
    {res : Except Exc Unit} (hl : PlainErrors O env) (hw : Reachable O env w) (hset : SetOrder be)
    (h : exec O (Bot.reply env be v smtp fallback m) w = (res, w')) {x : Msg} (hx : Replied w w' x) :
    ∃ d a f r own kh ac cc text, DeliveredTo env m fallback d ∧ FirstAccount env w d a ∧ m.get (str!"From") = some f ∧
      OwnPreference w' a own ∧ r = recSpec (w'.log (peerHead a (address env (some (address env (some f)))))) own
        (m.contentType == str!"multipart/encrypted") ∧
      OwnKey w' a kh ∧ x.getAll (str!"Autocrypt") = [ac] ∧ HeaderOf env w w' a d ac ∧
      ReportText O be.rep env m d a kh r w w' text ∧ (∀ s, s ∈ cc ↔ OtherRecipient be m d s) ∧
      (PlainMail x ∧ r ≠ .encrypt ∧ x.payload = .text (be.rep.encodeText text) ∨
       PgpMime x ∧ r = .encrypt ∧ EncryptedFor env w w' (be.rep.encodeText text) a ((f :: cc).map fun a => address env (some a)) x) := by
  spec_mail
  obtain ⟨d, a, f, r, pr, told, keys, kh, w1, w2, w3, w4, w5, w6, w7, hd, hs⟩ := reply_sent h hx
  obtain ⟨ac, cc, hfa, hac, hho, hcc, hp⟩ := hs.parts hw hset
  obtain ⟨s3, s4, s5, s6, t1, t23, t26, lo⟩ := hs.store6
  have ha : env.isalnum a = true := (fromEmailadr_alnum env d false).of_run hs.lookup a rfl
  obtain ⟨-, -, hpeer, hacc, hhead, -⟩ := C100_result hl (by rw [exec]; exact hs.incoming)
  have hlog : ∀ (u : World Store K), u.store = w2.store → ∀ hd, u.log hd = w'.log hd := fun u hu hd => by unfold World.log; rw [hu, hs.store]
  have t7 : w6.trace <:+ w'.trace := (trace_le hs.made).trans hs.rest
  have t4 : w4.trace <:+ w'.trace := ((trace_le hs.own).trans (trace_le hs.rec_)).trans t7
  have t2 : w2.trace <:+ w'.trace := t26.trans t7
  obtain ⟨t, rfl, htold⟩ := processed_told (re := be.rep) (w := w) (w' := w') ha hpeer hhead hs.processed t1 t2 hs.store
  have hkeys := keysOf_told (re := be.rep) (w := w) (w' := w') hs.keysOf ((t1.trans (trace_le hs.incoming)).trans t23) t4
  have hown := (exec_ownKeyhandle_ok (O := O) (w := w4) (w' := w5) (by rw [exec]; exact hs.own)).1
  have ht := report_text (d := d) (kh := kh) (r := r) htold hkeys
  rw [hacc] at hp
  generalize Report.text _ = text at hp ht
  obtain ⟨c, hc⟩ : ∃ c, OwnConf w5 a c := by
    have hrec := hs.rec_
    unfold Account.recommendation at hrec
    simp only [bind_eq] at hrec
    obtain ⟨c, u, h1, -⟩ := run_bind_ok.mp hrec
    exact ⟨c, (exec_config_ok (O := O) h1).1⟩
  have hpref : OwnPreference w5 a c.pe := ⟨c, hc, rfl⟩
  have hr := (C30_single_peer O env w5 a f (m.contentType == str!"multipart/encrypted") none c.pe hpref nofun).symm.trans (by rw [exec, hs.rec_])
  have hr := Except.ok.inj hr
  rw [hlog w5 s5] at hr
  refine ⟨d, a, f, r, c.pe, kh, ac, cc, _, hd, hfa, hs.from_, ?_, hr.symm, ?_, hac, hho, ht, hcc, hp⟩
  · exact ⟨c, by rw [← hlog w5 s5]; exact hc, rfl⟩
  · unfold OwnKey; rw [← hlog w4 s4]; exact hown

open Concrete

/-- C103: the text of the reply to Carol, in clear -/
example : SetOrder botEnv ∧ Reachable oracle env recWorld ∧ PlainErrors oracle env ∧
    (delivered (botRun none (botMail carol (str!"bot@x.org") [])).2.trace).map (fun x => match x.payload with | .text t => some t | _ => none) =
      [some (reportEnv.encodeText (Py.join (str!"\n") [
        str!"reading headers", [], str!"  determined Delivered-To: bot@x.org", [], [],
        str!"Got your mail, here is what i found in headers:", [],
        str!"  Message-ID:     7", str!"  Delivered-To:   bot@x.org", str!"  From:           carol@x.org", str!"  To:             bot@x.org",
        str!"  Subject:        s", str!"  Date:           100", str!"  DKIM-Signature  NOTFOUND", str!"  Autocrypt       NOTFOUND", [], [],
        str!"And this is the mime structure i saw:", [], str!"  └─╴text/plain [] 2 bytes (Subject: s)", [], [],
        str!"processed incoming mail for account a:", [], str!"  no valid Autocrypt header found", [], [],
        str!"have a nice day, bot@x.org", [], str!"P.S.: my current key BBBBBBBBBBBBBBBB is in the Autocrypt header of this reply.",
        str!"P.P.S.: For this reply the encryption recommendation is available"]))] :=
  ⟨botEnv_set, after_reachable _, concrete_plainErrors, by decide +kernel⟩

end Verif
