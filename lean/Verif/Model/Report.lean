import Verif.Model.Cmdline
import Verif.Model.Log
/-!
# What the bot's report tells

The calls of `SimpleLog` (see `Verif/Model/Log.lean`) in `bot_reply`, bot.py:55-98, and `render_mime_structure` of
mime.py:310-352.
-/
namespace Verif

/-- functions which only the report needs -/
structure ReportEnv where
  /-- functions for texts which the commands use as well -/
  cmd : CmdEnv
  /-- the payload of `MIMEText(text, _charset="utf8")` -/
  encodeText : Str → Str
  /-- `traceback.format_exc()` -/
  traceback : Exc → Str
  /-- `make_displayable(msg.get_filename())`, mime.py:297-307 -/
  filename : Msg → Str
  /-- `msg.get_charset()` as text -/
  charset : Msg → Option Str
  /-- the names of `msg.get_params(None, header='Content-Disposition')`, none if there is no such header -/
  dispositions : Msg → List Str
  /-- `len(msg.as_string())`; may raise -/
  asStringLen : Msg → Except Exc Nat

namespace Report
open Mime

/-- `'{:15s}'.format(s)` -/
def pad15 (s : Str) : Str := s ++ List.replicate (15 - s.length) ' '

/-- `s.replace("\n", "\\n")` -/
def escapeNewlines (s : Str) : Str := s.flatMap fun c => if c == '\n' then str!"\\n" else [c]

/-- the headers which the report shows, bot.py:63-64 -/
def shownHeaders : List Str :=
  [str!"Message-ID", str!"Delivered-To", str!"From", str!"To", str!"Subject", str!"Date", str!"DKIM-Signature", str!"Autocrypt"]

/-- what the report tells about a header, bot.py:65-69 -/
def headerLine (m : Msg) (hn : Str) : Str :=
  match m.get hn with
  | some v => pad15 (hn ++ str!":") ++ str!" " ++ truncString (escapeNewlines v) 60
  | none => pad15 hn ++ str!" NOTFOUND"

/-! ## `render_mime_structure`, mime.py:310-352 -/

/-- mime.py:318-326: the last of the known dispositions -/
def disposition (ds : List Str) : Str :=
  ds.foldl (fun r d => if d == str!"attachment" || d == str!"inline" then str!" " ++ d else r) []

/-- what is printed after the branch: mime.py:314-336 and 348-350 with the number of bytes -/
def partText (re : ReportEnv) (m : Msg) (n : Nat) : Str :=
  m.contentType ++ (match re.charset m with | none => [] | some c => str!" (" ++ c ++ str!")") ++ disposition (re.dispositions m) ++
    str!" [" ++ re.filename m ++ str!"]" ++ str!" " ++ Py.natToStr n ++ str!" bytes" ++
    (match m.get (str!"subject") with | none => [] | some s => str!" (Subject: " ++ s ++ str!")")

/-- the prefix of the parts, mime.py:337-340 -/
def deeper (pre : Str) : Str :=
  let pre := if pre.getLast? == some '└' then pre.dropLast ++ str!" " else pre
  if pre.getLast? == some '├' then pre.dropLast ++ str!"│" else pre

mutual
/-- `render_mime_structure(msg, prefix)` -/
def render (re : ReportEnv) (pre : Str) : Msg → Except Exc Str
  | .mk hs p => renderPayload re pre (.mk hs p) p
/-- both cases of the payload, mime.py:332-352; a message without payload has no `__len__` -/
def renderPayload (re : ReportEnv) (pre : Str) (m : Msg) : Payload Msg → Except Exc Str
  | .none => .error .attributeError
  | .text s => .ok (Py.rstrip (pre ++ str!"─╴" ++ partText re m s.length ++ str!"\n"))
  | .multi parts =>
    match re.asStringLen m with
    | .error e => .error e
    | .ok n =>
      match renderParts re (deeper pre) parts with
      | .error e => .error e
      | .ok s => .ok (Py.rstrip (pre ++ str!"┬╴" ++ partText re m n ++ str!"\n" ++ s))
/-- the parts, mime.py:341-346: `parts[0]` raises an `IndexError` if there are none -/
def renderParts (re : ReportEnv) (pre : Str) : List Msg → Except Exc Str
  | [] => .error .indexError
  | p :: l =>
    match render re (pre ++ if l.isEmpty then str!"└" else str!"├") p with
    | .error e => .error e
    | .ok s =>
      if l.isEmpty then .ok (s ++ str!"\n")
      else match renderParts re pre l with
        | .error e => .error e
        | .ok t => .ok (s ++ str!"\n" ++ t)
end

/-! ## the report -/

open SimpleLog

/-- `repr` of a list with these representations of its elements -/
def listRepr (l : List Str) : Str := str!"[" ++ Py.join (str!", ") l ++ str!"]"

/-- `KeyInfo.__repr__`, bingpg.py:384-388 -/
def keyInfoRepr (ce : CmdEnv) (k : BinGPG.KeyInfo) : Str :=
  str!"KeyInfo(id=" ++ ce.repr k.id ++ str!", uids=" ++ listRepr (k.uids.map ce.repr) ++ str!", bits=" ++ ce.intRepr k.bits ++ str!", type=" ++ k.type ++ str!")"

/-- what one section logs: a text, or an exception -/
inductive Told where
  | text (t : Str)
  | failed (e : Exc)

/-- the code of a section without `raising`, which logs a text or fails, and the traceback -/
def section_ (re : ReportEnv) (title : Str) (t : Told) (next : Script) : Script :=
  match t with
  | .text t => .sect title false [] (.call t .done) next
  | .failed e => .sect title false (re.traceback e) (.raise false) next

/-- the mime structure -/
def mimeTold (re : ReportEnv) (m : Msg) : Told :=
  match render re (str!"└") m with
  | .ok t => .text t
  | .error e => .failed e

/-- what is logged about the processing, bot.py:77-84; `ps` reads its chain -/
def processed (env : Env) (re : ReportEnv) (m : Msg) (r : Account.IncomingResult) : Prog Told :=
  match r.pah.error with
  | some e => return .text (Cmd.acErrText re.cmd (parseEmailAddr env (some (parseEmailAddr env (m.get (str!"From"))))) e)
  | none => do
    match ← Prog.attempt (Prog.chain r.peer) with
    | .error e => return .failed e
    | .ok es => return .text (str!"found peeraddr=" ++ Peer.addrOfHead r.peer ++ str!" keyhandle=" ++ Peer.publicKeyhandle es ++
        str!" prefer_encrypt=" ++ Peer.preferEncrypt es)

/-- all calls of the log, bot.py:55-98; `keys` are the infos of the keys if the message was encrypted -/
def script (re : ReportEnv) (m : Msg) (delivto account : Str) (told : Told) (keys : Option (List BinGPG.KeyInfo)) (keyhandle : Str) (r : Rec.Rec) :
    Script :=
  .sect (str!"reading headers") true [] (.call (str!"determined Delivered-To: " ++ delivto) .done) <|
  .sect (str!"Got your mail, here is what i found in headers:") false []
    (shownHeaders.foldr (fun hn s => .call (headerLine m hn) s) .done) <|
  section_ re (str!"And this is the mime structure i saw:") (mimeTold re m) <|
  section_ re (str!"processed incoming mail for account " ++ account ++ str!":") told <|
  .call (str!"\n") <|
  (fun next => match keys with
    | none => next
    | some l => .call (str!"Your message was encrypted.") <|
        .call (str!"It was encrypted to the following keys:" ++ listRepr (l.map (keyInfoRepr re.cmd))) next) <|
  .call (str!"have a nice day, " ++ delivto) <|
  .call [] <|
  .call (str!"P.S.: my current key " ++ keyhandle ++ str!" is in the Autocrypt header of this reply.") <|
  .call (str!"P.P.S.: For this reply the encryption recommendation is " ++ Cmd.recStr r) .done

/-- `six.text_type(log)`, bot.py:117 -/
def text (s : Script) : Str := (SimpleLog.run s SimpleLog.new).2.text

end Report
end Verif
