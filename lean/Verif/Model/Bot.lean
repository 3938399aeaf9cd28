import Verif.Model.Report
/-!
# The bot

`bot-reply` of bot.py:29-128. The text of the report is in `Verif/Model/Report.lean`; it is put together after
everything else was done, since sections of the report which come earlier in the code only write to it. A new message
id and the formatted date are arbitrary texts.
-/
namespace Verif

/-- functions which only the bot uses -/
structure BotEnv where
  /-- `email.utils.getaddresses(values)`: names and addresses -/
  getaddressesFull : List Str → List (Str × Str)
  /-- `email.utils.formataddr((name, addr))`; may raise -/
  formataddr : Str × Str → Except Exc Str
  /-- the elements of `set(l)` in the order of iteration -/
  setOrder : List (Str × Str) → List (Str × Str)
  /-- functions for the report -/
  rep : ReportEnv

/-- what differs between runs of the bot: `make_msgid()` and `formatdate(time.time())` -/
structure BotStamp where
  msgId : Str
  date : Str

/-- what is needed for a reply: also the encoded text of the report -/
structure BotValues extends BotStamp where
  body : Str

namespace Bot
open Mime

/-- `get_target_fulladr`, mime.py:77-79 -/
def targetFulladr (be : BotEnv) (m : Msg) : List (Str × Str) :=
  be.getaddressesFull (m.getAll (str!"to") ++ m.getAll (str!"cc"))

/-- the loop which makes the list for Cc, bot.py:106-110 -/
def ccList (be : BotEnv) (delivto : Str) : List (Str × Str) → Except Exc (List Str)
  | [] => .ok []
  | (name, addr) :: l =>
    if !addr.isEmpty && addr ≠ delivto then
      match be.formataddr (name, addr) with
      | .error e => .error e
      | .ok s => match ccList be delivto l with
        | .error e => .error e
        | .ok r => .ok (s :: r)
    else ccList be delivto l

/-- `gen_mail_msg` with the arguments of bot.py:112-118; mime.py:212-256. `add_header` with value `None` gives an
empty value. The content headers are those of `MIMEText(.., _charset="utf8")`. -/
def genReply (v : BotValues) (from_ to_ : Str) (cc : List Str) (subject : Str) (inReplyTo : Option Str) (ac : Str) : Msg :=
  .mk ([(str!"Content-Type", str!"text/plain; charset=\"utf8\""), (str!"MIME-Version", str!"1.0"),
      (str!"Content-Transfer-Encoding", str!"base64"), (str!"From", from_), (str!"To", to_)] ++
    (if cc.isEmpty then [] else [(str!"Cc", Py.join (str!",") cc)]) ++
    [(str!"Message-ID", v.msgId), (str!"Subject", subject), (str!"Date", v.date), (str!"In-Reply-To", inReplyTo.getD [])] ++
    (if ac.isEmpty then [] else [(str!"Autocrypt", ac)])) (.text v.body)

/-- sending or printing the reply, bot.py:20-24 and 123-128; `smtp` is the option, where an empty one counts as absent.
Unpacking of `split(",")` needs exactly two parts. -/
def deliver (env : Env) (smtp : Option Str) (reply : Msg) : Prog Unit :=
  if (smtp.getD []).isEmpty then Prog.emit (.mail reply)
  else match Py.split ',' (smtp.getD []) with
    | [host, port] => do
      let port ← Prog.ofExcept (env.pyInt port)
      Prog.emit (.smtp host port (reply.get (str!"From")) (getTargetEmailadr env reply) reply)
      Prog.emit (.line (str!"send reply through smtp: " ++ smtp.getD []))
    | _ => .raise .valueError

/-- making the reply, bot.py:105-122 -/
def makeReply (env : Env) (be : BotEnv) (v : BotValues) (a : Str) (delivto from_ : Str) (encrypt : Bool) (m : Msg) : Prog Msg := do
  let cc ← Prog.ofExcept (ccList be delivto (be.setOrder (targetFulladr be m)))
  let ac ← Account.makeAcHeader env a delivto
  let reply := genReply v delivto from_ cc (str!"Re: " ++ (m.get (str!"Subject")).getD []) (m.get (str!"Message-ID")) ac
  if encrypt then do
    let r ← Account.encryptMime env a reply (from_ :: cc)
    let ok ← Prog.ofExcept (isEncrypted r.encMsg)
    Prog.assert ok
    return r.encMsg
  else return reply

/-- making the reply to a message without From header, bot.py:105-118: `",".join(To)` of mime.py:232 raises a `TypeError`
after the arguments were computed -/
def replyNoFrom (env : Env) (be : BotEnv) (a delivto : Str) (m : Msg) : Prog Unit := do
  let _ ← Prog.ofExcept (ccList be delivto (be.setOrder (targetFulladr be m)))
  let _ ← Account.makeAcHeader env a delivto
  .raise .typeError

/-- the keys to which the message was encrypted, if it was, bot.py:87-93 -/
def keysOf (env : Env) (a : Str) (m : Msg) : Prog (Option (List BinGPG.KeyInfo)) :=
  if m.contentType == str!"multipart/encrypted" then do
    let r ← Account.decryptMime env a m
    return some r.keyinfos
  else return none

/-- the recommendation for the reply, bot.py:99-100. Without a From header it, which only reads, goes to a report which
is never sent, and is left out. -/
def recFor (env : Env) (a : Str) (m : Msg) : Prog (Option (Str × Rec.Rec)) :=
  match m.get (str!"From") with
  | none => return none
  | some f => do
    let r ← Account.recommendation env a [f] (m.contentType == str!"multipart/encrypted") none
    return some (f, r)

/-- `bot_reply` after the message was processed, bot.py:76-128 -/
def answer (env : Env) (be : BotEnv) (v : BotStamp) (smtp : Option Str) (delivto a : Str) (m : Msg) (res : Account.IncomingResult) : Prog Unit := do
  let told ← Report.processed env be.rep m res
  let keys ← keysOf env a m
  let kh ← Account.ownKeyhandle a
  let rec_ ← recFor env a m
  match m.get (str!"To") with
  | none => .raise .typeError
  | some to_ =>
    if !Py.contains delivto to_ then return ()
    else match rec_ with
      | none => replyNoFrom env be a delivto m
      | some (f, r) => do
        let report := Report.text (Report.script be.rep m delivto res.account told keys kh r)
        let reply ← makeReply env be ⟨v, be.rep.encodeText report⟩ a delivto f (r == .encrypt) m
        deliver env smtp reply

/-- `bot_reply`, bot.py:29-128. `process_incoming` without `ignore_existing` always has a result. -/
def reply (env : Env) (be : BotEnv) (v : BotStamp) (smtp fallback : Option Str) (m : Msg) : Prog Unit := do
  let delivto ← Prog.ofExcept (getDeliveredTo env m fallback)
  match ← Manager.getAccountFromEmailadr env delivto false with
  | none => .raise .attributeError
  | some a => do
    match ← Account.processIncoming env a m false false with
    | none => .raise .attributeError
    | some res => answer env be v smtp delivto a m res

end Bot
end Verif
