import Verif.Model.Account
/-!
# The command line

What the commands of cmdline.py compute, as programs over the account API. The commands themselves, with the text
they print, are in `Verif/Model/Commands.lean`. Parsing of arguments by `click` and reading of messages from files
are not modelled: commands get their arguments and messages.
-/
namespace Verif

/-- functions which only texts for the user need -/
structure CmdEnv where
  /-- `repr(text)` -/
  repr : Str → Str
  /-- `datetime.datetime.fromtimestamp(t).isoformat()`; may raise -/
  iso : Time → Except Exc Str
  /-- `time.ctime(t)`; may raise -/
  ctime : Time → Except Exc Str
  /-- the elements of a set of texts in the order of iteration -/
  setOrder : List Str → List Str
  /-- `repr(number)` -/
  intRepr : Int → Str
  /-- `str(exception)` -/
  excText : Exc → Str
  /-- `termcolor.colored(text, "red")` -/
  red : Str → Str
  /-- `termcolor.colored(text, "green")` -/
  green : Str → Str

namespace Cmd
open Mime

/-- `click.echo(text)` or `print(text)` -/
def say (s : Str) : Prog Unit := Prog.emit (.line s)

/-- the values of a recommendation, recommendation.py:12-71 -/
def recStr : Rec.Rec → Str
  | .disable => str!"disable"
  | .discourage => str!"discourage"
  | .available => str!"available"
  | .encrypt => str!"encrypt"

/-- `_process_outgoing`, cmdline.py:373-394; `log_info`, cmdline_utils.py:13-20, does nothing -/
def processOutgoing (env : Env) (m : Msg) : Prog Msg := do
  let resent := (m.get (str!"Resent-From")).getD []
  if !resent.isEmpty then
    match ← Manager.getAccountFromEmailadr env (parseEmailAddr env (some resent)) false with
    | none => .raise .clickError
    | some _ => return m
  else
    match ← Manager.getAccountFromEmailadr env (parseEmailAddr env (m.get (str!"From"))) false with
    | none => .raise .clickError
    | some a => do
      let r ← Account.processOutgoing env a m
      return r.msg

/-- what `process-incoming` reports, cmdline.py:271-281 -/
inductive Report where
  | known
  | found (account peer : Str)
  | noHeader (account : Str)
deriving DecidableEq

/-- `process_incoming`, cmdline.py:252-281. `get_matching_account_for_incoming_message` returns an account or
raises. -/
def processIncoming (env : Env) (accountName : Option Str) (reparse noDecrypt : Bool) (m : Msg) : Prog Report := do
  let a ← (match accountName with
    | none => do
      match ← Manager.getMatchingAccount env m with
      | some a => return a
      | none => .raise .attributeError
    | some n => Manager.getAccount env n : Prog Str)
  match ← Account.processIncoming env a m (!reparse) noDecrypt with
  | none => return .known
  | some r => do
    let es ← Prog.chain r.peer
    if Peer.acTimestamp es = Peer.lastSeen es then return .found r.account r.peer
    else return .noHeader r.account

/-- a file of a directory: name, time of modification and the message parsed from it -/
structure MailFile where
  name : Str
  mtime : Time
  msg : Msg

/-- what `scandir-incoming` finds out about a file, cmdline.py:309-355 -/
inductive ScanResult where
  | oldFile
  | noId
  | oldDate
  | unroutable (e : Exc)
  | undecryptable
  | known (account : Str)
  | found (account addr keyhandle : Str) (updated : Bool)
  | error (account : Str) (e : AcErr)
deriving DecidableEq

/-- 90 days -/
def maxAge : Time := sec (90 * 24 * 60 * 60)

/-- `is_too_old`, cmdline.py:303-305, with exact arithmetic -/
def isTooOld (now d : Time) : Bool := decide (now - d > maxAge)

/-- `except ValueError` also catches its subclass `UnicodeError` -/
def isValueError (e : Exc) : Bool := e == .valueError || e == .unicodeError

/-- the part of the loop after the checks of the message itself, cmdline.py:328-355; `updated` compares the date
of the message with the time of the newest Autocrypt key. `r.pah` is never `None` (account.py:337). -/
def scanRoutable (env : Env) (reparse : Bool) (m : Msg) : Prog ScanResult := do
  match ← Prog.attempt (Manager.getMatchingAccount env m) with
  | .error e => if e = .accountNotFound || isValueError e then return .unroutable e else .raise e
  | .ok none => .raise .attributeError
  | .ok (some a) => do
    match ← Prog.attempt (Account.processIncoming env a m (!reparse) false) with
    | .error e => if e = .invocationFailure then return .undecryptable else .raise e
    | .ok none => return .known a
    | .ok (some r) =>
      match r.pah.error with
      | some e => return .error a e
      | none => do
        let es ← Prog.chain r.peer
        return .found a (Peer.addrOfHead r.peer) (Peer.publicKeyhandle es) (decide (r.date = Peer.acTimestamp es))

/-- one file, cmdline.py:309-355 -/
def scanFile (env : Env) (reparse : Bool) (now : Time) (f : MailFile) : Prog ScanResult := do
  if isTooOld now f.mtime then return .oldFile
  else if (f.msg.get (str!"message-id")).isNone then return .noId
  else do
    let d ← Prog.ofExcept (parseDateToFloat env (f.msg.get (str!"Date")))
    let d ← effectiveDate d
    if isTooOld now d then return .oldDate
    else scanRoutable env reparse f.msg

/-- `ACParseResult.error`, mime.py:120-200 and account.py:438; `fromList` is the list of mime.py:125 -/
def acErrText (ce : CmdEnv) (from_ : Str) : AcErr → Str
  | .malformed => str!"malformed setting"
  | .decodeFailed => str!"failed to decode keydata"
  | .unknownPE v => str!"unknown prefer-encrypt setting '" ++ v ++ str!"'"
  | .unknownCritical n => str!"unknown critical attr '" ++ n ++ str!"'"
  | .missing n => str!"critical attr '" ++ n ++ str!"' missing"
  | .report => str!"Ignoring 'multipart/report' message."
  | .multipleFrom => str!"Ignoring message with more than one address in From header."
  | .addrMismatch a => str!"addr " ++ ce.repr a ++ str!" does not match [" ++ ce.repr from_ ++ str!"]"
  | .multipleValid => str!"more than one valid Autocrypt header found"
  | .noValid => str!"no valid Autocrypt header found"
  | .importFailed => str!"failed to import key"

/-- the text about the header, cmdline.py:340-354 -/
def scanStatus (ce : CmdEnv) (env : Env) (m : Msg) : ScanResult → Str
  | .known _ => str!"already known message, skipped processing"
  | .found _ addr kh updated => str!"found Autocrypt addr=" ++ addr ++ str!" keyhandle=" ++ kh ++
      if updated then ce.green (str!" (updated)") else str!" (old)"
  | .error _ e =>
    let text := acErrText ce (parseEmailAddr env (some (parseEmailAddr env (m.get (str!"From"))))) e
    if Py.contains (str!"no valid Autocrypt header") text then text else ce.red text
  | _ => []

/-- the line which `scandir-incoming` prints for file number `i`, if any, cmdline.py:311, 324, 330, 338, 355 -/
def scanLine (ce : CmdEnv) (env : Env) (i : Nat) (f : MailFile) (r : ScanResult) : Option Str :=
  let no := str!"[" ++ ce.intRepr i ++ str!"] "
  let id := (f.msg.get (str!"message-id")).getD []
  match r with
  | .oldFile => some (no ++ str!"msgfile " ++ f.name ++ str!" older than 90 days, skipped")
  | .noId => none
  | .oldDate => some (no ++ str!"message " ++ id ++ str!" older than 90 days, skipped")
  | .unroutable e => some (no ++ str!"msg " ++ id ++ str!": " ++ ce.excText e)
  | .undecryptable => some (no ++ str!"msg could not decrypt " ++ id ++ str!", skipping")
  | .known a | .found a _ _ _ | .error a _ =>
    some (no ++ str!"[" ++ a ++ str!"] msg " ++ id ++ str!" -- " ++ scanStatus ce env f.msg r)

/-- print a line if there is one -/
def sayOpt : Option Str → Prog Unit
  | some l => say l
  | none => return ()

/-- the loop over the files -/
def scanFiles (ce : CmdEnv) (env : Env) (reparse : Bool) (now : Time) : Nat → List MailFile → Prog (List ScanResult)
  | _, [] => return []
  | i, f :: fs => do
    let r ← scanFile env reparse now f
    sayOpt (scanLine ce env i f r)
    let rs ← scanFiles ce env reparse now (i + 1) fs
    return r :: rs

/-- `scandir_incoming`, cmdline.py:284-355, for a directory with these files, in the order of `os.listdir` -/
def scandir (ce : CmdEnv) (env : Env) (reparse : Bool) (files : List MailFile) : Prog (List ScanResult) := do
  let now ← Prog.now
  scanFiles ce env reparse now 0 files

/-- `AccountManager.exists`, account.py:94-95 -/
def managerExists : Prog Bool := do
  let es ← Prog.chain managerHead
  return (Mgr.version es).isSome

/-- `destroy_all`, cmdline.py:41-64; the result is the exit status -/
def destroyAll (yes : Bool) : Prog Int := do
  if !yes then return 1
  else do
    if ← managerExists then Manager.remove
    return 0

/-- `add_account`, cmdline.py:107-138, without the status output -/
def addAccount (env : Env) (name : Str) (useSystemKeyring : Bool) (useKey : Option Str) (gpgbin : Str) (emailRegex : Option Str) :
    Prog Str :=
  Manager.addAccount env name emailRegex useKey gpgbin (if useSystemKeyring then str!"system" else str!"own")

/-- `mod_account`, cmdline.py:141-160, without the status output. An option which is not given is `none`; then `click` passes
the default of the option, which for `--gpgbin` is "gpg", cmdline.py:77-80. -/
def modAccount (env : Env) (name : Str) (useKey gpgbin emailRegex preferEncrypt : Option Str) : Prog (Bool × Str) :=
  Manager.modAccount env name emailRegex useKey (some (gpgbin.getD (str!"gpg"))) preferEncrypt

end Cmd
end Verif
