import Verif.Model.Cmdline
import Verif.Model.Bot
/-!
# The commands

All commands of cmdline.py with what they print and their exit status. A command is a program whose result is the
exit status; an exception which is neither an account exception nor a `ClickException` leaves the program, and python
prints a traceback and exits with status 1.
-/
namespace Verif

namespace Cmd
open Mime

/-- `"{: <n}".format(text)` -/
def ljust (n : Nat) (s : Str) : Str := s ++ List.replicate (n - s.length) ' '

/-- `str(b)` -/
def boolStr (b : Bool) : Str := if b then str!"True" else str!"False"

/-- `str(x)` of a text or `None` -/
def optStr : Option Str → Str
  | none => str!"None"
  | some s => s

/-! ## `peerstate` -/

/-- `D(timestamp)`, cmdline.py:231-235 -/
def dateStr (ce : CmdEnv) (t : Time) : Except Exc Str := if t = 0 then .ok [] else ce.iso t

/-- a line of `peerstate`, cmdline.py:237 -/
def peerLine (name value : Str) : Str := ljust 16 name ++ str!" " ++ value

/-- `peerstate`, cmdline.py:226-248, after the account was found; `getattr(entry, "msg_id", "")` is the id of the newest
message in both places -/
def peerstate (ce : CmdEnv) (env : Env) (a addr : Str) : Prog Unit := do
  let head := Account.peerHeadOf env a addr
  let es ← Prog.chain head
  let lastMsg := match Peer.latestMsg es with
    | some e => e.msgId
    | none => []
  say (peerLine (str!"peer address") (Peer.addrOfHead head))
  say (peerLine (str!"keyhandle") (Peer.publicKeyhandle es))
  say (peerLine (str!"direct_key") (boolStr (Peer.hasDirectKey es)))
  say (peerLine (str!"prefer_encrypt") (Peer.preferEncrypt es))
  let seen ← Prog.ofExcept (dateStr ce (Peer.lastSeen es))
  say (peerLine (str!"last_seen") seen)
  say (peerLine (str!"last_msg") lastMsg)
  let ac ← Prog.ofExcept (dateStr ce (Peer.acTimestamp es))
  say (peerLine (str!"ac timestamp") ac)
  say (peerLine (str!"last_ac_msg") lastMsg)

/-! ## `status` -/

/-- `kecho`, cmdline.py:515-516 -/
def kecho (name value : Str) : Prog Unit := say (str!"  " ++ ljust 16 (name ++ str!":") ++ str!" " ++ value)

/-- `for uid in uids: kecho(..)`, cmdline.py:537-538 -/
def sayUids : List Str → Prog Unit
  | [] => return ()
  | u :: us => do
    kecho (str!"^^ uid") u
    sayUids us

/-- the status of a peer as text, or `None` if it is skipped, cmdline.py:548-553 -/
def peerStatus (es : List Entry) : Option Str :=
  if Peer.lastSeen es = Peer.acTimestamp es then some (str!"last-was-autocrypt")
  else if !(Peer.publicKeyhandle es).isEmpty then some (str!"past-autocrypt")
  else none

/-- the loop over the peers, cmdline.py:545-558 -/
def sayPeers (ce : CmdEnv) (env : Env) (a : Str) : List Str → Prog Unit
  | [] => return ()
  | n :: ns => do
    let head := Account.peerHeadOf env a n
    let es ← Prog.chain head
    match peerStatus es with
    | none => sayPeers ce env a ns
    | some status => do
      let seen ← Prog.ofExcept (ce.ctime (Peer.lastSeen es))
      say (str!"  " ++ Peer.addrOfHead head ++ str!": last seen key " ++ Peer.publicKeyhandle es ++ str!", status: " ++ status ++
        str!", last_seen: " ++ seen)
      sayPeers ce env a ns

/-- the user ids of keys, without repetitions, cmdline.py:533-535 -/
def allUids (infos : List BinGPG.KeyInfo) : List Str := (infos.flatMap (·.uids)).eraseDups

/-- `_status_account`, cmdline.py:511-560. Settings are read again for each line; the model reads them once. -/
def statusAccount (ce : CmdEnv) (env : Env) (a : Str) (verbose : Bool) : Prog Unit := do
  let c ← Own.config a
  say (str!"account: " ++ ce.repr c.name)
  kecho (str!"email_regex") c.emailRegex
  (match c.gpgmode with
    | .own => do
      let g ← Account.bingpg env a
      kecho (str!"gpgmode") (str!"own [home: " ++ optStr g.home ++ str!"]")
    | .system => kecho (str!"gpgmode") (str!"system") : Prog Unit)
  (if c.gpgbin.contains '/' then kecho (str!"gpgbin") c.gpgbin
    else do
      let p ← Prog.findExecutable c.gpgbin
      kecho (str!"gpgbin") (c.gpgbin ++ str!" [currently resolves to: " ++ optStr p ++ str!"]") : Prog Unit)
  kecho (str!"prefer-encrypt") c.pe.toStr
  let g ← Account.bingpg env a
  let kh ← Account.ownKeyhandle a
  let infos ← BinGPG.listPublicKeyinfos env g (some kh)
  kecho (str!"own-keyhandle") kh
  sayUids (ce.setOrder (allUids infos))
  if verbose then do
    let peers ← getPeernameList a
    if peers.isEmpty then say (str!"  ---- no peers registered -----")
    else do
      say (str!"  ----peers-----")
      sayPeers ce env a peers

/-- the loop of `_status`, cmdline.py:505-508 -/
def statusAll (ce : CmdEnv) (env : Env) (verbose : Bool) : List Str → Prog Unit
  | [] => return ()
  | n :: ns => do
    let a ← Manager.getAccount env n
    statusAccount ce env a verbose
    say []
    statusAll ce env verbose ns

/-- `_status`, cmdline.py:499-508 -/
def status (ce : CmdEnv) (env : Env) (verbose : Bool) : Prog Unit := do
  say (str!"account-dir: " ++ env.dir)
  let names ← getAccountNames
  if names.isEmpty then say (str!"no accounts configured")
  else statusAll ce env verbose names

/-! ## `process-incoming` and `import-public-key` -/

/-- what `process-incoming` prints, cmdline.py:271-281, with `PeerState.__str__`, states.py:111-114 -/
def sayReport (m : Msg) : Report → Prog Unit
  | .known => say (str!"message with " ++ optStr (m.get (str!"Message-Id")) ++ str!" already known, skipping processing")
  | .found a peer => do
    let es ← Prog.chain peer
    say (str!"processed mail for account '" ++ a ++ str!"', found: PeerState addr=" ++ Peer.addrOfHead peer ++ str!" key=" ++
      Peer.publicKeyhandle es)
  | .noHeader a => say (str!"processed mail for account '" ++ a ++ str!"', no Autocrypt header found")

/-- `for addr in r.addrs: click.echo(..)`, cmdline.py:461-462 -/
def sayAddrs : List Str → Prog Unit
  | [] => return ()
  | a :: as => do
    say (str!" " ++ a)
    sayAddrs as

/-! ## All commands -/

/-- the commands with their arguments; options which are not given are `none`. The options of `--prefer-encrypt` are checked by
`click`. -/
inductive Command where
  | status (account : Option Str) (verbose : Bool)
  | addAccount (name : Str) (useSystemKeyring : Bool) (useKey : Option Str) (gpgbin : Str) (emailRegex : Option Str)
  | modAccount (name : Str) (useKey gpgbin emailRegex preferEncrypt : Option Str)
  | delAccount (name : Str)
  | findAccount (addr : Str)
  | processIncoming (account : Option Str) (reparse noDecrypt : Bool) (m : Msg)
  | scandir (reparse : Bool) (files : List MailFile)
  | importPublicKey (account : Str) (keydata : Bytes) (preferEncrypt : PE) (email : Option Str)
  | peerstate (account addr : Str)
  | recommend (account : Str) (addrs : List Str)
  | processOutgoing (m : Msg)
  | sendmail (args : List Str) (m : Msg)
  | makeHeader (addr : Str) (val : Bool)
  | exportPublicKey (account : Str) (key : Option Str)
  | exportSecretKey (account : Str)
  | botReply (v : BotStamp) (smtp fallback : Option Str) (m : Msg)
  | destroyAll (yes : Bool)

/-- `get_account_from_emailadr(emailadr, raising=True)` -/
def accountFor (env : Env) (addr : Str) : Prog Str := do
  match ← Manager.getAccountFromEmailadr env addr true with
  | some a => return a
  | none => .raise .attributeError

/-- the program which is run for mail, cmdline.py:423-425 -/
def sendmailPath : Option Str → Str
  | some p => if p.isEmpty then str!"/usr/sbin/sendmail" else p
  | none => str!"/usr/sbin/sendmail"

/-- `sendmail`, cmdline.py:407-434; `args` are passed through -/
def sendmail (ce : CmdEnv) (env : Env) (args : List Str) (m : Msg) : Prog Int := do
  Prog.assert (!args.isEmpty)
  let r ← processOutgoing env m
  let exe ← Prog.findExecutable (str!"sendmail")
  let ret ← Prog.sendmail (sendmailPath exe :: args) r
  if ret ≠ 0 then do
    say (str!"sendmail return " ++ ce.intRepr ret ++ str!" exitcode, path: " ++ sendmailPath exe)
    return ret
  else return 0

/-- the functions of the commands, cmdline.py:41-560; the result is the exit status -/
def Command.body (ce : CmdEnv) (be : BotEnv) (env : Env) : Command → Prog Int
  | .status none v => do
    Cmd.status ce env v
    return 0
  | .status (some n) v => do
    let a ← Manager.getAccount env n
    statusAccount ce env a v
    return 0
  | .addAccount n sys key bin regex => do
    let a ← Cmd.addAccount env n sys key bin regex
    say (str!"account added: '" ++ a ++ str!"'")
    statusAccount ce env a false
    return 0
  | .modAccount n key bin regex pe => do
    let r ← Cmd.modAccount env n key bin regex pe
    say (str!"account" ++ (if r.1 then str!" " else str!" NOT ") ++ str!"modified: '" ++ r.2 ++ str!"'")
    statusAccount ce env r.2 false
    return 0
  | .delAccount n => do
    Manager.delAccount env n
    say (str!"account deleted: " ++ ce.repr n)
    Cmd.status ce env true
    return 0
  | .findAccount addr => do
    let a ← accountFor env addr
    say a
    return 0
  | .processIncoming n reparse nd m => do
    let r ← Cmd.processIncoming env n reparse nd m
    sayReport m r
    return 0
  | .scandir reparse files => do
    let _ ← Cmd.scandir ce env reparse files
    return 0
  | .importPublicKey n kd pe email => do
    let a ← Manager.getAccount env n
    let r ← Account.importKeydataAsAutocrypt env a email kd pe.toStr
    say (str!"imported key " ++ ce.repr r.keyhandle ++ str!" with prefer-encrypt=" ++ r.pe ++ str!" for addresses")
    sayAddrs r.addrs
    return 0
  | .peerstate n addr => do
    let a ← Manager.getAccount env n
    Cmd.peerstate ce env a addr
    return 0
  | .recommend n addrs => do
    let a ← Manager.getAccount env n
    let r ← Account.recommendation env a addrs false none
    say (recStr r)
    return 0
  | .processOutgoing m => do
    let r ← Cmd.processOutgoing env m
    Prog.emit (.mail r)
    return 0
  | .sendmail args m => Cmd.sendmail ce env args m
  | .makeHeader addr val => do
    let a ← accountFor env addr
    let v ← Account.makeAcHeader env a addr
    say (if val then v else str!"Autocrypt: " ++ v)
    return 0
  | .exportPublicKey n k => do
    let a ← Manager.getAccount env n
    let kd ← Account.exportPublicKey env a k
    Prog.emit (.data kd)
    return 0
  | .exportSecretKey n => do
    let a ← Manager.getAccount env n
    let kd ← Account.exportSecretKey env a
    Prog.emit (.data kd)
    return 0
  | .botReply v smtp fallback m => do
    Bot.reply env be v smtp fallback m
    return 0
  | .destroyAll yes => do
    if !yes then say (str!"specify --yes if you really want to destroy all state")
    else if ← managerExists then say (str!"deleting directory: " ++ env.dir)
    Cmd.destroyAll yes

/-- `AccountException` and its subclasses, account.py:41-66 -/
def isAccountExc (e : Exc) : Bool := e == .accountNotFound || e == .accountExists || e == .notInitialized

/-- `MyCommand.invoke` and `abort`, cmdline_utils.py:36-46; `click` prints a `ClickException` and exits with status 1 -/
def Command.prog (ce : CmdEnv) (be : BotEnv) (env : Env) (c : Command) : Prog Int := do
  match ← Prog.attempt (c.body ce be env) with
  | .ok r => return r
  | .error e =>
    if isAccountExc e || e == .clickError then do
      say (ce.excText e)
      return 1
    else .raise e

end Cmd
end Verif
