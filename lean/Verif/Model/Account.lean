import Verif.Model.States
import Verif.Model.Mime
import Verif.Model.Recommendation
import Verif.Model.BinGPG
/-!
# `account.py`

An `Account` object is represented by its name. Its `bingpg` is opened anew on each use.
-/
namespace Verif
open Mime

/-- `parse_date_to_float`, account.py:29-33 -/
def parseDateToFloat (env : Env) (d : Option Str) : Except Exc Time :=
  match env.mktimeParsedate d with
  | .ok t => .ok t
  | .error .typeError => .ok 0
  | .error e => .error e

/-- `effective_date`, account.py:36-38 -/
def effectiveDate (d : Time) : Prog Time := do
  let t ← Prog.now
  return min d t

/-- `six.text_type(msg["Message-Id"])`, account.py:334: a missing header gives the text "None" -/
def messageId (m : Msg) : Str :=
  match m.get (str!"Message-Id") with
  | some s => s
  | none => str!"None"

namespace Account

/-- the head used by `get_peerstate`, account.py:209-211 -/
def peerHeadOf (env : Env) (name addr : Str) : Str := peerHead name (parseEmailAddr env (some addr))

/-- `ownstate.keyhandle` as text. A keygen entry made by `create` always has a handle; the model raises
`TypeError` for `None`. -/
def ownKeyhandle (name : Str) : Prog Str := do
  match ← Own.keyhandle name with
  | some kh => return kh
  | none => .raise .typeError

/-- `bingpg`, account.py:271-283. If the binary name is empty, formatting the error message reads
`self.dir`, which accounts do not have: `AttributeError`. -/
def bingpg (env : Env) (name : Str) : Prog BinGPG := do
  let c ← Own.config name
  let home := match c.gpgmode with
    | .own => some (env.dir ++ str!"/gpg/" ++ name)
    | .system => none
  if c.gpgbin.isEmpty then .raise .attributeError
  else BinGPG.create env home c.gpgbin

/-- `exists`, account.py:305-307 -/
def exists_ (name : Str) : Prog Bool := do
  let es ← Prog.chain (ownHead name)
  return Own.isConfigured es

/-- key generation or selection in `create`, account.py:245-252 -/
def createKey (env : Env) (name : Str) (kh : Option Str) : Prog Str :=
  match kh with
  | none => do
    let id ← Prog.uuid
    let g ← bingpg env name
    BinGPG.genSecretKey env g (id ++ str!"@random.muacrypt.org")
  | some k => do
    let g ← bingpg env name
    match ← BinGPG.getSecretKeyhandle env g k with
    | some k' => return k'
    | none => .raise .valueError

/-- `create`, account.py:223-256 -/
def create (env : Env) (name emailRegex : Str) (kh : Option Str) (gpgbin : Str) (gpgmode : Str) : Prog Unit := do
  let mode ← (if gpgmode = str!"own" then pure GpgMode.own
              else if gpgmode = str!"system" then pure GpgMode.system
              else .raise .assertionError : Prog GpgMode)
  Own.newConfig name { pe := .nopreference, name, emailRegex, gpgmode := mode, gpgbin }
  let k ← createKey env name kh
  let g ← bingpg env name
  let keydata ← BinGPG.getSecretKeydata env g k
  Own.appendKeygen name (some keydata) (some k)

/-- `modify`, account.py:258-266; `keyhandle` is accepted and not used -/
def modify (name : Str) (emailRegex _keyhandle gpgbin pe : Option Str) : Prog Bool :=
  Own.changeConfig name { emailRegex, gpgbin, pe }

/-- `make_ac_header`, account.py:285-303 -/
def makeAcHeader (env : Env) (name emailadr : Str) : Prog Str := do
  let g ← bingpg env name
  let kh ← ownKeyhandle name
  let kd ← BinGPG.getPublicKeydata env g kh
  let c ← Own.config name
  Prog.ofExcept (makeAcHeaderValue env (some emailadr) kd c.pe.toStr)

/-- `export_public_key`, account.py:309-315 -/
def exportPublicKey (env : Env) (name : Str) (kh : Option Str) : Prog Bytes := do
  let k ← (match kh with | some k => pure k | none => ownKeyhandle name : Prog Str)
  let g ← bingpg env name
  BinGPG.getPublicKeydata env g k true

/-- `export_secret_key`, account.py:317-319 -/
def exportSecretKey (env : Env) (name : Str) : Prog Bytes := do
  let g ← bingpg env name
  let kh ← ownKeyhandle name
  BinGPG.getSecretKeydata env g kh true

/-- `_import_key`, account.py:434-439: the handle, or `None` after an `InvocationFailure`. The `except`
clause evaluates `self.bingpg` again if opening it failed. -/
def importKey (env : Env) (name : Str) (keydata : Bytes) : Prog (Option Str) := do
  match ← Prog.attempt (bingpg env name) with
  | .ok g => do
    match ← Prog.attempt (BinGPG.importKeydata env g keydata) with
    | .ok kh => return some kh
    | .error e => if e = .invocationFailure then return none else .raise e
  | .error e => do
    let _ ← bingpg env name
    if e = .invocationFailure then return none else .raise e

/-- the import step for a parsed header: handle and the result with its error attribute updated,
account.py:363-365 and 434-439. `import_keydata(None)` does not occur since a result without error has
key data. -/
def importPah (env : Env) (name : Str) (pah : ACResult) : Prog (Option Str × ACResult) := do
  match ← importKey env name (pah.keydata.getD []) with
  | some kh => return (some kh, pah)
  | none => return (none, { pah with error := some .importFailed })

/-- `process_autocrypt_header`, account.py:358-371 -/
def processAutocryptHeader (env : Env) (name : Str) (m : Msg) (from_ : Str) (head : Str) (date : Time)
    (msgId : Str) : Prog ACResult := do
  let pah ← Prog.ofExcept (parseOneAcHeaderFromMsg env m [from_])
  let (kh, pah') ← (if pah.error.isSome then pure (none, pah) else importPah env name pah :
    Prog (Option Str × ACResult))
  Peer.updateFromMsg head { msgId, date, pe := pah'.pe, keydata := pah'.keydata, keyhandle := kh }
  return pah'

/-- A recipient who is named twice is looked up twice, and the result found is the same object: its error, once set by a failed import
(account.py:438), stays. -/
def keepError (old : Option ACResult) (new : ACResult) : ACResult :=
  match old.bind (·.error) with
  | some e => { new with error := some e }
  | none => new

/-- the loop over recipients, account.py:422-431 -/
def gossipLoop (env : Env) (name : Str) (addr2pah : List (Str × ACResult)) (date : Time) (msgId : Str) :
    List (Str × ACResult) → List Str → Prog (List (Str × ACResult))
  | processed, [] => return processed
  | processed, r :: rs =>
    match dictGet addr2pah r with
    | none => gossipLoop env name addr2pah date msgId processed rs
    | some pah => do
      let (kh, pah') ← importPah env name pah
      Peer.updateFromGossip (peerHeadOf env name r) { msgId, date, keydata := pah'.keydata, keyhandle := kh }
      gossipLoop env name addr2pah date msgId (dictSet processed r (keepError (dictGet processed r) pah')) rs

/-- `process_gossip_headers`, account.py:410-432 -/
def processGossipHeaders (env : Env) (name : Str) (m : Msg) (date : Time) (msgId : Str) :
    Prog (List (Str × ACResult)) := do
  let addr2pah ← Prog.ofExcept (getGossipHeadersFromMsg env m)
  gossipLoop env name addr2pah date msgId [] (getTargetEmailadr env m)

/-- `DecryptMimeResult`, account.py:552-559 -/
structure DecryptResult where
  decMsg : Msg
  keyinfos : List BinGPG.KeyInfo

/-- the encrypted data of a message, account.py:538-543 -/
def encData (m : Msg) : Except Exc Bytes :=
  match isEncrypted m with
  | .error e => .error e
  | .ok false => .error .assertionError
  | .ok true =>
    match m.payload with
    | .multi [_, b] => match b.payload with
      | .text s => match Py.asciiEncode s with
        | some d => .ok d
        | none => .error .unicodeError
      | _ => .error .attributeError
    | _ => .error .assertionError

/-- `decrypt_mime`, account.py:531-548 -/
def decryptMime (env : Env) (name : Str) (m : Msg) : Prog DecryptResult := do
  let enc ← Prog.ofExcept (encData m)
  let g ← bingpg env name
  let (dec, infos) ← BinGPG.decrypt env g enc
  return { decMsg := transferNonContentHeaders m (env.messageFromBytes dec), keyinfos := infos }

/-- `ProcessIncomingResult`, account.py:573-579; `peerstate` is given by its head name -/
structure IncomingResult where
  msgId : Str
  date : Time
  peer : Str
  account : Str
  pah : ACResult
  gossip : List (Str × ACResult)

/-- `process_incoming`, account.py:321-356 -/
def processIncoming (env : Env) (name : Str) (m : Msg) (ignoreExisting noDecrypt : Bool) :
    Prog (Option IncomingResult) := do
  let from_ := parseEmailAddr env (m.get (str!"From"))
  let head := peerHeadOf env name from_
  let d ← Prog.ofExcept (parseDateToFloat env (m.get (str!"Date")))
  let date ← effectiveDate d
  let msgId := messageId m
  let known ← (if ignoreExisting then do
      let es ← Prog.chain head
      return Peer.hasMessage es msgId
    else return false : Prog Bool)
  if known then return none
  else do
    let pah ← processAutocryptHeader env name m from_ head date msgId
    let enc ← (if noDecrypt then pure false else Prog.ofExcept (isEncrypted m) : Prog Bool)
    let gossip ← (if enc then do
        let r ← decryptMime env name m
        let gossip ← processGossipHeaders env name r.decMsg date msgId
        let key ← ownKeyhandle name
        Prog.hookIncomingGossip (gossip.map (·.1)) key r.decMsg
        return gossip
      else return [] : Prog (List (Str × ACResult)))
    return some { msgId, date, peer := head, account := name, pah, gossip }

/-- the addresses kept by the dictionary comprehension, account.py:215-216: without `From`, duplicates
removed, order of first occurrence -/
def peerAddrs (env : Env) (addrs : List Str) (from_ : Option Str) : List Str :=
  let l := (addrs.map (fun a => parseEmailAddr env (some a))).filter (fun a => some a ≠ from_)
  l.foldl (fun acc a => if acc.contains a then acc else acc ++ [a]) []

/-- read the chains of several peers -/
def readPeers (env : Env) (name : Str) : List Str → Prog (List (List Entry))
  | [] => return []
  | a :: as => do
    let es ← Prog.chain (peerHeadOf env name a)
    let rest ← readPeers env name as
    return es :: rest

/-- `get_recommendation(addrs, reply_to_enc, From).ui_recommendation()`, account.py:213-218 -/
def recommendation (env : Env) (name : Str) (addrs : List Str) (replyToEnc : Bool) (from_ : Option Str) :
    Prog Rec.Rec := do
  let c ← Own.config name
  let peers ← readPeers env name (peerAddrs env addrs from_)
  Prog.ofExcept (Rec.ui peers c.pe replyToEnc)

/-- accumulated values of the loop in `encrypt_mime` -/
structure EncAcc where
  keyhandles : List Str
  recipient2keydata : List (Str × Bytes)
  payload : Msg

/-- the loop in `encrypt_mime`, account.py:496-509 -/
def encLoop (env : Env) (name : Str) : EncAcc → List Str → Prog EncAcc
  | acc, [] => return acc
  | acc, addr :: rest => do
    let es ← Prog.chain (peerHeadOf env name addr)
    let kh := Peer.publicKeyhandle es
    if kh.isEmpty then do
      let c ← Own.config name
      let mine ← Prog.ofExcept (env.reMatch c.emailRegex addr)
      if mine then do
        let own ← ownKeyhandle name
        encLoop env name { acc with keyhandles := acc.keyhandles ++ [own] } rest
      else .raise .valueError
    else do
      let value ← Prog.ofExcept (makeAcHeaderValue env (some addr) (Peer.publicKeydata es) (str!"nopreference"))
      encLoop env name
        { keyhandles := acc.keyhandles ++ [kh]
          recipient2keydata := dictSet acc.recipient2keydata addr (Peer.publicKeydata es)
          payload := acc.payload.add (str!"Autocrypt-Gossip") value } rest

/-- the content type after `set_param('protocol', 'application/pgp-encrypted')`, account.py:527 -/
def encContentType : Str := str!"multipart/encrypted; protocol=\"application/pgp-encrypted\""

/-- the new message, account.py:523-528; `set_payload(bytes)` decodes them -/
def encMessage (m : Msg) (enc : Bytes) : Msg :=
  transferNonContentHeaders m
    (makeMessage encContentType (.multi [
      makeMessage (str!"application/pgp-encrypted") (.text (str!"version: 1")),
      makeMessage (str!"application/octet-stream") (.text (Py.asciiDecode enc))]))

/-- `EncryptMimeResult`, account.py:563-569 -/
structure EncryptResult where
  encMsg : Msg
  keyhandles : List Str

/-- `encrypt_mime`, account.py:482-529 -/
def encryptMime (env : Env) (name : Str) (m : Msg) (toaddrs : List Str) : Prog EncryptResult := do
  Prog.assert (!toaddrs.isEmpty)
  let acc ← encLoop env name
    { keyhandles := [], recipient2keydata := [], payload := makeContentMessage m }
    (toaddrs.map (fun a => parseEmailAddr env (some a)))
  let own ← ownKeyhandle name
  let payload ← Prog.hookBeforeEnc (parseEmailAddr env (m.get (str!"From"))) own acc.recipient2keydata acc.payload
  let clear ← Prog.ofExcept (env.msg2bytes payload)
  let g ← bingpg env name
  let own ← ownKeyhandle name
  let enc ← BinGPG.encrypt env g clear acc.keyhandles own true
  return { encMsg := encMessage m enc, keyhandles := acc.keyhandles }

/-- `ProcessOutgoingResult`, account.py:583-588 -/
structure OutgoingResult where
  msg : Msg
  account : Str
  addr : Str
  added : Option Str
  had : Option Str

/-- the ENCRYPT header of a message, account.py:449-453 -/
def encHeader (m : Msg) : Except Exc (Option Str) :=
  match m.get (str!"ENCRYPT") with
  | none => .ok none
  | some v =>
    let s := Py.strip v
    if s = str!"opportunistic" ∨ s = str!"yes" ∨ s = str!"no" then .ok (some s) else .error .assertionError

/-- the decision whether to encrypt and the encryption, account.py:461-475, for a message without ENCRYPT
header -/
def outgoingBody (env : Env) (name : Str) (m : Msg) (enc : Option Str) : Prog Msg := do
  if ← Prog.ofExcept (isEncrypted m) then return m
  else
    match m.getAll (str!"From") with
    | [f] => do
      let fromAddr := parseEmailAddr env (some f)
      let recipients := getTargetEmailadr env m
      let rec_ ← recommendation env name recipients false (some fromAddr)
      let recipients := if recipients.contains fromAddr then recipients else recipients ++ [fromAddr]
      if enc ≠ some (str!"no") then
        if rec_ = .encrypt ∨ (rec_ ≠ .disable ∧ enc = some (str!"yes")) then do
          let r ← encryptMime env name m recipients
          return r.encMsg
        else if enc = some (str!"yes") then .raise .valueError
        else return m
      else return m
    | _ => .raise .assertionError

/-- `process_outgoing`, account.py:441-480. The code changes the message object it is given; the model
returns the changed message. -/
def processOutgoing (env : Env) (name : Str) (m : Msg) : Prog OutgoingResult := do
  let enc ← Prog.ofExcept (encHeader m)
  let m1 := m.del (str!"ENCRYPT")
  let addr := parseEmailAddr env (m1.get (str!"From"))
  let (m2, added) ← (if m1.has (str!"Autocrypt") then pure (m1, none)
    else do
      let v ← makeAcHeader env name addr
      return (m1.add (str!"Autocrypt") v, some v) : Prog (Msg × Option Str))
  let m3 ← outgoingBody env name m2 enc
  return { msg := m3, account := name, addr, added, had := m3.get (str!"Autocrypt") }

/-- user ids of the first listed key with the given id, account.py:391-394 -/
def uidAddrs (env : Env) (kh : Str) (infos : List BinGPG.KeyInfo) : List Str :=
  match infos.find? (fun k => k.id == kh) with
  | some k => k.uids.map (fun u => parseEmailAddr env (some u))
  | none => []

/-- the loop over addresses, account.py:397-403. Arguments are evaluated in order: time, then key data. -/
def importLoop (env : Env) (name : Str) (pe : Str) (kh : Str) : List Str → Prog Unit
  | [] => return ()
  | a :: as => do
    let t ← Prog.now
    let g ← bingpg env name
    let kd ← BinGPG.getPublicKeydata env g kh
    Peer.updateFromMsg (peerHeadOf env name a)
      { msgId := [], date := t, pe := some pe, keydata := some kd, keyhandle := some kh }
    importLoop env name pe kh as

/-- `ImportKeyResult`, account.py:592-597 -/
structure ImportResult where
  addrs : List Str
  pe : Str
  keyhandle : Str
  keydata : Bytes

/-- `import_keydata_as_autocrypt`, account.py:373-408 -/
def importKeydataAsAutocrypt (env : Env) (name : Str) (addr : Option Str) (keydata : Bytes) (pe : Str) :
    Prog ImportResult := do
  let g ← bingpg env name
  let kh ← BinGPG.importKeydata env g keydata
  let addrs ← (match addr with
    | some a => pure [parseEmailAddr env (some a)]
    | none => do
      let g ← bingpg env name
      let infos ← BinGPG.listPublicKeyinfos env g (some kh)
      return uidAddrs env kh infos : Prog (List Str))
  let g ← bingpg env name
  let kh ← BinGPG.importKeydata env g keydata true
  importLoop env name pe kh addrs
  let g ← bingpg env name
  let kd ← BinGPG.getPublicKeydata env g kh
  return { addrs, pe, keyhandle := kh, keydata := kd }

end Account

/-! ## AccountManager (account.py:69-189) -/
namespace Manager

/-- `init`, account.py:86-88 -/
def init : Prog Unit := do
  let es ← Prog.chain managerHead
  Prog.assert (Mgr.version es).isNone
  Mgr.setVersion (str!"0.1")

/-- `_ensure_init` and `exists`, account.py:90-95 -/
def ensureInit : Prog Unit := do
  let es ← Prog.chain managerHead
  if (Mgr.version es).isSome then return () else init

/-- `Account(..)`, account.py:197-204: the name must be alphanumeric -/
def account (env : Env) (name : Str) : Prog Unit := Prog.assert (env.isalnum name)

/-- `get_account`, account.py:97-107 -/
def getAccount (env : Env) (name : Str) (check : Bool := true) : Prog Str := do
  ensureInit
  account env name
  let ok ← (if check then Account.exists_ name else pure true : Prog Bool)
  if ok then do
    Prog.hookInstantiate (env.dir ++ str!"/" ++ name)
    return name
  else .raise .accountNotFound

/-- `add_account`, account.py:112-132 -/
def addAccount (env : Env) (name : Str) (emailRegex : Option Str) (kh : Option Str) (gpgbin gpgmode : Str) :
    Prog Str := do
  let a ← getAccount env name false
  if ← Account.exists_ a then .raise .accountExists
  else do
    Account.create env a (emailRegex.getD (str!".*")) kh gpgbin gpgmode
    return a

/-- `mod_account`, account.py:134-154 -/
def modAccount (env : Env) (name : Str) (emailRegex kh gpgbin pe : Option Str) : Prog (Bool × Str) := do
  let a ← getAccount env name
  let changed ← Account.modify a emailRegex kh gpgbin pe
  return (changed, a)

/-- `del_account`, account.py:156-159 and 268-269 -/
def delAccount (env : Env) (name : Str) : Prog Unit := do
  let a ← getAccount env name
  removeAccount a

/-- the loop of `get_account_from_emailadr`, account.py:163-166 -/
def firstMatch (env : Env) (addr : Str) : List Str → Prog (Option Str)
  | [] => return none
  | n :: ns => do
    let a ← getAccount env n
    let c ← Own.config a
    if ← Prog.ofExcept (env.reMatch c.emailRegex addr) then return some a
    else firstMatch env addr ns

/-- `get_account_from_emailadr`, account.py:161-168 -/
def getAccountFromEmailadr (env : Env) (addr : Str) (raising : Bool) : Prog (Option Str) := do
  let names ← getAccountNames
  match ← firstMatch env addr names with
  | some a => return some a
  | none => if raising then .raise .accountNotFound else return none

/-- the first loop of `get_matching_account_for_incoming_message`, account.py:171-175 -/
def patterns (env : Env) : List Str → Prog (List (Str × Str))
  | [] => return []
  | n :: ns => do
    let a ← getAccount env n
    let c ← Own.config a
    let rest ← patterns env ns
    return (c.emailRegex, a) :: rest

/-- the inner loop, account.py:177-179 -/
def matchPatterns (env : Env) (addr : Str) : List (Str × Str) → Except Exc (Option Str)
  | [] => .ok none
  | (r, a) :: l => match env.reMatch r addr with
    | .error e => .error e
    | .ok true => .ok (some a)
    | .ok false => matchPatterns env addr l

/-- the outer loop, account.py:176-179 -/
def matchAddrs (env : Env) (l : List (Str × Str)) : List Str → Except Exc (Option Str)
  | [] => .ok none
  | adr :: rest => match matchPatterns env (env.lower adr) l with
    | .error e => .error e
    | .ok (some a) => .ok (some a)
    | .ok none => matchAddrs env l rest

/-- `get_matching_account_for_incoming_message`, account.py:170-181 -/
def getMatchingAccount (env : Env) (m : Msg) : Prog (Option Str) := do
  let names ← getAccountNames
  let l ← patterns env names
  match ← Prog.ofExcept (matchAddrs env l (getTargetEmailadr env m)) with
  | some a => return some a
  | none => do
    let d ← Prog.ofExcept (getDeliveredTo env m none)
    getAccountFromEmailadr env d true

/-- `remove`, account.py:183-189 -/
def remove : Prog Unit := Prog.rmtree

end Manager
end Verif
