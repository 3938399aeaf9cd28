import Verif.Model.Account
/-!
# Each access to a property reads the chain

In `Model/States.lean`, `Model/Recommendation.lean` and `Model/Account.lean` a method reads the chain of a peer
once. In the code each access to a property of a state object reads it again (`iter_entries`, chainstore.py:175-183).
These are the methods which use several properties, with one read for each access, in the order of the code. `Account.bingpg` still
reads the configuration once for the mode and the name of the program.
-/
namespace Verif.Access

open Peer Rec Account Mime

/-- `last_seen`, states.py:121-122 -/
def lastSeen (h : Str) : Prog Time := do return Peer.lastSeen (← Prog.chain h)
/-- `autocrypt_timestamp`, states.py:125-126 -/
def acTimestamp (h : Str) : Prog Time := do return Peer.acTimestamp (← Prog.chain h)
/-- `has_direct_key`, states.py:136-137 -/
def hasDirectKey (h : Str) : Prog Bool := do return Peer.hasDirectKey (← Prog.chain h)
/-- `_latest_msg_entry`, states.py:161-163 -/
def latestMsg (h : Str) : Prog (Option MsgEntry) := do return Peer.latestMsg (← Prog.chain h)

/-- `entry_for_encryption`, states.py:139-145: one read for the direct key, and another one for gossip -/
def entryForEncryption (h : Str) : Prog (Option EncEntry) := do
  match Peer.latestAc (← Prog.chain h) with
  | some m =>
    if !m.keyhandle.isEmpty then return some (.inl m)
    else return (Peer.latestGossip (← Prog.chain h)).map .inr
  | none => return (Peer.latestGossip (← Prog.chain h)).map .inr

/-- `public_keyhandle`, states.py:129-130 -/
def publicKeyhandle (h : Str) : Prog Str := do
  match ← entryForEncryption h with
  | some (.inl m) => return m.keyhandle
  | some (.inr g) => return g.keyhandle
  | none => return []
/-- `public_keydata`, states.py:133-134 -/
def publicKeydata (h : Str) : Prog Bytes := do
  match ← entryForEncryption h with
  | some (.inl m) => return m.keydata
  | some (.inr g) => return g.keydata
  | none => return []
/-- `prefer_encrypt`, states.py:148-149 -/
def preferEncrypt (h : Str) : Prog Str := do
  match ← entryForEncryption h with
  | some (.inl m) => return m.pe.toStr
  | _ => return []

/-- `_preliminary_recommendation`, recommendation.py:61-71; the argument of `logging.debug` is evaluated -/
def preliminary (h : Str) : Prog Rec.Rec := do
  let _ ← publicKeyhandle h
  let kh ← publicKeyhandle h
  if kh.isEmpty then return .disable
  else
    let direct ← hasDirectKey h
    if !direct then return .discourage
    else
      let seen ← lastSeen h
      let ac ← acTimestamp h
      if seen - ac > Rec.timeout then return .discourage else return .available

/-- `PeerRecommendation.ui_recommendation`, recommendation.py:45-56 -/
def peerUi (h : Str) (own : PE) (replyToEnc : Bool) : Prog Rec.Rec := do
  let pre ← preliminary h
  if (pre = .available ∨ pre = .discourage) ∧ replyToEnc then return .encrypt
  else if pre = .available ∧ own = .mutual then
    let pe ← preferEncrypt h
    if pe = str!"mutual" then
      match ← latestMsg h with
      | none => .raise .attributeError
      | some m => if !m.keydata.isEmpty then return .encrypt else return pre
    else return pre
  else return pre

/-- the list comprehension, recommendation.py:13-15 -/
def peerUis (own : PE) (replyToEnc : Bool) : List Str → Prog (List Rec.Rec)
  | [] => return []
  | h :: hs => do
    let r ← peerUi h own replyToEnc
    let rs ← peerUis own replyToEnc hs
    return r :: rs

/-- `Recommendation.ui_recommendation`, recommendation.py:12-25 -/
def ui (heads : List Str) (own : PE) (replyToEnc : Bool) : Prog Rec.Rec := do
  match ← peerUis own replyToEnc heads with
  | [] => match own with
    | .mutual => return .encrypt
    | .nopreference => return .available
  | rs =>
    if .disable ∈ rs then return .disable
    else if .discourage ∈ rs then return .discourage
    else if .available ∈ rs then return .available
    else return .encrypt

/-- `get_recommendation(..).ui_recommendation()`, account.py:213-218 -/
def recommendation (env : Env) (name : Str) (addrs : List Str) (replyToEnc : Bool) (from_ : Option Str) :
    Prog Rec.Rec := do
  let c ← Own.config name
  ui ((peerAddrs env addrs from_).map (peerHeadOf env name)) c.pe replyToEnc

/-- `update_from_msg`, states.py:175-199 -/
def updateFromMsg (h : Str) (u : MsgUpdate) : Prog Unit := do
  let ac ← acTimestamp h
  if u.date < ac then return ()
  else
    let e := Peer.getMessageEntry (← Prog.chain h) u.msgId
    if (match e with | some e => sameMsg e u | none => false) then return ()
    else if noKey u.keydata then
      let seen ← lastSeen h
      if u.date > seen then
        Prog.append h (.msg { msgId := u.msgId, date := u.date, pe := .nopreference, keydata := [], keyhandle := [] })
      else return ()
    else
      let pe ← Prog.ofExcept (peArg u.pe)
      Prog.append h (.msg { msgId := u.msgId, date := u.date, pe, keydata := u.keydata.getD [],
                            keyhandle := orEmpty u.keyhandle })

/-- `update_from_msg_gossip`, states.py:201-214 -/
def updateFromGossip (h : Str) (u : GossipUpdate) : Prog Unit := do
  let ac ← acTimestamp h
  if u.date < ac then return ()
  else if noKey u.keydata then .raise .assertionError
  else
    let e := Peer.getGossipEntry (← Prog.chain h) u.msgId
    if (match e with
      | some e => e.date == u.date && some e.keydata == u.keydata && some e.keyhandle == u.keyhandle
      | none => false) then return ()
    else match u.keyhandle with
      | none => .raise .typeError
      | some kh => Prog.append h (.gossip { msgId := u.msgId, date := u.date, keydata := u.keydata.getD [], keyhandle := kh })

/-- `is_configured`, states.py:316-317: the key is looked up if there is a configuration -/
def isConfigured (h : Str) : Prog Bool := do
  let c := Own.latestConfig (← Prog.chain h)
  if c.isSome then return (Own.latestKeygen (← Prog.chain h)).isSome else return false

/-- the loop in `encrypt_mime`, account.py:496-509: the handle, the key data for the plugins and the key data for the
header are read one after the other -/
def encLoop (env : Env) (name : Str) : EncAcc → List Str → Prog EncAcc
  | acc, [] => return acc
  | acc, addr :: rest => do
    let h := peerHeadOf env name addr
    let kh ← publicKeyhandle h
    if kh.isEmpty then do
      let c ← Own.config name
      let mine ← Prog.ofExcept (env.reMatch c.emailRegex addr)
      if mine then do
        let own ← ownKeyhandle name
        encLoop env name { acc with keyhandles := acc.keyhandles ++ [own] } rest
      else .raise .valueError
    else do
      let kd ← publicKeydata h
      let kd' ← publicKeydata h
      let value ← Prog.ofExcept (makeAcHeaderValue env (some addr) kd' (str!"nopreference"))
      encLoop env name
        { keyhandles := acc.keyhandles ++ [kh]
          recipient2keydata := dictSet acc.recipient2keydata addr kd
          payload := acc.payload.add (str!"Autocrypt-Gossip") value } rest

/-- `encrypt_mime`, account.py:482-529 -/
def encryptMime (env : Env) (name : Str) (m : Msg) (toaddrs : List Str) : Prog EncryptResult := do
  Prog.assert (!toaddrs.isEmpty)
  let acc ← encLoop env name
    { keyhandles := [], recipient2keydata := [], payload := makeContentMessage m }
    (toaddrs.map (fun a => parseEmailAddr env (some a)))
  let own ← ownKeyhandle name
  let payload ← Prog.hookBeforeEnc (parseEmailAddr env (m.get (str!"From"))) own acc.recipient2keydata acc.payload
  let clear ← Prog.ofExcept (env.msg2bytes payload)
  let g ← bingpg env name
  let own ← ownKeyhandle name
  let enc ← BinGPG.encrypt env g clear acc.keyhandles own true
  return { encMsg := encMessage m enc, keyhandles := acc.keyhandles }

/-- the decision whether to encrypt and the encryption, account.py:461-475 -/
def outgoingBody (env : Env) (name : Str) (m : Msg) (enc : Option Str) : Prog Msg := do
  if ← Prog.ofExcept (isEncrypted m) then return m
  else
    match m.getAll (str!"From") with
    | [f] => do
      let fromAddr := parseEmailAddr env (some f)
      let recipients := getTargetEmailadr env m
      let rec_ ← recommendation env name recipients false (some fromAddr)
      let recipients := if recipients.contains fromAddr then recipients else recipients ++ [fromAddr]
      if enc ≠ some (str!"no") then
        if rec_ = .encrypt ∨ (rec_ ≠ .disable ∧ enc = some (str!"yes")) then do
          let r ← encryptMime env name m recipients
          return r.encMsg
        else if enc = some (str!"yes") then .raise .valueError
        else return m
      else return m
    | _ => .raise .assertionError

/-- `process_outgoing`, account.py:441-480 -/
def processOutgoing (env : Env) (name : Str) (m : Msg) : Prog OutgoingResult := do
  let enc ← Prog.ofExcept (encHeader m)
  let m1 := m.del (str!"ENCRYPT")
  let addr := parseEmailAddr env (m1.get (str!"From"))
  let (m2, added) ← (if m1.has (str!"Autocrypt") then pure (m1, none)
    else do
      let v ← makeAcHeader env name addr
      return (m1.add (str!"Autocrypt") v, some v) : Prog (Msg × Option Str))
  let m3 ← outgoingBody env name m2 enc
  return { msg := m3, account := name, addr, added, had := m3.get (str!"Autocrypt") }

/-- `process_autocrypt_header`, account.py:358-371 -/
def processAutocryptHeader (env : Env) (name : Str) (m : Msg) (from_ : Str) (head : Str) (date : Time)
    (msgId : Str) : Prog ACResult := do
  let pah ← Prog.ofExcept (parseOneAcHeaderFromMsg env m [from_])
  let (kh, pah') ← (if pah.error.isSome then pure (none, pah) else importPah env name pah :
    Prog (Option Str × ACResult))
  updateFromMsg head { msgId, date, pe := pah'.pe, keydata := pah'.keydata, keyhandle := kh }
  return pah'

/-- the loop over recipients, account.py:422-431 -/
def gossipLoop (env : Env) (name : Str) (addr2pah : List (Str × ACResult)) (date : Time) (msgId : Str) :
    List (Str × ACResult) → List Str → Prog (List (Str × ACResult))
  | processed, [] => return processed
  | processed, r :: rs =>
    match dictGet addr2pah r with
    | none => gossipLoop env name addr2pah date msgId processed rs
    | some pah => do
      let (kh, pah') ← importPah env name pah
      updateFromGossip (peerHeadOf env name r) { msgId, date, keydata := pah'.keydata, keyhandle := kh }
      gossipLoop env name addr2pah date msgId (dictSet processed r (keepError (dictGet processed r) pah')) rs

/-- `process_gossip_headers`, account.py:410-432 -/
def processGossipHeaders (env : Env) (name : Str) (m : Msg) (date : Time) (msgId : Str) :
    Prog (List (Str × ACResult)) := do
  let addr2pah ← Prog.ofExcept (getGossipHeadersFromMsg env m)
  gossipLoop env name addr2pah date msgId [] (getTargetEmailadr env m)

/-- `process_incoming`, account.py:321-356 -/
def processIncoming (env : Env) (name : Str) (m : Msg) (ignoreExisting noDecrypt : Bool) :
    Prog (Option IncomingResult) := do
  let from_ := parseEmailAddr env (m.get (str!"From"))
  let head := peerHeadOf env name from_
  let d ← Prog.ofExcept (parseDateToFloat env (m.get (str!"Date")))
  let date ← effectiveDate d
  let msgId := messageId m
  let known ← (if ignoreExisting then do
      let es ← Prog.chain head
      return Peer.hasMessage es msgId
    else return false : Prog Bool)
  if known then return none
  else do
    let pah ← processAutocryptHeader env name m from_ head date msgId
    let enc ← (if noDecrypt then pure false else Prog.ofExcept (isEncrypted m) : Prog Bool)
    let gossip ← (if enc then do
        let r ← decryptMime env name m
        let gossip ← processGossipHeaders env name r.decMsg date msgId
        let key ← ownKeyhandle name
        Prog.hookIncomingGossip (gossip.map (·.1)) key r.decMsg
        return gossip
      else return [] : Prog (List (Str × ACResult)))
    return some { msgId, date, peer := head, account := name, pah, gossip }

end Verif.Access

namespace Verif

variable {σ K : Type}

/-- run a program while other processes work on the same directory: before the `n`-th operation of the program they
do `others n` -/
def runAmid (S : StoreImpl σ) (O : Oracle K) (others : Nat → Prog Unit) {α : Type} :
    Prog α → Nat → World σ K → Except Exc α × World σ K
  | .pure a, _, w => (.ok a, w)
  | .raise e, _, w => (.error e, w)
  | .op o k, n, w =>
    let w' := (run S O (others n) w).2
    runAmid S O others (k (step S O o w').1) (n + 1) (step S O o w').2

/-- an operation and the answer to it -/
structure Did where
  op : Op
  ret : op.Ret

/-- the program may do the operations `l`, in this order, with these answers, and end with `r`. Nothing is said about where the answers
come from: each may be any value of its type. -/
def Prog.Path {α : Type} : Prog α → List Did → Except Exc α → Prop
  | .pure a, l, r => l = [] ∧ r = .ok a
  | .raise e, l, r => l = [] ∧ r = .error e
  | .op o k, l, r => ∃ a l', l = ⟨o, a⟩ :: l' ∧ (k a).Path l' r

end Verif
