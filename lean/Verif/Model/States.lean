import Verif.Model.Prog
/-!
# `states.py`

State objects are views of a chain. A getter is a pure function of the chain's entries (newest first);
a method reads the chain once.
-/
namespace Verif

/-! ## head names (states.py:27-30) -/

/-- `_account_pat`, states.py:27 -/
def managerHead : Str := str!"."
/-- `_own_pat.format(id=..)`, states.py:28 -/
def ownHead (account : Str) : Str := str!"own:" ++ account
/-- `_oob_pat.format(id=..)`, states.py:29 -/
def oobHead (account : Str) : Str := str!"oob:" ++ account
/-- `_peer_pat.format(id=.., addr=..)`, states.py:30 -/
def peerHead (account addr : Str) : Str := str!"peer:" ++ account ++ str!":" ++ addr

/-- `_getheads(prefix)`: names with the prefix removed; chainstore.py:99-107 -/
def stripPrefix (pre : Str) (names : List Str) : List Str :=
  (names.filter (Py.startsWith pre)).map (List.drop pre.length)

/-- `get_account_names`, states.py:47-48 -/
def getAccountNames : Prog (List Str) := do
  let names ← Prog.heads
  return Py.sorted (stripPrefix (ownHead []) names)

/-- `get_peername_list`, states.py:53-55 -/
def getPeernameList (account : Str) : Prog (List Str) := do
  let names ← Prog.heads
  return Py.sorted (stripPrefix (peerHead account []) names)

/-- `get_num_peers`, states.py:50-51: calls `get_peername_list()` without its argument -/
def getNumPeers (_account : Str) : Prog Nat := .raise .typeError

/-- `key.split(":", 2)[0:2]`: the first two fields; the second is `none` if there is only one -/
def headFields (key : Str) : Str × Option Str :=
  match Py.split1 ':' key with
  | (a, none) => (a, none)
  | (a, some rest) => (a, some (Py.split1 ':' rest).1)

/-- `match_account`, states.py:76-79. A key "own" or "peer" without ':' would raise `IndexError`; no such
head name is ever made, and the model treats it as not matching. -/
def matchAccount (account key : Str) : Bool :=
  let (kind, id) := headFields key
  (kind = str!"own" || kind = str!"peer") && id = some account

/-- `remove_account`, states.py:75-80 -/
def removeAccount (account : Str) : Prog Unit := Prog.removeIf (matchAccount account)

/-! ## PeerState (states.py:107-233) -/

/-- the entry used for encryption: a message entry or a gossip entry -/
abbrev EncEntry := MsgEntry ⊕ GossipEntry

namespace Peer

/-- `iter_entries(MsgEntry)` -/
def msgs (es : List Entry) : List MsgEntry := es.filterMap Entry.msg?
/-- `iter_entries(MsgGossipEntry)` -/
def gossips (es : List Entry) : List GossipEntry := es.filterMap Entry.gossip?

/-- `_latest_ac_entry`, states.py:151-155 -/
def latestAc (es : List Entry) : Option MsgEntry := (msgs es).find? (fun m => !m.keydata.isEmpty)
/-- `latest_gossip_entry`, states.py:157-159 -/
def latestGossip (es : List Entry) : Option GossipEntry := (gossips es).head?
/-- `_latest_msg_entry`, states.py:161-163 -/
def latestMsg (es : List Entry) : Option MsgEntry := (msgs es).head?

/-- `addr`, states.py:117-118 (`name.split(":", 2)[-1]`) -/
def addrOfHead (head : Str) : Str :=
  match Py.split1 ':' head with
  | (a, none) => a
  | (_, some r) => match Py.split1 ':' r with
    | (b, none) => b
    | (_, some c) => c

/-- `last_seen`, states.py:121-122 -/
def lastSeen (es : List Entry) : Time := match latestMsg es with | some m => m.date | none => 0
/-- `autocrypt_timestamp`, states.py:125-126 -/
def acTimestamp (es : List Entry) : Time := match latestAc es with | some m => m.date | none => 0
/-- `has_direct_key`, states.py:136-137 -/
def hasDirectKey (es : List Entry) : Bool :=
  match latestAc es with | some m => !m.keyhandle.isEmpty | none => false
/-- `entry_for_encryption`, states.py:139-145 -/
def entryForEncryption (es : List Entry) : Option EncEntry :=
  match latestAc es with
  | some m => if !m.keyhandle.isEmpty then some (.inl m) else (latestGossip es).map .inr
  | none => (latestGossip es).map .inr
/-- `public_keyhandle`, states.py:129-130 -/
def publicKeyhandle (es : List Entry) : Str :=
  match entryForEncryption es with
  | some (.inl m) => m.keyhandle
  | some (.inr g) => g.keyhandle
  | none => []
/-- `public_keydata`, states.py:133-134 -/
def publicKeydata (es : List Entry) : Bytes :=
  match entryForEncryption es with
  | some (.inl m) => m.keydata
  | some (.inr g) => g.keydata
  | none => []
/-- `prefer_encrypt`, states.py:148-149: a gossip entry has no such attribute -/
def preferEncrypt (es : List Entry) : Str :=
  match entryForEncryption es with
  | some (.inl m) => m.pe.toStr
  | _ => []
/-- `get_message_entry(msg_id)`, states.py:168-172 -/
def getMessageEntry (es : List Entry) (msgId : Str) : Option MsgEntry :=
  (msgs es).find? (fun m => m.msgId == msgId)
/-- `get_message_entry(msg_id, MsgGossipEntry)`, states.py:168-172 -/
def getGossipEntry (es : List Entry) (msgId : Str) : Option GossipEntry :=
  (gossips es).find? (fun m => m.msgId == msgId)
/-- `has_message`, states.py:165-166 -/
def hasMessage (es : List Entry) (msgId : Str) : Bool := (getMessageEntry es msgId).isSome

/-- arguments of `update_from_msg`: `prefer_encrypt`, `keydata`, `keyhandle` may be `None` -/
structure MsgUpdate where
  msgId : Str
  date : Time
  pe : Option Str
  keydata : Option Bytes
  keyhandle : Option Str
deriving DecidableEq

/-- `not keydata`: `None` or empty -/
def noKey : Option Bytes → Bool
  | none => true
  | some k => k.isEmpty

/-- comparison of the entry found under the same message id, states.py:181-184 -/
def sameMsg (e : MsgEntry) (u : MsgUpdate) : Bool :=
  e.date == u.date && some e.keydata == u.keydata && some e.keyhandle == u.keyhandle &&
  some e.pe.toStr == u.pe

/-- is there an entry for the same message id with the same values? states.py:179-185 -/
def isRecorded (es : List Entry) (u : MsgUpdate) : Bool :=
  match getMessageEntry es u.msgId with
  | some e => sameMsg e u
  | none => false

/-- `MsgEntry(prefer_encrypt=..)` with a value which may be `None`: `ValueError` unless valid -/
def peArg : Option Str → Except Exc PE
  | none => .error .valueError
  | some s => PE.ofStr? s

/-- the text or the empty text: `keyhandle or ''` -/
def orEmpty : Option Str → Str
  | none => []
  | some s => s

/-- `update_from_msg`, states.py:175-199: the entry to append, if any -/
def updateEntry (es : List Entry) (u : MsgUpdate) : Except Exc (Option MsgEntry) :=
  if u.date < acTimestamp es then .ok none
  else if isRecorded es u then .ok none
  else if noKey u.keydata then
    if u.date > lastSeen es then
      .ok (some { msgId := u.msgId, date := u.date, pe := .nopreference, keydata := [], keyhandle := [] })
    else .ok none
  else match peArg u.pe with
    | .error e => .error e
    | .ok pe => .ok (some { msgId := u.msgId, date := u.date, pe, keydata := u.keydata.getD [],
                            keyhandle := orEmpty u.keyhandle })

/-- `update_from_msg`, states.py:175-199 -/
def updateFromMsg (head : Str) (u : MsgUpdate) : Prog Unit := do
  let es ← Prog.chain head
  match ← Prog.ofExcept (updateEntry es u) with
  | some e => Prog.append head (.msg e)
  | none => return ()

/-- arguments of `update_from_msg_gossip` -/
structure GossipUpdate where
  msgId : Str
  date : Time
  keydata : Option Bytes
  keyhandle : Option Str
deriving DecidableEq

/-- is there a gossip entry for the same message id with the same values? states.py:205-210 -/
def isRecordedGossip (es : List Entry) (u : GossipUpdate) : Bool :=
  match getGossipEntry es u.msgId with
  | some e => e.date == u.date && some e.keydata == u.keydata && some e.keyhandle == u.keyhandle
  | none => false

/-- `update_from_msg_gossip`, states.py:201-214: the entry to append, if any. A key handle `None` does not
pass the text validator of the entry. -/
def gossipEntry (es : List Entry) (u : GossipUpdate) : Except Exc (Option GossipEntry) :=
  if u.date < acTimestamp es then .ok none
  else if noKey u.keydata then .error .assertionError
  else if isRecordedGossip es u then .ok none
  else match u.keyhandle with
    | none => .error .typeError
    | some kh => .ok (some { msgId := u.msgId, date := u.date, keydata := u.keydata.getD [], keyhandle := kh })

/-- `update_from_msg_gossip`, states.py:201-214 -/
def updateFromGossip (head : Str) (u : GossipUpdate) : Prog Unit := do
  let es ← Prog.chain head
  match ← Prog.ofExcept (gossipEntry es u) with
  | some e => Prog.append head (.gossip e)
  | none => return ()

end Peer

/-! ## OwnState (states.py:270-317) -/
namespace Own

/-- `_latest_keygen`, states.py:290-291 -/
def latestKeygen (es : List Entry) : Option KeygenEntry := (es.filterMap Entry.keygen?).head?
/-- `_latest_config`, states.py:293-294 -/
def latestConfig (es : List Entry) : Option OwnConfig := (es.filterMap Entry.cfg?).head?
/-- `is_configured`, states.py:316-317 -/
def isConfigured (es : List Entry) : Bool := (latestConfig es).isSome && (latestKeygen es).isSome

/-- `config_property`, states.py:240-243: `getattr(None, name)` raises `AttributeError` -/
def config (account : Str) : Prog OwnConfig := do
  let es ← Prog.chain (ownHead account)
  match latestConfig es with
  | some c => return c
  | none => .raise .attributeError

/-- `keyhandle`, states.py:284-285 -/
def keyhandle (account : Str) : Prog (Option Str) := do
  let es ← Prog.chain (ownHead account)
  match latestKeygen es with
  | some k => return k.keyhandle
  | none => .raise .attributeError

/-- `new_config`, states.py:297-301, with an already validated entry -/
def newConfig (account : Str) (c : OwnConfig) : Prog Unit := Prog.append (ownHead account) (.cfg c)

/-- the settings which `modify` passes to `change_config` -/
structure Changes where
  emailRegex : Option Str
  gpgbin : Option Str
  pe : Option Str
deriving DecidableEq

/-- `attr.evolve(entry, **kwargs)`, states.py:305; the validator for prefer_encrypt may raise `ValueError` -/
def evolve (c : OwnConfig) (k : Changes) : Except Exc OwnConfig :=
  let c1 := { c with emailRegex := k.emailRegex.getD c.emailRegex, gpgbin := k.gpgbin.getD c.gpgbin }
  match k.pe with
  | none => .ok c1
  | some s => match PE.ofStr? s with
    | .ok pe => .ok { c1 with pe := pe }
    | .error e => .error e

/-- `change_config`, states.py:303-308: `True` or `None`. `attr.evolve(None)` raises (no attrs class). -/
def changeConfig (account : Str) (k : Changes) : Prog Bool := do
  let es ← Prog.chain (ownHead account)
  match latestConfig es with
  | none => .raise .typeError
  | some c => do
    let c' ← Prog.ofExcept (evolve c k)
    if c' ≠ c then
      Prog.append (ownHead account) (.cfg c')
      return true
    else return false

/-- `append_keygen`, states.py:310-314 -/
def appendKeygen (account : Str) (keydata : Option Bytes) (keyhandle : Option Str) : Prog Unit :=
  Prog.append (ownHead account) (.keygen { keydata, keyhandle })

end Own

/-! ## OOBState (states.py:333-354) -/
namespace OOB

/-- `get_verification`, states.py:337-340, as a function of the entries -/
def lookup (es : List Entry) (addr : Str) : Option Verification :=
  (es.filterMap Entry.oob?).find? (fun v => addr == v.addr)

/-- `get_verification`, states.py:337-340 -/
def getVerification (account addr : Str) : Prog (Option Verification) := do
  let es ← Prog.chain (oobHead account)
  return lookup es addr

/-- `append_self_verification`, states.py:342-347 -/
def appendSelf (account addr : Str) (keydata : Bytes) : Prog Unit :=
  Prog.append (oobHead account) (.oob { addr, keydata, origin := .self })

/-- `append_peer_verification`, states.py:349-354 -/
def appendPeer (account addr : Str) (keydata : Bytes) : Prog Unit :=
  Prog.append (oobHead account) (.oob { addr, keydata, origin := .peer })

end OOB

/-! ## AccountManagerState (states.py:368-384) -/
namespace Mgr

/-- `version`, states.py:376-377 -/
def version (es : List Entry) : Option Str := (es.filterMap Entry.acfg?).head?

/-- `set_version`, states.py:382-384. An entry object is always truthy. -/
def setVersion (v : Str) : Prog Unit := do
  let es ← Prog.chain managerHead
  Prog.assert (version es).isNone
  Prog.append managerHead (.acfg v)

end Mgr

end Verif
