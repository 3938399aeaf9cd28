import Verif.Py.Str
import Verif.Model.Exc
/-!
# Chain entries (`states.py`, `myattr.py`)

Entries which are appended to chains. `attrs` validators run when an entry object is made, so fields restricted
by `validators.in_` are enumerations here and the constructor functions raise.
-/
namespace Verif

/-- Points in time in units of 2^-1074 seconds since the epoch: every finite python float is one exactly. -/
macro "Time" : term => `(Int)
/-- `n` seconds -/
@[irreducible] def sec (n : Int) : Time := n * 2 ^ 1074

/-- values of a prefer-encrypt setting; states.py:92, states.py:262 -/
inductive PE where | nopreference | mutual
deriving DecidableEq, Repr

/-- the text of a prefer-encrypt setting -/
def PE.toStr : PE → Str
  | .nopreference => str!"nopreference"
  | .mutual => str!"mutual"

/-- `validators.in_(['nopreference', 'mutual'])` (raises `ValueError`); states.py:92, 262 -/
def PE.ofStr? (s : Str) : Except Exc PE :=
  if s = str!"nopreference" then .ok .nopreference
  else if s = str!"mutual" then .ok .mutual
  else .error .valueError

/-- values of the gpg mode; states.py:265 -/
inductive GpgMode where | system | own
deriving DecidableEq, Repr

/-- the text of a gpg mode -/
def GpgMode.toStr : GpgMode → Str
  | .system => str!"system"
  | .own => str!"own"

/-- values of the origin of a verification; states.py:329 -/
inductive Origin where | self | peer
deriving DecidableEq, Repr

/-- the text of an origin -/
def Origin.toStr : Origin → Str
  | .self => str!"self"
  | .peer => str!"peer"

/-- states.py:88-94 -/
structure MsgEntry where
  msgId : Str
  date : Time
  pe : PE
  keydata : Bytes
  keyhandle : Str
deriving DecidableEq, Repr

/-- states.py:98-103 -/
structure GossipEntry where
  msgId : Str
  date : Time
  keydata : Bytes
  keyhandle : Str
deriving DecidableEq, Repr

/-- states.py:247-250 -/
structure KeygenEntry where
  keydata : Option Bytes
  keyhandle : Option Str
deriving DecidableEq, Repr

/-- states.py:260-266 -/
structure OwnConfig where
  pe : PE
  name : Str
  emailRegex : Str
  gpgmode : GpgMode
  gpgbin : Str
deriving DecidableEq, Repr

/-- states.py:325-329 -/
structure Verification where
  addr : Str
  keydata : Bytes
  origin : Origin
deriving DecidableEq, Repr

/-- Entries of any class. The constructor is determined by the `TAG` of the class:
states.py:89, 99, 248, 261, 326, 363. -/
inductive Entry where
  | msg (e : MsgEntry)
  | gossip (e : GossipEntry)
  | keygen (e : KeygenEntry)
  | cfg (e : OwnConfig)
  | oob (e : Verification)
  | acfg (version : Str)
deriving DecidableEq, Repr

/-- `chain.iter_entries(MsgEntry)`; chainstore.py:175-183 -/
def Entry.msg? : Entry → Option MsgEntry | .msg e => some e | _ => none
/-- `chain.iter_entries(MsgGossipEntry)` -/
def Entry.gossip? : Entry → Option GossipEntry | .gossip e => some e | _ => none
/-- `chain.iter_entries(KeygenEntry)` -/
def Entry.keygen? : Entry → Option KeygenEntry | .keygen e => some e | _ => none
/-- `chain.iter_entries(OwnConfigEntry)` -/
def Entry.cfg? : Entry → Option OwnConfig | .cfg e => some e | _ => none
/-- `chain.iter_entries(VerificationEntry)` -/
def Entry.oob? : Entry → Option Verification | .oob e => some e | _ => none
/-- `chain.iter_entries(AConfigEntry)` -/
def Entry.acfg? : Entry → Option Str | .acfg v => some v | _ => none

end Verif
