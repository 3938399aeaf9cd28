import Verif.Model.Prog
/-!
# `chainstore.py`

The store on disk at the level of file operations. A function is an `FProg`: a tree of whole-file reads, whole-file
writes and clock reads. The same programs are run by one process (`FProg.run`), with a crash at any point
(`FProg.Crash`) and interleaved with other processes (`Verif/Model/Processes.lean`).

The serializer (execnet `dumps`/`load`) and SHA-256 are parameters.
-/
namespace Verif

/-- the values which entries and blocks consist of -/
inductive Val where
  | none
  | text (s : Str)
  | bytes (b : Bytes)
  | float (t : Time)
deriving DecidableEq, Repr

/-- the serializer and the hash function. `dumps` and `load` of execnet are used for lists (blocks) and for
dictionaries from text to text (heads); chainstore.py:32, 44, 102, 113, 121. -/
structure Codec where
  dumpList : List Val → Bytes
  loadList : Bytes → Except Exc (List Val)
  dumpDict : List (Str × Str) → Bytes
  loadDict : Bytes → Except Exc (List (Str × Str))
  /-- `hashlib.sha256(data).hexdigest()`, chainstore.py:33 -/
  hash : Bytes → Str

/-- what is assumed of the serializer and the hash function: values come back, digests are not empty -/
structure Codec.Lawful (c : Codec) : Prop where
  load_dump_list : ∀ l, c.loadList (c.dumpList l) = .ok l
  load_dump_dict : ∀ d, (d.map (·.1)).Nodup → c.loadDict (c.dumpDict d) = .ok d
  hash_ne : ∀ b, c.hash b ≠ []

/-! ## file operations -/

/-- the files of a store: `heads` and `blocks/<cid>`; states.py:32-38 -/
inductive Path where
  | heads
  | block (cid : Str)
deriving DecidableEq, Repr

/-- file operations -/
inductive FOp where
  /-- `os.path.exists` and, if so, reading the whole file; chainstore.py:42-44, 100-102 -/
  | read (p : Path)
  /-- `open(path, "wb")` and writing; chainstore.py:35-36, 112-113, 120-121 -/
  | write (p : Path) (b : Bytes)
  /-- `time.time()`, chainstore.py:31 -/
  | time

/-- result types of file operations -/
def FOp.Ret : FOp → Type
  | .read _ => Option Bytes
  | .write _ _ => Unit
  | .time => Time

/-- programs of file operations -/
inductive FProg (α : Type) where
  | pure (a : α)
  | raise (e : Exc)
  | op (o : FOp) (k : o.Ret → FProg α)

namespace FProg

/-- sequencing -/
def bind {α β : Type} : FProg α → (α → FProg β) → FProg β
  | .pure a, f => f a
  | .raise e, _ => .raise e
  | .op o k, f => .op o (fun r => bind (k r) f)

instance : Monad FProg where
  pure := .pure
  bind := bind

/-- a pure computation which may raise -/
def ofExcept {α : Type} : Except Exc α → FProg α
  | .ok a => .pure a
  | .error e => .raise e

/-- read a file, if it exists -/
def read (p : Path) : FProg (Option Bytes) := .op (.read p) .pure
/-- write a file -/
def write (p : Path) (b : Bytes) : FProg Unit := .op (.write p b) .pure
/-- `time.time()` -/
def time : FProg Time := .op .time .pure

end FProg

/-! ## entries as values -/

/-- the class attribute `TAG`; states.py:89, 99, 248, 261, 326, 363 -/
def Entry.tag : Entry → Str
  | .msg _ => str!"msg"
  | .gossip _ => str!"mge"
  | .keygen _ => str!"keygen"
  | .cfg _ => str!"cfg"
  | .oob _ => str!"oobverify"
  | .acfg _ => str!"acfg"

/-- a value which may be `None` -/
def Val.ofOption {α : Type} (f : α → Val) : Option α → Val
  | Option.none => .none
  | some a => f a

/-- `attr.astuple(entry)`, chainstore.py:172 -/
def Entry.args : Entry → List Val
  | .msg e => [.text e.msgId, .float e.date, .text e.pe.toStr, .bytes e.keydata, .text e.keyhandle]
  | .gossip e => [.text e.msgId, .float e.date, .bytes e.keydata, .text e.keyhandle]
  | .keygen e => [Val.ofOption .bytes e.keydata, Val.ofOption .text e.keyhandle]
  | .cfg e => [.text e.pe.toStr, .text e.name, .text e.emailRegex, .text e.gpgmode.toStr, .text e.gpgbin]
  | .oob e => [.text e.addr, .bytes e.keydata, .text e.origin.toStr]
  | .acfg v => [.text v]

/-- `validators.in_(['system', 'own'])`, states.py:265 -/
def GpgMode.ofStr? (s : Str) : Except Exc GpgMode :=
  if s = str!"system" then .ok .system
  else if s = str!"own" then .ok .own
  else .error .valueError

/-- `validators.in_(["self", "peer"])`, states.py:329 -/
def Origin.ofStr? (s : Str) : Except Exc Origin :=
  if s = str!"self" then .ok .self
  else if s = str!"peer" then .ok .peer
  else .error .valueError

/-- `validators.optional(validators.instance_of(..))`, myattr.py:24-31 -/
def Val.bytes? : Val → Except Exc (Option Bytes)
  | .none => .ok Option.none
  | .bytes b => .ok (some b)
  | _ => .error .typeError
/-- the same for text -/
def Val.text? : Val → Except Exc (Option Str)
  | .none => .ok Option.none
  | .text b => .ok (some b)
  | _ => .error .typeError

/-- `entryclass(*block.args)` for the class with the tag of the block, chainstore.py:175-183; blocks with another
tag are not read by any view. A wrong number or type of arguments raises `TypeError`, a value which is not allowed
`ValueError`. (Fields of class bytes also accept ascii text, myattr.py:34-37; that does not occur in files.) -/
def Entry.ofBlock (tag : Val) (args : List Val) : Except Exc (Option Entry) :=
  if tag = .text (str!"msg") then
    match args with
    | [.text i, .float d, .text p, .bytes k, .text h] => do
      let pe ← PE.ofStr? p
      return some (.msg ⟨i, d, pe, k, h⟩)
    | _ => .error .typeError
  else if tag = .text (str!"mge") then
    match args with
    | [.text i, .float d, .bytes k, .text h] => return some (.gossip ⟨i, d, k, h⟩)
    | _ => .error .typeError
  else if tag = .text (str!"keygen") then
    match args with
    | [k, h] => do
      let k ← k.bytes?
      let h ← h.text?
      return some (.keygen ⟨k, h⟩)
    | _ => .error .typeError
  else if tag = .text (str!"cfg") then
    match args with
    | [.text p, .text n, .text r, .text m, .text b] => do
      let pe ← PE.ofStr? p
      let mode ← GpgMode.ofStr? m
      return some (.cfg ⟨pe, n, r, mode, b⟩)
    | _ => .error .typeError
  else if tag = .text (str!"oobverify") then
    match args with
    | [.text a, .bytes k, .text o] => do
      let origin ← Origin.ofStr? o
      return some (.oob ⟨a, k, origin⟩)
    | _ => .error .typeError
  else if tag = .text (str!"acfg") then
    match args with
    | [.text v] => return some (.acfg v)
    | _ => .error .typeError
  else return Option.none

/-! ## BlockService and Block (chainstore.py:21-87) -/

/-- `Block`, chainstore.py:56-62 -/
structure Block where
  cid : Str
  type : Val
  parent : Val
  timestamp : Val
  args : List Val
deriving DecidableEq, Repr

/-- `Block.__init__`, chainstore.py:56-62: indexing raises `IndexError` -/
def Block.ofData (cid : Str) : List Val → Except Exc Block
  | type :: parent :: timestamp :: args => .ok { cid, type, parent, timestamp, args }
  | _ => .error .indexError

/-- a parent cid or `None` as a value -/
def parentVal : Option Str → Val
  | none => .none
  | some p => .text p

namespace Chainstore

/-- `store_block`, chainstore.py:27-37: the cid of the new block -/
def storeBlock (c : Codec) (type : Str) (args : List Val) (parent : Option Str) : FProg Str := do
  let t ← FProg.time
  let data := [.text type, parentVal parent, .float t] ++ args
  let serialized := c.dumpList data
  let cid := c.hash serialized
  FProg.write (.block cid) serialized
  return cid

/-- `get_block`, chainstore.py:39-45 -/
def getBlock (c : Codec) (cid : Str) : FProg (Option Block) := do
  match ← FProg.read (.block cid) with
  | none => return none
  | some b => do
    let data ← FProg.ofExcept (c.loadList b)
    let blk ← FProg.ofExcept (Block.ofData cid data)
    return some blk

/-- `Block.parent`, chainstore.py:64-68: nothing for a parent cid which is `None` or empty. Values of another type
raise. -/
def parent (c : Codec) (b : Block) : FProg (Option Block) :=
  match b.parent with
  | .none => return none
  | .text [] => return none
  | .text cid => getBlock c cid
  | _ => .raise .typeError

/-- `Block.__iter__`, chainstore.py:73-77: a block and its ancestors. The first argument bounds the number of rounds
of the loop; if it is not enough the result is `none` ("still running"). -/
def ancestors (c : Codec) : Nat → Option Block → FProg (Option (List Block))
  | _, none => return some []
  | 0, some _ => return none
  | n + 1, some b => do
    let p ← parent c b
    match ← ancestors c n p with
    | some l => return some (b :: l)
    | none => return none

/-! ## HeadTracker (chainstore.py:90-121) -/

/-- `_getheads()`, chainstore.py:99-107; a prefix is handled by `stripPrefix` in `Verif/Model/States.lean` -/
def getheads (c : Codec) : FProg (List (Str × Str)) := do
  match ← FProg.read .heads with
  | none => return []
  | some b => FProg.ofExcept (c.loadDict b)

/-- `heads.get(name)` -/
def headOf (hs : List (Str × Str)) (name : Str) : Option Str :=
  match hs with
  | [] => none
  | (n, cid) :: rest => if n = name then some cid else headOf rest name

/-- `heads[name] = cid`: a new name goes to the end -/
def setHead : List (Str × Str) → Str → Str → List (Str × Str)
  | [], name, cid => [(name, cid)]
  | (n, x) :: rest, name, cid => if n = name then (n, cid) :: rest else (n, x) :: setHead rest name cid

/-- `get_head_cid`, chainstore.py:95-97 -/
def getHeadCid (c : Codec) (name : Str) : FProg (Option Str) := do
  let hs ← getheads c
  return headOf hs name

/-- `remove_if`, chainstore.py:109-113 -/
def removeIf (c : Codec) (p : Str → Bool) : FProg Unit := do
  let hs ← getheads c
  FProg.write .heads (c.dumpDict (hs.filter (fun x => !p x.1)))

/-- `upsert`, chainstore.py:115-121 -/
def upsert (c : Codec) (name cid : Str) : FProg Unit := do
  let hs ← getheads c
  FProg.write .heads (c.dumpDict (setHead hs name cid))

/-! ## ChainStates and Chain (chainstore.py:124-187) -/

/-- `get_head_block`, chainstore.py:151-154 -/
def getHeadBlock (c : Codec) (name : Str) : FProg (Option Block) := do
  match ← getHeadCid c name with
  | none => return none
  | some [] => return none
  | some cid => getBlock c cid

/-- `new_head_block`, chainstore.py:143-149 -/
def newHeadBlock (c : Codec) (name type : Str) (args : List Val) : FProg Unit := do
  let head ← getHeadBlock c name
  let cid ← storeBlock c type args (head.map (·.cid))
  upsert c name cid

/-- `append_entry`, chainstore.py:171-173 -/
def appendEntry (c : Codec) (name : Str) (e : Entry) : FProg Unit :=
  newHeadBlock c name e.tag e.args

/-- the entries of a list of blocks -/
def entriesOf : List Block → Except Exc (List Entry)
  | [] => .ok []
  | b :: bs => do
    let e ← Entry.ofBlock b.type b.args
    let es ← entriesOf bs
    return e.toList ++ es

/-- all entries of a chain, `iter_entries`, chainstore.py:135-141 and 175-183. The views of `states.py` iterate over
entries of one class and may stop early (`Model/Views.lean`); reading all blocks differs only if a block cannot be read. -/
def iterEntries (c : Codec) (fuel : Nat) (name : Str) : FProg (Option (List Entry)) := do
  let head ← getHeadBlock c name
  match ← ancestors c fuel head with
  | none => return none
  | some bs => do
    let es ← FProg.ofExcept (entriesOf bs)
    return some es

end Chainstore

/-! ## one process -/

/-- The files of a store. Two fields are not part of the files and never read by the code: `collided` records that a
block file was overwritten by different bytes with the same hash, `headWrites` counts the writes of the heads file. -/
structure Disk where
  heads : Option Bytes := none
  blocks : List (Str × Bytes) := []
  collided : Bool := false
  headWrites : Nat := 0

namespace Disk

/-- content of a block file -/
def lookup (l : List (Str × Bytes)) (cid : Str) : Option Bytes :=
  match l with
  | [] => none
  | (n, b) :: rest => if n = cid then some b else lookup rest cid

/-- replace or create a block file -/
def put : List (Str × Bytes) → Str → Bytes → List (Str × Bytes)
  | [], cid, b => [(cid, b)]
  | (n, x) :: rest, cid, b => if n = cid then (n, b) :: rest else (n, x) :: put rest cid b

/-- content of a file, if it exists -/
def read (d : Disk) : Path → Option Bytes
  | .heads => d.heads
  | .block cid => lookup d.blocks cid

/-- is this a hash collision: the file has other bytes than those now written, with the same hash? -/
def collision (c : Codec) (d : Disk) (cid : Str) (b : Bytes) : Bool :=
  match lookup d.blocks cid with
  | none => false
  | some b' => b' != b && c.hash b' == c.hash b

/-- write a file -/
def write (c : Codec) (d : Disk) : Path → Bytes → Disk
  | .heads, b => { d with heads := some b, headWrites := d.headWrites + 1 }
  | .block cid, b =>
    { d with blocks := put d.blocks cid b, collided := d.collided || d.collision c cid b }

/-- one file operation; `t` is the time which the clock shows -/
def step (c : Codec) (t : Time) (d : Disk) : (o : FOp) → o.Ret × Disk
  | .read p => (d.read p, d)
  | .write p b => ((), d.write c p b)
  | .time => (t, d)

end Disk

/-- run by one process -/
def FProg.run (c : Codec) (t : Time) {α : Type} : FProg α → Disk → Except Exc α × Disk
  | .pure a, d => (.ok a, d)
  | .raise e, d => (.error e, d)
  | .op o k, d => (k (d.step c t o).1).run c t (d.step c t o).2

/-- stands for a loop which does not end -/
def diverges : Exc := .other 0

/-- the store on disk as an implementation of store operations. The walk over a chain is given as many rounds as
there are block files. -/
def Disk.impl (c : Codec) : StoreImpl Disk where
  chain d h :=
    match ((Chainstore.iterEntries c d.blocks.length h).run c 0 d).1 with
    | .ok (some es) => .ok es
    | .ok none => .error diverges
    | .error e => .error e
  append d h e t := (Chainstore.appendEntry c h e).run c t d
  heads d := (((Chainstore.getheads c).run c 0 d).1).map (fun hs => hs.map (·.1))
  removeIf d p := (Chainstore.removeIf c p).run c 0 d
  wipe d := { d with heads := none, blocks := [] }

end Verif
