import Verif.Model.Chainstore
/-!
# Reading a chain step by step

The views of `states.py` walk over a chain and stop at the first entry they look for; blocks behind it are not read
(chainstore.py:73-77 is a generator). `Chainstore.iterEntries` reads the whole chain; here are the walks as the code
does them. All loops have a bound on the number of rounds, `none` means "still running".
-/
namespace Verif
namespace Chainstore

/-- A loop `for entry in chain.iter_entries(cls): if found(entry): return entry` from a block on; chainstore.py:73-77,
135-141, 175-183. Only blocks with the tag of the class become entries. The parent is read when the loop goes on. -/
def searchFrom (c : Codec) (tag : Str) (found : Entry → Bool) : Nat → Option Block → FProg (Option (Option Entry))
  | _, none => return some none
  | 0, some _ => return none
  | n + 1, some b =>
    if b.type = .text tag then do
      match ← FProg.ofExcept (Entry.ofBlock b.type b.args) with
      | some e => if found e then return some (some e) else do searchFrom c tag found n (← parent c b)
      | none => searchFrom c tag found n (← parent c b)
    else do searchFrom c tag found n (← parent c b)

/-- such a loop over the chain with this name; states.py:151-155, 168-172, 337-340 -/
def search (c : Codec) (fuel : Nat) (name tag : Str) (found : Entry → Bool) : FProg (Option (Option Entry)) := do
  searchFrom c tag found fuel (← getHeadBlock c name)

/-- `latest_entry_of`, chainstore.py:185-187 -/
def latestEntryOf (c : Codec) (fuel : Nat) (name tag : Str) : FProg (Option (Option Entry)) :=
  search c fuel name tag (fun _ => true)

/-- `Chain.__len__`, chainstore.py:168-169: blocks are counted, entries are not made -/
def chainLength (c : Codec) (fuel : Nat) (name : Str) : FProg (Option Nat) := do
  let bs ← ancestors c fuel (← getHeadBlock c name)
  return bs.map (·.length)

/-- `Block.contains_cid`, chainstore.py:79-82; `None` counts as false -/
def containsCid (c : Codec) (cid : Str) : Nat → Option Block → FProg (Option Bool)
  | _, none => return some false
  | 0, some _ => return none
  | n + 1, some b => if b.cid = cid then return some true else do containsCid c cid n (← parent c b)

/-- `Block.get_last_parent`, chainstore.py:84-87 -/
def lastParent (c : Codec) : Nat → Block → FProg (Option Block)
  | 0, _ => return none
  | n + 1, b => do
    match ← parent c b with
    | none => return some b
    | some p => lastParent c n p

/-- `ChainStates.dump`, chainstore.py:130-133: the time, type and arguments of the lines, oldest block first (how values
are printed is left out); `list(None)` raises `TypeError` -/
def dump (c : Codec) (fuel : Nat) (name : Str) : FProg (Option (List (Val × Val × List Val))) := do
  match ← getHeadBlock c name with
  | none => .raise .typeError
  | some b => do
    let bs ← ancestors c fuel (some b)
    return bs.map fun bs => bs.reverse.map fun x => (x.timestamp, x.type, x.args)

end Chainstore
end Verif
