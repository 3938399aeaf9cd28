import Verif.Model.Chainstore
import Verif.Model.Store
/-!
# Several processes on one directory

Every process works through calls one after the other; a call is a program of file operations
(`Verif/Model/Chainstore.lean`). A schedule says which process does the next thing. Reading or writing a whole file is
one step; this leaves out that a reader may see a file which is half written.
-/
namespace Verif

/-- a call of one process: `append_entry` (chainstore.py:171-173), `remove_if` (chainstore.py:109-113) or
`iter_entries` (chainstore.py:135-141, 175-183) with a bound on the rounds of its loop -/
inductive Job where
  | append (name : Str) (e : Entry)
  | remove (p : Str → Bool)
  | read (name : Str) (fuel : Nat)

/-- the program of a call -/
def Job.prog (c : Codec) : Job → FProg (Option (List Entry))
  | .append n e => (Chainstore.appendEntry c n e).bind fun _ => .pure none
  | .remove p => (Chainstore.removeIf c p).bind fun _ => .pure none
  | .read n fuel => Chainstore.iterEntries c fuel n

/-- a process within a call. The last two fields are only observed, never used: the number of writes of the heads file
at the start of the call, and whether the call has written the heads file itself. -/
structure Proc where
  job : Job
  rest : FProg (Option (List Entry))
  since : Nat
  wrote : Bool

/-- All processes, by number; a process without call is idle. The last three fields are only observed: calls started,
calls which have written the heads file and calls which ended with their result, newest first. -/
structure Sys where
  disk : Disk := {}
  procs : Nat → Option Proc := fun _ => none
  started : List Job := []
  committed : List Job := []
  finished : List (Job × Except Exc (Option (List Entry))) := []

/-- an item of a schedule: an idle process starts a call, or a process goes on by one file operation, at the time
given, or ends its call -/
inductive Turn where
  | start (i : Nat) (j : Job)
  | step (i : Nat) (t : Time)

/-- is this a write of the heads file? -/
def FOp.writesHeads : FOp → Bool
  | .write .heads _ => true
  | _ => false

/-- set the state of one process -/
def Sys.setProc (s : Sys) (i : Nat) (r : Option Proc) : Nat → Option Proc :=
  fun k => if k = i then r else s.procs k

/-- one item of a schedule. Starting a call on a busy process and a step of an idle one do nothing. -/
def Sys.act (c : Codec) (s : Sys) : Turn → Sys
  | .start i j =>
    match s.procs i with
    | some _ => s
    | none => { s with
        procs := s.setProc i (some ⟨j, j.prog c, s.disk.headWrites, false⟩)
        started := j :: s.started }
  | .step i t =>
    match s.procs i with
    | none => s
    | some r =>
      match r.rest with
      | .pure a => { s with procs := s.setProc i none, finished := (r.job, .ok a) :: s.finished }
      | .raise e => { s with procs := s.setProc i none, finished := (r.job, .error e) :: s.finished }
      | .op o k => { s with
          disk := (s.disk.step c t o).2
          procs := s.setProc i (some { r with rest := k (s.disk.step c t o).1, wrote := r.wrote || o.writesHeads })
          committed := if o.writesHeads then r.job :: s.committed else s.committed }

/-- a schedule -/
def Sys.runs (c : Codec) (turns : List Turn) (s : Sys) : Sys := turns.foldl (Sys.act c) s

end Verif
