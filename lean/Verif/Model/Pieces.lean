import Verif.Model.Processes
import Verif.Model.Crash
/-!
# Several processes which see files half written

As `Verif/Model/Processes.lean`, but writing a file takes several steps: `open(path, "wb")` empties the file, then the
bytes arrive, at once or in pieces; closing it ends the write. Every process writes at its own position; bytes which
others have put behind it stay. Reading a file is still one step. A process may die at any moment: its call never ends
and the file it has open, if any, stays as it is.
-/
namespace Verif

/-- an open file: its path, whether bytes arrive in pieces, and how many have arrived -/
structure Writing where
  path : Path
  pieces : Bool
  off : Nat

/-- A process within a call. `disturbed` is only observed: the call has read a file which another process had open for
writing. -/
structure PProc where
  job : Job
  rest : FProg (Option (List Entry))
  writing : Option Writing
  disturbed : Prop

/-- All processes. The last four fields are only observed: calls started, the bytes of blocks whose writing has
begun, the blocks whose writing has ended, and calls which ended with their result and whether they were disturbed. -/
structure PSys where
  disk : Disk := {}
  procs : Nat → Option PProc := fun _ => none
  started : List Job := []
  begun : List Bytes := []
  known : List (Str × Bytes) := []
  finished : List (Job × Except Exc (Option (List Entry)) × Prop) := []

/-- an item of a schedule: an idle process starts a call; a process goes on by one operation, at the time given, where
opening a file for writing says whether the bytes will arrive in pieces; the next so many bytes of a write arrive (all
if it is not in pieces), and the file is closed after the last one; a process dies -/
inductive PTurn where
  | start (i : Nat) (j : Job)
  | step (i : Nat) (t : Time) (pieces : Bool)
  | write (i : Nat) (n : Nat)
  | die (i : Nat)

/-- put bytes at a position; a gap is filled with zeros -/
def overlay (old : Bytes) (off : Nat) (new : Bytes) : Bytes :=
  old.take off ++ List.replicate (off - old.length) 0 ++ new ++ old.drop (off + new.length)

/-- has some process this file open for writing? -/
def PSys.IsOpen (s : PSys) (p : Path) : Prop :=
  ∃ i r w, s.procs i = some r ∧ r.writing = some w ∧ w.path = p

/-- set the state of one process -/
def PSys.setProc (s : PSys) (i : Nat) (r : Option PProc) : Nat → Option PProc :=
  fun k => if k = i then r else s.procs k

/-- the bytes of a block whose writing begins -/
def Path.blockBytes (p : Path) (b : Bytes) : List Bytes :=
  match p with
  | .heads => []
  | .block _ => [b]

/-- the block whose writing has ended -/
def Path.putBlock (p : Path) (b : Bytes) (l : List (Str × Bytes)) : List (Str × Bytes) :=
  match p with
  | .heads => l
  | .block cid => Disk.put l cid b

/-- one item of a schedule; what does not apply does nothing. Opening a file for writing empties it; chainstore.py:35-36,
112-113, 120-121. -/
def PSys.act (c : Codec) (s : PSys) : PTurn → PSys
  | .start i j =>
    match s.procs i with
    | some _ => s
    | none => { s with
        procs := s.setProc i (some ⟨j, j.prog c, none, False⟩)
        started := j :: s.started }
  | .step i t pieces =>
    match s.procs i with
    | none => s
    | some r =>
      match r.writing with
      | some _ => s
      | none =>
        match r.rest with
        | .pure a => { s with procs := s.setProc i none, finished := (r.job, .ok a, r.disturbed) :: s.finished }
        | .raise e => { s with procs := s.setProc i none, finished := (r.job, .error e, r.disturbed) :: s.finished }
        | .op .time k => { s with procs := s.setProc i (some { r with rest := k t }) }
        | .op (.read p) k => { s with
            procs := s.setProc i (some { r with rest := k (s.disk.read p), disturbed := r.disturbed ∨ s.IsOpen p }) }
        | .op (.write p b) _ => { s with
            disk := s.disk.torn p []
            procs := s.setProc i (some { r with writing := some ⟨p, pieces, 0⟩ })
            begun := p.blockBytes b ++ s.begun }
  | .write i n =>
    match s.procs i with
    | none => s
    | some r =>
      match r.writing, r.rest with
      | some w, .op (.write p b) k =>
        let piece := (b.drop w.off).take (if w.pieces then n else b.length)
        let disk := s.disk.torn p (overlay ((s.disk.read p).getD []) w.off piece)
        if b.length ≤ w.off + piece.length then
          { s with disk, procs := s.setProc i (some { r with rest := k (), writing := none }), known := p.putBlock b s.known }
        else
          { s with disk, procs := s.setProc i (some { r with writing := some { w with off := w.off + piece.length } }) }
      | _, _ => s
  | .die i => { s with procs := s.setProc i none }

/-- a schedule -/
def PSys.runs (c : Codec) (turns : List PTurn) (s : PSys) : PSys := turns.foldl (PSys.act c) s

end Verif
