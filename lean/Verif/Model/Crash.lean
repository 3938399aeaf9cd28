import Verif.Model.Chainstore
/-!
# A process which dies

`open(path, "wb")` empties the file, then the bytes arrive one after the other; the process may die at any time. What
was written before stays.
-/
namespace Verif

/-- the disk after the process died while writing a file: some first part of the data has arrived -/
def Disk.torn (d : Disk) (p : Path) (pre : Bytes) : Disk :=
  match p with
  | .heads => { d with heads := some pre }
  | .block cid => { d with blocks := Disk.put d.blocks cid pre }

/-- did the process die within this operation? -/
def Disk.Dies (d : Disk) (d' : Disk) : FOp → Prop
  | .read _ => False
  | .time => False
  | .write p b => ∃ pre, pre <+: b ∧ d' = d.torn p pre

/-- the disks which are possible if the process dies at any point before the end of the program or at its end -/
def FProg.Crash (c : Codec) (t : Time) {α : Type} : FProg α → Disk → Disk → Prop
  | .pure _, d, d' => d' = d
  | .raise _, d, d' => d' = d
  | .op o k, d, d' => d' = d ∨ d.Dies d' o ∨ (k (d.step c t o).1).Crash c t (d.step c t o).2 d'

/-- removing a file -/
def Disk.unlink (d : Disk) : Path → Disk
  | .heads => { d with heads := none }
  | .block cid => { d with blocks := d.blocks.filter (fun x => x.1 ≠ cid) }

/-- `shutil.rmtree(self.dir, ignore_errors=True)`, account.py:187, on its way: files are removed one after the other, in any order.
Files which cannot be removed are left. -/
def Disk.removing (d : Disk) (ps : List Path) : Disk := ps.foldl Disk.unlink d

/-- the process dies within an operation of the store -/
def Op.CrashIn {K : Type} (c : Codec) (w : World Disk K) (d' : Disk) : Op → Prop
  | .append n e => (Chainstore.appendEntry c n e).Crash c (w.clock w.tick) w.store d'
  | .removeIf p => (Chainstore.removeIf c p).Crash c 0 w.store d'
  | .wipe => ∃ ps, d' = w.store.removing ps
  | _ => d' = w.store

/-- the disks which are possible if the process dies at any point of a program, or at its end -/
def Prog.Crash {K : Type} (c : Codec) (O : Oracle K) {α : Type} : Prog α → World Disk K → Disk → Prop
  | .pure _, w, d' => d' = w.store
  | .raise _, w, d' => d' = w.store
  | .op o k, w, d' => d' = w.store ∨ o.CrashIn c w d' ∨ (k (step (Disk.impl c) O o w).1).Crash c O (step (Disk.impl c) O o w).2 d'
end Verif
