import Verif.Model.Crash
/-!
# Input and output errors of the store

Reading or writing a file of the store may fail, with a full disk for example. Then `open`, `read`, `write` or `close` raise `OSError`
(chainstore.py:35-36, 43-44, 101-102, 112-113, 120-121), and the files hold what was written before. The functions of the chain store catch
nothing, so the whole operation raises `OSError`.
-/
namespace Verif

/-- Runs in which operations of the store may fail: `Faulty c O p w r w' b` says that `p` started in `w` may end with `r` in `w'`, and `b`
whether at least one operation failed. A failed operation leaves the files as if the process had died in it. Errors while all is removed
(account.py:187, `ignore_errors=True`) are no faults. -/
inductive Faulty {K : Type} (c : Codec) (O : Oracle K) {α : Type} : Prog α → World Disk K → Except Exc α → World Disk K → Bool → Prop
  | pure (a : α) (w : World Disk K) : Faulty c O (.pure a) w (.ok a) w false
  | raise (e : Exc) (w : World Disk K) : Faulty c O (.raise e) w (.error e) w false
  | step {o : Op} {k : o.Ret → Prog α} {w w' : World Disk K} {r : Except Exc α} {b : Bool} :
      Faulty c O (k (step (Disk.impl c) O o w).1) (step (Disk.impl c) O o w).2 r w' b → Faulty c O (.op o k) w r w' b
  | chain {h : Str} {k : Op.Ret (.chain h) → Prog α} {w w' : World Disk K} {r : Except Exc α} {b : Bool} :
      Faulty c O (k (.error .osError)) w r w' b → Faulty c O (.op (.chain h) k) w r w' true
  | heads {k : Op.Ret .heads → Prog α} {w w' : World Disk K} {r : Except Exc α} {b : Bool} :
      Faulty c O (k (.error .osError)) w r w' b → Faulty c O (.op .heads k) w r w' true
  | append {h : Str} {e : Entry} {k : Op.Ret (.append h e) → Prog α} {w w' : World Disk K} {r : Except Exc α} {b : Bool} (d : Disk) (t : Nat) :
      Op.CrashIn c w d (.append h e) → Faulty c O (k (.error .osError)) { w with store := d, tick := t } r w' b →
      Faulty c O (.op (.append h e) k) w r w' true
  | removeIf {q : Str → Bool} {k : Op.Ret (.removeIf q) → Prog α} {w w' : World Disk K} {r : Except Exc α} {b : Bool} (d : Disk) :
      Op.CrashIn c w d (.removeIf q) → Faulty c O (k (.error .osError)) { w with store := d } r w' b →
      Faulty c O (.op (.removeIf q) k) w r w' true

/-- `os.path.exists` (chainstore.py:42, 100) answers `False` if it cannot look, in the directory for example. `runUnseen` runs a program of
the chain store where `hidden i` says whether the read number `i` finds no file for this reason. -/
def FProg.runUnseen (c : Codec) (t : Time) (hidden : Nat → Bool) {α : Type} : FProg α → Nat → Disk → Except Exc α × Disk
  | .pure a, _, d => (.ok a, d)
  | .raise e, _, d => (.error e, d)
  | .op (.read p) k, i, d => (k (if hidden i then none else d.read p)).runUnseen c t hidden (i + 1) d
  | .op (.write p b) k, i, d => (k ()).runUnseen c t hidden i (d.write c p b)
  | .op .time k, i, d => (k t).runUnseen c t hidden i d

end Verif
