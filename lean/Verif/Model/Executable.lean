import Verif.Py.Str
/-!
# Finding a program

`bingpg.py:391-426` on a POSIX system. Programs of the model call it by the operation `findExecutable`.
-/
namespace Verif.Executable

/-- `os.path.isabs` -/
def isabs (p : Str) : Bool := p.head? == some '/'

/-- `os.path.join(x, name)` -/
def pathJoin (x name : Str) : Str :=
  if isabs name then name
  else if x.isEmpty || x.getLast? == some '/' then x ++ name
  else x ++ '/' :: name

/-- the loop over the directories, bingpg.py:418-425 -/
def search (isfile : Str → Bool) (name : Str) : List Str → Option Str
  | [] => none
  | x :: xs => if isfile (pathJoin x name) then some (pathJoin x name) else search isfile name xs

/-- `find_executable(name)`, bingpg.py:391-426, for the value of PATH; see `Model/Windows.lean` for the branches for win32 -/
def findExecutable (isfile : Str → Bool) (path name : Str) : Option Str :=
  if isabs name then if isfile name then some name else none
  else search isfile name (Py.split ':' path)

end Verif.Executable
