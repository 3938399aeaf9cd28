import Verif.Model.Exc
import Verif.Py.Str
/-!
# Finding a program on Windows

`bingpg.py:391-426` with `iswin32`. What `os.path` does there is left open.
-/
namespace Verif.Windows

/-- environment variables, `os.path.isabs`, `os.path.join` and `os.path.isfile` -/
structure System where
  path : Option Str
  systemroot : Option Str
  pathext : Option Str
  isabs : Str → Bool
  join : Str → Str → Str
  /-- an exception counts as `False`, bingpg.py:421-425 -/
  isfile : Str → Bool

/-- `s.replace(old, new)` for a non-empty `old`; `skip` characters of an occurrence are still to come -/
def replaceAux (old new : Str) : Nat → Str → Str
  | _, [] => []
  | skip + 1, _ :: s => replaceAux old new skip s
  | 0, c :: s => if Py.startsWith old (c :: s) then new ++ replaceAux old new (old.length - 1) s else c :: replaceAux old new 0 s

/-- the value of an octal digit -/
def octal (c : Char) : Option Nat := if '0' ≤ c ∧ c ≤ '7' then some (c.toNat - 48) else none

/-- the control characters and the backslash which a replacement can name (`re._parser.ESCAPES`) -/
def escapes : List (Char × Char) :=
  [('a', '\x07'), ('b', '\x08'), ('f', '\x0c'), ('n', '\n'), ('r', '\r'), ('t', '\t'), ('v', '\x0b'), ('\\', '\\')]

/-- the replacement of `re.sub` for a pattern without groups (`re._parser.parse_template` of Python 3.7 and later). Of references to groups only `\g<0>` is
known, other names of group 0 are left out; `hit` is the text of the pattern. -/
def template (hit : Str) : Str → Except Exc Str
  | [] => .ok []
  | '\\' :: [] => .error .reError
  | '\\' :: 'g' :: '<' :: '0' :: '>' :: s => (template hit s).map (hit ++ ·)
  | '\\' :: c :: s =>
    match escapes.lookup c with
    | some x => (template hit s).map (x :: ·)
    | none =>
      if c.isAlpha then .error .reError
      else if c = '0' then
        match s with
        | d :: e :: s' =>
          match octal d, octal e with
          | some x, some y => (template hit s').map (Char.ofNat (8 * x + y) :: ·)
          | some x, none => (template hit (e :: s')).map (Char.ofNat x :: ·)
          | none, _ => (template hit (d :: e :: s')).map (Char.ofNat 0 :: ·)
        | [d] =>
          match octal d with
          | some x => .ok [Char.ofNat x]
          | none => .ok [Char.ofNat 0, d]
        | [] => .ok [Char.ofNat 0]
      else if c.isDigit then
        match s with
        | d :: e :: s' =>
          match octal c, octal d, octal e with
          | some x, some y, some z => if 64 * x + 8 * y + z > 255 then .error .reError else (template hit s').map (Char.ofNat (64 * x + 8 * y + z) :: ·)
          | _, _, _ => .error .reError
        | _ => .error .reError
      else (template hit s).map ('\\' :: c :: ·)
  | c :: s => (template hit s).map (c :: ·)
termination_by s => s.length

/-- `'%SystemRoot%'` -/
def rootVar : Str := str!"%SystemRoot%"

/-- the directories, bingpg.py:401-410 -/
def paths (e : System) : Except Exc (List Str) :=
  match e.path with
  | none => .error .keyError
  | some path =>
    let l := Py.split ';' path
    let l := if l.contains [] || l.contains ['.'] then l else l ++ [['.']]
    match e.systemroot with
    | none => .ok l
    | some root => (template rootVar root).map fun new => l.map (replaceAux rootVar new 0)

/-- the inner loop, bingpg.py:419-425 -/
def tryExts (isfile : Str → Bool) (p : Str) : List Str → Option Str
  | [] => none
  | x :: xs => if isfile (p ++ x) then some (p ++ x) else tryExts isfile p xs

/-- the loops, bingpg.py:418-425 -/
def search (e : System) (name : Str) (exts : List Str) : List Str → Option Str
  | [] => none
  | x :: xs => (tryExts e.isfile (e.join x name) exts).or (search e name exts xs)

/-- `find_executable(name)`, bingpg.py:391-426 -/
def findExecutable (e : System) (name : Str) : Except Exc (Option Str) :=
  if e.isabs name then .ok (if e.isfile name then some name else none)
  else
    match paths e with
    | .error x => .error x
    | .ok dirs =>
      match e.pathext with
      | none => .error .keyError
      | some ext => .ok (search e name (Py.split ';' ext ++ [[]]) dirs)

end Verif.Windows
