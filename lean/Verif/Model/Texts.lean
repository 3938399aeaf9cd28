import Verif.Py.Str
import Verif.Model.Exc
/-!
# Texts for people

`make_displayable` of mime.py, `shortrepr` of chainstore.py and the text of `InvocationFailure` of bingpg.py.
-/
namespace Verif.Texts

/-- the argument of `make_displayable` -/
inductive Raw where
  | none
  | text (s : Str)
  | bytes (b : Bytes)

/-- `string.decode("latin1")` -/
def latin1 (b : Bytes) : Except Exc Str := .ok (b.map fun x => Char.ofNat x.toNat)

/-- the loop over encodings, mime.py:303-307: what the first decoder gives which does not raise -/
def firstDecoded (b : Bytes) : List (Bytes → Except Exc Str) → Option Str
  | [] => .none
  | f :: fs => match f b with
    | .ok s => some s
    | .error _ => firstDecoded b fs

/-- `make_displayable(string)`, mime.py:297-308. The last line hands the name of an encoding, a text, to `quopri.encodestring`, which takes bytes:
it would raise a `TypeError`. -/
def makeDisplayable (utf8 : Bytes → Except Exc Str) : Raw → Except Exc Str
  | .none => .ok []
  | .text s => .ok s
  | .bytes b => match firstDecoded b [utf8, latin1] with
    | some s => .ok s
    | .none => .error .typeError

/-- `shortrepr(obj)`, chainstore.py:190-194, for the text `repr(obj)` -/
def shortrepr (r : Str) : Str :=
  if r.length > 50 then r.take 23 ++ str!"..." ++ r.drop (r.length - 23) else r

/-- an `InvocationFailure`, bingpg.py:42-48; `ret` and `out` are given as texts: `%d` of the number, and `out.__str__()` -/
structure Failure where
  ret : Str
  cmd : Str
  out : Str
  err : Str
  extrainfo : Option Str

/-- what `__str__` adds for one of the outputs, bingpg.py:52-56 -/
def Failure.part (name text : Str) : List Str := name :: (Py.splitlines text).map (str!"  " ++ ·)

/-- `InvocationFailure.__str__`, bingpg.py:50-59 -/
def Failure.str (f : Failure) : Str :=
  Py.join (str!"\n") ((str!"GPG Command '" ++ f.cmd ++ str!"' retcode=" ++ f.ret) :: Failure.part (str!"stdout:") f.out ++
    Failure.part (str!"stderr:") f.err ++ (match f.extrainfo with
      | some x => if x.isEmpty then [] else [x]
      | .none => []))

end Verif.Texts
