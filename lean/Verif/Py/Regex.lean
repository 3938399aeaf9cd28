import Verif.Py.Str
/-!
# Matching as python's `re` does it

A pattern without alternatives is matched by trying the parts in order, each repetition from the longest possible one down to the
shortest one; the first way to match everything is the result.
-/
namespace Verif.Py

/-- the ways to match `C*` for a set of characters `C`, longest first: what is matched and the rest -/
def manyOf (p : Char → Bool) : Str → List (Str × Str)
  | [] => [([], [])]
  | c :: cs => if p c then (manyOf p cs).map (fun x => (c :: x.1, x.2)) ++ [([], c :: cs)] else [([], c :: cs)]

/-- the ways to match `C+`, longest first -/
def someOf (p : Char → Bool) (s : Str) : List (Str × Str) := (manyOf p s).filter fun x => !x.1.isEmpty

/-- the way to match a literal text: the rest -/
def literal (t s : Str) : List Str := if t.isPrefixOf s then [s.drop t.length] else []

end Verif.Py
