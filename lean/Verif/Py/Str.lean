/-!
# Python strings and bytes

`str` is a list of unicode scalar values, `bytes` a list of octets. Only the methods used by the code
are defined. Python semantics are those of CPython 3.11.
-/
namespace Verif

/-- python `str` (lone surrogates are not representable) -/
abbrev Str := List Char
/-- python `bytes` -/
abbrev Bytes := List UInt8

/-- `str!"abc"` is the explicit list of characters, so that it computes in the kernel -/
syntax "str!" str : term
macro_rules
  | `(str! $s) => do
    let cs := s.getString.toList.map (fun c => Lean.Syntax.mkCharLit c)
    `(([$(cs.toArray),*] : List Char))

namespace Py

/-- `str.isspace` on one character: the white space set used by `strip()` and `split()`. -/
def isSpace (c : Char) : Bool :=
  let n := c.toNat
  (9 ≤ n && n ≤ 13) || (28 ≤ n && n ≤ 32) || n == 0x85 || n == 0xA0 || n == 0x1680 ||
  (0x2000 ≤ n && n ≤ 0x200A) || n == 0x2028 || n == 0x2029 || n == 0x202F || n == 0x205F || n == 0x3000

/-- `str.lstrip()` -/
def lstrip (s : Str) : Str := s.dropWhile isSpace
/-- `str.rstrip()` -/
def rstrip (s : Str) : Str := (s.reverse.dropWhile isSpace).reverse
/-- `str.strip()` -/
def strip (s : Str) : Str := rstrip (lstrip s)
/-- `str.strip('"')`-like: strip one given character -/
def stripChar (c : Char) (s : Str) : Str :=
  (((s.dropWhile (· == c)).reverse).dropWhile (· == c)).reverse

/-- `"".join(s.split())`: the text with all white space removed -/
def removeSpace (s : Str) : Str := s.filter (fun c => !isSpace c)

/-- `s.split(sep)` for a one-character separator; never empty -/
def split (sep : Char) : Str → List Str
  | [] => [[]]
  | c :: cs =>
    if c = sep then [] :: split sep cs
    else match split sep cs with
      | [] => [[c]]
      | p :: ps => (c :: p) :: ps

/-- `s.split(sep, 1)`: `none` for the rest if there is no separator -/
def split1 (sep : Char) : Str → Str × Option Str
  | [] => ([], none)
  | c :: cs =>
    if c = sep then ([], some cs)
    else let (a, b) := split1 sep cs; (c :: a, b)

/-- line boundaries of `str.splitlines()` -/
def isLineBreak (c : Char) : Bool :=
  let n := c.toNat
  (10 ≤ n && n ≤ 13) || (28 ≤ n && n ≤ 30) || n == 0x85 || n == 0x2028 || n == 0x2029

/-- `str.splitlines()`; `acc` is the current line, reversed; `cr` says that the previous character was a
carriage return, so that a directly following line feed belongs to the same line end -/
def splitlinesAux (cr : Bool) (acc : Str) : Str → List Str
  | [] => if acc.isEmpty then [] else [acc.reverse]
  | c :: cs =>
    if cr && c == '\n' then splitlinesAux false acc cs
    else if isLineBreak c then acc.reverse :: splitlinesAux (c == '\r') [] cs
    else splitlinesAux false (c :: acc) cs

/-- `str.splitlines()` -/
def splitlines (s : Str) : List Str := splitlinesAux false [] s

/-- `sep.join(parts)` -/
def join (sep : Str) : List Str → Str
  | [] => []
  | [x] => x
  | x :: y :: ys => x ++ sep ++ join sep (y :: ys)

/-- one character of ASCII `lower()` -/
def lowerChar (c : Char) : Char :=
  if 65 ≤ c.toNat ∧ c.toNat ≤ 90 then Char.ofNat (c.toNat + 32) else c

/-- `str.lower()` on ASCII text (used for header names, content types and key ids) -/
def lower (s : Str) : Str := s.map lowerChar

/-- `s.startswith(p)` -/
def startsWith (p s : Str) : Bool := p.isPrefixOf s

/-- `p in s` (substring test) -/
def contains (p : Str) : Str → Bool
  | [] => p.isEmpty
  | c :: cs => p.isPrefixOf (c :: cs) || contains p cs

/-- `s[-i:]` -/
def lastN (i : Nat) (s : Str) : Str := if i = 0 then s else s.drop (s.length - i)

/-- `s.encode("ascii")` -/
def asciiEncode : Str → Option Bytes
  | [] => some []
  | c :: cs =>
    if c.toNat < 128 then (asciiEncode cs).map (UInt8.ofNat c.toNat :: ·) else none

/-- `b.decode("ascii", "surrogateescape")`. A byte `b >= 128` is a lone surrogate in python, which is
not a unicode scalar value; the stand-in here is the private-use character `0xF0000 + b`. -/
def asciiDecode (b : Bytes) : Str :=
  b.map (fun x => if x.toNat < 128 then Char.ofNat x.toNat else Char.ofNat (0xF0000 + x.toNat))

/-- lexicographic order on strings by code point, as python compares `str` -/
def strLe : Str → Str → Bool
  | [], _ => true
  | _ :: _, [] => false
  | a :: as, b :: bs => if a.toNat < b.toNat then true else if b.toNat < a.toNat then false else strLe as bs

def insertSorted (x : Str) : List Str → List Str
  | [] => [x]
  | y :: ys => if strLe x y then x :: y :: ys else y :: insertSorted x ys

/-- `sorted(list of str)` -/
def sorted : List Str → List Str
  | [] => []
  | x :: xs => insertSorted x (sorted xs)

/-- decimal digits of a natural number, as `str(n)` -/
def natToStr (n : Nat) : Str := (Nat.toDigits 10 n)

end Py
end Verif
