import Verif.Model.Exc
import Verif.Py.Str
/-!
# Cached properties

`cached_property` of bingpg.py:23-40. Functions of properties are programs which may read other cached
properties of the same object and which may read and change anything else, `K`. Values have one type `α`.
-/
namespace Verif.Cached

/-- the function `f` of a cached property: it reads properties of `self`, looks at and changes the rest of the
world and returns or raises -/
inductive Body (α K : Type) where
  | ret (a : α)
  | raise (e : Exc)
  | get (name : Str) (k : α → Body α K)
  | env (f : K → K) (k : K → Body α K)

/-- an object: its `_property_cache`, the rest of the world, and, for the properties only, the list of function
calls which returned, newest first -/
structure Obj (α K : Type) where
  cache : List (Str × α)
  rest : K
  calls : List (Str × α)

/-- `propcache[key]`; bingpg.py:31 -/
def Obj.lookup {α K : Type} (o : Obj α K) (n : Str) : Option α := (o.cache.find? (fun p => p.1 == n)).map (·.2)

/-- `propcache[key] = val`; bingpg.py:33 and bingpg.py:38 -/
def Obj.store {α K : Type} (o : Obj α K) (n : Str) (v : α) : Obj α K :=
  { o with cache := (n, v) :: o.cache.filter (fun p => p.1 != n) }

/-- running the function of a property, with `rd` for reading properties -/
def eval {α K : Type} (rd : Str → Obj α K → Except Exc α × Obj α K) : Body α K → Obj α K → Except Exc α × Obj α K
  | .ret a, o => (.ok a, o)
  | .raise e, o => (.error e, o)
  | .get n k, o =>
    match rd n o with
    | (.ok v, o') => eval rd (k v) o'
    | (.error e, o') => (.error e, o')
  | .env f k, o => eval rd (k o.rest) { o with rest := f o.rest }

/-- reading a property, bingpg.py:27-34, with that many levels of the interpreter's stack left;
`RecursionError` is not told apart from other exceptions. `bodies` gives the function of each property. -/
def read {α K : Type} (bodies : Str → Body α K) : Nat → Str → Obj α K → Except Exc α × Obj α K
  | 0, _, o => (.error (.other 0), o)
  | d + 1, n, o =>
    match o.lookup n with
    | some v => (.ok v, o)
    | none =>
      match eval (read bodies d) (bodies n) o with
      | (.ok v, o') => (.ok v, { o'.store n v with calls := (n, v) :: o'.calls })
      | (.error e, o') => (.error e, o')

/-- uses of a property from outside -/
inductive Use (α : Type) where
  | read (name : Str)
  | write (name : Str) (v : α)

/-- one use; bingpg.py:27-34 and bingpg.py:36-38 -/
def use {α K : Type} (bodies : Str → Body α K) (d : Nat) : Use α → Obj α K → Obj α K
  | .read n, o => (read bodies d n o).2
  | .write n v, o => o.store n v

/-- a sequence of uses -/
def uses {α K : Type} (bodies : Str → Body α K) (d : Nat) (us : List (Use α)) (o : Obj α K) : Obj α K :=
  us.foldl (fun o u => use bodies d u o) o

/-- a new object -/
def new {α K : Type} (k : K) : Obj α K := ⟨[], k, []⟩

end Verif.Cached
