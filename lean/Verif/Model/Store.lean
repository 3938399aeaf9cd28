import Verif.Model.Prog
/-!
# The abstract store

A list of head names with their logs, newest entry first. This is what the on-disk store of
`chainstore.py` is shown to implement (`Verif/Props/Storage.lean`).
-/
namespace Verif

/-- head names in insertion order (python dictionaries keep it), each with its log -/
abbrev Store := List (Str × List Entry)

namespace Store

/-- the log of a head; empty if the head does not exist -/
def get : Store → Str → List Entry
  | [], _ => []
  | (n, l) :: s, h => if n = h then l else get s h

/-- append an entry to the log of a head, creating the head if needed -/
def push : Store → Str → Entry → Store
  | [], h, e => [(h, [e])]
  | (n, l) :: s, h, e => if n = h then (n, e :: l) :: s else (n, l) :: push s h e

/-- head names -/
def names (s : Store) : List Str := s.map (·.1)

/-- remove the heads satisfying `p` -/
def removeIf (s : Store) (p : Str → Bool) : Store := s.filter (fun x => !p x.1)

/-- the abstract store as an implementation of store operations; nothing raises -/
def impl : StoreImpl Store where
  chain s h := .ok (s.get h)
  append s h e _ := (.ok (), s.push h e)
  heads s := .ok s.names
  removeIf s p := (.ok (), s.removeIf p)
  wipe _ := []

end Store
end Verif
