import Verif.Model.Env
/-!
# `distutils.version.LooseVersion`
-/
namespace Verif.Py

/-- a component of a version -/
inductive Component where
  | num (n : Int)
  | text (s : Str)
  deriving DecidableEq, Repr

/-- how `(\d+ | [a-z]+ | \.)` divides a text: 0 digits, 1 small letters, 2 dots, 3 what the expression doesn't match -/
def versionClass (env : Env) (c : Char) : Nat :=
  if env.isDecimal c then 0 else if 97 ≤ c.toNat ∧ c.toNat ≤ 122 then 1 else if c = '.' then 2 else 3

/-- the pieces of `re.split` without empty ones and dots: runs of characters of one class -/
def versionPieces (env : Env) (s : Str) : List Str :=
  (s.splitBy fun a b => versionClass env a == versionClass env b).filter fun p => p.head? != some '.'

/-- a piece as a number, if `int` accepts it -/
def component (env : Env) (p : Str) : Except Exc Component :=
  match env.pyInt p with
  | .ok n => .ok (.num n)
  | .error .valueError => .ok (.text p)
  | .error e => .error e

/-- `LooseVersion(s).version`; the attribute doesn't exist for an empty text -/
def looseVersion (env : Env) (s : Str) : Except Exc (List Component) :=
  if s.isEmpty then .error .attributeError else (versionPieces env s).mapM (component env)

/-- `a < b`; numbers and texts cannot be compared -/
def Component.less : Component → Component → Except Exc Bool
  | .num a, .num b => .ok (a < b)
  | .text a, .text b => .ok (a < b)
  | _, _ => .error .typeError

/-- `a >= b` for lists as `LooseVersion._cmp` compares them -/
def componentsGe : List Component → List Component → Except Exc Bool
  | _, [] => .ok true
  | [], _ :: _ => .ok false
  | a :: as, b :: bs => if a = b then componentsGe as bs else (a.less b).map not

/-- `LooseVersion(s) >= LooseVersion(t)` -/
def looseGe (env : Env) (s t : Str) : Except Exc Bool := do
  let a ← looseVersion env s
  let b ← looseVersion env t
  componentsGe a b

end Verif.Py
