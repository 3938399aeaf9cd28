/-!
# Exceptions

Exception classes which the code raises or lets through. The messages are dropped.
-/
namespace Verif

/-- exception classes -/
inductive Exc where
  | typeError | valueError | assertionError | indexError | attributeError | keyError | unboundLocalError
  | unicodeError | overflowError | osError | reError
  | invocationFailure   -- bingpg.py:42
  | keyboardInterrupt   -- bingpg.py:187
  | accountNotFound     -- account.py:54
  | accountExists       -- account.py:62
  | notInitialized      -- account.py:46
  | clickError          -- click.ClickException / Abort
  | other (n : Nat)     -- anything else, e.g. raised by plugins
deriving DecidableEq, Repr

end Verif
