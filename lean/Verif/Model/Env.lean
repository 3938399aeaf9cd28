import Verif.Py.Message
import Verif.Model.Entry
/-!
# External pure functions

Library functions whose behaviour is left open. Theorems hold for every choice, unless they state a hypothesis.
-/
namespace Verif

/-- external pure functions -/
structure Env where
  /-- `str.lower()` on addresses -/
  lower : Str → Str
  /-- `str.isalnum()` on one non-ASCII character -/
  alnumHi : Char → Bool
  /-- `\d` matches a non-ASCII character -/
  decimalHi : Char → Bool
  /-- `email.utils.parseaddr(x)[1]`, where `x` may be `None` -/
  parseaddr : Option Str → Str
  /-- the address parts of `email.utils.getaddresses(values)` -/
  getaddresses : List Str → List Str
  /-- `re.match(pattern, text)` is a match; may raise `re.error` -/
  reMatch : Str → Str → Except Exc Bool
  /-- `time.mktime(email.utils.parsedate(date))`; may raise -/
  mktimeParsedate : Option Str → Except Exc Time
  /-- `bytes.decode("utf8")` -/
  utf8Decode : Bytes → Except Exc Str
  /-- `str.encode("utf8")` -/
  utf8Encode : Str → Bytes
  /-- `mime.msg2bytes` (BytesGenerator and ascii encoding), mime.py:43-47 -/
  msg2bytes : Msg → Except Exc Bytes
  /-- `email.message_from_bytes` -/
  messageFromBytes : Bytes → Msg
  /-- `int(text)` -/
  pyInt : Str → Except Exc Int
  /-- the directory of the account manager -/
  dir : Str

/-- `c.isalnum()` -/
def Env.isAlnumChar (env : Env) (c : Char) : Bool :=
  if c.toNat < 128 then
    (48 ≤ c.toNat && c.toNat ≤ 57) || (65 ≤ c.toNat && c.toNat ≤ 90) || (97 ≤ c.toNat && c.toNat ≤ 122)
  else env.alnumHi c

/-- `\d` -/
def Env.isDecimal (env : Env) (c : Char) : Bool := if c.toNat < 128 then 48 ≤ c.toNat && c.toNat ≤ 57 else env.decimalHi c

/-- `\w` -/
def Env.isWord (env : Env) (c : Char) : Bool := env.isAlnumChar c || c == '_'

/-- `s.isalnum()` -/
def Env.isalnum (env : Env) (s : Str) : Bool := !s.isEmpty && s.all env.isAlnumChar

end Verif
