import Verif.Py.Str
/-!
# email.message.Message

The part of `email.message.Message` (compat32 policy, CPython 3.11 `email/message.py`) which the code uses:
an ordered list of header fields with case-insensitive access, and a payload which is absent, text or a list
of messages. Header values are text (a value containing raw 8-bit octets is a `Header` object in python
and not represented). The default content type of a part of a `multipart/digest` is not represented.
-/
namespace Verif

/-- `Message._payload` -/
inductive Payload (α : Type) where
  | none
  | text (s : Str)
  | multi (parts : List α)

/-- `email.message.Message` -/
inductive Msg where
  | mk (headers : List (Str × Str)) (payload : Payload Msg)

namespace Msg

/-- `msg.items()` -/
def headers : Msg → List (Str × Str) | .mk h _ => h
/-- `msg.get_payload()` -/
def payload : Msg → Payload Msg | .mk _ p => p

/-- header names are compared after `lower()` -/
def nameEq (a b : Str) : Bool := Py.lower a == Py.lower b

/-- `msg.get_all(name) or []` -/
def getAll (m : Msg) (name : Str) : List Str :=
  (m.headers.filter (fun h => nameEq h.1 name)).map (·.2)

/-- `msg[name]` and `msg.get(name)`: the first value or `None` -/
def get (m : Msg) (name : Str) : Option Str := (m.getAll name).head?

/-- `name in msg` -/
def has (m : Msg) (name : Str) : Bool := m.headers.any (fun h => nameEq h.1 name)

/-- `msg[name] = value` and `msg.add_header(name, value)`: appends a field, replaces nothing -/
def add (m : Msg) (name value : Str) : Msg := .mk (m.headers ++ [(name, value)]) m.payload

/-- `del msg[name]`: removes all fields of that name -/
def del (m : Msg) (name : Str) : Msg := .mk (m.headers.filter (fun h => !nameEq h.1 name)) m.payload

/-- `msg.get_content_type()` -/
def contentType (m : Msg) : Str :=
  match m.get (str!"content-type") with
  | none => str!"text/plain"
  | some v =>
    let ctype := Py.lower (Py.strip (Py.split1 ';' v).1)
    if ctype.count '/' = 1 then ctype else str!"text/plain"

end Msg
end Verif
