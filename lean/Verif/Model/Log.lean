import Verif.Py.Str
/-!
# The bot's report and the shortening of texts

`SimpleLog` of bot.py:131-176 and `trunc_string` of cmdline_utils.py:65-69.
-/
namespace Verif

/-- `trunc_string(s, maxlen)`; below 20 the bound of the slice is negative and counts from the end; cmdline_utils.py:65-69 -/
def truncString (s : Str) (maxlen : Nat) : Str :=
  if s.length ≤ maxlen then s
  else s.take (if 20 ≤ maxlen then maxlen - 20 else s.length - (20 - maxlen)) ++ str!"[truncated " ++ Py.natToStr (s.length - maxlen + 20) ++ str!" chars]"

/-- `SimpleLog`, bot.py:131-134 -/
structure SimpleLog where
  logs : List Str
  indent : Nat
deriving DecidableEq

namespace SimpleLog

/-- `SimpleLog.indent`, bot.py:136-138 -/
def indentation (l : SimpleLog) : Str := (List.replicate l.indent (str!"  ")).flatten

/-- `SimpleLog.__call__(msg)`, bot.py:140-145 -/
def call (l : SimpleLog) (msg : Str) : SimpleLog :=
  let lines := if (Py.splitlines msg).isEmpty then [[]] else Py.splitlines msg
  { l with logs := l.logs ++ [l.indentation ++ lines.headD []] ++ lines.tail.map (fun line => l.indentation ++ line) }

/-- a piece of code which writes to the log: it calls the log, raises an exception (`base` if it is not an
`Exception`, such as `KeyboardInterrupt`) or runs code within `with log.s(title, raising)`, where `tb` is the
text which `traceback.format_exc()` would give -/
inductive Script where
  | done
  | call (msg : Str) (next : Script)
  | raise (base : Bool)
  | sect (title : Str) (raising : Bool) (tb : Str) (body next : Script)

/-- running such code; the result tells the exception which leaves it; sections: bot.py:147-164 -/
def run : Script → SimpleLog → Option Bool × SimpleLog
  | .done, l => (none, l)
  | .call msg next, l => run next (l.call msg)
  | .raise base, l => (some base, l)
  | .sect title raising tb body next, l =>
    let l := if l.logs.isEmpty then l else l.call []
    let l := l.call title
    let l := l.call []
    let r := run body { l with indent := l.indent + 1 }
    let l := { r.2 with indent := r.2.indent - 1 }
    match r.1 with
    | none => run next (l.call [])
    | some base =>
      if base || raising then (some base, l)
      else run next ((l.call tb).call [])

/-- a new log, bot.py:132-134 -/
def new : SimpleLog := ⟨[], 0⟩

/-- `str(log)`, bot.py:166-167 -/
def text (l : SimpleLog) : Str := Py.join (str!"\n") l.logs

end SimpleLog
end Verif
