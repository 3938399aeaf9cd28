import Verif.Py.Str
/-!
# base64

`base64.b64encode` and `base64.b64decode` (non-strict `binascii.a2b_base64`) of CPython 3.11.
-/
namespace Verif.Py

/-- the base64 alphabet -/
def b64Char (n : Nat) : Char :=
  if n < 26 then Char.ofNat (65 + n)
  else if n < 52 then Char.ofNat (97 + (n - 26))
  else if n < 62 then Char.ofNat (48 + (n - 52))
  else if n = 62 then '+' else '/'

/-- `table_a2b_base64`: value of an alphabet character -/
def b64Val (c : Char) : Option Nat :=
  let n := c.toNat
  if 65 ≤ n ∧ n ≤ 90 then some (n - 65)
  else if 97 ≤ n ∧ n ≤ 122 then some (n - 97 + 26)
  else if 48 ≤ n ∧ n ≤ 57 then some (n - 48 + 52)
  else if n = 43 then some 62
  else if n = 47 then some 63
  else none

/-- `base64.b64encode(data).decode("ascii")` -/
def b64encode : Bytes → Str
  | [] => []
  | [a] => [b64Char (a.toNat / 4), b64Char (a.toNat % 4 * 16), '=', '=']
  | [a, b] => [b64Char (a.toNat / 4), b64Char (a.toNat % 4 * 16 + b.toNat / 16),
               b64Char (b.toNat % 16 * 4), '=']
  | a :: b :: c :: rest =>
    b64Char (a.toNat / 4) :: b64Char (a.toNat % 4 * 16 + b.toNat / 16) ::
    b64Char (b.toNat % 16 * 4 + c.toNat / 64) :: b64Char (c.toNat % 64) :: b64encode rest

/-- main loop of `binascii.a2b_base64` in non-strict mode: `quad` is the position in the current quad,
`left` the bits left over, `pads` the number of pad characters seen since the last data character.
`none` is `binascii.Error`. -/
def a2bLoop : (quad left pads : Nat) → Str → Option Bytes
  | quad, _, _, [] => if quad = 0 then some [] else none
  | quad, left, pads, c :: cs =>
    if c = '=' then
      if quad ≥ 2 then
        if quad + (pads + 1) ≥ 4 then some [] else a2bLoop quad left (pads + 1) cs
      else a2bLoop quad left pads cs
    else match b64Val c with
      | none => a2bLoop quad left pads cs
      | some v =>
        match quad with
        | 0 => a2bLoop 1 v 0 cs
        | 1 => (a2bLoop 2 (v % 16) 0 cs).map (UInt8.ofNat (left * 4 + v / 16) :: ·)
        | 2 => (a2bLoop 3 (v % 4) 0 cs).map (UInt8.ofNat (left * 16 + v / 4) :: ·)
        | _ => (a2bLoop 0 0 0 cs).map (UInt8.ofNat (left * 64 + v) :: ·)

/-- `base64.b64decode(s)` for `str` input: non-ASCII raises `ValueError`, bad padding `binascii.Error`;
both are `none` -/
def b64decode (s : Str) : Option Bytes :=
  if s.all (fun c => c.toNat < 128) then a2bLoop 0 0 0 s else none

end Verif.Py
