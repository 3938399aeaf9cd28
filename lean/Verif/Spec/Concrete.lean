import Verif.Lemmas.Composed
/-!
# A concrete environment

Simple but non-trivial instances of all parameters. They are used by the `example`s which show that the
hypotheses of theorems can be met, and as witnesses where a property fails.
-/
namespace Verif.Concrete

/-- the text between '<' and '>', or the stripped text -/
def addrPart (s : Str) : Str :=
  match Py.split1 '<' s with
  | (_, some r) => (Py.split1 '>' r).1
  | (_, none) => Py.strip s

/-- a number -/
def digits (s : Str) : Option Int :=
  if !s.isEmpty && s.all (fun c => c.isDigit) then
    some (s.foldl (fun n c => 10 * n + (c.toNat - 48 : Nat)) 0)
  else none

/-- text of a message: header lines, empty line, text payload (parts are dropped) -/
def flat (m : Msg) : Bytes :=
  let hs := m.headers.flatMap (fun h => h.1 ++ str!": " ++ h.2 ++ ['\x00'])
  (hs ++ '\x00' :: (match m.payload with | .text s => s | _ => [])).map (fun c => UInt8.ofNat c.toNat)

/-- inverse of `flat`; the argument bounds the number of headers -/
def parseFlat : Nat → List (Str × Str) → Str → Msg
  | 0, hs, s => .mk hs (.text s)
  | n + 1, hs, s =>
    match Py.split1 '\x00' s with
    | (_, none) => .mk hs (.text s)
    | ([], some body) => .mk hs (.text body)
    | (line, some rest) => match Py.split1 ':' line with
      | (k, some v) => parseFlat n (hs ++ [(k, v.drop 1)]) rest
      | (k, none) => parseFlat n (hs ++ [(k, [])]) rest

/-- the pure externals -/
def env : Env where
  lower := Py.lower
  alnumHi _ := true
  decimalHi _ := false
  parseaddr x := addrPart (x.getD [])
  getaddresses l := (l.flatMap (Py.split ',')).map addrPart
  reMatch p s := if p = str!"(" then .error .reError else .ok (p == str!".*" || p.isPrefixOf s)
  mktimeParsedate
    | none => .error .typeError
    | some s => match digits s with
      | some n => .ok (sec n)
      | none => .error .typeError
  utf8Decode b := .ok (Py.asciiDecode b)
  utf8Encode s := s.map (fun c => UInt8.ofNat c.toNat)
  msg2bytes m := .ok (flat m)
  messageFromBytes b := parseFlat 50 [] (Py.asciiDecode b)
  pyInt s := match digits s with | some n => .ok n | none => .error .valueError
  dir := str!"/d"

/-- upper case hex digit -/
def hexDigit (n : Nat) : Char := if n < 10 then Char.ofNat (48 + n) else Char.ofNat (55 + n)
/-- the key id of key data: `AAAAAAAAAAAA` and the hex digits of the first two bytes -/
def keyId (b : Bytes) : Str :=
  str!"AAAAAAAAAAAA" ++ (b.take 2).flatMap (fun x => [hexDigit (x.toNat / 16), hexDigit (x.toNat % 16)])

/-- bytes of a text -/
def bs (s : Str) : Bytes := s.map (fun c => UInt8.ofNat c.toNat)

/-- value of a hex digit as made by `hexDigit` -/
def hexValue (c : Char) : Nat := if c.toNat < 65 then c.toNat - 48 else c.toNat - 55
/-- the exported key data of a key id: its first two bytes for `keyId`, the text of the id for other keys -/
def keyOf (kh : Str) : Bytes :=
  match kh.drop 12 with
  | [a, b, c, d] => if (kh.take 12).all (· == 'A') then
      [UInt8.ofNat (16 * hexValue a + hexValue b), UInt8.ofNat (16 * hexValue c + hexValue d)] else bs kh
  | _ => bs kh

/-- a gpg which imports every key not beginning with a zero byte, and for which encryption is the identity -/
def gpg (argv : List Str) (stdin : Option Bytes) : GpgOut :=
  let d := stdin.getD []
  if str!"--import" ∈ argv then
    if d.headD 0 = 0 then ⟨2, [], bs (str!"gpg: no valid OpenPGP data found.")⟩
    else ⟨0, [], bs (str!"gpg: key " ++ keyId d ++ str!": imported")⟩
  else if str!"--gen-key" ∈ argv then ⟨0, [], bs (str!"gpg: key BBBBBBBBBBBBBBBB marked as ultimately trusted")⟩
  else if str!"--export" ∈ argv then ⟨0, keyOf (argv.getLastD []), []⟩
  else if str!"--export-secret-key" ∈ argv then ⟨0, bs (str!"secret"), []⟩
  else if str!"--encrypt" ∈ argv ∨ str!"--decrypt" ∈ argv then ⟨0, d, []⟩
  else if str!"--list-public-keys" ∈ argv then
    ⟨0, bs (str!"pub:-:3072:1:" ++ argv.getLastD [] ++ str!":15:::::::\nuid:-::::15::H::Bob <bob@x.org>:\n"), []⟩
  else if str!"--list-secret-keys" ∈ argv then
    ⟨0, bs (str!"sec:-:3072:1:" ++ argv.getLastD [] ++ str!":15:::::::\nuid:-::::15::H::me <a@x.org>:\n"), []⟩
  else ⟨0, bs (str!"gpg (GnuPG) 2.2.12\n"), []⟩

/-- the environment without hidden state -/
def oracle : Oracle Unit where
  step o k := (match o with
    | .gpg a i => .ok (gpg a i)
    | .findExecutable n => some (str!"/usr/bin/" ++ n)
    | .pathExists _ => true
    | .makedirs _ => .ok ()
    | .writeFile _ _ => .ok ()
    | .mkTemp => .ok (str!"/tmp/t")
    | .writeTemp _ _ => .ok ()
    | .rmTemp _ => .ok ()
    | .uuid => str!"u1"
    | .hookInstantiate _ => .ok ()
    | .hookIncomingGossip _ _ _ => .ok ()
    | .hookBeforeEnc _ _ _ m => .ok m
    | .rmtree => ()
    | .sendmail _ _ => .ok 0
    | .emit _ => .ok (), k)

/-- an environment in which gpg always fails -/
def failing : Oracle Unit where
  step o k := match o with
    | .gpg _ _ => (.ok ⟨2, [], []⟩, k)
    | o => oracle.step o k

/-- the start: empty store; read number `i` of the clock gives 1000 + i seconds -/
def world0 : World Store Unit :=
  { store := [], clock := fun i => sec (1000 + i), tick := 0, env := (), trace := [] }

/-- after some calls -/
def after (calls : List ApiCall) : World Store Unit := runCalls Store.impl oracle env calls world0

theorem after_reachable (calls : List ApiCall) : Reachable oracle env (after calls) := ⟨_, (), calls.map .call, (runHistory_calls calls _).symm⟩

/-- account "a" for all addresses -/
def addA : ApiCall := .addAccount (str!"a") none none (str!"gpg") (str!"own")

/-- a message from `f` with the Autocrypt key `k` (no header if empty) -/
def mail (f : Str) (id : Str) (date : Str) (k : Bytes) : Msg :=
  .mk ([(str!"From", f), (str!"To", str!"a@x.org"), (str!"Message-Id", id), (str!"Date", date)] ++
    if k.isEmpty then [] else [(str!"Autocrypt", str!"addr=" ++ f ++ str!"; keydata=" ++ Py.b64encode k)])
    (.text (str!"hi"))

/-- receive a message -/
def recv (f id date : Str) (k : Bytes) : ApiCall := .processIncoming (str!"a") (mail f id date k) false false

/-- Bob -/
def bob : Str := str!"bob@x.org"

/-- entries of Bob's chain -/
def bobs (w : World Store Unit) : List Entry := w.store.get (peerHead (str!"a") bob)

/-- Carol -/
def carol : Str := str!"carol@x.org"

/-- entries of Carol's chain -/
def carols (w : World Store Unit) : List Entry := w.store.get (peerHead (str!"a") carol)

/-- a gossip header field -/
def gossipField (a : Str) (k : Bytes) : Str × Str :=
  (str!"Autocrypt-Gossip", str!"addr=" ++ a ++ str!"; keydata=" ++ Py.b64encode k)

/-- an encrypted message from Bob to Carol: further outer headers, and headers of the encrypted message -/
def encMail (id date : Str) (outer inner : List (Str × Str)) : Msg :=
  .mk ([(str!"From", bob), (str!"To", carol), (str!"Message-Id", id), (str!"Date", date),
        (str!"Content-Type", str!"multipart/encrypted")] ++ outer)
    (.multi [.mk [(str!"Content-Type", str!"application/pgp-encrypted")] (.text []),
             .mk [(str!"Content-Type", str!"application/octet-stream")]
               (.text (Py.asciiDecode (flat (.mk inner (.text (str!"hi"))))))])

/-- receive an encrypted message -/
def recvEnc (id date : Str) (outer inner : List (Str × Str)) : ApiCall :=
  .processIncoming (str!"a") (encMail id date outer inner) false false

/-- texts of values -/
def cmdEnv : CmdEnv where
  repr s := str!"'" ++ s ++ str!"'"
  iso t := .ok (if t = sec 100 then str!"1970-01-01T00:01:40" else str!"later")
  ctime t := .ok (if t = sec 100 then str!"Thu Jan  1 00:01:40 1970" else str!"later")
  setOrder l := l
  intRepr n := if n < 0 then str!"-" else (Nat.repr n.toNat).toList
  excText _ := str!"error"
  red s := str!"<red>" ++ s
  green s := str!"<green>" ++ s

end Verif.Concrete
