import Verif.Py.Regex
import Verif.Py.Version
import Verif.Model.Prog
/-!
# `bingpg.py`

The gpg wrapper. Cached properties (`_version_info`, `gpg_version`, `isgpg21`, `_nopassphrase`) are recomputed
on each use; see `Verif/Model/CachedProperty.lean` for the caching itself.
-/
namespace Verif.BinGPG

/-- `KeyInfo`, bingpg.py:372-378 -/
structure KeyInfo where
  type : Str
  bits : Int
  id : Str
  uids : List Str
  date : Str
deriving DecidableEq, Repr

/-- `[uid] if uid else []`, bingpg.py:377 -/
def uidList (uid : Str) : List Str := if uid.isEmpty then [] else [uid]

/-- `KeyInfo.match`, bingpg.py:380-382, as a function of `self.id` and `other_id` -/
def idMatch (id other : Str) : Bool :=
  let i := min other.length id.length
  Py.lower (Py.lastN i id) == Py.lower (Py.lastN i other)

end BinGPG

/-- `BinGPG` object, bingpg.py:62-84: the home directory (or `None`) and the path of the binary -/
structure BinGPG where
  home : Option Str
  path : Str
deriving DecidableEq

namespace BinGPG

/-- `_homedirflags`, bingpg.py:140-141 -/
def homedirflags (g : BinGPG) : List Str :=
  match g.home with
  | none => []
  | some h => if h.isEmpty then [] else [str!"--homedir", h]

/-- the checks after the process ended, bingpg.py:186-194; `decode` says whether stdout is decoded -/
def checkResult (env : Env) (strict decode : Bool) (r : GpgOut) : Except Exc (Bytes × Str) :=
  if r.ret = 130 then .error .keyboardInterrupt
  else match env.utf8Decode r.err with
    | .error e => .error e
    | .ok err =>
      match (if decode then (env.utf8Decode r.out).map (fun _ => ()) else .ok ()) with
      | .error e => .error e
      | .ok () =>
        if r.ret ≠ 0 ∨ (strict ∧ err ≠ []) then .error .invocationFailure
        else .ok (r.out, err)

/-- full argument vector, bingpg.py:165-170 -/
def argv (g : BinGPG) (args : List Str) : List Str := [g.path, str!"--batch"] ++ g.homedirflags ++ args

/-- `_gpg_outerr`, bingpg.py:153-194; stdout is returned as bytes -/
def gpgOuterr (env : Env) (g : BinGPG) (args : List Str) (input : Option Bytes := none)
    (strict : Bool := false) (decode : Bool := true) : Prog (Bytes × Str) := do
  let r ← Prog.gpg (g.argv args) input
  Prog.ofExcept (checkResult env strict decode r)

/-- `_gpg_out(.., encoding="utf8")`, bingpg.py:150-151 -/
def gpgOutText (env : Env) (g : BinGPG) (args : List Str) (input : Option Bytes := none) : Prog Str := do
  let r ← gpgOuterr env g args input
  Prog.ofExcept (env.utf8Decode r.1)

/-- `_version_info`, bingpg.py:91-92 -/
def versionInfo (env : Env) (g : BinGPG) : Prog Str := gpgOutText env g [str!"--version"]

/-- `parts[i]` -/
def field (parts : List Str) (i : Nat) : Except Exc Str :=
  match parts[i]? with
  | some x => .ok x
  | none => .error .indexError

/-- the text of `gpg_version`, bingpg.py:95-97 -/
def versionText (info : Str) : Except Exc Str := field (Py.split ' ' ((Py.split '\n' info).headD [])) 2

/-- `gpg_version >= V(v)` for what `gpg --version` writes, bingpg.py:95-105 -/
def versionGe (env : Env) (info v : Str) : Except Exc Bool := do
  let t ← versionText info
  Py.looseGe env t v

/-- `gpg_version >= V(v)`, bingpg.py:95-105 -/
def versionAtLeast (env : Env) (g : BinGPG) (v : Str) : Prog Bool := do
  let info ← versionInfo env g
  Prog.ofExcept (versionGe env info v)

/-- `V("2.0") <= self.gpg_version < V("2.1.12")`, bingpg.py:117 -/
def badDefaults (env : Env) (g : BinGPG) : Prog Bool := do
  if ← versionAtLeast env g (str!"2.0") then
    let v ← versionAtLeast env g (str!"2.1.12")
    return !v
  else return false

/-- `_ensure_init`, bingpg.py:107-121 -/
def ensureInit (env : Env) (g : BinGPG) : Prog Unit :=
  match g.home with
  | none => return ()
  | some home => do
    if !(← Prog.pathExists home) then Prog.makedirs home
    if ← badDefaults env g then
      let p := home ++ str!"/gpg-agent.conf"
      if !(← Prog.pathExists p) then Prog.writeFile p (str!"allow-loopback-pinentry\n")

/-- `BinGPG.__init__`, bingpg.py:66-84 -/
def create (env : Env) (homedir : Option Str) (gpgpath : Str) : Prog BinGPG := do
  match ← Prog.findExecutable gpgpath with
  | none => .raise .valueError
  | some p => do
    let g : BinGPG := { home := homedir, path := p }
    ensureInit env g
    return g

/-- `_nopassphrase`, bingpg.py:144-148 -/
def nopassphrase (env : Env) (g : BinGPG) : Prog (List Str) := do
  let is21 ← versionAtLeast env g (str!"2.1")
  return [str!"--passphrase", str!"123"] ++ (if is21 then [str!"--pinentry-mode=loopback"] else [])

/-- `temp_written_file`, bingpg.py:131-137, around a body -/
def withTempFile {α : Type} (data : Bytes) (body : Str → Prog α) : Prog α := do
  let name ← Prog.mkTemp
  Prog.writeTemp name data
  Prog.finally_ (body name) (Prog.rmTemp name)

/-! ## listing keys -/

/-- append a user id to the key at position `i` -/
def addUid (infos : List KeyInfo) (i : Nat) (uid : Str) : List KeyInfo :=
  infos.modify i (fun k => { k with uids := k.uids ++ [uid] })

/-- one line of the listing, bingpg.py:251-259. `last` is the position of the last main key;
`None.uids` is an `AttributeError`. Arguments are evaluated in the order type, bits, uid, id, date. -/
def parseLine (env : Env) (types : Str × Str) (infos : List KeyInfo) (last : Option Nat) (line : Str) :
    Except Exc (List KeyInfo × Option Nat) := do
  let parts := Py.split ':' line
  let tag := parts.headD []
  if tag = types.1 ∨ tag = types.2 then
    let type ← field parts 3
    let bitsText ← field parts 2
    let bits ← env.pyInt bitsText
    let uid ← field parts 9
    let id ← field parts 4
    let date ← field parts 5
    let infos' := infos ++ [{ type, bits, id, uids := uidList uid, date }]
    return (infos', if tag = types.1 then some infos.length else last)
  else if tag = str!"uid" then
    match last with
    | none => throw .attributeError
    | some i => do
      let uid ← field parts 9
      return (addUid infos i uid, last)
  else return (infos, last)

/-- the loop over lines, bingpg.py:250-260 -/
def parseLines (env : Env) (types : Str × Str) :
    List KeyInfo → Option Nat → List Str → Except Exc (List KeyInfo)
  | infos, _, [] => .ok infos
  | infos, last, l :: ls =>
    match parseLine env types infos last l with
    | .error e => .error e
    | .ok (infos', last') => parseLines env types infos' last' ls

/-- `_parse_list`, bingpg.py:246-260 -/
def parseList (env : Env) (g : BinGPG) (args : List Str) (types : Str × Str) : Prog (List KeyInfo) := do
  let out ← gpgOutText env g args
  Prog.ofExcept (parseLines env types [] none (Py.splitlines out))

/-- `list_secret_keyinfos`, bingpg.py:226-230 -/
def listSecretKeyinfos (env : Env) (g : BinGPG) (kh : Option Str) : Prog (List KeyInfo) :=
  parseList env g ([str!"--skip-verify", str!"--with-colons", str!"--list-secret-keys"] ++ kh.toList)
    (str!"sec", str!"ssb")

/-- `list_public_keyinfos`, bingpg.py:240-244 -/
def listPublicKeyinfos (env : Env) (g : BinGPG) (kh : Option Str) : Prog (List KeyInfo) :=
  parseList env g ([str!"--skip-verify", str!"--with-colons", str!"--list-public-keys"] ++ kh.toList)
    (str!"pub", str!"sub")

/-- the selection in `get_secret_keyhandle`, bingpg.py:234-238 -/
def selectSecret (kh : Str) (infos : List KeyInfo) : Option Str :=
  (infos.find? (fun k => k.uids.any (fun u => Py.contains kh u) || idMatch k.id kh)).map (·.id)

/-- `get_secret_keyhandle`, bingpg.py:232-238 -/
def getSecretKeyhandle (env : Env) (g : BinGPG) (kh : Str) : Prog (Option Str) := do
  let infos ← listSecretKeyinfos env g (some kh)
  return selectSecret kh infos

/-! ## finding key handles in output (bingpg.py:262-275) -/

/-- `[0-9A-F]` -/
def isHexUpper (c : Char) : Bool :=
  (48 ≤ c.toNat && c.toNat ≤ 57) || (65 ≤ c.toNat && c.toNat ≤ 70)

/-- `[0-9A-F]+` at the start -/
def hexRun (s : Str) : Option Str :=
  let r := s.takeWhile isHexUpper
  if r.isEmpty then none else some r

/-- `key (?:ID )?([0-9A-F]+)` at the start -/
def matchKey (s : Str) : Option Str :=
  if Py.startsWith (str!"key ") s then
    let r := s.drop 4
    if Py.startsWith (str!"ID ") r then hexRun (r.drop 3) else hexRun r
  else none

/-- `_pattern.search(string)` -/
def searchKey : Str → Option Str
  | [] => none
  | c :: cs => match matchKey (c :: cs) with
    | some h => some h
    | none => searchKey cs

/-- `_find_keyhandle`, bingpg.py:262-275 -/
def findKeyhandle (env : Env) (g : BinGPG) (text : Str) : Prog Str :=
  match searchKey text with
  | none => .raise .assertionError
  | some x =>
    if x.length ≤ 8 then do
      let infos ← listPublicKeyinfos env g (some x)
      match infos.find? (fun k => idMatch k.id x) with
      | some k => return k.id
      | none => .raise .valueError
    else return x

/-! ## packets (bingpg.py:277-308) -/

/-- a packet: type, value and further lines -/
abbrev Packet := Str × Str × List Str

/-- the loop over lines, bingpg.py:287-307, with the last header seen and the lines since then. At the end `None + (..)` is a
`TypeError`. -/
def packetLines : Option (Str × Str) → List Str → List Str → Except Exc (List Packet)
  | last, lines, [] =>
    match last with
    | none => .error .typeError
    | some (t, v) => .ok [(t, v, lines)]
  | last, lines, raw :: rest =>
    let line := Py.strip raw
    match line with
    | '#' :: _ => packetLines last lines rest
    | ':' :: r =>
      match Py.split1 ':' r with
      | (_, none) => packetLines last lines rest
      | (t, some v) =>
        match last with
        | none => packetLines (some (t, Py.strip v)) lines rest
        | some (t0, v0) => (packetLines (some (t, Py.strip v)) [] rest).map fun ps => (t0, v0, lines) :: ps
    | _ =>
      match last with
      | none => .error .assertionError
      | some _ => packetLines last (lines ++ [line]) rest

/-- `list_packets`, bingpg.py:283-308 -/
def listPackets (env : Env) (g : BinGPG) (keydata : Bytes) : Prog (List Packet) := do
  let out ← gpgOutText env g [str!"--list-packets"] (some keydata)
  Prog.ofExcept (packetLines none [] (Py.splitlines out))

/-- `supports_eddsa`, bingpg.py:196-201, for the text of `_version_info`. `split('\n')` is `split`; a line which starts with
`Pubkey:` has a colon. -/
def supportsEddsa (info : Str) : Bool :=
  match (Py.split '\n' info).find? (fun l => Py.startsWith (str!"Pubkey:") l) with
  | none => false
  | some l => ((Py.split ',' ((Py.split1 ':' l).2.getD [])).map fun x => Py.lower (Py.strip x)).contains (str!"eddsa")

/-! ## operations -/

/-- the key specification, bingpg.py:204-214 -/
def keySpec (emailadr : Str) : Str :=
  str!"Key-Type: RSA\nKey-Length: 3072\nKey-Usage: sign\nSubkey-Type: RSA\nSubkey-Length: 3072\nSubkey-Usage: encrypt\nName-Email: "
    ++ emailadr ++ str!"\nExpire-Date: 0\n%commit"

/-- `gen_secret_key`, bingpg.py:203-224. The handler which adds extra text to the exception and re-raises it
(bingpg.py:218-220) is the identity here. -/
def genSecretKey (env : Env) (g : BinGPG) (emailadr : Str) : Prog Str := do
  let r ← withTempFile (env.utf8Encode (keySpec emailadr)) (fun fn => do
    let np ← nopassphrase env g
    gpgOuterr env g (np ++ [str!"--gen-key", fn]))
  findKeyhandle env g r.2

/-- `get_public_keydata`, bingpg.py:310-314 -/
def getPublicKeydata (env : Env) (g : BinGPG) (kh : Str) (armor : Bool := false) : Prog Bytes := do
  let r ← gpgOuterr env g ((if armor then [str!"-a"] else []) ++
    [str!"--export-options=export-minimal", str!"--export", kh]) none true false
  return r.1

/-- `get_secret_keydata`, bingpg.py:316-320 -/
def getSecretKeydata (env : Env) (g : BinGPG) (kh : Str) (armor : Bool := false) : Prog Bytes := do
  let np ← nopassphrase env g
  let r ← gpgOuterr env g ((if armor then [str!"-a"] else []) ++ np ++
    [str!"--export-options=export-minimal", str!"--export-secret-key", kh]) none true false
  return r.1

/-- options of `encrypt`, bingpg.py:323-329 -/
def encryptOpts (np recipients : List Str) (signkey : Str) (text : Bool) : List Str :=
  np ++ [str!"--encrypt", str!"--always-trust"] ++ recipients.flatMap (fun r => [str!"-r", r]) ++
  (if signkey.isEmpty then [] else [str!"--sign", str!"-u", signkey]) ++
  (if text then [str!"--armor"] else [])

/-- `encrypt`, bingpg.py:322-331 -/
def encrypt (env : Env) (g : BinGPG) (data : Bytes) (recipients : List Str) (signkey : Str) (text : Bool) :
    Prog Bytes := do
  let np ← nopassphrase env g
  let r ← gpgOuterr env g (encryptOpts np recipients signkey text) (some data) false false
  return r.1

/-- `sign`, bingpg.py:333-335 -/
def sign (env : Env) (g : BinGPG) (data : Bytes) (kh : Str) : Prog Bytes := do
  let np ← nopassphrase env g
  let r ← gpgOuterr env g (np ++ [str!"--detach-sign", str!"-u", kh]) (some data) false false
  return r.1

/-- `verify`, bingpg.py:337-340 -/
def verify (env : Env) (g : BinGPG) (data signature : Bytes) : Prog Str := do
  let r ← withTempFile signature (fun fn => gpgOuterr env g [str!"--verify", fn, str!"-"] (some data))
  findKeyhandle env g r.2

/-- `re.match(r"gpg.*with (\d+)-bit (\w+).*ID (\w+).*created (.*)", line1)`, bingpg.py:349-350: bits, type, id, date -/
def reDecryptLine (env : Env) (line : Str) : Option (Str × Str × Str × Str) :=
  let dot : Char → Bool := fun c => c != '\n'
  let found := (Py.literal (str!"gpg") line).flatMap fun s => (Py.manyOf dot s).flatMap fun (_, s) =>
    (Py.literal (str!"with ") s).flatMap fun s => (Py.someOf env.isDecimal s).flatMap fun (bits, s) =>
    (Py.literal (str!"-bit ") s).flatMap fun s => (Py.someOf env.isWord s).flatMap fun (type, s) =>
    (Py.manyOf dot s).flatMap fun (_, s) => (Py.literal (str!"ID ") s).flatMap fun s =>
    (Py.someOf env.isWord s).flatMap fun (id, s) => (Py.manyOf dot s).flatMap fun (_, s) =>
    (Py.literal (str!"created ") s).flatMap fun s => (Py.manyOf dot s).map fun (date, _) => (bits, type, id, date)
  found.head?

/-- the loop over stderr lines in `decrypt`, bingpg.py:347-356; `uid` is the value the local variable has
from an earlier iteration, if any -/
def decryptInfos (env : Env) : Option Str → List Str → Except Exc (List KeyInfo)
  | _, [] => .ok []
  | uid, l1 :: rest =>
    match reDecryptLine env l1 with
    | none => decryptInfos env uid rest
    | some (bits, type, id, date) =>
      match rest with
      | [] => .error .indexError
      | l2 :: rest' =>
        let uid' := if Py.startsWith (str!"    ") l2 then some (Py.stripChar '"' (Py.strip l2)) else uid
        match uid' with
        | none => .error .unboundLocalError
        | some u => match env.pyInt bits with
          | .error e => .error e
          | .ok n => match decryptInfos env uid' rest' with
            | .error e => .error e
            | .ok ks => .ok ({ type, bits := n, id, uids := uidList u, date } :: ks)

/-- `decrypt`, bingpg.py:342-357 -/
def decrypt (env : Env) (g : BinGPG) (enc : Bytes) : Prog (Bytes × List KeyInfo) := do
  let np ← nopassphrase env g
  let r ← gpgOuterr env g (np ++ [str!"--with-colons", str!"--decrypt"]) (some enc) false false
  let infos ← Prog.ofExcept (decryptInfos env none (Py.splitlines r.2))
  return (r.1, infos)

/-- `import_keydata`, bingpg.py:359-369 -/
def importKeydata (env : Env) (g : BinGPG) (keydata : Bytes) (minimize : Bool := false) : Prog Str := do
  let r ← gpgOuterr env g [str!"--skip-verify", str!"--import"] (some keydata)
  let kh ← findKeyhandle env g r.2
  if minimize then
    let small ← getPublicKeydata env g kh
    let _ ← gpgOuterr env g [str!"--yes", str!"--delete-key", kh]
    let r2 ← gpgOuterr env g [str!"--skip-verify", str!"--import"] (some small)
    let kh2 ← findKeyhandle env g r2.2
    Prog.assert (kh2 == kh)
    return kh
  else return kh

end BinGPG
end Verif
