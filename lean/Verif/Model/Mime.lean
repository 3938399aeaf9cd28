import Verif.Py.Base64
import Verif.Model.Env
/-!
# `mime.py`
-/
namespace Verif.Mime

/-- `parse_email_addr`, mime.py:82-91 -/
def parseEmailAddr (env : Env) (x : Option Str) : Str := env.lower (env.parseaddr x)

/-- chunks of `maxlen` characters, as the slices `value[i:i + maxlen]` for `i` in
`range(0, len(value), maxlen)`; mime.py:68-69. The first argument is an upper bound for their number. -/
def chunks (maxlen : Nat) : Nat → Str → List Str
  | 0, _ => []
  | _ + 1, [] => []
  | n + 1, c :: cs => (c :: cs).take maxlen :: chunks maxlen n ((c :: cs).drop maxlen)

/-- `indented_split`, mime.py:65-70, with the default `maxlen=78, indent="  "` -/
def indentedSplit (value : Str) : Except Exc Str :=
  if '\n' ∈ value then .error .assertionError
  else .ok (Py.rstrip ((chunks 78 value.length value).flatMap (fun c => str!"  " ++ c ++ ['\n'])))

/-- `make_ac_header_value`, mime.py:52-62, for key data given as bytes -/
def makeAcHeaderValue (env : Env) (addr : Option Str) (keydata : Bytes) (pe : Str) : Except Exc Str :=
  if keydata.isEmpty then .error .assertionError
  else match indentedSplit (Py.b64encode keydata) with
    | .error e => .error e
    | .ok folded =>
      .ok (Py.join (str!"; ")
        ([str!"addr=" ++ parseEmailAddr env addr] ++
         (if pe ≠ str!"nopreference" then [str!"prefer-encrypt=" ++ pe] else []) ++
         [str!"keydata=\n" ++ folded]))

/-- `get_target_emailadr`, mime.py:73-79 -/
def getTargetEmailadr (env : Env) (m : Msg) : List Str :=
  env.getaddresses (m.getAll (str!"to") ++ m.getAll (str!"cc"))

/-- `is_encrypted`, mime.py:106-112. `len(None)` is a `TypeError`; a text payload of length 2 makes
`parts[0].get_content_type` an `AttributeError`. -/
def isEncrypted (m : Msg) : Except Exc Bool :=
  if m.contentType = str!"multipart/encrypted" then
    match m.payload with
    | .none => .error .typeError
    | .text s => if s.length = 2 then .error .attributeError else .ok false
    | .multi [a, b] => .ok (a.contentType == str!"application/pgp-encrypted" &&
                            b.contentType == str!"application/octet-stream")
    | .multi _ => .ok false
  else .ok false

/-- error texts of `ACParseResult` -/
inductive AcErr where
  | malformed                 -- mime.py:178
  | decodeFailed              -- mime.py:184
  | unknownPE (v : Str)       -- mime.py:188
  | unknownCritical (n : Str) -- mime.py:192
  | missing (n : Str)         -- mime.py:199
  | report                    -- mime.py:122
  | multipleFrom              -- mime.py:128
  | addrMismatch (a : Str)    -- mime.py:136
  | multipleValid             -- mime.py:144
  | noValid                   -- mime.py:147
  | importFailed              -- account.py:438
deriving DecidableEq, Repr

/-- `ACParseResult`, mime.py:203-209; `extra_attr` is `None` in error results -/
structure ACResult where
  keydata : Option Bytes := none
  addr : Option Str := none
  pe : Option Str := none
  extra : Option (List (Str × Str)) := none
  error : Option AcErr := none
deriving DecidableEq, Repr

/-- `ACParseResult(error=..)` -/
def ACResult.err (e : AcErr) : ACResult := { error := some e }

/-- `result_dict` and `extra_attr`, mime.py:173-174; `pe` is always set -/
structure ParseState where
  keydata : Option Bytes := none
  addr : Option Str := none
  pe : Str := str!"nopreference"
  extra : List (Str × Str) := []

/-- `d[name] = value` on a dictionary -/
def dictSet {α : Type} (d : List (Str × α)) (k : Str) (v : α) : List (Str × α) :=
  if d.any (fun x => x.1 == k) then d.map (fun x => if x.1 == k then (k, v) else x) else d ++ [(k, v)]

/-- `d.get(name)` on a dictionary -/
def dictGet {α : Type} (d : List (Str × α)) (k : Str) : Option α :=
  (d.find? (fun x => x.1 == k)).map (·.2)

/-- outcome of one attribute: go on, return an error result, or raise -/
inductive AttrOut where
  | next (s : ParseState)
  | ret (e : AcErr)
  | exc (e : Exc)

/-- one iteration of the loop over attributes, mime.py:176-196. `name[0]` on an empty name is an
`IndexError`. -/
def parseAttr (env : Env) (s : ParseState) (x : Str) : AttrOut :=
  match Py.split1 '=' x with
  | (_, none) => .ret .malformed
  | (n, some v) =>
    let name := Py.strip n
    let value := Py.strip v
    if name = str!"keydata" then
      match Py.b64decode (Py.removeSpace value) with
      | none => .ret .decodeFailed
      | some b => .next { s with keydata := some b }
    else if name = str!"prefer-encrypt" then
      if value = str!"nopreference" ∨ value = str!"mutual" then .next { s with pe := value }
      else .ret (.unknownPE value)
    else if name = str!"addr" then .next { s with addr := some (parseEmailAddr env (some value)) }
    else match name with
      | [] => .exc .indexError
      | c :: _ => if c ≠ '_' then .ret (.unknownCritical name)
                  else .next { s with extra := dictSet s.extra name value }

/-- the loop, mime.py:175-196 -/
def parseAttrs (env : Env) : ParseState → List Str → Except Exc (Except AcErr ParseState)
  | s, [] => .ok (.ok s)
  | s, x :: xs => match parseAttr env s x with
    | .next s' => parseAttrs env s' xs
    | .ret e => .ok (.error e)
    | .exc e => .error e

/-- the attributes of a header value: nonempty stripped parts, mime.py:169. `filter` gives an iterator,
which is never false, so the "empty header" branch in mime.py:170-171 is dead. -/
def attributes (value : Str) : List Str :=
  ((Py.split ';' value).map Py.strip).filter (fun x => !x.isEmpty)

/-- `parse_ac_headervalue`, mime.py:162-200 -/
def parseAcHeadervalue (env : Env) (value : Str) : Except Exc ACResult :=
  match parseAttrs env {} (attributes value) with
  | .error e => .error e
  | .ok (.error e) => .ok (.err e)
  | .ok (.ok s) =>
    match s.keydata, s.addr with
    | none, _ => .ok (.err (.missing (str!"keydata")))
    | _, none => .ok (.err (.missing (str!"addr")))
    | some k, some a => .ok { keydata := some k, addr := some a, pe := some s.pe, extra := some s.extra }

/-- the loop over Autocrypt headers, mime.py:131-139: valid results and error results in order.
`fromList` is the already normalised `FromList`; an empty one is not checked. -/
def collectAc (env : Env) (fromList : List Str) : List Str → Except Exc (List ACResult × List ACResult)
  | [] => .ok ([], [])
  | v :: vs => match parseAcHeadervalue env v with
    | .error e => .error e
    | .ok r => match collectAc env fromList vs with
      | .error e => .error e
      | .ok (rs, es) =>
        if r.error.isSome then .ok (rs, r :: es)
        else if !fromList.isEmpty && !(fromList.contains (r.addr.getD [])) then
          .ok (rs, .err (.addrMismatch (r.addr.getD [])) :: es)
        else .ok (r :: rs, es)

/-- `parse_one_ac_header_from_msg(msg, FromList)`, mime.py:120-147 (`FromList=None` is `[]` here: in both
cases the address is not compared) -/
def parseOneAcHeaderFromMsg (env : Env) (m : Msg) (fromList : List Str) : Except Exc ACResult :=
  if m.contentType = str!"multipart/report" then .ok (.err .report)
  else if (env.getaddresses (m.getAll (str!"From"))).length > 1 then .ok (.err .multipleFrom)
  else match collectAc env (fromList.map (fun x => parseEmailAddr env (some x))) (m.getAll (str!"Autocrypt")) with
    | .error e => .error e
    | .ok ([r], _) => .ok r
    | .ok (_ :: _ :: _, _) => .ok (.err .multipleValid)
    | .ok ([], e :: _) => .ok e
    | .ok ([], []) => .ok (.err .noValid)

/-- the loop of `get_gossip_headers_from_msg`, mime.py:150-159 -/
def collectGossip (env : Env) : List (Str × ACResult) → List Str → Except Exc (List (Str × ACResult))
  | d, [] => .ok d
  | d, v :: vs => match parseAcHeadervalue env v with
    | .error e => .error e
    | .ok r => if r.error.isNone then collectGossip env (dictSet d (r.addr.getD []) r) vs
               else collectGossip env d vs

/-- `get_gossip_headers_from_msg`, mime.py:150-159 -/
def getGossipHeadersFromMsg (env : Env) (m : Msg) : Except Exc (List (Str × ACResult)) :=
  collectGossip env [] (m.getAll (str!"Autocrypt-Gossip"))

/-- `make_message`, mime.py:263-269 -/
def makeMessage (contentType : Str) (p : Payload Msg) : Msg := .mk [(str!"Content-Type", contentType)] p

/-- `make_content_message_from_email`, mime.py:272-278 -/
def makeContentMessage (m : Msg) : Msg :=
  .mk (m.headers.filter (fun h => Py.lower h.1 = str!"content-transfer-encoding" ∨
                                  Py.lower h.1 = str!"content-type")) m.payload

/-- the headers which `transfer_non_content_headers` copies, mime.py:281-285 -/
def nonContentHeaders (m : Msg) : List (Str × Str) :=
  m.headers.filter (fun h => Py.lower h.1 ∉ [str!"content-type", str!"mime-version", str!"content-transfer-encoding"])

/-- `transfer_non_content_headers`, mime.py:281-285 -/
def transferNonContentHeaders (m new : Msg) : Msg := .mk (new.headers ++ nonContentHeaders m) new.payload

/-- `get_delivered_to`, mime.py:288-294 -/
def getDeliveredTo (env : Env) (m : Msg) (fallback : Option Str) : Except Exc Str :=
  let d := parseEmailAddr env (m.get (str!"Delivered-To"))
  let d := if d.isEmpty && !(fallback.getD []).isEmpty then parseEmailAddr env fallback else d
  if d.isEmpty then .error .valueError else .ok d

end Verif.Mime
