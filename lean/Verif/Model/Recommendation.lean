import Verif.Model.States
/-!
# `recommendation.py`
-/
namespace Verif.Rec

/-- values of a recommendation -/
inductive Rec where | disable | discourage | available | encrypt
deriving DecidableEq, Repr

/-- 35 days, recommendation.py:67 -/
def timeout : Time := sec (35 * 24 * 60 * 60)

/-- `PeerRecommendation._preliminary_recommendation`, recommendation.py:61-71 -/
def preliminary (es : List Entry) : Rec :=
  if (Peer.publicKeyhandle es).isEmpty then .disable
  else if !Peer.hasDirectKey es then .discourage
  else if Peer.lastSeen es - Peer.acTimestamp es > timeout then .discourage
  else .available

/-- `PeerRecommendation.ui_recommendation`, recommendation.py:45-56; `_latest_msg_entry()` may be `None`, whose
`keydata` is an `AttributeError` -/
def peerUi (es : List Entry) (own : PE) (replyToEnc : Bool) : Except Exc Rec :=
  let pre := preliminary es
  if (pre = .available ∨ pre = .discourage) ∧ replyToEnc then .ok .encrypt
  else if pre = .available ∧ own = .mutual ∧ Peer.preferEncrypt es = str!"mutual" then
    match Peer.latestMsg es with
    | none => .error .attributeError
    | some m => if !m.keydata.isEmpty then .ok .encrypt else .ok pre
  else .ok pre

/-- the list comprehension, recommendation.py:13-15 -/
def peerUis (own : PE) (replyToEnc : Bool) : List (List Entry) → Except Exc (List Rec)
  | [] => .ok []
  | es :: rest => match peerUi es own replyToEnc with
    | .error e => .error e
    | .ok r => match peerUis own replyToEnc rest with
      | .error e => .error e
      | .ok rs => .ok (r :: rs)

/-- `Recommendation.ui_recommendation`, recommendation.py:12-25 -/
def ui (peers : List (List Entry)) (own : PE) (replyToEnc : Bool) : Except Exc Rec :=
  match peerUis own replyToEnc peers with
  | .error e => .error e
  | .ok [] => match own with
    | .mutual => .ok .encrypt
    | .nopreference => .ok .available
  | .ok rs =>
    if .disable ∈ rs then .ok .disable
    else if .discourage ∈ rs then .ok .discourage
    else if .available ∈ rs then .ok .available
    else .ok .encrypt

end Verif.Rec
