import Verif.Model.Recommendation
/-!
# Autocrypt Level 1, version 1.1: the state of a peer and the recommendation

What the specification at autocrypt.org says in its sections "Autocrypt Internals: peer state management" and "Provide a recommendation for message
encryption". Nothing here refers to the code, apart from the types for times, preferences and values of recommendations.
-/
namespace Verif.Level1

/-- `peers[addr]`; times are 0 as long as nothing is known -/
structure Peer where
  lastSeen : Time
  timestamp : Time
  /-- `public_key` -/
  key : Option Bytes
  prefer : PE
  gossipTimestamp : Time
  gossipKey : Option Bytes
deriving DecidableEq

/-- a peer of whom nothing is known -/
def Peer.new : Peer := ⟨0, 0, none, .nopreference, 0, none⟩

/-- what is learned about a peer -/
inductive Event where
  /-- a mail of this effective date came from the peer, with this key and preference in its Autocrypt header if it has a valid one -/
  | mail (date : Time) (header : Option (Bytes × PE))
  /-- a mail of this effective date came with this key of the peer in an Autocrypt-Gossip header -/
  | gossip (date : Time) (key : Bytes)
deriving DecidableEq

/-- "Updating Autocrypt Peer State" and "Updating Autocrypt Peer State from Key Gossip" -/
def Peer.learn (p : Peer) : Event → Peer
  | .mail date header =>
    if date < p.timestamp then p
    else
      let p := if p.lastSeen < date then { p with lastSeen := date } else p
      match header with
      | none => p
      | some (key, prefer) => { p with timestamp := date, key := some key, prefer }
  | .gossip date key =>
    if date < p.gossipTimestamp then p
    else { p with gossipTimestamp := date, gossipKey := some key }

/-- "Determine if encryption is possible": the key to use -/
def Peer.target (p : Peer) : Option Bytes := p.key <|> p.gossipKey

/-- "Preliminary Recommendation" -/
def Peer.preliminary (p : Peer) : Rec.Rec :=
  if p.target = none then .disable
  else if p.key = none then .discourage
  else if p.lastSeen - p.timestamp > sec (35 * 24 * 60 * 60) then .discourage
  else .available

/-- "Deciding to Encrypt by Default" -/
def Peer.recommend (p : Peer) (own : PE) (reply : Bool) : Rec.Rec :=
  if (p.preliminary = .available ∨ p.preliminary = .discourage) ∧ reply = true then .encrypt
  else if p.preliminary = .available ∧ own = .mutual ∧ p.prefer = .mutual then .encrypt
  else p.preliminary

end Verif.Level1
