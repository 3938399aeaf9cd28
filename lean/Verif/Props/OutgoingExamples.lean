import Verif.Props.Outgoing
import Verif.Props.Recommendation
/-!
# Examples for C33 – C42, and where C36 and C39 fail
-/
namespace Verif
open Mime Concrete

/-! Views of events with decidable equality -/

/-- arguments and input of gpg commands with input, newest first -/
def gpgInputs (l : List Event) : List (List Str × Bytes) :=
  l.filterMap fun e => match e.op with | .gpg a (some d) => some (a, d) | _ => none

/-- headers of the messages given to plugins before encryption -/
def hookHeaders (l : List Event) : List (List (Str × Str)) :=
  l.filterMap fun e => match e.op with | .hookBeforeEnc _ _ _ m => some m.headers | _ => none

/-- a message to Bob and Carol with ENCRYPT header `e` (none if empty) -/
def letter (e : Str) : Msg :=
  .mk ([(str!"From", str!"Me <A@x.org>"), (str!"To", str!"bob@x.org, x <carol@x.org>"), (str!"Content-Type", str!"text/plain"),
    (str!"Subject", str!"s")] ++ if e.isEmpty then [] else [(str!"Encrypt", e)]) (.text (str!"hello"))

/-- `process_outgoing` for this message, in the world with keys of Bob and Carol -/
def sent (e : Str) : Except Exc Account.OutgoingResult × World Store Unit :=
  exec oracle (Account.processOutgoing env (str!"a") (letter e)) recWorld

/-- C33, C35, C36, C37, C39: with "yes" the message is encrypted to three keys: those of Bob, of Carol and of the account -/
example : encryptHeader (letter (str!" yes")) = some (str!"yes") ∧
    (sent (str!" yes")).1.toOption.map (fun r => r.msg.headers) = some [
      (str!"Content-Type", str!"multipart/encrypted; protocol=\"application/pgp-encrypted\""),
      (str!"From", str!"Me <A@x.org>"), (str!"To", str!"bob@x.org, x <carol@x.org>"), (str!"Subject", str!"s"),
      (str!"Autocrypt", str!"addr=a@x.org; prefer-encrypt=mutual; keydata=\n  QkJCQkJCQkJCQkJCQkJCQg==")] ∧
    hookHeaders (sent (str!" yes")).2.trace = [[(str!"Content-Type", str!"text/plain"),
      (str!"Autocrypt-Gossip", str!"addr=bob@x.org; keydata=\n  AQI="), (str!"Autocrypt-Gossip", str!"addr=carol@x.org; keydata=\n  AwQ=")]] ∧
    ((gpgInputs (sent (str!" yes")).2.trace).head?.map fun x => x.1.filter (fun s => s.length = 16)) =
      some [str!"AAAAAAAAAAAA0102", str!"AAAAAAAAAAAA0304", str!"BBBBBBBBBBBBBBBB", str!"BBBBBBBBBBBBBBBB"] := by
  refine ⟨?_, ?_, ?_, ?_⟩ <;> decide +kernel

/-- C34: with "no" it is sent in the clear, though encryption would be possible -/
example : encryptHeader (letter (str!"no")) = some (str!"no") ∧
    (sent (str!"no")).1.toOption.map (fun r => r.msg.contentType) = some (str!"text/plain") := by
  refine ⟨?_, ?_⟩ <;> decide +kernel

/-- C38: no key is known for Bob; Bob's address is not an own address as the account is for addresses that begin with "a" -/
def aWorld : World Store Unit := after [.addAccount (str!"a") (some (str!"a")) none (str!"gpg") (str!"own")]

theorem not_known_of_isEmpty {es : List Entry} (h : (Peer.publicKeyhandle es).isEmpty = true) : ¬ KnownKey es := by
  rw [← knownKey_iff, h]; simp

example : bob ∈ encryptTo env (letter (str!"yes")) (str!"a@x.org") ∧
    ¬ KnownKey (peerLog env aWorld (str!"a") (parseEmailAddr env (some bob))) ∧
    ¬ OwnAddress env aWorld (str!"a") (parseEmailAddr env (some bob)) := by
  refine ⟨by decide +kernel, not_known_of_isEmpty (by decide +kernel), ?_⟩
  rintro ⟨c, h1, h2⟩
  have hc : (Own.latestConfig (aWorld.log (ownHead (str!"a")))).map (·.emailRegex) = some (str!"a") := by decide +kernel
  rw [latestConfig_iff.mpr h1] at hc
  simp only [Option.map_some, Option.some.injEq] at hc
  rw [hc] at h2
  have : env.reMatch (str!"a") (parseEmailAddr env (some bob)) = .ok false := rfl
  rw [this] at h2; cases h2

/-- C40, C41: encrypting and decrypting; gpg's output is ASCII, serialisation round-trips -/
def encrypted : Except Exc Account.EncryptResult × World Store Unit :=
  exec oracle (Account.encryptMime env (str!"a") (letter []) [bob, str!"Carol <carol@x.org>"]) recWorld

/-- decrypting the result -/
def decrypted : Except Exc Account.DecryptResult × World Store Unit :=
  match encrypted with
  | (.ok r, w) => exec oracle (Account.decryptMime env (str!"a") r.encMsg) w
  | (.error e, w) => (.error e, w)

example : encrypted.1.toOption.isSome = true ∧
    decrypted.1.toOption.map (fun r => r.decMsg.headers) = some [(str!"Content-Type", str!"text/plain"),
      (str!"Autocrypt-Gossip", str!"addr=bob@x.org; keydata=\n  AQI="), (str!"Autocrypt-Gossip", str!"addr=carol@x.org; keydata=\n  AwQ="),
      (str!"From", str!"Me <A@x.org>"), (str!"To", str!"bob@x.org, x <carol@x.org>"), (str!"Subject", str!"s")] ∧
    (gpgInputs encrypted.2.trace).head?.map (fun x => x.2.all (·.toNat < 128)) = some true ∧
    (∀ a ∈ [bob, str!"Carol <carol@x.org>"].map (fun a => parseEmailAddr env (some a)),
      ';' ∉ a ∧ parseEmailAddr env (some a) = a ∧ parseEmailAddr env (some (Py.strip a)) = a) := by
  refine ⟨?_, ?_, ?_, ?_⟩ <;> decide +kernel

/-- C42: a message which is encrypted already -/
example : isEncrypted (encMail (str!"1") (str!"100") [(str!"ENCRYPT", str!"yes")] []) = .ok true ∧
    (exec oracle (Account.processOutgoing env (str!"a") (encMail (str!"1") (str!"100") [(str!"ENCRYPT", str!"yes")] []))
      recWorld).1.toOption.isSome = true :=
  ⟨rfl, by decide +kernel⟩

theorem ok_of_map {α β γ : Type} {x : Except Exc α × β} {f : α → γ} {b : γ} (h : x.1.toOption.map f = some b) :
    ∃ a w, x = (.ok a, w) ∧ f a = b := by
  obtain ⟨r, w⟩ := x
  cases r with
  | error e => cases h
  | ok a => exact ⟨a, w, rfl, Option.some.inj h⟩

/-- The full C36 fails: for a sender with a quoted local part with a semicolon the added Autocrypt header can't be parsed to the
sender's address. -/
theorem C36_refuted : ∃ (w : World Store Unit) (m : Msg) (res : Account.OutgoingResult) (w' : World Store Unit) (v : Str),
    Reachable oracle env w ∧ exec oracle (Account.processOutgoing env (str!"a") m) w = (.ok res, w') ∧
    m.getAll (str!"Autocrypt") = [] ∧ res.msg.getAll (str!"Autocrypt") = [v] ∧
    address env (m.get (str!"From")) = str!"\"a;b\"@x.org" ∧
    ∀ r, parseAcHeadervalue env v = .ok r → r.addr ≠ some (str!"\"a;b\"@x.org") := by
  spec_mail
  let m : Msg := .mk [(str!"From", str!"<\"a;b\"@x.org>"), (str!"To", str!"c@x.org")] (.text [])
  obtain ⟨res, w', h0, hv⟩ := ok_of_map (x := exec oracle (Account.processOutgoing env (str!"a") m) (after [addA]))
    (f := fun r => r.msg.getAll (str!"Autocrypt")) (b := [str!"addr=\"a;b\"@x.org; keydata=\n  QkJCQkJCQkJCQkJCQkJCQg=="])
    (by decide +kernel)
  refine ⟨after [addA], m, res, w', str!"addr=\"a;b\"@x.org; keydata=\n  QkJCQkJCQkJCQkJCQkJCQg==", after_reachable _, h0,
    by decide +kernel, hv, by decide +kernel, ?_⟩
  have h2 : (parseAcHeadervalue env (str!"addr=\"a;b\"@x.org; keydata=\n  QkJCQkJCQkJCQkJCQkJCQg==")).toOption.all
      (fun r => r.addr != some (str!"\"a;b\"@x.org")) = true := by decide +kernel
  intro r hr
  rw [hr] at h2
  simpa [Except.toOption] using h2

/-- The full C39 fails: the gossip header for such an address can't be parsed to it. -/
theorem C39_refuted : ∃ (w : World Store Unit) (m : Msg) (a : Str),
    Reachable oracle env w ∧ (exec oracle (Account.encryptMime env (str!"a") m [a]) w).1.toOption.isSome = true ∧
    KnownKey (peerLog env w (str!"a") (address env (some a))) ∧
    ∃ hs, hookHeaders (exec oracle (Account.encryptMime env (str!"a") m [a]) w).2.trace = [hs] ∧
      ∀ h ∈ hs, ∀ r, parseAcHeadervalue env h.2 = .ok r → r.addr ≠ some (address env (some a)) := by
  spec_mail
  refine ⟨after [addA, .importKey (str!"a") (some (str!"\"a;b\"@x.org")) [1, 2] (str!"mutual")],
    .mk [(str!"From", str!"a@x.org")] (.text []), str!"\"a;b\"@x.org", after_reachable _, by decide +kernel,
    knownKey_iff.mp (by decide +kernel), [(str!"Autocrypt-Gossip", str!"addr=\"a;b\"@x.org; keydata=\n  AQI=")],
    by decide +kernel, ?_⟩
  have h2 : (parseAcHeadervalue env (str!"addr=\"a;b\"@x.org; keydata=\n  AQI=")).toOption.all
      (fun r => r.addr != some (parseEmailAddr env (some (str!"\"a;b\"@x.org")))) = true := by decide +kernel
  intro h hh r hr
  rw [List.mem_singleton.mp hh] at hr
  rw [hr] at h2
  simpa [Except.toOption] using h2

end Verif
