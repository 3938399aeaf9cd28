import Verif.Props.Exchange
/-!
# Examples for C79 – C82

Account "a" of one installation writes to Dave, account "d" of another installation.
-/
namespace Verif
open Mime Concrete

/-- Dave's installation: another directory, one account which prefers encryption -/
def daveEnv : Env := env.at (str!"/e")
def daveWorld : World Store Unit :=
  runCalls Store.impl oracle daveEnv [.addAccount (str!"d") none none (str!"gpg") (str!"own"),
    .modAccount (str!"d") none none none (some (str!"mutual"))] world0

theorem daveWorld_reachable : Reachable oracle daveEnv daveWorld := .of_calls _

/-- a mail to Dave -/
def toDave : Msg := .mk [(str!"From", str!"Me <A@x.org>"), (str!"To", str!"dave@x.org"), (str!"Message-Id", str!"m1"), (str!"Date", str!"200")]
  (.text (str!"hello"))

/-- as it arrives: a server has added a header -/
def toDave' : Msg := .mk [(str!"Received", str!"x"), (str!"From", str!"Me <A@x.org>"), (str!"To", str!"dave@x.org"), (str!"Message-Id", str!"m1"),
    (str!"Date", str!"200"), (str!"Autocrypt", str!"addr=a@x.org; prefer-encrypt=mutual; keydata=\n  QkJCQkJCQkJCQkJCQkJCQg==")]
  (.text (str!"hello"))

/-- Dave's state then, and the answer -/
def daveAfter : World Store Unit := (exec oracle (Account.processIncoming daveEnv (str!"d") toDave' false false) daveWorld).2
def fromDave : Msg := .mk [(str!"From", str!"dave@x.org"), (str!"To", str!"A@x.org, dave@x.org")] (.text (str!"hi"))

theorem pref_of_map {w : World Store Unit} {n : Str} {pe : PE} (h : (Own.latestConfig (w.log (ownHead n))).map (·.pe) = some pe) :
    OwnPreference w n pe := by
  obtain ⟨c, h1, h2⟩ := Option.map_eq_some_iff.mp h
  exact ⟨c, latestConfig_iff.mp h1, h2⟩

theorem fst_ok {α β : Type} {x : Except Exc α × β} {a : α} (h : x.1 = .ok a) : x = (.ok a, x.2) := by rw [← h]

/-- the hypotheses of C79 and C80 hold: Dave's answer is encrypted with the key from the header -/
example : ∃ res'' u', exec oracle (Account.processOutgoing daveEnv (str!"d") fromDave) daveAfter = (.ok res'', u') ∧
    PgpMime res''.msg := by
  obtain ⟨res, w', h1, h2⟩ := ok_of_map (x := exec oracle (Account.processOutgoing env (str!"a") toDave) recWorld)
    (f := fun r => (r.msg.getAll (str!"From"), r.msg.getAll (str!"Autocrypt")))
    (b := ([str!"Me <A@x.org>"], [str!"addr=a@x.org; prefer-encrypt=mutual; keydata=\n  QkJCQkJCQkJCQkJCQkJCQg=="])) (by decide +kernel)
  obtain ⟨res', h3, h4⟩ := exc_some_of_map (x := (exec oracle (Account.processIncoming daveEnv (str!"d") toDave' false false) daveWorld).1)
    (f := fun r => r.pah.error) (b := none) (by decide +kernel)
  obtain ⟨res'', u', h5, _⟩ := ok_of_map (x := exec oracle (Account.processOutgoing daveEnv (str!"d") fromDave) daveAfter)
    (f := fun _ => ()) (b := ()) (by decide +kernel)
  have harr : Arrives env res.msg toDave' := by
    simp only [Prod.mk.injEq] at h2
    exact ⟨by rw [h2.1]; decide +kernel, by rw [h2.2]; decide +kernel, by decide +kernel, by decide +kernel⟩
  have hno : daveWorld.log (peerHead (str!"d") (str!"a@x.org")) = [] := by decide +kernel
  refine ⟨res'', u', h5, (C80_mutual_encrypts h1 (by decide +kernel) (a := str!"a@x.org") (by decide +kernel) (by decide +kernel)
    (by decide +kernel) (by decide +kernel) recWorld_pref harr daveWorld_reachable (fst_ok h3) h4 (t := sec 200)
    ⟨sec 200, .inl rfl, by decide +kernel⟩ (by rw [hno]; simp) (by decide +kernel) rfl (pref_of_map (by decide +kernel)) h5
    (f := str!"dave@x.org") (by decide +kernel) ?_ (plainMail_iff.mpr rfl) (by decide +kernel)).1⟩
  intro b
  have htgt : getTargetEmailadr daveEnv fromDave = [str!"A@x.org", str!"dave@x.org"] := by decide +kernel
  have e1 : parseEmailAddr daveEnv (some (str!"A@x.org")) = str!"a@x.org" := by decide +kernel
  have e2 : parseEmailAddr daveEnv (some (str!"dave@x.org")) = str!"dave@x.org" := by decide +kernel
  unfold Recipient
  show (∃ x ∈ getTargetEmailadr daveEnv fromDave, b = parseEmailAddr daveEnv (some x) ∧ b ≠ parseEmailAddr daveEnv (some (str!"dave@x.org"))) ↔ _
  rw [htgt, e2]
  constructor
  · rintro ⟨x, hx, rfl, hne⟩
    rcases List.mem_cons.mp hx with rfl | hx
    · exact e1
    · rw [List.mem_singleton.mp hx] at hne; exact absurd e2 hne
  · rintro rfl
    exact ⟨_, List.mem_cons_self .., e1.symm, by decide⟩

/-! An encrypted mail to Bob and Carol, which arrives also at Dave -/

/-- the encrypted mail, with id and date -/
def groupMail : Msg := match (sent (str!" yes")).1 with
  | .ok r => (r.msg.add (str!"Message-Id") (str!"g1")).add (str!"Date") (str!"300")
  | .error _ => .mk [] (.text [])

/-- Dave's state then -/
def daveGroup : World Store Unit := (exec oracle (Account.processIncoming daveEnv (str!"d") groupMail false false) daveWorld).2

/-- what the plugins got and returned, and the bytes of the latter -/
def hookViews (l : List Event) : List (List (Str × Str) × List (Str × Str) × Bytes) :=
  l.filterMap fun e => match e with
    | ⟨.hookBeforeEnc _ _ _ m, .ok m'⟩ => some (m.headers, m'.headers, flat m')
    | _ => none

/-- results of decryption -/
def decViews (l : List Event) : List Bytes :=
  l.filterMap fun e => match e with
    | ⟨.gpg a (some _), .ok out⟩ => if str!"--decrypt" ∈ a then some out.out else none
    | _ => none

theorem view_new {α : Type} {f : Event → Option α} {new old : List Event} {l : List α}
    (h : (new ++ old).filterMap f = l ++ old.filterMap f) : new.filterMap f = l := by
  rw [List.filterMap_append] at h
  exact List.append_cancel_right h

/-- what the plugins return for the mail to Bob and Carol -/
def groupPayload : Msg := .mk [(str!"Content-Type", str!"text/plain"), (str!"Autocrypt-Gossip", str!"addr=bob@x.org; keydata=\n  AQI="),
  (str!"Autocrypt-Gossip", str!"addr=carol@x.org; keydata=\n  AwQ=")] (.text (str!"hello"))

theorem ok_of_toOption {α : Type} {x : Except Exc α} {a : α} (h : x.toOption = some a) : x = .ok a := by
  cases x <;> cases h; rfl

/-- the hypotheses of C81 and C82 hold: Dave learns Carol's key -/
example : ∃ kh, PeerKey (daveGroup.log (peerHead (str!"d") carol)) kh [3, 4] := by
  obtain ⟨res, w', h1, h2⟩ := ok_of_map (x := sent (str!" yes"))
    (f := fun r => (isEncrypted r.msg).toOption) (b := some true) (by decide +kernel)
  obtain ⟨res', h3, _⟩ := exc_some_of_map (x := (exec oracle (Account.processIncoming daveEnv (str!"d") groupMail false false) daveWorld).1)
    (f := fun r => r.gossip.map (·.1)) (b := [bob, carol]) (by decide +kernel)
  obtain ⟨new, hn⟩ := trace_le h1
  obtain ⟨new', hn'⟩ := trace_le (fst_ok h3)
  have hw' : w' = (sent (str!" yes")).2 := by rw [h1]
  have hhooks : hookViews new = [(groupPayload.headers, groupPayload.headers, flat groupPayload)] := by
    refine view_new (old := recWorld.trace) ?_
    rw [hn, hw']
    show hookViews _ = [_] ++ hookViews _
    decide +kernel
  have hins : gpgInputs new = [((gpgInputs (sent (str!" yes")).2.trace).headD ([], []) |>.1, flat groupPayload)] := by
    refine view_new (old := recWorld.trace) ?_
    rw [hn, hw']
    show gpgInputs _ = [_] ++ gpgInputs _
    decide +kernel
  have hdecs : decViews new' = [flat groupPayload] := by
    refine view_new (old := daveWorld.trace) ?_
    rw [hn']
    show decViews _ = [_] ++ decViews _
    decide +kernel
  have hhook : ∀ s kh r2k p p', Event.hook s kh r2k p (.ok p') ∈ new →
      p.headers = groupPayload.headers ∧ p'.headers = groupPayload.headers ∧ flat p' = flat groupPayload := by
    intro s kh r2k p p' hev
    have : (p.headers, p'.headers, flat p') ∈ hookViews new := List.mem_filterMap.mpr ⟨_, hev, rfl⟩
    rw [hhooks, List.mem_singleton, Prod.mk.injEq, Prod.mk.injEq] at this
    exact this
  have hpk : PeerKey (recWorld.log (peerHead (str!"a") carol)) (str!"AAAAAAAAAAAA0304") [3, 4] :=
    peerKey_iff.mpr ⟨by decide +kernel, by decide +kernel, by decide +kernel⟩
  have hno : daveWorld.log (peerHead (str!"d") carol) = [] := by decide +kernel
  have hnoac : Peer.latestAc (daveGroup.log (peerHead (str!"d") carol)) = none := by decide +kernel
  obtain ⟨g, _, _, hg⟩ := (C82_gossip_exchange (n := str!"a") (m := letter (str!" yes")) h1 (plainMail_iff.mpr rfl) (pgpMime_iff.mpr (ok_of_toOption h2)) hn.symm
    (f := str!"Me <A@x.org>") (by decide +kernel) (by decide +kernel)
    (by
      intro s kh r2k p p' hev name _
      obtain ⟨e1, e2, _⟩ := hhook s kh r2k p p' hev
      rw [Msg.getAll, Msg.getAll, e1, e2])
    (by
      intro s kh r2k p p' data hev hdata name hname
      obtain ⟨_, e2, e3⟩ := hhook s kh r2k p p' hev
      have : data = flat groupPayload := by
        have hd : (Except.ok (flat p') : Except Exc Bytes) = .ok data := hdata
        cases hd; exact e3
      subst this
      have : p'.getAll name = groupPayload.getAll name := by rw [Msg.getAll, Msg.getAll, e2]
      rw [this]
      have hall : ∀ name ∈ gossipNames, (env.messageFromBytes (flat groupPayload)).getAll name = groupPayload.getAll name := by decide +kernel
      exact hall name hname)
    (m' := groupMail) (by decide +kernel) (by decide +kernel) (by decide +kernel) (pgpMime_iff.mpr (ok_of_toOption (by decide +kernel)))
    (fst_ok h3)
    (by
      intro argv data out dec hev hdec
      have h4 : (argv, data) ∈ gpgInputs new := List.mem_filterMap.mpr ⟨_, hev, rfl⟩
      rw [hins, List.mem_singleton, Prod.mk.injEq] at h4
      obtain ⟨new2, argv2, enc2, out2, i1, i2, i3, _, _, i6⟩ := hdec
      have : new2 = new' := List.append_cancel_right (bs := daveWorld.trace) (by rw [← i1, hn']; rfl)
      subst this
      have h5 : dec ∈ decViews new2 := List.mem_filterMap.mpr ⟨_, i2, by dsimp only; rw [if_pos i3, ← i6]⟩
      rw [hdecs, List.mem_singleton] at h5
      rw [h5, h4.2])
    (t := sec 300) ⟨sec 300, .inl (by decide +kernel), by decide +kernel⟩ (a := carol) (by decide +kernel) (by decide +kernel) hpk
    (by decide +kernel)).2 (by intro g hg; exfalso; have : Entry.gossip g ∈ daveWorld.log (peerHead (str!"d") carol) := hg; rw [hno] at this; cases this)
  refine ⟨_, hg ?_⟩
  rintro ⟨e, he, _⟩
  have := latestAc_iff.mpr he
  have h' : Peer.latestAc (daveGroup.log (peerHead (str!"d") carol)) = some e := this
  rw [hnoac] at h'; cases h'

end Verif
