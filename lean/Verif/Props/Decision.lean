import Verif.Props.Outgoing
import Verif.Props.OutgoingExamples
/-!
# When outgoing mail is encrypted: C71
-/
namespace Verif
open Mime Rec

variable {K : Type}

/-- the recipients which count: those of To and Cc which are not the sender, in normal form -/
def Recipient (env : Env) (m : Msg) (f a : Str) : Prop :=
  ∃ x ∈ recipients env m, a = address env (some x) ∧ a ≠ address env (some f)

/-- what is recommended for mail to one address, by the log of that peer -/
noncomputable def recFor (env : Env) (w : World Store K) (n : Str) (own : PE) (a : Str) : Rec :=
  recSpec (w.log (peerHead n (address env (some a)))) own false

/-- encryption is recommended for every recipient; for mail to nobody else if the own setting is 'mutual' -/
def AllRecommended (env : Env) (w : World Store K) (n : Str) (own : PE) (m : Msg) (f : Str) : Prop :=
  (∀ a, Recipient env m f a → recFor env w n own a = .encrypt) ∧ ((¬ ∃ a, Recipient env m f a) → own = .mutual)

/-- no recipient without a key -/
def AllPossible (env : Env) (w : World Store K) (n : Str) (own : PE) (m : Msg) (f : Str) : Prop :=
  ∀ a, Recipient env m f a → recFor env w n own a ≠ .disable

/-- when mail which is not encrypted yet is encrypted -/
def Encrypts (env : Env) (w : World Store K) (n : Str) (own : PE) (m : Msg) (f : Str) : Prop :=
  encryptHeader m ≠ some (str!"no") ∧
    (AllRecommended env w n own m f ∨ encryptHeader m = some (str!"yes") ∧ AllPossible env w n own m f)

theorem recipient_iff {env : Env} {m : Msg} {f a : Str} :
    a ∈ Account.peerAddrs env (getTargetEmailadr env m) (some (parseEmailAddr env (some f))) ↔ Recipient env m f a := by
  rw [mem_peerAddrs]
  unfold Recipient
  constructor
  · rintro ⟨x, hx, he, hne⟩
    exact ⟨x, hx, he, fun h => hne (by rw [h, address_eq])⟩
  · rintro ⟨x, hx, he, hne⟩
    exact ⟨x, hx, he, fun h => hne (Option.some.inj h).symm⟩

theorem groupRec_encrypt {l : List Rec} {own : PE} : groupRec l own = .encrypt ↔ (∀ r ∈ l, r = .encrypt) ∧ (l = [] → own = .mutual) := by
  unfold groupRec
  by_cases hl : l = []
  · subst hl; cases own <;> simp
  · simp only [hl, if_false, false_implies, and_true]
    constructor
    · intro h r hr
      split at h <;> try cases h
      split at h <;> try cases h
      split at h <;> try cases h
      cases r <;> simp_all
    · intro h
      rw [if_neg, if_neg, if_neg] <;> intro hm <;> cases h _ hm

theorem groupRec_disable {l : List Rec} {own : PE} : groupRec l own ≠ .disable ↔ ∀ r ∈ l, r ≠ .disable := by
  unfold groupRec
  by_cases hl : l = []
  · subst hl; cases own <;> simp
  · simp only [hl, if_false]
    constructor
    · intro h r hr he
      subst he
      exact h (by rw [if_pos hr])
    · intro h
      rw [if_neg (fun hm => h _ hm rfl)]
      split
      · simp
      split <;> simp

/-- the recommendation which `process_outgoing` uses -/
theorem outgoing_recommendation (O : Oracle K) {env : Env} {w w1 : World Store K} {n : Str} {own : PE} {m : Msg} {f : Str}
    (hown : OwnPreference w n own) (hs : w1.store = w.store) :
    ∃ r, run Store.impl O (Account.recommendation env n (getTargetEmailadr env m) false (some (parseEmailAddr env (some f)))) w1 = (.ok r, w1) ∧
      (r = .encrypt ↔ AllRecommended env w n own m f) ∧ (r ≠ .disable ↔ AllPossible env w n own m f) := by
  obtain ⟨c, hc, rfl⟩ := hown
  have hlog : ∀ h, w1.log h = w.log h := fun h => by unfold World.log; rw [hs]
  refine ⟨_, exec_recommendation O env n _ false _ w1 c (by rw [hlog]; exact latestConfig_iff.mpr hc), ?_, ?_⟩
  · rw [groupRec_encrypt]
    unfold AllRecommended recFor
    simp only [List.mem_map, List.map_eq_nil_iff, hlog]
    refine and_congr ⟨fun h a ha => h _ ⟨a, recipient_iff.mpr ha, rfl⟩, ?_⟩ (imp_congr ⟨?_, ?_⟩ .rfl)
    · rintro h r ⟨a, ha, rfl⟩; exact h a (recipient_iff.mp ha)
    · rintro h ⟨a, ha⟩; have := recipient_iff.mpr ha; rw [h] at this; cases this
    · intro h; exact List.eq_nil_iff_forall_not_mem.mpr fun a ha => h ⟨a, recipient_iff.mp ha⟩
  · rw [groupRec_disable]
    unfold AllPossible recFor
    simp only [List.mem_map, hlog]
    constructor
    · exact fun h a ha => h _ ⟨a, recipient_iff.mpr ha, rfl⟩
    · rintro h r ⟨a, ha, rfl⟩; exact h a (recipient_iff.mp ha)

theorem outgoingBody_decides {O : Oracle K} {env : Env} {w w1 w' : World Store K} {n : Str} {own : PE} {m m2 : Msg} {f : Str} {added : Option Str}
    {r : Except Exc Msg} (h : run Store.impl O (Account.outgoingBody env n m2 (encryptHeader m)) w1 = (r, w'))
    (hp : Prepared env w w1 n m m2 added) (hown : OwnPreference w n own) (hs : w1.store = w.store) (hf : m.getAll (str!"From") = [f])
    (he : isEncrypted m = .ok false) :
    ∀ m', r = .ok m' → (isEncrypted m' = .ok true ↔ Encrypts env w n own m f) ∧ (¬ Encrypts env w n own m f → isEncrypted m' = .ok false) := by
  unfold Account.outgoingBody at h
  simp only [bind_eq, pure_eq] at h
  rw [run_bind, run_ofExcept, hp.isEncrypted, he] at h
  dsimp only at h
  rw [if_neg (by simp), hp.getAll (by decide) (by decide), hf] at h
  have htgt : getTargetEmailadr env m2 = getTargetEmailadr env m := by
    unfold getTargetEmailadr
    rw [hp.getAll (by decide) (by decide), hp.getAll (by decide) (by decide)]
  obtain ⟨rc, h1, h2, h3⟩ := outgoing_recommendation O (env := env) (m := m) (f := f) hown hs
  dsimp only at h
  rw [run_bind, htgt, h1] at h
  dsimp only at h
  have hclear : ¬ Encrypts env w n own m f → ∀ m', m2 = m' →
      (isEncrypted m' = .ok true ↔ Encrypts env w n own m f) ∧ (¬ Encrypts env w n own m f → isEncrypted m' = .ok false) := by
    rintro hn m' rfl
    rw [hp.isEncrypted, he]
    exact ⟨⟨(fun h => by cases h), fun h => absurd h hn⟩, fun _ => rfl⟩
  by_cases hno : encryptHeader m = some (str!"no")
  · rw [if_neg (by simp [hno])] at h
    cases h
    exact fun m' hm => hclear (fun hx => hx.1 hno) m' (Except.ok.inj hm)
  · rw [if_pos hno] at h
    by_cases hd : rc = .encrypt ∨ (rc ≠ .disable ∧ encryptHeader m = some (str!"yes"))
    · rw [if_pos hd, run_bind] at h
      have hE : Encrypts env w n own m f := ⟨hno, hd.imp h2.mp fun hx => ⟨hx.2, h3.mp hx.1⟩⟩
      · rintro m' rfl
        refine ⟨⟨fun _ => hE, fun _ => ?_⟩, fun hx => absurd hE hx⟩
        rcases hx : run Store.impl O (Account.encryptMime env n m2 (if (getTargetEmailadr env m).contains (parseEmailAddr env (some f)) = true
          then getTargetEmailadr env m else getTargetEmailadr env m ++ [parseEmailAddr env (some f)])) w1 with ⟨e | x, w2⟩
        · rw [hx] at h; cases h
        · rw [hx] at h; cases h
          have htr := run_trace (S := Store.impl) (O := O) (Account.encryptMime env n m2 (if (getTargetEmailadr env m).contains (parseEmailAddr env (some f)) = true
            then getTargetEmailadr env m else getTargetEmailadr env m ++ [parseEmailAddr env (some f)])) w1
          rw [hx] at htr
          obtain ⟨new, hn⟩ := htr
          obtain ⟨_, _, _, _, _, _, _, out, _, _, _, _, _, _, h6, _⟩ := encryptMime_ok hx hn.symm
          rw [h6]; exact isEncrypted_encMessage _ _
    · rw [if_neg hd] at h
      have hn : ¬ Encrypts env w n own m f := fun hE => hd (hE.2.imp h2.mpr fun hx => ⟨h3.mpr hx.2, hx.1⟩)
      by_cases hy : encryptHeader m = some (str!"yes")
      · rw [if_pos hy] at h
        cases h
        exact fun m' hm => by cases hm
      · rw [if_neg hy] at h
        cases h
        exact fun m' hm => hclear hn m' (Except.ok.inj hm)

/-- a successful call makes the message ready and then decides -/
theorem processOutgoing_body {O : Oracle K} {env : Env} {n : Str} {m : Msg} {w w' : World Store K} {res : Account.OutgoingResult}
    (h : exec O (Account.processOutgoing env n m) w = (.ok res, w')) :
    ∃ m2 added w1, Prepared env w w1 n m m2 added ∧ w1.store = w.store ∧
      run Store.impl O (Account.outgoingBody env n m2 (encryptHeader m)) w1 = (.ok res.msg, w') := by
  simp only [Account.processOutgoing, bind_eq, pure_eq, exec] at h
  obtain ⟨enc, w0, henc, h⟩ := run_bind_ok.mp h
  obtain ⟨⟨m2, added⟩, w1, hp, h⟩ := run_bind_ok.mp h
  obtain ⟨m3, w2, hb, h⟩ := run_bind_ok.mp h
  rw [run_ofExcept] at henc
  cases h
  have hw0 : w = w0 := congrArg Prod.snd henc
  subst hw0
  have heh : enc = encryptHeader m := by
    have henc := congrArg Prod.fst henc
    dsimp only at henc
    unfold Account.encHeader at henc
    unfold encryptHeader
    cases hg : m.get (str!"ENCRYPT") with
    | none => rw [hg] at henc; cases henc; rfl
    | some v =>
      rw [hg] at henc
      dsimp only at henc
      split at henc
      · cases henc; rfl
      · cases henc
  subst heh
  rw [has_del m (by decide)] at hp
  have hget : (m.del (str!"ENCRYPT")).get (str!"From") = m.get (str!"From") := by
    unfold Msg.get; rw [getAll_del m (by decide)]
  rw [hget] at hp
  by_cases hh : m.has (str!"Autocrypt") = true
  · rw [if_pos hh] at hp
    cases hp
    exact ⟨_, _, _, .inl ⟨hh, rfl, rfl⟩, rfl, hb⟩
  · rw [if_neg hh] at hp
    obtain ⟨v, w2, hv, hp⟩ := run_bind_ok.mp hp
    cases hp
    exact ⟨_, _, _, .inr ⟨by simpa using hh, v, rfl, rfl, makeAcHeader_ok hv⟩, (run_quiet' (Account.makeAcHeader_quiet env n _) hv).2, hb⟩

/-- C71: for a message with one From header which is not encrypted yet, the message which is returned is encrypted exactly if the
ENCRYPT header is not "no" and either encryption is recommended for all recipients, or the header is "yes" and there is a key for all
of them. Without that, "yes" makes the call fail. -/
theorem C71_decision (O : Oracle K) (env : Env) (w w' : World Store K) (n : Str) (m : Msg) (r : Except Exc Account.OutgoingResult)
    (h : exec O (Account.processOutgoing env n m) w = (r, w')) (own : PE) (hown : OwnPreference w n own) (f : Str)
    (hf : m.getAll (str!"From") = [f]) (he : PlainMail m) :
    (∀ res, r = .ok res → (PgpMime res.msg ↔ Encrypts env w n own m f) ∧
      (¬ Encrypts env w n own m f → PlainMail res.msg)) ∧
    (encryptHeader m = some (str!"yes") → ¬ Encrypts env w n own m f → ∃ e, r = .error e) := by
  spec_mail
  have key : ∀ res, r = .ok res → (isEncrypted res.msg = .ok true ↔ Encrypts env w n own m f) ∧
      (¬ Encrypts env w n own m f → isEncrypted res.msg = .ok false) := by
    rintro res rfl
    obtain ⟨m2, added, w1, hp, hs, hb⟩ := processOutgoing_body h
    exact outgoingBody_decides hb hp hown hs hf he _ rfl
  refine ⟨key, fun hy hn => ?_⟩
  cases r with
  | error e => exact ⟨e, rfl⟩
  | ok res => exact absurd ((key res rfl).1.mp (pgpMime_iff.mp (C33_yes_encrypts O env w w' n m res h hy))) hn

open Concrete in
/-- mail to Bob and Carol: a key is known for both, but Carol does not prefer encryption, so it depends on the header; mail to Bob alone
is encrypted without header; mail to a stranger with "yes" fails -/
example : OwnPreference recWorld (str!"a") .mutual ∧ (letter []).getAll (str!"From") = [str!"Me <A@x.org>"] ∧
    isEncrypted (letter []) = .ok false ∧ encryptHeader (letter (str!"yes")) = some (str!"yes") ∧
    (sent []).1.toOption.map (fun r => r.msg.contentType) = some (str!"text/plain") ∧
    (sent (str!"yes")).1.toOption.map (fun r => r.msg.contentType) = some (str!"multipart/encrypted") ∧
    (exec oracle (Account.processOutgoing env (str!"a") (.mk [(str!"From", str!"a@x.org"), (str!"To", bob)] (.text (str!"hello"))))
      recWorld).1.toOption.map (fun r => r.msg.contentType) = some (str!"multipart/encrypted") ∧
    (exec oracle (Account.processOutgoing env (str!"a") (.mk [(str!"From", str!"a@x.org"), (str!"To", str!"x@x.org"), (str!"ENCRYPT", str!"yes")]
      (.text (str!"hello")))) recWorld).1.toOption.isNone = true :=
  ⟨recWorld_pref, by decide +kernel, rfl, by decide +kernel, by decide +kernel, by decide +kernel, by decide +kernel, by decide +kernel⟩

/-! ## C75, C76: messages which are refused -/

/-- C75: a message whose (first) ENCRYPT header is, without surrounding white space, none of "opportunistic", "yes" and "no" is refused
before anything is done: nothing is stored, and neither gpg nor a plugin runs. -/
theorem C75_unknown_value (O : Oracle K) (env : Env) (w : World Store K) (n : Str) (m : Msg) (v : Str) (vs : List Str)
    (hv : m.getAll (str!"ENCRYPT") = v :: vs) (h1 : Py.strip v ≠ str!"opportunistic") (h2 : Py.strip v ≠ str!"yes")
    (h3 : Py.strip v ≠ str!"no") :
    exec O (Account.processOutgoing env n m) w = (.error .assertionError, w) := by
  have henc : Account.encHeader m = .error .assertionError := by
    unfold Account.encHeader Msg.get
    rw [hv]
    exact if_neg (by rintro (h | h | h) <;> contradiction)
  simp only [Account.processOutgoing, bind_eq, pure_eq, exec]
  rw [run_bind, run_ofExcept, henc]

/-- C75: and conversely, if a message is returned then its ENCRYPT header is missing or has one of the three values. -/
theorem C75_accepted_values (O : Oracle K) (env : Env) (w w' : World Store K) (n : Str) (m : Msg) (res : Account.OutgoingResult)
    (h : exec O (Account.processOutgoing env n m) w = (.ok res, w')) :
    encryptHeader m = none ∨ encryptHeader m = some (str!"opportunistic") ∨ encryptHeader m = some (str!"yes") ∨
      encryptHeader m = some (str!"no") := by
  cases hv : m.getAll (str!"ENCRYPT") with
  | nil => left; unfold encryptHeader Msg.get; rw [hv]; rfl
  | cons v vs =>
    have he : encryptHeader m = some (Py.strip v) := by unfold encryptHeader Msg.get; rw [hv]; rfl
    rw [he]
    simp only [Option.some.injEq, reduceCtorEq, false_or]
    apply Classical.byContradiction
    intro hc
    rw [C75_unknown_value O env w n m v vs hv (fun h => hc (.inl h)) (fun h => hc (.inr (.inl h))) (fun h => hc (.inr (.inr h)))] at h
    cases h

open Concrete in
/-- a message with the value "YES" -/
example : (letter (str!"YES")).getAll (str!"ENCRYPT") = [str!"YES"] ∧ (sent (str!"YES")).1.toOption.isNone = true ∧
    (sent (str!" yes ")).1.toOption.isSome = true := by decide +kernel

/-- C76: a message which is not encrypted and does not have exactly one From header is refused: nothing is stored, no data is passed to
gpg, and no plugin is called. -/
theorem C76_one_sender (O : Oracle K) (env : Env) (w w' : World Store K) (n : Str) (m : Msg) (r : Except Exc Account.OutgoingResult)
    (h : exec O (Account.processOutgoing env n m) w = (r, w')) (he : PlainMail m)
    (hf : ∀ f, m.getAll (str!"From") ≠ [f]) :
    (∃ e, r = .error e) ∧ w'.store = w.store ∧
    ∃ new, w'.trace = new ++ w.trace ∧ (∀ argv data ret, Event.gpg argv (some data) ret ∉ new) ∧
      (∀ s kh r2k p ret, Event.hook s kh r2k p ret ∉ new) := by
  spec_mail
  obtain ⟨hc, hs⟩ := processOutgoing_course h
  have htr := run_trace (S := Store.impl) (O := O) (Account.processOutgoing env n m) w
  rw [show run Store.impl O (Account.processOutgoing env n m) w = (r, w') from h] at htr
  obtain ⟨new, hn⟩ := htr
  refine ⟨?_, hs, new, hn.symm, ?_, ?_⟩
  · cases r with
    | error e => exact ⟨e, rfl⟩
    | ok res =>
      obtain ⟨m2, added, w1, hp, _, hb⟩ := processOutgoing_body h
      unfold Account.outgoingBody at hb
      simp only [bind_eq, pure_eq] at hb
      rw [run_bind, run_ofExcept, hp.isEncrypted, he] at hb
      dsimp only at hb
      rw [if_neg (by simp), hp.getAll (by decide) (by decide)] at hb
      split at hb
      · rename_i f hf'; exact absurd hf' (hf f)
      · cases hb
  · intro argv data ret hev
    rcases hc.events hn.symm hev with hq | ⟨_, _, _, f, _, hf', _⟩
    · exact absurd (hq : some data = none) (Option.some_ne_none data)
    · exact hf f hf'
  · intro s kh r2k p ret hev
    rcases hc.events hn.symm hev with hq | ⟨_, _, _, f, _, hf', _⟩
    · exact absurd hq (by simp [Event.quiet, Event.hook, Op.quiet])
    · exact hf f hf'

open Concrete in
/-- a message with two From headers -/
example : isEncrypted (.mk [(str!"From", str!"a@x.org"), (str!"From", bob), (str!"To", bob)] (.text (str!"hello"))) = .ok false ∧
    (Msg.mk [(str!"From", str!"a@x.org"), (str!"From", bob), (str!"To", bob)] (.text (str!"hello"))).getAll (str!"From") = [str!"a@x.org", bob] :=
  ⟨rfl, by decide +kernel⟩

end Verif
