import Verif.Props.Confidential
import Verif.Props.Bot
/-!
# Other fields of outgoing mail (C145)

`process_outgoing` (account.py:441-480) reads few fields of a message. All others, Subject, Date, Message-ID, Bcc or References for instance, are
passed on as they are, and make no difference.
-/
namespace Verif
open Mime

variable {σ K : Type}

/-! ## Specification -/

/-- the fields of outgoing mail which are used, in lower case -/
def usedFields : List Str :=
  [str!"from", str!"to", str!"cc", str!"autocrypt", str!"encrypt", str!"content-type", str!"content-transfer-encoding", str!"mime-version"]

/-- some fields, none of which is used -/
def Unused (d : Str × Str → Bool) : Prop := ∀ f, d f = true → Py.lower f.1 ∉ usedFields

/-- the message without these fields -/
def Msg.without (m : Msg) (d : Str × Str → Bool) : Msg := .mk (m.headers.filter fun f => !d f) m.payload

/-! ## what is read -/

variable {d : Str × Str → Bool} (hd : Unused d)
include hd

theorem unused_filter (l : List (Str × Str)) {p : Str × Str → Bool} (hp : ∀ f, p f = true → Py.lower f.1 ∈ usedFields) :
    (l.filter fun f => !d f).filter p = l.filter p := by
  rw [List.filter_filter]
  refine List.filter_congr fun f _ => ?_
  cases h : p f with
  | false => rfl
  | true =>
    cases h' : d f with
    | false => rfl
    | true => exact absurd (hp f h) (hd f h')

theorem without_getAll (m : Msg) {y : Str} (hy : Py.lower y ∈ usedFields) : (m.without d).getAll y = m.getAll y := by
  unfold Msg.getAll Msg.without Msg.headers
  obtain ⟨hs, p⟩ := m
  simp only
  rw [unused_filter hd]
  intro f hf
  rw [show Py.lower f.1 = Py.lower y by simpa [Msg.nameEq] using hf]
  exact hy

theorem without_get (m : Msg) {y : Str} (hy : Py.lower y ∈ usedFields) : (m.without d).get y = m.get y := by
  unfold Msg.get; rw [without_getAll hd m hy]

omit hd in
theorem any_filter_isEmpty {α : Type} (l : List α) (p : α → Bool) : l.any p = !(l.filter p).isEmpty := by
  induction l with
  | nil => rfl
  | cons a l ih => cases h : p a <;> simp [h, ih]

theorem without_has (m : Msg) {y : Str} (hy : Py.lower y ∈ usedFields) : (m.without d).has y = m.has y := by
  have h (m : Msg) : m.has y = !(m.getAll y).isEmpty := by
    unfold Msg.has Msg.getAll
    rw [any_filter_isEmpty, List.isEmpty_map]
  rw [h, h, without_getAll hd m hy]

theorem without_contentType (m : Msg) : (m.without d).contentType = m.contentType := by
  unfold Msg.contentType; rw [without_get hd m (by decide)]

theorem without_isEncrypted (m : Msg) : isEncrypted (m.without d) = isEncrypted m := by
  unfold isEncrypted; rw [without_contentType hd]; rfl

theorem without_targets (env : Env) (m : Msg) : getTargetEmailadr env (m.without d) = getTargetEmailadr env m := by
  unfold getTargetEmailadr; rw [without_getAll hd m (by decide), without_getAll hd m (by decide)]

theorem without_content (m : Msg) : makeContentMessage (m.without d) = makeContentMessage m := by
  obtain ⟨hs, p⟩ := m
  unfold makeContentMessage Msg.without Msg.headers Msg.payload
  simp only
  rw [unused_filter hd]
  intro f hf
  rcases of_decide_eq_true hf with h | h <;> rw [h] <;> decide

theorem without_encHeader (m : Msg) : Account.encHeader (m.without d) = Account.encHeader m := by
  unfold Account.encHeader; rw [without_get hd m (by decide)]

omit hd in
theorem without_del (m : Msg) (y : Str) : (m.without d).del y = (m.del y).without d := by
  simp only [Msg.without, Msg.del, Msg.headers, Msg.payload, List.filter_filter, Msg.mk.injEq, and_true]
  exact List.filter_congr fun f _ => Bool.and_comm _ _

theorem without_add (m : Msg) {y : Str} (hy : Py.lower y ∈ usedFields) (v : Str) : (m.without d).add y v = (m.add y v).without d := by
  have : d (y, v) = false := by
    cases h : d (y, v) with
    | false => rfl
    | true => exact absurd hy (hd _ h)
  simp [Msg.without, Msg.add, Msg.headers, Msg.payload, List.filter_append, this]

theorem without_encMessage (m : Msg) (b : Bytes) : Account.encMessage (m.without d) b = (Account.encMessage m b).without d := by
  have : d (str!"Content-Type", Account.encContentType) = false := by
    cases h : d (str!"Content-Type", Account.encContentType) with
    | false => rfl
    | true => exact absurd (by decide) (hd _ h)
  obtain ⟨hs, p⟩ := m
  simp only [Account.encMessage, transferNonContentHeaders, makeMessage, nonContentHeaders, Msg.without, Msg.headers, Msg.payload, List.filter_append,
    List.filter_cons, this, List.filter_filter, Msg.mk.injEq, and_true, Bool.not_false, if_true, List.filter_nil]
  congr 1
  exact List.filter_congr fun f _ => Bool.and_comm _ _

/-! ## programs -/

theorem without_encryptMime (env : Env) (n : Str) (m : Msg) (l : List Str) :
    Account.encryptMime env n (m.without d) l =
      (Account.encryptMime env n m l).bind fun r => .pure { r with encMsg := r.encMsg.without d } := by
  unfold Account.encryptMime
  simp only [bind_eq, pure_eq, Prog.bind_assoc, without_content hd, without_get hd m (y := str!"From") (by decide),
    without_encMessage hd, Prog.bind]

theorem without_outgoingBody (env : Env) (n : Str) (m : Msg) (enc : Option Str) :
    Account.outgoingBody env n (m.without d) enc = (Account.outgoingBody env n m enc).bind fun r => .pure (r.without d) := by
  unfold Account.outgoingBody
  simp only [bind_eq, pure_eq, Prog.bind_assoc, without_isEncrypted hd, without_getAll hd m (y := str!"From") (by decide),
    without_targets hd, without_encryptMime hd]
  congr 1
  funext b
  cases b
  · simp only [Bool.false_eq_true, if_false]
    split
    · simp only [Prog.bind_assoc]
      congr 1
      funext r
      split
      · split
        · simp only [Prog.bind_assoc, Prog.bind]
        · split <;> rfl
      · rfl
    · rfl
  · rfl

theorem without_outgoing (env : Env) (n : Str) (m : Msg) :
    Account.processOutgoing env n (m.without d) =
      (Account.processOutgoing env n m).bind fun r => .pure { r with msg := r.msg.without d } := by
  unfold Account.processOutgoing
  simp only [bind_eq, pure_eq, Prog.bind_assoc, without_encHeader hd, without_del, without_get hd _ (y := str!"From") (by decide),
    without_has hd _ (y := str!"Autocrypt") (by decide)]
  congr 1
  funext enc
  split
  · simp only [Prog.bind, without_outgoingBody hd, Prog.bind_assoc, without_get hd _ (y := str!"Autocrypt") (by decide)]
  · simp only [Prog.bind_assoc, Prog.bind, without_add hd _ (y := str!"Autocrypt") (by decide), without_outgoingBody hd,
      without_get hd _ (y := str!"Autocrypt") (by decide)]

omit hd

theorem returns_after {α β : Type} {Q : β → Prop} (p : Prog α) {f : α → Prog β} (hf : ∀ a, (f a).Returns Q) : (p.bind f).Returns Q :=
  (Prog.Returns.trivially p).bind fun a _ => hf a

include hd in
theorem encMessage_fields (m : Msg) (b : Bytes) : (Account.encMessage m b).headers.filter d = m.headers.filter d := by
  have : d (str!"Content-Type", Account.encContentType) = false := by
    cases h : d (str!"Content-Type", Account.encContentType) with
    | false => rfl
    | true => exact absurd (by decide) (hd _ h)
  obtain ⟨hs, p⟩ := m
  simp only [Account.encMessage, transferNonContentHeaders, makeMessage, nonContentHeaders, Msg.headers, List.filter_append,
    List.filter_cons, this, List.filter_filter, Bool.false_eq_true, if_false, List.filter_nil, List.nil_append]
  refine List.filter_congr fun f _ => ?_
  cases h : d f with
  | false => rfl
  | true =>
    have hu := hd f h
    simp only [usedFields, List.mem_cons, List.not_mem_nil, or_false, not_or] at hu
    simp [hu]

include hd in
theorem outgoing_fields (env : Env) (n : Str) (m : Msg) :
    (Account.processOutgoing env n m).Returns fun r => r.msg.headers.filter d = m.headers.filter d := by
  have hbody (m : Msg) (enc : Option Str) : (Account.outgoingBody env n m enc).Returns fun r => r.headers.filter d = m.headers.filter d := by
    unfold Account.outgoingBody
    simp only [bind_eq, pure_eq]
    refine returns_after _ fun b => ?_
    cases b
    · simp only [Bool.false_eq_true, if_false]
      split
      · refine returns_after _ fun r => ?_
        split
        · split
          · refine Prog.Returns.bind (Q := fun r : Account.EncryptResult => r.encMsg.headers.filter d = m.headers.filter d) ?_ fun a ha => ha
            unfold Account.encryptMime
            simp only [bind_eq, pure_eq]
            exact returns_after _ fun _ => returns_after _ fun _ => returns_after _ fun _ => returns_after _ fun _ =>
              returns_after _ fun _ => returns_after _ fun _ => returns_after _ fun _ => returns_after _ fun _ =>
              encMessage_fields hd _ _
          · split
            · trivial
            · exact rfl
        · exact rfl
      · trivial
    · exact rfl
  have hdel (y : Str) (hy : Py.lower y ∈ usedFields) : (m.del y).headers.filter d = m.headers.filter d := by
    obtain ⟨hs, p⟩ := m
    simp only [Msg.del, Msg.headers, List.filter_filter]
    refine List.filter_congr fun f _ => ?_
    cases h : d f with
    | false => rfl
    | true =>
      have : Py.lower f.1 ≠ Py.lower y := fun e => hd f h (by rw [e]; exact hy)
      simp [Msg.nameEq, this]
  unfold Account.processOutgoing
  simp only [bind_eq, pure_eq]
  refine returns_after _ fun enc => ?_
  split
  · exact (hbody _ enc).bind fun r hr => hr.trans (hdel _ (by decide))
  · rw [Prog.bind_assoc]
    refine returns_after _ fun v => (hbody _ enc).bind fun r hr => hr.trans ?_
    have : d (str!"Autocrypt", v) = false := by
      cases h : d (str!"Autocrypt", v) with
      | false => rfl
      | true => exact absurd (show Py.lower (str!"Autocrypt") ∈ usedFields by decide) (hd _ h)
    rw [← hdel (str!"ENCRYPT") (by decide)]
    simp [Msg.add, Msg.headers, List.filter_append, this]

/-! ## C145 -/

/-- **C145**, other fields make no difference: if some fields, none of which is used, are taken out of a message before it is processed, then the
same is read, stored and run, with the same arguments and data, the same exception is raised, and the result is the same without these fields. -/
theorem C145_ignored (S : StoreImpl σ) (O : Oracle K) (env : Env) (n : Str) (m : Msg) (hd : Unused d) (w : World σ K) :
    run S O (Account.processOutgoing env n (m.without d)) w =
      ((run S O (Account.processOutgoing env n m) w).1.map fun r => { r with msg := r.msg.without d },
        (run S O (Account.processOutgoing env n m) w).2) := by
  rw [without_outgoing hd, run_bind]
  rcases run S O (Account.processOutgoing env n m) w with ⟨r, w'⟩
  cases r <;> rfl

/-- **C145**, other fields are passed on: the message which is returned has them with the same names and values and in the same order, whether
it is encrypted or not. -/
theorem C145_passed (S : StoreImpl σ) (O : Oracle K) (env : Env) (n : Str) (m : Msg) (hd : Unused d) (w w' : World σ K)
    (r : Account.OutgoingResult) (h : run S O (Account.processOutgoing env n m) w = (.ok r, w')) :
    r.msg.headers.filter d = m.headers.filter d :=
  (outgoing_fields hd env n m).of_run h

/-- **C145**, for two messages: if they have the same body, and the same fields in the same order but for some which are not used, then the same is
read, stored and run for both, with the same arguments and data, and either both raise the same exception or both results are the same but for
these fields. -/
theorem C145_alike (S : StoreImpl σ) (O : Oracle K) (env : Env) (n : Str) (m m' : Msg) (hd : Unused d) (h : m.without d = m'.without d)
    (w : World σ K) :
    (run S O (Account.processOutgoing env n m) w).2 = (run S O (Account.processOutgoing env n m') w).2 ∧
    OutcomesBy (fun r r' => r.msg.without d = r'.msg.without d ∧ r.account = r'.account ∧ r.addr = r'.addr ∧ r.added = r'.added ∧ r.had = r'.had)
      (run S O (Account.processOutgoing env n m) w).1 (run S O (Account.processOutgoing env n m') w).1 := by
  have h2 := C145_ignored S O env n m' hd w
  rw [← h, C145_ignored S O env n m hd w] at h2
  revert h2
  rcases run S O (Account.processOutgoing env n m) w with ⟨r, w1⟩
  rcases run S O (Account.processOutgoing env n m') w with ⟨r', w2⟩
  intro h2
  simp only [Prod.mk.injEq] at h2
  obtain ⟨h3, rfl⟩ := h2
  refine ⟨rfl, ?_⟩
  cases r <;> cases r' <;> simp only [Except.map, Except.ok.injEq, Except.error.injEq, reduceCtorEq] at h3
  · subst h3; exact .error _
  · rename_i a b
    obtain ⟨m1, a1, b1, c1, d1⟩ := a
    obtain ⟨m2, a2, b2, c2, d2⟩ := b
    simp only [Account.OutgoingResult.mk.injEq] at h3
    exact .ok h3

theorem outbound_fields {O : Oracle K} {env : Env} {w w' : World Store K} {m x : Msg} (hd : Unused d) (h : Outbound O env w w' m x) :
    x.headers.filter d = m.headers.filter d := by
  rcases h with ⟨_, _, _, _, _, rfl⟩ | ⟨_, a, w1, w2, res, _, _, _, _, h, rfl⟩
  · rfl
  · exact C145_passed _ _ _ _ _ hd _ _ _ h

/-- **C145** for the command line: mail which process-outgoing prints and which sendmail passes on has the other fields of the given message, with
the same names and values and in the same order. -/
theorem C145_sent {O : Oracle K} {ce : CmdEnv} {be : BotEnv} {env : Env} {m : Msg} {args : List Str} {w w' : World Store K} (hw : Reachable O env w)
    (hd : Unused d) {cmd : Cmd.Command} (hc : cmd = .processOutgoing m ∨ cmd = .sendmail args m) {r : Except Exc Int}
    (h : exec O (cmd.prog ce be env) w = (r, w')) :
    (∀ x, .mail x ∈ w'.printed → .mail x ∈ w.printed ∨ x.headers.filter d = m.headers.filter d) ∧
    ∀ a x, (a, x) ∈ w'.piped → (a, x) ∈ w.piped ∨ x.headers.filter d = m.headers.filter d := by
  rcases hc with rfl | rfl
  · obtain ⟨-, h1, h2⟩ := C83_process_outgoing hw h
    refine ⟨fun x hx => ?_, fun a x hx => .inl (by rw [← h1]; exact hx)⟩
    rcases h2 with ⟨y, hy, h2⟩ | ⟨-, h2⟩
    · have hf := outbound_fields hd hy
      rcases h2 with h2 | ⟨s, h2, -⟩ <;> rw [h2] at hx
      · rcases List.mem_append.1 hx with hx | hx
        · exact .inl hx
        · cases List.mem_singleton.1 hx; exact .inr hf
      · rcases List.mem_append.1 hx with hx | hx
        · exact .inl hx
        · simp only [List.mem_cons, Output.mail.injEq, reduceCtorEq, List.not_mem_nil, or_false] at hx
          subst hx; exact .inr hf
    · rcases h2 with h2 | ⟨s, h2⟩ <;> rw [h2] at hx
      · exact .inl hx
      · rcases List.mem_append.1 hx with hx | hx
        · exact .inl hx
        · cases List.mem_singleton.1 hx
  · obtain ⟨-, h1, h2⟩ := C83_sendmail hw h
    refine ⟨fun x hx => .inl (h1 x hx), fun a x hx => ?_⟩
    rcases h2 with ⟨h2, -⟩ | ⟨exe, y, ret, h2, hy, -⟩ <;> rw [h2] at hx
    · exact .inl hx
    · rcases List.mem_append.1 hx with hx | hx
      · exact .inl hx
      · cases List.mem_singleton.1 hx; exact .inr (outbound_fields hd hy)

section
open Concrete

/-- Subject and Bcc -/
def subjectOrBcc (f : Str × Str) : Bool := Py.lower f.1 == str!"subject" || Py.lower f.1 == str!"bcc"

theorem subjectOrBcc_unused : Unused subjectOrBcc := by
  intro f hf
  simp only [subjectOrBcc, Bool.or_eq_true, beq_iff_eq] at hf
  rcases hf with h | h <;> rw [h] <;> decide

/-- the letter with another subject, and a hidden recipient -/
def otherLetter : Msg := .mk ((letter (str!"yes")).headers.map (fun f => if f.1 = str!"Subject" then (f.1, str!"other") else f) ++
  [(str!"Bcc", str!"dan@x.org")]) (letter (str!"yes")).payload

/-- an instance of C145: the letters have different fields, both are encrypted, and the subject leaves as it is, in clear text -/
example : (letter (str!"yes")).without subjectOrBcc = otherLetter.without subjectOrBcc ∧
    ((run Store.impl oracle (Account.processOutgoing Concrete.env (str!"a") (letter (str!"yes"))) recWorld).1.toOption.map fun r =>
      (r.msg.contentType, r.msg.headers.filter subjectOrBcc)) = some (str!"multipart/encrypted", [(str!"Subject", str!"s")]) ∧
    ((run Store.impl oracle (Account.processOutgoing Concrete.env (str!"a") otherLetter) recWorld).1.toOption.map fun r =>
      (r.msg.contentType, r.msg.headers.filter subjectOrBcc)) =
        some (str!"multipart/encrypted", [(str!"Subject", str!"other"), (str!"Bcc", str!"dan@x.org")]) := by
  refine ⟨rfl, by decide +kernel, by decide +kernel⟩

/-- an instance of the hypotheses of `C145_sent`: for a reachable state, sendmail passes the letter on -/
example : Reachable oracle Concrete.env recWorld ∧ ((exec oracle ((Cmd.Command.sendmail [str!"bob@x.org"] otherLetter).prog cmdEnv botEnv
    Concrete.env) recWorld).2.piped.length) = 1 := ⟨after_reachable _, by decide +kernel⟩

end

end Verif
