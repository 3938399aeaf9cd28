import Verif.Props.Encrypt
/-!
# Outgoing mail: C33 – C36, C42
-/
namespace Verif
open Mime

variable {K : Type}

/-! ## Lemmas -/

theorem ExportedOwnKey.mono {w w1 w' : World Store K} {n : Str} {kd : Bytes} (h : ExportedOwnKey w w1 n kd)
    (hs : ∃ new, w'.trace = new ++ w1.trace) : ExportedOwnKey w w' n kd := by
  obtain ⟨new, pre, kh, out, h1, h2, h3, h4, h5⟩ := h
  obtain ⟨new', hs⟩ := hs
  exact ⟨new' ++ new, pre, kh, out, by rw [hs, h1, List.append_assoc], h2, List.mem_append_right _ h3, h4, h5⟩

theorem Prepared.mono {env : Env} {w w1 w' : World Store K} {n : Str} {m m2 : Msg} {added : Option Str}
    (h : Prepared env w w1 n m m2 added) (hs : ∃ new, w'.trace = new ++ w1.trace) : Prepared env w w' n m m2 added := by
  rcases h with h | ⟨h1, v, h2, h3, kd, c, h4, h5⟩
  · exact .inl h
  · exact .inr ⟨h1, v, h2, h3, kd, c, h4.mono hs, h5⟩

/-- a successful course: the prepared message, or an encrypted one made from it -/
theorem OutCourse.ok {O : Oracle K} {env : Env} {w w' : World Store K} {n : Str} {m : Msg} {res : Account.OutgoingResult}
    (h : OutCourse O env w n m (.ok res) w') :
    ∃ m2, Prepared env w w' n m m2 res.added ∧
      ((res.msg = m2 ∧ Events Event.quiet w w' ∧ (isEncrypted res.msg = .ok true ∨ encryptHeader m ≠ some (str!"yes"))) ∨
       ∃ out, res.msg = Account.encMessage m2 out ∧ isEncrypted m2 = .ok false ∧ encryptHeader m ≠ some (str!"no") ∧
         ∀ new, w'.trace = new ++ w.trace → ∃ argv data ret, Event.gpg argv (some data) ret ∈ new) := by
  generalize hr : Except.ok res = r at h
  cases h with
  | failed e _ hq => cases hr
  | clear res' _ h1 hq h2 => cases hr; exact ⟨res.msg, h1, .inl ⟨rfl, hq, h2⟩⟩
  | encrypted r w1 _ m2 added f re hp hq hst h1 h2 h3 h4 h5 =>
    obtain ⟨x, rfl, hx1, hx2⟩ := h5 res hr.symm
    have hsuf := run_trace (S := Store.impl) (O := O) (Account.encryptMime env n m2 (encryptTo env m (parseEmailAddr env (some f)))) w1
    have h4' := h4
    simp only [exec] at h4'
    rw [h4'] at hsuf
    obtain ⟨new2, hn2⟩ := hsuf
    obtain ⟨_, _, _, _, _, data, argv, out, _, _, _, _, hev, _, h6, _⟩ := encryptMime_ok h4 hn2.symm
    refine ⟨m2, by rw [hx2]; exact hp.mono ⟨new2, hn2.symm⟩, .inr ⟨out.out, by rw [hx1, h6], h1, h2, ?_⟩⟩
    intro new hn
    obtain ⟨q, hq, _⟩ := hq
    have : new = new2 ++ q := List.append_cancel_right (bs := w.trace) (by rw [← hn, ← hn2, hq, List.append_assoc])
    exact ⟨argv, data, _, by rw [this]; exact List.mem_append_left _ hev⟩

theorem getAll_encMessage (m : Msg) (out : Bytes) {name : Str} (h : OuterName name) :
    (Account.encMessage m out).getAll name = m.getAll name := by
  have hh : (Account.encMessage m out).headers = (str!"Content-Type", Account.encContentType) :: m.headers.filter (fun h => OuterName h.1) := by
    show _ :: nonContentHeaders m = _
    rw [nonContentHeaders_eq]
  unfold Msg.getAll
  rw [hh, List.filter_cons_of_neg, List.filter_filter]
  · congr 1
    apply List.filter_congr
    intro x _
    by_cases hx : Py.lower x.1 = Py.lower name
    · have : OuterName x.1 := by unfold OuterName at h ⊢; rw [hx]; exact h
      simp [this]
    · have : Msg.nameEq x.1 name = false := by simpa [Msg.nameEq] using hx
      simp [this]
  · have := h.1
    intro h'
    have h' : Py.lower (str!"Content-Type") = Py.lower name := by simpa [Msg.nameEq] using h'
    exact this (h'.symm.trans (by decide))

theorem Prepared.no_encrypt {env : Env} {w w' : World Store K} {n : Str} {m m2 : Msg} {added : Option Str}
    (h : Prepared env w w' n m m2 added) : m2.getAll (str!"ENCRYPT") = [] := by
  rcases h with ⟨_, rfl, _⟩ | ⟨_, v, rfl, _, _⟩
  · exact getAll_del_self m _
  · rw [getAll_add, getAll_del_self, if_neg (by decide)]; rfl

theorem Prepared.payload {env : Env} {w w' : World Store K} {n : Str} {m m2 : Msg} {added : Option Str}
    (h : Prepared env w w' n m m2 added) : m2.payload = m.payload := by
  rcases h with ⟨_, rfl, _⟩ | ⟨_, v, rfl, _, _⟩ <;> rfl

theorem isEncrypted_congr {m m' : Msg} (h1 : m'.getAll (str!"content-type") = m.getAll (str!"content-type")) (h2 : m'.payload = m.payload) :
    isEncrypted m' = isEncrypted m := by
  have : m'.contentType = m.contentType := by unfold Msg.contentType Msg.get; rw [h1]
  unfold isEncrypted
  rw [this, h2]

theorem Prepared.isEncrypted {env : Env} {w w' : World Store K} {n : Str} {m m2 : Msg} {added : Option Str}
    (h : Prepared env w w' n m m2 added) : isEncrypted m2 = Mime.isEncrypted m :=
  isEncrypted_congr (h.getAll (by decide) (by decide)) h.payload

/-! ## Properties -/

/-- C33: with `ENCRYPT: yes`, a message is only returned if it is encrypted. -/
theorem C33_yes_encrypts (O : Oracle K) (env : Env) (w w' : World Store K) (n : Str) (m : Msg) (res : Account.OutgoingResult)
    (h : exec O (Account.processOutgoing env n m) w = (.ok res, w')) (hy : encryptHeader m = some (str!"yes")) :
    PgpMime res.msg := by
  spec_mail
  obtain ⟨m2, _, ⟨_, _, h1 | h1⟩ | ⟨out, h1, _⟩⟩ := (processOutgoing_course h).1.ok
  · exact h1
  · exact absurd hy h1
  · rw [h1]; exact isEncrypted_encMessage _ _

/-- C34: with `ENCRYPT: no`, no data is passed to gpg, no plugin is called, and a returned message has the body and the
content type of the input. -/
theorem C34_no_is_obeyed (O : Oracle K) (env : Env) (w w' : World Store K) (n : Str) (m : Msg) (r : Except Exc Account.OutgoingResult)
    (h : exec O (Account.processOutgoing env n m) w = (r, w')) (hno : encryptHeader m = some (str!"no"))
    (new : List Event) (hn : w'.trace = new ++ w.trace) :
    (∀ argv data ret, Event.gpg argv (some data) ret ∉ new) ∧ (∀ s kh r2k p ret, Event.hook s kh r2k p ret ∉ new) ∧
    ∀ res, r = .ok res → res.msg.payload = m.payload ∧ res.msg.getAll (str!"content-type") = m.getAll (str!"content-type") := by
  have hc := (processOutgoing_course h).1
  refine ⟨?_, ?_, ?_⟩
  · intro argv data ret hev
    rcases hc.events hn hev with hq | ⟨_, _, _, _, _, _, _, h', _⟩
    · exact absurd (hq : some data = none) (Option.some_ne_none data)
    · exact h' hno
  · intro s kh r2k p ret hev
    rcases hc.events hn hev with hq | ⟨_, _, _, _, _, _, _, h', _⟩
    · exact absurd hq (by simp [Event.quiet, Event.hook, Op.quiet])
    · exact h' hno
  · rintro res rfl
    obtain ⟨m2, hp, ⟨rfl, _⟩ | ⟨out, _, _, h1, _⟩⟩ := hc.ok
    · exact ⟨hp.payload, hp.getAll (by decide) (by decide)⟩
    · exact absurd hno h1

/-- C35: a returned message has no ENCRYPT header; a message handed to plugins before encryption has none; the data passed to gpg
is a message returned by them. -/
theorem C35_no_control_header (O : Oracle K) (env : Env) (w w' : World Store K) (n : Str) (m : Msg)
    (r : Except Exc Account.OutgoingResult) (h : exec O (Account.processOutgoing env n m) w = (r, w'))
    (new : List Event) (hn : w'.trace = new ++ w.trace) :
    (∀ res, r = .ok res → res.msg.getAll (str!"ENCRYPT") = []) ∧
    (∀ s kh r2k p ret, Event.hook s kh r2k p ret ∈ new → p.getAll (str!"ENCRYPT") = []) ∧
    (∀ argv data ret, Event.gpg argv (some data) ret ∈ new →
      ∃ s kh r2k p p', Event.hook s kh r2k p (.ok p') ∈ new ∧ env.msg2bytes p' = .ok data) := by
  have hc := (processOutgoing_course h).1
  refine ⟨?_, ?_, ?_⟩
  · rintro res rfl
    obtain ⟨m2, hp, ⟨rfl, _⟩ | ⟨out, h1, _⟩⟩ := hc.ok
    · exact hp.no_encrypt
    · rw [h1, getAll_encMessage _ _ (by decide)]; exact hp.no_encrypt
  · intro s kh r2k p ret hev
    rcases hc.events hn hev with hq | ⟨_, m2, _, _, hp, _, _, _, he⟩
    · exact absurd hq (by simp [Event.quiet, Event.hook, Op.quiet])
    · obtain ⟨_, khs, hpr⟩ := he.hook_inv
      obtain ⟨gs, h1, h2⟩ := hpr.gossip
      rw [h1]
      simp only [Msg.getAll, Msg.headers, makeContentMessage, List.map_eq_nil_iff, List.filter_eq_nil_iff, List.mem_append, List.mem_filter,
        decide_eq_true_eq]
      rintro x (⟨_, hx⟩ | hx) hne
      · have hne : Py.lower x.1 = Py.lower (str!"ENCRYPT") := by simpa [Msg.nameEq] using hne
        rw [hne] at hx
        revert hx; decide
      · obtain ⟨a, _, ha⟩ : ∃ a, a ∈ knownAddrs env w n _ ∧ GossipField env w n a x := Forall₂.exists_left h2 hx
        rw [ha.1] at hne
        revert hne; decide
  · intro argv data ret hev
    rcases hc.events hn hev with hq | ⟨_, m2, _, _, hp, _, _, _, he⟩
    · exact absurd (hq : some data = none) (Option.some_ne_none data)
    · obtain ⟨khs, own, r2k, p, p', _, _, h1, h2⟩ := he.gpg_inv
      exact ⟨_, own, r2k, p, p', h2, h1⟩

/-- C36, first part: existing Autocrypt headers are kept, and none is added. -/
theorem C36_existing_kept (O : Oracle K) (env : Env) (w w' : World Store K) (n : Str) (m : Msg) (res : Account.OutgoingResult)
    (h : exec O (Account.processOutgoing env n m) w = (.ok res, w')) (ha : m.getAll (str!"Autocrypt") ≠ []) :
    res.msg.getAll (str!"Autocrypt") = m.getAll (str!"Autocrypt") ∧ res.added = none := by
  have hhas : m.has (str!"Autocrypt") = true := by
    rw [Msg.has, List.any_eq_true]
    cases hx : m.getAll (str!"Autocrypt") with
    | nil => exact absurd hx ha
    | cons v vs =>
      have : v ∈ m.getAll (str!"Autocrypt") := by rw [hx]; exact List.mem_cons_self ..
      obtain ⟨y, hy, _⟩ := List.mem_map.mp this
      exact ⟨y, (List.mem_filter.mp hy).1, (List.mem_filter.mp hy).2⟩
  obtain ⟨m2, hp, hm⟩ := (processOutgoing_course h).1.ok
  have h2 : m2.getAll (str!"Autocrypt") = m.getAll (str!"Autocrypt") ∧ res.added = none := by
    rcases hp with ⟨_, rfl, h'⟩ | ⟨h', _⟩
    · exact ⟨getAll_del m (by decide), h'⟩
    · rw [hhas] at h'; cases h'
  refine ⟨?_, h2.2⟩
  rcases hm with ⟨rfl, _⟩ | ⟨out, h1, _⟩
  · exact h2.1
  · rw [h1, getAll_encMessage _ _ (by decide)]; exact h2.1

/-- C36, second part: without Autocrypt header exactly one is added; it parses to the sender's address, the account's public key as exported
by gpg and the account's preference, if the normalised address is stable and has no ';' (see `C36_refuted`). -/
theorem C36_added_partial (O : Oracle K) (env : Env) (w w' : World Store K) (n : Str) (m : Msg) (res : Account.OutgoingResult)
    (h : exec O (Account.processOutgoing env n m) w = (.ok res, w')) (ha : m.getAll (str!"Autocrypt") = [])
    (a : Str) (hfrom : address env (m.get (str!"From")) = a)
    (hsemi : ';' ∉ a) (hst : address env (some a) = a) (hst2 : address env (some (Py.strip a)) = a) :
    ∃ v kd c ext, res.msg.getAll (str!"Autocrypt") = [v] ∧ res.added = some v ∧ ExportedOwnKey w w' n kd ∧ kd ≠ [] ∧ OwnConf w n c ∧
      parseAcHeadervalue env v = .ok ⟨some kd, some a, some c.pe.toStr, some ext, none⟩ := by
  spec_mail
  have hhas : m.has (str!"Autocrypt") = false := by
    rw [Msg.has, Bool.eq_false_iff]
    intro h'
    obtain ⟨x, hx1, hx2⟩ := List.any_eq_true.mp h'
    have : x.2 ∈ m.getAll (str!"Autocrypt") := List.mem_map.mpr ⟨x, List.mem_filter.mpr ⟨hx1, hx2⟩, rfl⟩
    rw [ha] at this; cases this
  obtain ⟨m2, hp, hm⟩ := (processOutgoing_course h).1.ok
  rcases hp with ⟨h', _⟩ | ⟨_, v, rfl, h3, kd, c, hk, hc, hv⟩
  · rw [hhas] at h'; cases h'
  rw [address_eq, hfrom] at hv
  have hne : kd ≠ [] := by intro h'; subst h'; simp [makeAcHeaderValue] at hv
  obtain ⟨v', hv', ext, hpar⟩ := C25_round_trip env (some a) kd c.pe.toStr hne (by cases c.pe <;> simp [PE.toStr]) (by rw [address_eq, hst]; exact hsemi)
    (by rw [address_eq, hst, hst2])
  rw [hv] at hv'; cases hv'
  rw [address_eq, hst] at hpar
  have hg : ((m.del (str!"ENCRYPT")).add (str!"Autocrypt") v).getAll (str!"Autocrypt") = [v] := by
    rw [getAll_add, getAll_del m (by decide), ha, if_pos rfl]; rfl
  refine ⟨v, kd, c, ext, ?_, h3, hk, hne, hc, hpar⟩
  rcases hm with ⟨h1, _⟩ | ⟨out, h1, _⟩
  · rw [h1]; exact hg
  · rw [h1, getAll_encMessage _ _ (by decide)]; exact hg

/-- names of headers which are not touched at all -/
def UntouchedName (s : Str) : Prop := Py.lower s ≠ str!"encrypt" ∧ Py.lower s ≠ str!"autocrypt"

instance (s : Str) : Decidable (UntouchedName s) := by unfold UntouchedName; infer_instance

theorem Prepared.untouched {env : Env} {w w' : World Store K} {n : Str} {m m2 : Msg} {added : Option Str}
    (h : Prepared env w w' n m m2 added) :
    m2.headers.filter (fun x => UntouchedName x.1) = m.headers.filter (fun x => UntouchedName x.1) := by
  have hd : ((m.del (str!"ENCRYPT")).headers).filter (fun x => UntouchedName x.1) = m.headers.filter (fun x => UntouchedName x.1) := by
    simp only [Msg.del, Msg.headers, List.filter_filter]
    apply List.filter_congr
    intro x _
    by_cases hx : Msg.nameEq x.1 (str!"ENCRYPT") = true
    · have hx' : Py.lower x.1 = str!"encrypt" := by
        have : Py.lower x.1 = Py.lower (str!"ENCRYPT") := by simpa [Msg.nameEq] using hx
        rw [this]; decide
      have : ¬ UntouchedName x.1 := fun h => h.1 hx'
      simp [this]
    · simp [hx]
  rcases h with ⟨_, rfl, _⟩ | ⟨_, v, rfl, _, _⟩
  · exact hd
  · show List.filter _ ((m.del (str!"ENCRYPT")).headers ++ [(str!"Autocrypt", v)]) = _
    have hna : ¬ UntouchedName (str!"Autocrypt") := by decide
    rw [List.filter_append, hd, List.filter_cons_of_neg (by simpa using hna), List.filter_nil, List.append_nil]

/-- C36, third part: all other headers keep their values and order; if the message is encrypted those about content, which describe the body, are
replaced by the PGP/MIME content type. -/
theorem C36_other_headers (O : Oracle K) (env : Env) (w w' : World Store K) (n : Str) (m : Msg) (res : Account.OutgoingResult)
    (h : exec O (Account.processOutgoing env n m) w = (.ok res, w')) (new : List Event) (hn : w'.trace = new ++ w.trace) :
    (res.msg.headers.filter (fun x => UntouchedName x.1 ∧ OuterName x.1) = m.headers.filter (fun x => UntouchedName x.1 ∧ OuterName x.1)) ∧
    ((∀ argv data ret, Event.gpg argv (some data) ret ∉ new) →
      res.msg.headers.filter (fun x => UntouchedName x.1) = m.headers.filter (fun x => UntouchedName x.1)) := by
  have hfil : ∀ m m' : Msg, m'.headers.filter (fun x => UntouchedName x.1) = m.headers.filter (fun x => UntouchedName x.1) →
      m'.headers.filter (fun x => UntouchedName x.1 ∧ OuterName x.1) = m.headers.filter (fun x => UntouchedName x.1 ∧ OuterName x.1) := by
    intro m m' h
    have := congrArg (List.filter fun x => decide (OuterName x.1)) h
    rw [List.filter_filter, List.filter_filter] at this
    have e : (fun x : Str × Str => decide (UntouchedName x.1 ∧ OuterName x.1)) = fun x => decide (OuterName x.1) && decide (UntouchedName x.1) := by
      funext x; rw [Bool.and_comm, Bool.decide_and]
    rw [e]; exact this
  obtain ⟨m2, hp, ⟨rfl, _⟩ | ⟨out, h1, _, _, hg⟩⟩ := (processOutgoing_course h).1.ok
  · exact ⟨hfil _ _ hp.untouched, fun _ => hp.untouched⟩
  · constructor
    · rw [← hfil _ _ hp.untouched, h1]
      show List.filter _ ((str!"Content-Type", Account.encContentType) :: nonContentHeaders m2) = _
      have hno : ¬ (UntouchedName (str!"Content-Type") ∧ OuterName (str!"Content-Type")) := by decide
      rw [List.filter_cons_of_neg (by simpa using hno), nonContentHeaders_eq, List.filter_filter]
      apply List.filter_congr
      intro x _
      rw [Bool.decide_and, Bool.and_assoc, Bool.and_self]
    · intro hng
      obtain ⟨argv, data, ret, hev⟩ := hg new hn
      exact absurd hev (hng argv data ret)

/-- C42: an encrypted message is passed through: body and headers other than ENCRYPT and Autocrypt stay, and no data is passed to gpg. -/
theorem C42_passed_through (O : Oracle K) (env : Env) (w w' : World Store K) (n : Str) (m : Msg) (res : Account.OutgoingResult)
    (h : exec O (Account.processOutgoing env n m) w = (.ok res, w')) (he : PgpMime m)
    (new : List Event) (hn : w'.trace = new ++ w.trace) :
    (∀ argv data ret, Event.gpg argv (some data) ret ∉ new) ∧
    res.msg.payload = m.payload ∧
    ((m.getAll (str!"Autocrypt") ≠ [] ∧ res.msg.headers = m.headers.filter (fun x => Py.lower x.1 ≠ str!"encrypt")) ∨
      ∃ v, m.getAll (str!"Autocrypt") = [] ∧
        res.msg.headers = m.headers.filter (fun x => Py.lower x.1 ≠ str!"encrypt") ++ [(str!"Autocrypt", v)]) := by
  spec_mail
  have hc := (processOutgoing_course h).1
  obtain ⟨m2, hp, ⟨h1, hq, _⟩ | ⟨out, _, h1, _⟩⟩ := hc.ok
  · refine ⟨?_, by rw [h1]; exact hp.payload, ?_⟩
    · intro argv data ret hev
      exact absurd (hq.all hn _ hev : some data = none) (Option.some_ne_none data)
    · have hd : (m.del (str!"ENCRYPT")).headers = m.headers.filter (fun x => Py.lower x.1 ≠ str!"encrypt") := by
        simp only [Msg.del, Msg.headers]
        apply List.filter_congr
        intro x _
        have : Py.lower (str!"ENCRYPT") = str!"encrypt" := by decide
        rw [Msg.nameEq, this]
        by_cases hx : Py.lower x.1 = str!"encrypt" <;> simp [hx]
      rcases hp with ⟨hhas, h2, _⟩ | ⟨hno, v, h2, _, _⟩
      · left
        refine ⟨?_, by rw [h1, h2, hd]⟩
        obtain ⟨x, hx1, hx2⟩ := List.any_eq_true.mp hhas
        intro h'
        have : x.2 ∈ m.getAll (str!"Autocrypt") := List.mem_map.mpr ⟨x, List.mem_filter.mpr ⟨hx1, hx2⟩, rfl⟩
        rw [h'] at this; cases this
      · right
        refine ⟨v, ?_, ?_⟩
        · rw [Msg.has, List.any_eq_false] at hno
          rw [Msg.getAll, List.map_eq_nil_iff, List.filter_eq_nil_iff]
          exact hno
        · rw [h1, h2, ← hd]; rfl
  · rw [hp.isEncrypted, he] at h1; cases h1

end Verif
