import Verif.Props.Folding
import Verif.Props.IncomingErrors
/-!
# The order of attributes (C139)
-/
namespace Verif
open Mime

variable {K σ : Type}

/-! ## Specification -/

/-- the attributes of the header value `v'` are those of `v` in any order, with any white space around them. Those which are used occur at most once. -/
structure Reordered (v v' : Str) : Prop where
  perm : (attrPairs v').Perm (attrPairs v)
  once : ∀ n ∈ [str!"addr", str!"keydata", str!"prefer-encrypt"], ((attrPairs v).filter fun p => p.1 = n).length ≤ 1
  named : ∀ p ∈ attrPairs v, p.1 ≠ []

/-- the messages have the same values in From, Date, Message-ID and Content-Type, and the same Autocrypt headers, with attributes in any order -/
structure SameReordered (m m' : Msg) : Prop where
  fields : SameFields [str!"From", str!"Date", str!"Message-ID", str!"Content-Type"] m m'
  autocrypt : List.Forall₂ Reordered (m.getAll (str!"Autocrypt")) (m'.getAll (str!"Autocrypt"))

/-! ## Lemmas -/

theorem Reordered.symm {v v' : Str} (h : Reordered v v') : Reordered v' v :=
  ⟨h.perm.symm, fun n hn => by rw [(h.perm.filter _).length_eq]; exact h.once n hn, fun p hp => h.named p (h.perm.mem_iff.mp hp)⟩

theorem perm_short {α : Type} {l l' : List α} (h : l'.Perm l) (hl : l.length ≤ 1) : l' = l := by
  match l, hl with
  | [], _ => exact h.eq_nil
  | [a], _ => exact List.perm_singleton.mp h

theorem lastValue_perm {n : Str} {l l' : List (Str × Option Str)} (h : l'.Perm l) (hl : (l.filter fun p => p.1 = n).length ≤ 1) :
    lastValue n l' = lastValue n l := by
  have key : ∀ l : List (Str × Option Str), (l.reverse.find? fun p => p.1 = n) = (l.filter fun p => p.1 = n).reverse.head? := fun l => by
    rw [← List.head?_filter, List.filter_reverse]
  unfold lastValue
  rw [key, key, perm_short (h.filter _) hl]

theorem Reordered.success {env : Env} {v v' : Str} (h : Reordered v v') {k : Bytes} {a pe : Str}
    (hv : ∃ ext, parseAcHeadervalue env v = .ok ⟨some k, some a, some pe, some ext, none⟩) :
    ∃ ext, parseAcHeadervalue env v' = .ok ⟨some k, some a, some pe, some ext, none⟩ := by
  rw [C27_parse_iff] at hv ⊢
  obtain ⟨h1, h2, h3, h4⟩ := hv
  rw [lastValue_perm h.perm (h.once _ (by decide)), lastValue_perm h.perm (h.once _ (by decide)), lastValue_perm h.perm (h.once _ (by decide))]
  exact ⟨fun p hp => h1 p (h.perm.mem_iff.mp hp), h2, h3, h4⟩

theorem named_ok {env : Env} {v : Str} (h : ∀ p ∈ attrPairs v, p.1 ≠ []) : ∃ r, parseAcHeadervalue env v = .ok r := by
  cases hp : parseAcHeadervalue env v with
  | ok r => exact ⟨r, rfl⟩
  | error e =>
    exfalso
    obtain ⟨_, x, hx, t, ht⟩ := C24_parse_error hp
    refine h (Py.strip (Py.split1 '=' ('=' :: t)).1, (Py.split1 '=' ('=' :: t)).2.map Py.strip) ?_ rfl
    unfold attrPairs
    exact List.mem_map.mpr ⟨'=' :: t, List.mem_filter.mpr ⟨List.mem_map.mpr ⟨x, hx, ht⟩, by simp⟩, rfl⟩

/-! ## The property -/

/-- C139: header values with the same attributes in another order are read the same: the same key, address and preference, or an error in both. -/
theorem C139_header (env : Env) {v v' : Str} (h : Reordered v v') :
    AlikeOutcome SameReading (parseAcHeadervalue env v) (parseAcHeadervalue env v') := by
  obtain ⟨r, hr⟩ := named_ok (env := env) h.named
  obtain ⟨r', hr'⟩ := named_ok (env := env) h.symm.named
  rw [hr, hr']
  rcases parseAcHeadervalue_shape hr with ⟨e, rfl⟩ | ⟨k, a, pe, ext, rfl⟩
  · rcases parseAcHeadervalue_shape hr' with ⟨e', rfl⟩ | ⟨k, a, pe, ext, rfl⟩
    · exact ⟨rfl, rfl, rfl, rfl⟩
    · obtain ⟨ext, hx⟩ := h.symm.success ⟨ext, hr'⟩
      rw [hr] at hx
      cases hx
  · obtain ⟨ext, hx⟩ := h.success ⟨ext, hr⟩
    rw [hr'] at hx
    cases hx
    exact ⟨rfl, rfl, rfl, rfl⟩

theorem SameReordered.read {env : Env} {m m' : Msg} (h : SameReordered m m') : SameRead env m m' :=
  ⟨h.fields, h.autocrypt.imp fun _ _ hv => C139_header env hv⟩

/-- C139: incoming mail which is not decrypted is processed the same if the attributes of its Autocrypt headers come in another order. -/
theorem C139_incoming (S : StoreImpl σ) (O : Oracle K) (env : Env) (n : Str) (m m' : Msg) (i nd : Bool) (w : World σ K)
    (h : SameReordered m m') (hnd : nd = true ∨ m.contentType ≠ str!"multipart/encrypted") :
    AlikeOutcome SameIncoming (run S O (Account.processIncoming env n m i nd) w).1 (run S O (Account.processIncoming env n m' i nd) w).1 ∧
    (run S O (Account.processIncoming env n m i nd) w).2 = (run S O (Account.processIncoming env n m' i nd) w).2 :=
  incoming_sameRead S O env n m m' i nd w h.read hnd

/-- C139: so is encrypted mail with the same content and the same recipients, if plugins do not look at the decrypted message. -/
theorem C139_encrypted (S : StoreImpl σ) (O : Oracle K) (hO : PluginsBlind O) (env : Env) (n : Str) (m m' : Msg) (i nd : Bool) (w : World σ K)
    (h : SameReordered m m') (hg : SameFields gossipFields m m') (hp : m.payload = m'.payload) :
    AlikeOutcome SameIncoming (run S O (Account.processIncoming env n m i nd) w).1 (run S O (Account.processIncoming env n m' i nd) w).1 ∧
    AlikeWorlds (run S O (Account.processIncoming env n m i nd) w).2 (run S O (Account.processIncoming env n m' i nd) w).2 :=
  encrypted_sameRead S O hO env n m m' i nd w h.read hg hp

/-! ## Examples -/

/-- two parts of a header change places -/
theorem Reordered.swap {a b : Str} (h1 : ∀ n ∈ [str!"addr", str!"keydata", str!"prefer-encrypt"],
      ((attrPairs a ++ attrPairs b).filter fun p => p.1 = n).length ≤ 1) (h2 : ∀ p ∈ attrPairs a ++ attrPairs b, p.1 ≠ []) :
    Reordered (a ++ ';' :: b) (b ++ ';' :: a) := by
  refine ⟨?_, ?_, ?_⟩
  · rw [attrPairs_append, attrPairs_append]; exact List.perm_append_comm
  · rw [attrPairs_append]; exact h1
  · rw [attrPairs_append]; exact h2

section Examples
open Concrete

/-- the hypotheses of `C139_header` hold for a header with the key first, and it is read -/
example : Reordered (str!"addr=a@x.org; _n=1; prefer-encrypt=mutual; keydata=AQI=") (str!"keydata=AQI=;prefer-encrypt=mutual; _n=1; addr=a@x.org;") ∧
    (parseAcHeadervalue Concrete.env (str!"keydata=AQI=;prefer-encrypt=mutual; _n=1; addr=a@x.org;")).toOption.map (fun r => (r.keydata, r.addr, r.pe)) =
      some (some [1, 2], some (str!"a@x.org"), some (str!"mutual")) := by
  refine ⟨⟨?_, by decide +kernel, by decide +kernel⟩, by decide +kernel⟩
  have h1 : attrPairs (str!"addr=a@x.org; _n=1; prefer-encrypt=mutual; keydata=AQI=") = [(str!"addr", some (str!"a@x.org")), (str!"_n", some (str!"1")),
    (str!"prefer-encrypt", some (str!"mutual")), (str!"keydata", some (str!"AQI="))] := by decide +kernel
  have h2 : attrPairs (str!"keydata=AQI=;prefer-encrypt=mutual; _n=1; addr=a@x.org;") = [(str!"addr", some (str!"a@x.org")), (str!"_n", some (str!"1")),
    (str!"prefer-encrypt", some (str!"mutual")), (str!"keydata", some (str!"AQI="))].reverse := by decide +kernel
  rw [h1, h2]
  exact List.reverse_perm _

/-- an attribute which occurs twice: the last one counts, so the order matters -/
example : (parseAcHeadervalue Concrete.env (str!"addr=a@x.org; addr=b@x.org; keydata=AQI=")).toOption.map (·.addr) = some (some (str!"b@x.org")) ∧
    (parseAcHeadervalue Concrete.env (str!"addr=b@x.org; addr=a@x.org; keydata=AQI=")).toOption.map (·.addr) = some (some (str!"a@x.org")) := by
  decide +kernel

/-- an attribute without name: an exception or an error, which depends on what comes first -/
example : (parseAcHeadervalue Concrete.env (str!"=1; foo=1")).toOption = none ∧ (parseAcHeadervalue Concrete.env (str!"foo=1; =1")).toOption ≠ none := by
  decide +kernel

/-- the mail to Dave with the attributes in another order: the hypotheses of `C139_incoming` hold -/
def toDaveReordered : Msg := .mk [(str!"From", str!"Me <A@x.org>"), (str!"To", str!"dave@x.org"), (str!"Message-Id", str!"m1"), (str!"Date", str!"200"),
    (str!"Autocrypt", str!"keydata=\n  QkJCQkJCQkJCQkJCQkJCQg==;addr=a@x.org; prefer-encrypt=mutual")] (.text (str!"hello"))

example : SameReordered toDave' toDaveReordered ∧ toDave'.contentType ≠ str!"multipart/encrypted" ∧
    ((exec oracle (Account.processIncoming daveEnv (str!"d") toDaveReordered false false) daveWorld).2.log (peerHead (str!"d") (str!"a@x.org"))).length = 1 := by
  refine ⟨⟨by unfold SameFields; decide +kernel, ?_⟩, by decide +kernel, by decide +kernel⟩
  have h1 : toDave'.getAll (str!"Autocrypt") = [str!"addr=a@x.org; prefer-encrypt=mutual" ++ ';' :: str!" keydata=\n  QkJCQkJCQkJCQkJCQkJCQg=="] := by
    decide +kernel
  have h2 : toDaveReordered.getAll (str!"Autocrypt") = [str!"keydata=\n  QkJCQkJCQkJCQkJCQkJCQg==" ++ ';' :: str!"addr=a@x.org; prefer-encrypt=mutual"] := by
    decide +kernel
  rw [h1, h2]
  refine .cons ⟨?_, by decide +kernel, by decide +kernel⟩ .nil
  rw [attrPairs_append, attrPairs_append]
  have h3 : attrPairs (str!" keydata=\n  QkJCQkJCQkJCQkJCQkJCQg==") = attrPairs (str!"keydata=\n  QkJCQkJCQkJCQkJCQkJCQg==") := by decide +kernel
  rw [h3]
  exact List.perm_append_comm

/-- the hypotheses of `C139_encrypted` hold for an encrypted message with a key for Carol within, and it is recorded -/
example : PluginsBlind oracle ∧
    SameReordered (encMail (str!"1") (str!"100") [(str!"Autocrypt", str!"addr=b@x.org;keydata=AQI=")] [gossipField carol [9]])
      (encMail (str!"1") (str!"100") [(str!"Autocrypt", str!"keydata=AQI=;addr=b@x.org")] [gossipField carol [9]]) ∧
    SameFields gossipFields (encMail (str!"1") (str!"100") [(str!"Autocrypt", str!"addr=b@x.org;keydata=AQI=")] [gossipField carol [9]])
      (encMail (str!"1") (str!"100") [(str!"Autocrypt", str!"keydata=AQI=;addr=b@x.org")] [gossipField carol [9]]) ∧
    (carols (run Store.impl oracle (Account.processIncoming Concrete.env (str!"a")
      (encMail (str!"1") (str!"100") [(str!"Autocrypt", str!"keydata=AQI=;addr=b@x.org")] [gossipField carol [9]]) false false) (after [addA])).2).length = 1 := by
  have h1 : (encMail (str!"1") (str!"100") [(str!"Autocrypt", str!"addr=b@x.org;keydata=AQI=")] [gossipField carol [9]]).getAll (str!"Autocrypt") =
      [str!"addr=b@x.org" ++ ';' :: str!"keydata=AQI="] := by decide +kernel
  have h2 : (encMail (str!"1") (str!"100") [(str!"Autocrypt", str!"keydata=AQI=;addr=b@x.org")] [gossipField carol [9]]).getAll (str!"Autocrypt") =
      [str!"keydata=AQI=" ++ ';' :: str!"addr=b@x.org"] := by decide +kernel
  refine ⟨fun _ _ _ _ _ => rfl, ⟨by unfold SameFields; decide +kernel, ?_⟩, by unfold SameFields; decide +kernel, by decide +kernel⟩
  rw [h1, h2]
  exact .cons (Reordered.swap (by decide +kernel) (by decide +kernel)) .nil

end Examples

end Verif
