import Verif.Props.Decision
/-!
# Mail which goes out twice (C114)

`process-outgoing` and `sendmail` can both be in the way of a message.
-/
namespace Verif
open Mime

variable {K K' : Type}

/-! ## Lemmas -/

theorem del_of_none {m : Msg} {x : Str} (h : m.getAll x = []) : m.del x = m := by
  obtain ⟨hs, p⟩ := m
  simp only [Msg.del, Msg.headers, Msg.payload]
  congr 1
  rw [List.filter_eq_self]
  intro a ha
  cases hx : Msg.nameEq a.1 x with
  | false => rfl
  | true =>
    have : a.2 ∈ (Msg.mk hs p).getAll x := List.mem_map.mpr ⟨a, List.mem_filter.mpr ⟨ha, hx⟩, rfl⟩
    rw [h] at this; cases this

theorem has_of_getAll {m m' : Msg} {x : Str} (h : m'.getAll x = m.getAll x) : m'.has x = m.has x := by
  have key : ∀ m : Msg, m.has x = !(m.getAll x).isEmpty := by
    intro m
    cases hx : m.has x with
    | true =>
      obtain ⟨a, h1, h2⟩ := List.any_eq_true.mp hx
      have : a.2 ∈ m.getAll x := List.mem_map.mpr ⟨a, List.mem_filter.mpr ⟨h1, h2⟩, rfl⟩
      cases hg : m.getAll x with
      | nil => rw [hg] at this; cases this
      | cons _ _ => rfl
    | false =>
      rw [Msg.has, List.any_eq_false] at hx
      have : m.getAll x = [] := by
        unfold Msg.getAll
        rw [List.filter_eq_nil_iff.mpr hx]; rfl
      rw [this]; rfl
  rw [key, key, h]

theorem Prepared.has_ac {env : Env} {w w' : World Store K} {n : Str} {m m2 : Msg} {added : Option Str}
    (h : Prepared env w w' n m m2 added) : m2.has (str!"Autocrypt") = true := by
  rcases h with ⟨h, rfl, _⟩ | ⟨_, v, rfl, _, _⟩
  · rw [has_del m (by decide)]; exact h
  · simp only [Msg.has, Msg.add, Msg.headers, List.any_append, List.any_cons]
    rw [show Msg.nameEq (str!"Autocrypt") (str!"Autocrypt") = true by decide]
    simp

/-- a message which is ready goes directly to the decision -/
theorem ready_outgoing (O : Oracle K) (env : Env) (n : Str) {m : Msg} (w : World Store K) (h1 : m.getAll (str!"ENCRYPT") = [])
    (h2 : m.has (str!"Autocrypt") = true) {m' : Msg} {w' : World Store K}
    (hb : run Store.impl O (Account.outgoingBody env n m none) w = (.ok m', w')) :
    ∃ res, exec O (Account.processOutgoing env n m) w = (.ok res, w') ∧ res.msg = m' ∧ res.added = none := by
  have he : Account.encHeader m = .ok none := by
    unfold Account.encHeader Msg.get; rw [h1]; rfl
  refine ⟨⟨m', n, parseEmailAddr env (m.get (str!"From")), none, m'.get (str!"Autocrypt")⟩, ?_, rfl, rfl⟩
  simp only [exec, Account.processOutgoing, bind_eq, pure_eq, run_bind, run_ofExcept, he, del_of_none h1]
  rw [if_pos h2]
  simp only [run_pure, hb]

/-- a recommendation depends only on what is stored -/
theorem recommendation_store {O : Oracle K} {O' : Oracle K'} {env : Env} {n : Str} {l : List Str} {b : Bool} {f : Option Str} {rc : Rec.Rec}
    {w w1 : World Store K} {w2 : World Store K'} (h : run Store.impl O (Account.recommendation env n l b f) w = (.ok rc, w1))
    (hs : w2.store = w.store) : run Store.impl O' (Account.recommendation env n l b f) w2 = (.ok rc, w2) := by
  cases hc : Own.latestConfig (w.log (ownHead n)) with
  | none =>
    exfalso
    simp only [Account.recommendation, Own.config, bind_eq, run_bind] at h
    rw [show run Store.impl O (Prog.chain (ownHead n)) w = (.ok (w.log (ownHead n)), w) from rfl] at h
    simp only [hc] at h
    cases h
  | some c =>
    have e1 := exec_recommendation O env n l b f w c hc
    have hl : ∀ x, w2.log x = w.log x := fun x => by unfold World.log; rw [hs]
    have e2 := exec_recommendation O' env n l b f w2 c (by rw [hl]; exact hc)
    simp only [exec] at e1 e2
    rw [e1] at h
    rw [e2]
    cases h
    simp only [hl]

theorem trace_of {O : Oracle K} {α : Type} {p : Prog α} {w w' : World Store K} {r : Except Exc α} (h : run Store.impl O p w = (r, w')) :
    ∃ new, w'.trace = new ++ w.trace := by
  obtain ⟨new, hn⟩ := run_trace (S := Store.impl) (O := O) p w
  rw [h] at hn
  exact ⟨new, hn.symm⟩

/-- a decision against encryption is made again -/
theorem outgoingBody_again {O : Oracle K} {O' : Oracle K'} {env : Env} {n : Str} {m m' : Msg} {enc : Option Str} {w w' : World Store K}
    {w2 : World Store K'} (h : run Store.impl O (Account.outgoingBody env n m enc) w = (.ok m', w')) (hn : enc ≠ some (str!"no"))
    (hs : w2.store = w.store) (he : isEncrypted m' ≠ .ok true) :
    m' = m ∧ run Store.impl O' (Account.outgoingBody env n m none) w2 = (.ok m, w2) := by
  unfold Account.outgoingBody at h ⊢
  simp only [bind_eq, pure_eq] at h ⊢
  obtain ⟨b, w1, hb, h⟩ := run_bind_ok.mp h
  rw [run_ofExcept] at hb
  have hw : w = w1 := congrArg Prod.snd hb
  subst hw
  replace hb : isEncrypted m = .ok b := congrArg Prod.fst hb
  rw [run_bind, run_ofExcept, hb]
  dsimp only
  cases b with
  | true =>
    rw [if_pos rfl] at h
    cases h
    exact absurd hb he
  | false =>
    rw [if_neg (by simp)] at h ⊢
    cases hf : m.getAll (str!"From") with
    | nil => rw [hf] at h; cases h
    | cons f l =>
      cases l with
      | cons _ _ => rw [hf] at h; cases h
      | nil =>
        rw [hf] at h
        dsimp only at h ⊢
        obtain ⟨rc, w1, hr, h⟩ := run_bind_ok.mp h
        rw [run_bind, recommendation_store hr hs]
        dsimp only
        rw [if_pos hn] at h
        rw [if_pos (by simp)]
        by_cases hd : rc = .encrypt ∨ (rc ≠ .disable ∧ enc = some (str!"yes"))
        · rw [if_pos hd] at h
          obtain ⟨x, w3, hx, h⟩ := run_bind_ok.mp h
          cases h
          exfalso
          obtain ⟨new, hn⟩ := trace_of hx
          obtain ⟨_, _, _, _, _, _, _, out, _, _, _, _, _, _, h6, _⟩ := encryptMime_ok hx hn
          exact he (by rw [h6]; exact isEncrypted_encMessage _ _)
        · rw [if_neg hd] at h
          rw [if_neg (by simp; exact fun h => hd (.inl h)), if_neg (by simp)]
          split at h
          · cases h
          · cases h
            exact ⟨rfl, rfl⟩

/-! ## The property -/

/-- C114: a message which came out encrypted is returned as it is by any account in any state, and nothing is run or read for it. -/
theorem C114_encrypted (O : Oracle K) (O' : Oracle K') (env : Env) (w w' : World Store K) (n n2 : Str) (m : Msg) (res : Account.OutgoingResult)
    (h : exec O (Account.processOutgoing env n m) w = (.ok res, w')) (he : PgpMime res.msg) (w2 : World Store K') :
    ∃ res2, exec O' (Account.processOutgoing env n2 res.msg) w2 = (.ok res2, w2) ∧ res2.msg = res.msg ∧ res2.added = none := by
  spec_mail
  have hb : run Store.impl O' (Account.outgoingBody env n2 res.msg none) w2 = (.ok res.msg, w2) := by
    simp only [Account.outgoingBody, bind_eq, run_bind, run_ofExcept, he]
    rfl
  obtain ⟨m2, hp, ⟨h1, _⟩ | ⟨out, h1, _⟩⟩ := (processOutgoing_course h).1.ok
  · exact ready_outgoing O' env n2 w2 (by rw [h1]; exact hp.no_encrypt) (by rw [h1]; exact hp.has_ac) hb
  · exact ready_outgoing O' env n2 w2 (by rw [h1, getAll_encMessage _ _ (by decide)]; exact hp.no_encrypt)
      (by rw [h1, has_of_getAll (getAll_encMessage _ _ (by decide))]; exact hp.has_ac) hb

/-- C114, without the case of `ENCRYPT: no`: a message which the account returned is returned as it is when it comes again, with
the same state of the store; nothing is run or stored for it. -/
theorem C114_again_partial (O : Oracle K) (O' : Oracle K') (env : Env) (w w' : World Store K) (n : Str) (m : Msg) (res : Account.OutgoingResult)
    (h : exec O (Account.processOutgoing env n m) w = (.ok res, w')) (hno : encryptHeader m ≠ some (str!"no"))
    (w2 : World Store K') (hs : w2.store = w.store) :
    ∃ res2, exec O' (Account.processOutgoing env n res.msg) w2 = (.ok res2, w2) ∧ res2.msg = res.msg ∧ res2.added = none := by
  by_cases he : isEncrypted res.msg = .ok true
  · exact C114_encrypted O O' env w w' n n m res h (pgpMime_iff.mpr he) w2
  · obtain ⟨m2, added, w1, hp, hs1, hb⟩ := processOutgoing_body h
    obtain ⟨h1, h2⟩ := outgoingBody_again (O' := O') hb hno (hs.trans hs1.symm) he
    rw [h1]
    exact ready_outgoing O' env n w2 hp.no_encrypt hp.has_ac h2

open Concrete in
/-- mail to Bob and Carol which is sent in clear and, with "yes", encrypted -/
example : encryptHeader (letter []) ≠ some (str!"no") ∧ encryptHeader (letter (str!"yes")) ≠ some (str!"no") ∧
    (sent []).1.toOption.map (fun r => (r.msg.contentType, r.added.isSome)) = some (str!"text/plain", true) ∧
    (sent (str!"yes")).1.toOption.map (fun r => (r.msg.contentType, r.added.isSome)) = some (str!"multipart/encrypted", true) ∧
    (sent []).2.store.length = recWorld.store.length := by
  refine ⟨?_, ?_, ?_, ?_, ?_⟩ <;> decide +kernel

open Concrete in
/-- a letter to Bob which must not be encrypted -/
def openLetter : Msg := .mk [(str!"From", str!"a@x.org"), (str!"To", bob), (str!"Encrypt", str!"no")] (.text (str!"hello"))

open Concrete in
/-- The full C114 fails: a message with `ENCRYPT: no` which was sent in clear is encrypted when it comes again. -/
theorem C114_refuted : ∃ (w w' : World Store Unit) (m : Msg) (res : Account.OutgoingResult), Reachable oracle env w ∧
    exec oracle (Account.processOutgoing env (str!"a") m) w = (.ok res, w') ∧ w'.store = w.store ∧ ¬ PgpMime res.msg ∧
    ∃ res2 w2, exec oracle (Account.processOutgoing env (str!"a") res.msg) w' = (.ok res2, w2) ∧ PgpMime res2.msg := by
  have key : (exec oracle (Account.processOutgoing env (str!"a") openLetter) recWorld).1.toOption.bind (fun res =>
      (exec oracle (Account.processOutgoing env (str!"a") res.msg)
        (exec oracle (Account.processOutgoing env (str!"a") openLetter) recWorld).2).1.toOption.map fun res2 =>
          ((isEncrypted res.msg).toOption, (isEncrypted res2.msg).toOption)) = some (some false, some true) := by decide +kernel
  have hs := (run_ro (O := oracle) (Account.processOutgoing_ops permissive_readOnly env (str!"a") openLetter) recWorld).1
  rcases h1 : exec oracle (Account.processOutgoing env (str!"a") openLetter) recWorld with ⟨_ | res, w'⟩
  · rw [h1] at key; cases key
  · rw [h1] at key hs
    rcases h2 : exec oracle (Account.processOutgoing env (str!"a") res.msg) w' with ⟨_ | res2, w2⟩
    · simp only [Except.toOption, Option.bind_some, h2] at key
      cases key
    · simp only [Except.toOption, Option.bind_some, h2, Option.map_some, Option.some.injEq, Prod.mk.injEq] at key
      refine ⟨recWorld, w', openLetter, res, after_reachable _, h1, hs, fun h => ?_, res2, w2, h2, ?_⟩
      · rw [pgpMime_iff.mp h] at key; cases key.1
      · cases h3 : isEncrypted res2.msg with
        | error e => rw [h3] at key; cases key.2
        | ok b => rw [h3] at key; cases key.2; exact pgpMime_iff.mpr h3
