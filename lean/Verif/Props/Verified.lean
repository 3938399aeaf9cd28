import Verif.Props.AccountHistory
import Verif.Props.Bot
/-!
C56 over histories with commands and with processes which die: an out-of-band verification is found until another one is recorded for the address
(`states.py:320-354`).
-/
namespace Verif

variable {K : Type}

/-- nothing is recorded for the address, and there is no reset -/
def LeavesVerification (hist : List (Happening K)) (n adr : Str) : Prop :=
  ∀ c ∈ callsMade hist, c ≠ .removeAll ∧ ∀ v, c.recordFor n = some v → v.addr ≠ adr

theorem lookup_oob_cons (v : Verification) (es : List Entry) (adr : Str) :
    OOB.lookup (.oob v :: es) adr = if adr = v.addr then some v else OOB.lookup es adr := by
  unfold OOB.lookup
  rw [List.filterMap_cons]
  simp only [Entry.oob?, List.find?_cons]
  by_cases h : adr = v.addr
  · simp [h]
  · rw [if_neg h, show (adr == v.addr) = false from beq_eq_false_iff_ne.mpr h]

theorem recordFor_of_act {env : Env} {c : ApiCall} {n : Str} {v : Verification} (h : c.acts env (.oob n v)) : c.recordFor n = some v := by
  cases c <;> simp_all [ApiCall.acts, InitAct, OwnAct, CfgAct, Account.IncomingAct, Account.HeaderAct, Account.GossipAct, Account.ImportAct, ApiCall.recordFor]

/-- what an update does to the verifications of an account -/
theorem oob_act (O : Oracle K) (a : Act) (n : Str) (w : World Store K) :
    a = .wipe ∨ (exec O a.prog w).2.log (oobHead n) = w.log (oobHead n) ∨
    ∃ v, a = .oob n v ∧ (exec O a.prog w).2.log (oobHead n) = .oob v :: w.log (oobHead n) := by
  simp only [World.log]
  rw [get_act]
  cases a with
  | msg m ad u => exact .inr (.inl (if_neg (oobHead_ne_peerHead _ _ _)))
  | gossip m ad u => exact .inr (.inl (if_neg (oobHead_ne_peerHead _ _ _)))
  | cfg m x => exact .inr (.inl (if_neg (ownHead_ne_oobHead _ _).symm))
  | keygen m x => exact .inr (.inl (if_neg (ownHead_ne_oobHead _ _).symm))
  | oob m v =>
    by_cases h : m = n
    · subst h; exact .inr (.inr ⟨v, rfl, if_pos rfl⟩)
    · exact .inr (.inl (if_neg fun h' => h (oobHead_inj.mp h').symm))
  | setVersion => exact .inr (.inl (if_neg fun h => oobHead_ne_managerHead _ h.1))
  | removeAccount m => exact .inr (.inl (by dsimp only; rw [matchAccount_oobHead]; rfl))
  | wipe => exact .inl rfl

/-- C56: the verification which is found for an address stays the same, whatever calls and commands are run and wherever they are interrupted, until another
one is recorded for this address and account or everything is reset. It even stays when the account is removed. -/
theorem C56_kept (O : Oracle K) (env : Env) (hist : List (Happening K)) (n adr : Str) (hh : LeavesVerification hist n adr) (w : World Store K) :
    (exec O (OOB.getVerification n adr) (runHistory Store.impl O env hist w)).1 = (exec O (OOB.getVerification n adr) w).1 := by
  have hget : ∀ w : World Store K, (exec O (OOB.getVerification n adr) w).1 = .ok (OOB.lookup (w.log (oobHead n)) adr) := fun _ => rfl
  rw [hget, hget]
  refine congrArg Except.ok (runHistory_respects (R := fun w w' : World Store K => OOB.lookup (w'.log (oobHead n)) adr = OOB.lookup (w.log (oobHead n)) adr)
    (fun _ _ _ h1 h2 => h2.trans h1) (fun w w' hs _ _ _ => by simp only [World.log]; rw [hs]) hist ?_ w)
  intro c hc a ha w
  obtain ⟨h1, h2⟩ := hh c hc
  rcases oob_act O a n w with rfl | h | ⟨v, rfl, h⟩
  · exact absurd ((act_of_call ha).2 rfl) h1
  · rw [h]
  · rw [h, lookup_oob_cons, if_neg fun h => h2 v (recordFor_of_act ha) h.symm]

/-- C56: so a verification which was recorded is found after any such history. -/
theorem C56_recorded (O : Oracle K) (env : Env) (c : ApiCall) (hist : List (Happening K)) (n : Str) (hn : env.isalnum n = true) (v : Verification)
    (hc : c.recordFor n = some v) (hh : LeavesVerification hist n v.addr) (w : World Store K) :
    (exec O (OOB.getVerification n v.addr) (runHistory Store.impl O env (.call c :: hist) w)).1 = .ok (some v) := by
  have h := C56_kept O env hist n v.addr hh (exec O (c.prog env) w).2
  rw [show runHistory Store.impl O env (.call c :: hist) w = runHistory Store.impl O env hist (exec O (c.prog env) w).2 from rfl, h]
  show Except.ok (OOB.lookup ((exec O (c.prog env) w).2.log (oobHead n)) v.addr) = _
  rw [(oob_step O env n hn c w).2.1 v hc, lookup_oob_cons, if_pos rfl]

/-- C56: and what is found was recorded by some call for this address and account, which may have been interrupted, unless it was there before. -/
theorem C56_source (O : Oracle K) (env : Env) (hist : List (Happening K)) (n adr : Str) (v : Verification) (w : World Store K)
    (h : (exec O (OOB.getVerification n adr) (runHistory Store.impl O env hist w)).1 = .ok (some v)) :
    v.addr = adr ∧ ((∃ c ∈ callsMade hist, c.recordFor n = some v) ∨ Entry.oob v ∈ w.log (oobHead n)) := by
  have h1 : OOB.lookup ((runHistory Store.impl O env hist w).log (oobHead n)) adr = some v := Except.ok.inj h
  unfold OOB.lookup at h1
  have h2 := List.find?_some h1
  have h3 := List.mem_of_find?_eq_some h1
  refine ⟨(beq_iff_eq.mp h2).symm, ?_⟩
  obtain ⟨e, he, hev⟩ := List.mem_filterMap.mp h3
  have hev : e = .oob v := by cases e <;> cases hev; rfl
  subst hev
  have key := runHistory_respects (O := O) (env := env) (R := fun w w' : World Store K => ∀ v, Entry.oob v ∈ w'.log (oobHead n) →
      (∃ c ∈ callsMade hist, c.recordFor n = some v) ∨ Entry.oob v ∈ w.log (oobHead n))
    (fun _ _ _ h1 h2 v hv => (h2 v hv).elim .inl (h1 v)) (fun w w' hs _ _ _ v hv => .inr (by simpa only [World.log, hs] using hv)) hist ?_ w
  · exact key v he
  intro c hc a ha w v hv
  rcases oob_act O a n w with rfl | h | ⟨v', rfl, h⟩
  · cases hv
  · rw [h] at hv; exact .inr hv
  · rw [h] at hv
    rcases List.mem_cons.mp hv with hv | hv
    · cases hv; exact .inl ⟨c, hc, recordFor_of_act ha⟩
    · exact .inr hv

/-- a history with a record for another address, an interrupted call, a command and the removal of the account -/
def otherRecords : List (Happening Unit) :=
  [.call (.verifyPeer (str!"a") (str!"q@x") [3]), .killed (Concrete.recv Concrete.bob (str!"1") (str!"100") [7]) 5,
    .command Concrete.cmdEnv Concrete.botEnv (.delAccount (str!"a")), .call (.verifyPeer (str!"b") (str!"p@x") [4])]

example : LeavesVerification otherRecords (str!"a") (str!"p@x") := by
  rintro c ⟨x, hx, hc⟩
  simp only [otherRecords, List.mem_cons, List.not_mem_nil, or_false] at hx
  rcases hx with rfl | rfl | rfl | rfl
  · cases hc; simp [ApiCall.recordFor]
  · cases hc; simp [Concrete.recv, ApiCall.recordFor]
  · rcases hc with hc | hc
    · cases c <;> simp_all [ApiCall.isLookup, ApiCall.recordFor]
    · cases hc; simp [ApiCall.recordFor]
  · cases hc; simp [ApiCall.recordFor]

example : (ApiCall.verifySelf (str!"a") (str!"p@x") [2]).recordFor (str!"a") = some ⟨str!"p@x", [2], .self⟩ := rfl

end Verif
