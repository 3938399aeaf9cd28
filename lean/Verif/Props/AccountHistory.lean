import Verif.Props.AccountChanges
import Verif.Props.Lookup
import Verif.Props.PeerState
import Verif.Props.PeerOrder
/-!
# Accounts over whole histories of calls (C51 - C53, C56)
-/
namespace Verif

variable {K : Type}

/-! ## C53 -/

/-- calls which are not about the account `n`, and do not reset everything -/
def ApiCall.elsewhere (n : Str) (c : ApiCall) : Prop := c ≠ .removeAll ∧ c.target ≠ some n

/-- the account which an update is about -/
def Act.account : Act → Option Str
  | .msg n _ _ | .gossip n _ _ | .cfg n _ | .keygen n _ | .oob n _ | .removeAccount n => some n
  | .setVersion | .wipe => none

theorem act_account {env : Env} {c : ApiCall} {a : Act} (h : c.acts env a) (n : Str) (ha : a.account = some n) :
    c.target = some n ∧ env.isalnum n = true := by
  cases c <;> cases a <;>
    simp_all [ApiCall.acts, InitAct, OwnAct, CfgAct, Account.IncomingAct, Account.HeaderAct, Account.GossipAct, Account.ImportAct,
      ApiCall.target, Act.account]

/-- logs which an update leaves alone -/
theorem act_other (O : Oracle K) {a : Act} {n : Str} (hn : ':' ∉ n) (hne : a.account ≠ some n) (hal : ∀ m, a.account = some m → ':' ∉ m)
    (hw : a ≠ .wipe) (w : World Store K) (h : Str) (hh : h = ownHead n ∨ h = oobHead n ∨ ∃ p, h = peerHead n p) :
    (exec O a.prog w).2.log h = w.log h := by
  simp only [World.log]
  rw [get_act]
  cases a with
  | msg m ad u =>
    refine if_neg ?_
    rcases hh with rfl | rfl | ⟨p, rfl⟩
    · exact ownHead_ne_peerHead _ _ _
    · exact oobHead_ne_peerHead _ _ _
    · rw [peerHead_inj hn (hal m rfl)]; rintro ⟨rfl, -⟩; exact hne rfl
  | gossip m ad u =>
    refine if_neg ?_
    rcases hh with rfl | rfl | ⟨p, rfl⟩
    · exact ownHead_ne_peerHead _ _ _
    · exact oobHead_ne_peerHead _ _ _
    · rw [peerHead_inj hn (hal m rfl)]; rintro ⟨rfl, -⟩; exact hne rfl
  | cfg m c =>
    refine if_neg ?_
    rcases hh with rfl | rfl | ⟨p, rfl⟩
    · rw [ownHead_inj]; rintro rfl; exact hne rfl
    · exact (ownHead_ne_oobHead _ _).symm
    · exact (ownHead_ne_peerHead _ _ _).symm
  | keygen m c =>
    refine if_neg ?_
    rcases hh with rfl | rfl | ⟨p, rfl⟩
    · rw [ownHead_inj]; rintro rfl; exact hne rfl
    · exact (ownHead_ne_oobHead _ _).symm
    · exact (ownHead_ne_peerHead _ _ _).symm
  | oob m c =>
    refine if_neg ?_
    rcases hh with rfl | rfl | ⟨p, rfl⟩
    · exact ownHead_ne_oobHead _ _
    · rw [oobHead_inj]; rintro rfl; exact hne rfl
    · exact (oobHead_ne_peerHead _ _ _).symm
  | setVersion =>
    refine if_neg fun hx => ?_
    rcases hh with rfl | rfl | ⟨p, rfl⟩
    · exact ownHead_ne_managerHead _ hx.1
    · exact oobHead_ne_managerHead _ hx.1
    · exact managerHead_ne_peerHead _ _ hx.1.symm
  | removeAccount m =>
    have hm : n ≠ m := by rintro rfl; exact hne rfl
    rcases hh with rfl | rfl | ⟨p, rfl⟩
    · dsimp only; rw [matchAccount_ownHead hn]; simp [hm]
    · dsimp only; rw [matchAccount_oobHead]; simp
    · dsimp only; rw [matchAccount_peerHead hn]; simp [hm]
  | wipe => exact absurd rfl hw

/-- C53: no calls on other accounts change what is stored about an account: its settings and keys, its verifications, and
its peers -/
theorem C53_isolated (O : Oracle K) (env : Env) (hist : List (Happening K)) (n : Str) (hn : env.isalnum n = true)
    (hcalls : ∀ c ∈ callsMade hist, c.elsewhere n) (w : World Store K) :
    (runHistory Store.impl O env hist w).log (ownHead n) = w.log (ownHead n) ∧
    (runHistory Store.impl O env hist w).log (oobHead n) = w.log (oobHead n) ∧
    ∀ a, (runHistory Store.impl O env hist w).log (peerHead n a) = w.log (peerHead n a) := by
  have key : ∀ h, (h = ownHead n ∨ h = oobHead n ∨ ∃ p, h = peerHead n p) →
      (runHistory Store.impl O env hist w).log h = w.log h := by
    intro h hh
    refine runHistory_respects (R := fun w w' => w'.log h = w.log h) (fun _ _ _ h1 h2 => h2.trans h1) ?_ hist ?_ w
    · intro w w' hs _ _ _; simp only [World.log]; rw [hs]
    · intro c hc a ha w
      refine act_other O (colon_not_mem_of_isalnum hn) ?_ ?_ ?_ w h hh
      · intro h1; exact (hcalls c hc).2 (act_account ha n h1).1
      · intro m h1; exact colon_not_mem_of_isalnum (act_account ha m h1).2
      · intro h1; exact (hcalls c hc).1 ((act_of_call ha).2 h1)
  exact ⟨key _ (Or.inl rfl), key _ (Or.inr (Or.inl rfl)), fun a => key _ (Or.inr (Or.inr ⟨a, rfl⟩))⟩

/-- calls on "b" and on no account -/
example : ∀ c ∈ [Concrete.addB, .modAccount (str!"b") none none none (some (str!"mutual")), Concrete.recv Concrete.bob (str!"1") (str!"1") [7]].drop 0,
    c.elsewhere (str!"c") := by
  simp [ApiCall.elsewhere, ApiCall.target, Concrete.addB, Concrete.recv]

/-! ## C52 -/

/-- the version which the manager recorded -/
def version1 : Entry := .acfg (str!"0.1")

/-- C52: the manager's version is recorded at most once in every reachable state, and once recorded stays the same under all
calls but the reset -/
theorem C52_once {O : Oracle K} {env : Env} {w : World Store K} (hw : Reachable O env w) :
    (w.log managerHead = [] ∨ w.log managerHead = [version1]) ∧
    ∀ hist, (∀ c ∈ callsMade hist, c ≠ ApiCall.removeAll) → w.log managerHead = [version1] →
      (runHistory Store.impl O env hist w).log managerHead = [version1] := by
  have step : ∀ c a, ApiCall.acts env c a → ∀ w : World Store K,
      (w.log managerHead = [version1] → a ≠ .wipe → (exec O a.prog w).2.log managerHead = [version1]) ∧
      (w.log managerHead = [] → (exec O a.prog w).2.log managerHead = [] ∨ (exec O a.prog w).2.log managerHead = [version1]) := by
    intro c a _ w
    simp only [World.log]
    rw [get_act]
    cases a with
    | msg m ad u => dsimp only; rw [if_neg (managerHead_ne_peerHead _ _)]; exact ⟨fun h _ => h, Or.inl⟩
    | gossip m ad u => dsimp only; rw [if_neg (managerHead_ne_peerHead _ _)]; exact ⟨fun h _ => h, Or.inl⟩
    | cfg m x => dsimp only; rw [if_neg (ownHead_ne_managerHead _).symm]; exact ⟨fun h _ => h, Or.inl⟩
    | keygen m x => dsimp only; rw [if_neg (ownHead_ne_managerHead _).symm]; exact ⟨fun h _ => h, Or.inl⟩
    | oob m x => dsimp only; rw [if_neg (oobHead_ne_managerHead _).symm]; exact ⟨fun h _ => h, Or.inl⟩
    | setVersion =>
      dsimp only
      constructor
      · intro h _; rw [h]; rfl
      · intro h; rw [h]; exact Or.inr rfl
    | removeAccount m => dsimp only; rw [matchAccount_managerHead]; exact ⟨fun h _ => h, Or.inl⟩
    | wipe => exact ⟨fun _ h => absurd rfl h, fun _ => Or.inl rfl⟩
  constructor
  · refine reachable_inv (O := O) (env := env) (I := fun s => s.get managerHead = [] ∨ s.get managerHead = [version1]) (Or.inl rfl) ?_ hw
    intro c a ha w hI
    rcases hI with h | h
    · exact (step c a ha w).2 h
    · by_cases hwp : a = .wipe
      · subst hwp; exact Or.inl rfl
      · exact Or.inr ((step c a ha w).1 h hwp)
  · intro hist hcalls
    refine runHistory_respects (R := fun w w' => w.log managerHead = [version1] → w'.log managerHead = [version1])
      (fun _ _ _ h1 h2 h => h2 (h1 h)) ?_ hist ?_ w
    · intro w w' hs _ _ _ h; simp only [World.log] at h ⊢; rw [hs]; exact h
    · intro c hc a ha w h
      exact (step c a ha w).1 h fun hwp => hcalls c hc ((act_of_call ha).2 hwp)

example : (Concrete.after [Concrete.addB, Concrete.addA]).log managerHead = [version1] := by decide +kernel

/-! ## C56 -/

/-- the verification which a call records for account `n` -/
def ApiCall.recordFor (n : Str) : ApiCall → Option Verification
  | .verifySelf m ad k => if m = n then some ⟨ad, k, .self⟩ else none
  | .verifyPeer m ad k => if m = n then some ⟨ad, k, .peer⟩ else none
  | _ => none

/-- `v` was recorded by the last call about that account and address, and there was no reset since -/
def LastRecord (calls : List ApiCall) (n adr : Str) (v : Verification) : Prop :=
  ∃ before c since, calls = before ++ c :: since ∧ c.recordFor n = some v ∧ v.addr = adr ∧
    ∀ c' ∈ since, c' ≠ .removeAll ∧ ∀ v', c'.recordFor n = some v' → v'.addr ≠ adr

/-- the log of verifications after a call -/
theorem oob_step (O : Oracle K) (env : Env) (n : Str) (hn : env.isalnum n = true) (c : ApiCall) (w : World Store K) :
    (c = .removeAll → (exec O (c.prog env) w).2.log (oobHead n) = []) ∧
    (∀ v, c.recordFor n = some v → (exec O (c.prog env) w).2.log (oobHead n) = .oob v :: w.log (oobHead n)) ∧
    (c ≠ .removeAll → c.recordFor n = none → (exec O (c.prog env) w).2.log (oobHead n) = w.log (oobHead n)) := by
  refine ⟨?_, ?_, ?_⟩
  · rintro rfl; rfl
  · intro v hv
    cases c <;> try (cases hv)
    all_goals
      unfold ApiCall.recordFor at hv
      dsimp only at hv
      split at hv
      · rename_i hm
        cases hv
        subst hm
        show (exec O (onAccount env _ _) w).2.log _ = _
        rw [run_onAccount O env _ _ hn]
        exact Store.get_push_self _ _ _
      · cases hv
  · intro hr hnone
    refine (safe_call env c).respects (R := fun w w' => w'.log (oobHead n) = w.log (oobHead n)) (fun _ _ _ h1 h2 => h2.trans h1)
      (fun w w' hs _ _ _ => by simp only [World.log]; rw [hs]) ?_ w
    intro a ha w
    have hob : ∀ m v, a = .oob m v → m ≠ n := by
      rintro m v rfl
      cases c <;> simp_all [ApiCall.acts, InitAct, OwnAct, CfgAct, Account.IncomingAct, Account.HeaderAct,
        Account.GossipAct, Account.ImportAct, ApiCall.recordFor]
    simp only [World.log]
    rw [get_act]
    cases a with
    | msg m ad u => exact if_neg (oobHead_ne_peerHead _ _ _)
    | gossip m ad u => exact if_neg (oobHead_ne_peerHead _ _ _)
    | cfg m x => exact if_neg (ownHead_ne_oobHead _ _).symm
    | keygen m x => exact if_neg (ownHead_ne_oobHead _ _).symm
    | oob m v => exact if_neg fun h => hob m v rfl (oobHead_inj.mp h).symm
    | setVersion => exact if_neg fun h => oobHead_ne_managerHead _ h.1
    | removeAccount m => dsimp only; rw [matchAccount_oobHead]; rfl
    | wipe => exact absurd ((act_of_call ha).2 rfl) hr

theorem LastRecord.concat {calls : List ApiCall} {c : ApiCall} {n adr : Str} {v : Verification} :
    LastRecord (calls ++ [c]) n adr v ↔ (c.recordFor n = some v ∧ v.addr = adr) ∨
      ((c ≠ .removeAll ∧ ∀ v', c.recordFor n = some v' → v'.addr ≠ adr) ∧ LastRecord calls n adr v) := by
  constructor
  · rintro ⟨before, d, since, he, h1, h2, h3⟩
    rcases List.eq_nil_or_concat since with rfl | ⟨since', x, rfl⟩
    · obtain ⟨rfl, h⟩ := List.append_inj' he rfl
      cases h; exact Or.inl ⟨h1, h2⟩
    · rw [List.concat_eq_append] at he h3
      rw [show before ++ d :: (since' ++ [x]) = (before ++ d :: since') ++ [x] by simp] at he
      obtain ⟨rfl, h⟩ := List.append_inj' he rfl
      cases h
      exact Or.inr ⟨h3 c (by simp), before, d, since', rfl, h1, h2, fun c' hc' => h3 c' (by simp [hc'])⟩
  · rintro (⟨h1, h2⟩ | ⟨h0, before, d, since, rfl, h1, h2, h3⟩)
    · exact ⟨calls, c, [], rfl, h1, h2, by simp⟩
    · refine ⟨before, d, since ++ [c], by simp, h1, h2, ?_⟩
      intro c' hc'
      rcases List.mem_append.mp hc' with h | h
      · exact h3 c' h
      · rw [List.mem_singleton.mp h]; exact h0

/-- C56: looking up the verification of an address gives the one recorded last for exactly that address and account in the
whole history of calls, if there is one, and otherwise nothing -/
theorem C56_latest (O : Oracle K) (env : Env) (clock : Nat → Time) (k : K) (calls : List ApiCall) (n adr : Str) (hn : env.isalnum n = true) :
    (∀ v, (exec O (OOB.getVerification n adr) (runCalls Store.impl O env calls ⟨[], clock, 0, k, []⟩)).1 = .ok (some v) ↔
      LastRecord calls n adr v) ∧
    ((exec O (OOB.getVerification n adr) (runCalls Store.impl O env calls ⟨[], clock, 0, k, []⟩)).1 = .ok none ↔
      ∀ v, ¬ LastRecord calls n adr v) := by
  have hget : ∀ w : World Store K, (exec O (OOB.getVerification n adr) w).1 = .ok (OOB.lookup (w.log (oobHead n)) adr) := fun _ => rfl
  have hcons : ∀ v es, OOB.lookup (.oob v :: es) adr = if adr = v.addr then some v else OOB.lookup es adr := by
    intro v es
    unfold OOB.lookup
    rw [List.filterMap_cons]
    simp only [Entry.oob?, List.find?_cons]
    by_cases h : adr = v.addr
    · simp [h]
    · rw [if_neg h, show (adr == v.addr) = false from beq_eq_false_iff_ne.mpr h]
  have main := reachable_ind (O := O) (env := env) (w0 := (⟨[], clock, 0, k, []⟩ : World Store K))
    (P := fun calls w => ∀ v, OOB.lookup (w.log (oobHead n)) adr = some v ↔ LastRecord calls n adr v) (by
      intro v
      constructor
      · intro h; cases h
      · rintro ⟨b, c, s, h, -⟩; simp at h) (by
      intro calls c ih v
      rw [LastRecord.concat]
      obtain ⟨s1, s2, s3⟩ := oob_step O env n hn c (runCalls Store.impl O env calls ⟨[], clock, 0, k, []⟩)
      cases hrec : c.recordFor n with
      | some v' =>
        rw [s2 v' hrec, hcons]
        have hc : c ≠ .removeAll := by rintro rfl; cases hrec
        by_cases ha : adr = v'.addr
        · rw [if_pos ha]
          constructor
          · intro h; cases h; exact Or.inl ⟨rfl, ha.symm⟩
          · rintro (⟨h, -⟩ | ⟨⟨-, h⟩, -⟩)
            · exact h
            · exact absurd ha.symm (h v' rfl)
        · rw [if_neg ha, ih v]
          constructor
          · intro h; exact Or.inr ⟨⟨hc, fun x hx => by cases hx; exact fun h => ha h.symm⟩, h⟩
          · rintro (⟨h, h'⟩ | ⟨-, h⟩)
            · cases h; exact absurd h'.symm ha
            · exact h
      | none =>
        by_cases hc : c = .removeAll
        · rw [s1 hc]
          constructor
          · intro h; cases h
          · rintro (⟨h, -⟩ | ⟨⟨h, -⟩, -⟩)
            · cases h
            · exact absurd hc h
        · rw [s3 hc hrec, ih v]
          constructor
          · intro h; exact Or.inr ⟨⟨hc, fun x hx => by cases hx⟩, h⟩
          · rintro (⟨h, -⟩ | ⟨-, h⟩)
            · cases h
            · exact h) calls
  constructor
  · intro v
    rw [hget, ← main v]
    constructor
    · intro h; exact Except.ok.inj h
    · intro h; rw [h]
  · rw [hget]
    constructor
    · intro h v hv
      rw [← main v, Except.ok.inj h] at hv; cases hv
    · intro h
      cases hl : OOB.lookup ((runCalls Store.impl O env calls ⟨[], clock, 0, k, []⟩).log (oobHead n)) adr with
      | none => rfl
      | some v => exact absurd ((main v).mp hl) (h v)

/-- records for two addresses and two accounts -/
example : LastRecord [.verifyPeer (str!"a") (str!"p@x") [1], .verifyPeer (str!"a") (str!"p@x") [2], .verifyPeer (str!"a") (str!"q@x") [3],
    .verifyPeer (str!"b") (str!"p@x") [4]] (str!"a") (str!"p@x") ⟨str!"p@x", [2], .peer⟩ :=
  ⟨[.verifyPeer (str!"a") (str!"p@x") [1]], _, _, rfl, rfl, rfl, by simp [ApiCall.recordFor]⟩

/-! ## C51 -/

/-- calls with their results -/
def outcomes (O : Oracle K) (env : Env) : List ApiCall → World Store K → List (ApiCall × Except Exc Unit)
  | [], _ => []
  | c :: cs, w => (c, (exec O (c.prog env) w).1) :: outcomes O env cs (exec O (c.prog env) w).2

/-- an account `n` was added -/
def Adds (n : Str) (o : ApiCall × Except Exc Unit) : Prop := o.2 = .ok () ∧ ∃ r k b m, o.1 = .addAccount n r k b m

/-- the account `n` was deleted, or everything was reset -/
def Drops (n : Str) (o : ApiCall × Except Exc Unit) : Prop := o.2 = .ok () ∧ (o.1 = .delAccount n ∨ o.1 = .removeAll)

/-- the account was added and not deleted since -/
def AddedAndKept (n : Str) (os : List (ApiCall × Except Exc Unit)) : Prop :=
  ∃ before o since, os = before ++ o :: since ∧ Adds n o ∧ ∀ o' ∈ since, ¬ Drops n o'

/-- no creation failed, other than for a name in use -/
def NoFailedCreation (os : List (ApiCall × Except Exc Unit)) : Prop :=
  ∀ before o since, os = before ++ o :: since → ∀ n r k b m, o.1 = .addAccount n r k b m → o.2 = .ok () ∨ AddedAndKept n before

theorem void_result {O : Oracle K} {α : Type} {p : Prog α} {w w' : World Store K} {r : Except Exc Unit}
    (h : exec O p.void w = (r, w')) : ∃ x, exec O p w = (x, w') ∧ ((∃ a, x = .ok a) ∧ r = .ok () ∨ ∃ e, x = .error e ∧ r = .error e) := by
  unfold Prog.void at h
  simp only [exec] at h ⊢
  rw [run_bind] at h
  rcases hp : run Store.impl O p w with ⟨x, w1⟩
  rw [hp] at h
  cases x with
  | error e => cases h; exact ⟨_, rfl, Or.inr ⟨e, rfl, rfl⟩⟩
  | ok a => cases h; exact ⟨_, rfl, Or.inl ⟨⟨a, rfl⟩, rfl⟩⟩

/-- calls which change settings or keys of accounts -/
def ApiCall.changesOwn : ApiCall → Prop
  | .addAccount .. | .modAccount .. | .delAccount _ | .removeAll => True
  | _ => False

theorem own_same {O : Oracle K} {env : Env} {c : ApiCall} (hc : ¬ c.changesOwn) (w : World Store K) (m : Str) :
    (exec O (c.prog env) w).2.log (ownHead m) = w.log (ownHead m) := by
  refine (safe_call env c).respects (R := fun w w' => w'.log (ownHead m) = w.log (ownHead m)) (fun _ _ _ h1 h2 => h2.trans h1)
    (fun w w' hs _ _ _ => by simp only [World.log]; rw [hs]) ?_ w
  intro a ha w
  simp only [World.log]
  rw [get_act]
  cases a with
  | msg m ad u => exact if_neg (ownHead_ne_peerHead _ _ _)
  | gossip m ad u => exact if_neg (ownHead_ne_peerHead _ _ _)
  | oob m v => exact if_neg (ownHead_ne_oobHead _ _)
  | setVersion => exact if_neg fun h => ownHead_ne_managerHead _ h.1
  | _ => cases c <;> simp_all [ApiCall.acts, InitAct, Account.IncomingAct, Account.HeaderAct,
        Account.GossipAct, Account.ImportAct, ApiCall.changesOwn]

/-- how the existing accounts change with a call, if there are no half-created accounts before -/
theorem kept_step {O : Oracle K} {env : Env} {c : ApiCall} {w w' : World Store K} {r : Except Exc Unit} (hw : Reachable O env w)
    (h : exec O (c.prog env) w = (r, w')) (hI : ∀ m, w.log (ownHead m) ≠ [] → Configured w m)
    (hfail : ∀ n x k b m, c = .addAccount n x k b m → r = .ok () ∨ Configured w n) :
    (∀ m, Configured w' m ↔ Adds m (c, r) ∨ (Configured w m ∧ ¬ Drops m (c, r))) ∧ (∀ m, w'.log (ownHead m) ≠ [] → Configured w' m) := by
  have same : (∀ m, w'.log (ownHead m) = w.log (ownHead m)) → (∀ m, ¬ Adds m (c, r)) → (∀ m, ¬ Drops m (c, r)) →
      (∀ m, Configured w' m ↔ Adds m (c, r) ∨ (Configured w m ∧ ¬ Drops m (c, r))) ∧ (∀ m, w'.log (ownHead m) ≠ [] → Configured w' m) := by
    intro h1 h2 h3
    refine ⟨fun m => ?_, fun m hm => ?_⟩
    · rw [Configured.of_log (h1 m)]; simp [h2, h3]
    · rw [Configured.of_log (h1 m)]; rw [h1 m] at hm; exact hI m hm
  have hinit : w'.store = initStore w.store → ∀ m, w'.log (ownHead m) = w.log (ownHead m) := fun hst m => by
    unfold World.log; rw [hst, get_initStore (ownHead_ne_managerHead m)]
  by_cases hc : c.changesOwn
  swap
  · refine same (fun m => ?_) ?_ ?_
    · have := own_same (O := O) (env := env) hc w m
      rw [h] at this; exact this
    · rintro m ⟨-, r, k, b, m', rfl⟩; exact hc trivial
    · rintro m ⟨-, rfl | rfl⟩ <;> exact hc trivial
  cases c <;> try (exact absurd hc id)
  case addAccount n x k b md =>
    obtain ⟨y, hy, hr⟩ := void_result h
    have hcourse := addAccount_course hy
    have hdrop : ∀ m, ¬ Drops m (ApiCall.addAccount n x k b md, r) := by rintro m ⟨-, h | h⟩ <;> cases h
    have hbad : ∀ e, y = .error e → Configured w n ∧ ∀ m, ¬ Adds m (ApiCall.addAccount n x k b md, r) := by
      rintro e rfl
      rcases hr with ⟨⟨a, ha⟩, -⟩ | ⟨e', -, rfl⟩
      · cases ha
      · refine ⟨(hfail n x k b md rfl).resolve_left (by simp), ?_⟩
        rintro m ⟨h, -⟩; cases h
    cases hcourse with
    | noOpen e h1 hst => exact same (hinit hst) (hbad _ rfl).2 hdrop
    | exists_ _ _ _ hst => exact same (hinit hst) (hbad _ rfl).2 hdrop
    | badMode _ _ _ _ _ hst => exact same (hinit hst) (hbad _ rfl).2 hdrop
    | noKey e _ hn => exact absurd (hbad _ rfl).1 hn
    | added md' k' kd hn hal _ hst _ _ =>
      obtain rfl : r = .ok () := by
        rcases hr with ⟨_, h⟩ | ⟨e, h, _⟩
        · exact h
        · cases h
      have hlog : ∀ m, w'.log (ownHead m) = if m = n then .keygen ⟨some kd, some k'⟩ :: .cfg (newConf n x b md') :: w.log (ownHead n)
          else w.log (ownHead m) := by
        intro m
        unfold World.log
        rw [hst, Store.get_push, Store.get_push]
        simp only [ownHead_inj, get_initStore (ownHead_ne_managerHead _)]
        split <;> simp_all
      have hnew : Configured w' n := by
        unfold Configured; rw [hlog, if_pos rfl]; exact ⟨⟨newConf n x b md', by simp⟩, ⟨some kd, some k'⟩, by simp⟩
      have hadds : ∀ m, Adds m (ApiCall.addAccount n x k b md, .ok ()) ↔ m = n := by
        intro m; constructor
        · rintro ⟨-, _, _, _, _, h⟩; cases h; rfl
        · rintro rfl; exact ⟨rfl, _, _, _, _, rfl⟩
      constructor
      · intro m
        rw [hadds]
        by_cases hm : m = n
        · subst hm; simp [hnew]
        · rw [Configured.of_log (w := w) (by rw [hlog, if_neg hm])]; simp [hm, hdrop]
      · intro m hne
        by_cases hm : m = n
        · subst hm; exact hnew
        · rw [hlog, if_neg hm] at hne
          rw [Configured.of_log (w := w) (by rw [hlog, if_neg hm])]; exact hI m hne
  case modAccount n x k b pe =>
    have hdrop : ∀ m, ¬ Drops m (ApiCall.modAccount n x k b pe, r) := by rintro m ⟨-, h | h⟩ <;> cases h
    have hadd : ∀ m, ¬ Adds m (ApiCall.modAccount n x k b pe, r) := by rintro m ⟨-, _, _, _, _, h⟩; cases h
    obtain ⟨y, hy, hr⟩ := void_result h
    unfold Manager.modAccount at hy
    simp only [bind_eq, pure_eq, exec] at hy
    rw [run_bind] at hy
    rcases hg : run Store.impl O (Manager.getAccount env n true) w with ⟨z, w1⟩
    obtain ⟨hst, hcourse⟩ := getAccount_course hg
    rw [hg] at hy
    cases z with
    | error e => cases hy; exact same (hinit hst) hadd hdrop
    | ok a =>
      have hconf : Configured w n := by cases hcourse with | opened _ h2 _ => exact h2 rfl
      have hR := (safe_call env (.modAccount n x k b pe)).respects (O := O) (R := fun w w' => (Configured w n → Configured w' n) ∧
        ∀ m, m ≠ n → w'.log (ownHead m) = w.log (ownHead m)) (fun _ _ _ h1 h2 => ⟨h2.1 ∘ h1.1, fun m hm => (h2.2 m hm).trans (h1.2 m hm)⟩)
        (fun w w' hs _ _ _ => by unfold Configured World.log; rw [hs]; exact ⟨id, fun _ _ => rfl⟩) (by
          intro a ha w
          have hlog : ∀ m, (exec O a.prog w).2.log (ownHead m) = w.log (ownHead m) ∨
              m = n ∧ ∃ e, (exec O a.prog w).2.log (ownHead m) = e :: w.log (ownHead m) := by
            intro m
            simp only [World.log]
            rw [get_act]
            cases a with
            | cfg m' e =>
              obtain rfl : m' = n := by
                rcases ha with ha | ⟨-, ha⟩
                · cases ha
                · exact ha
              dsimp only
              by_cases hm : m = m'
              · subst hm; rw [if_pos rfl]; exact Or.inr ⟨rfl, _, rfl⟩
              · rw [if_neg (fun h => hm (ownHead_inj.mp h))]; exact Or.inl rfl
            | setVersion => exact Or.inl (if_neg fun h => ownHead_ne_managerHead _ h.1)
            | _ => rcases ha with ha | ⟨-, ha⟩ <;> cases ha
          constructor
          · rintro ⟨⟨c, hc⟩, k, hk⟩
            rcases hlog n with h | ⟨-, e, h⟩
            · exact ⟨⟨c, h ▸ hc⟩, k, h ▸ hk⟩
            · exact ⟨⟨c, by rw [h]; exact List.mem_cons_of_mem _ hc⟩, k, by rw [h]; exact List.mem_cons_of_mem _ hk⟩
          · intro m hm
            exact (hlog m).resolve_right fun h => hm h.1) w
      rw [h] at hR
      constructor
      · intro m
        by_cases hm : m = n
        · subst hm; simp [hR.1 hconf, hadd, hdrop, hconf]
        · rw [Configured.of_log (hR.2 m hm)]; simp [hadd, hdrop]
      · intro m hne
        by_cases hm : m = n
        · subst hm; exact hR.1 hconf
        · rw [Configured.of_log (hR.2 m hm)]; rw [hR.2 m hm] at hne; exact hI m hne
  case delAccount n =>
    have hadd : ∀ m, ¬ Adds m (ApiCall.delAccount n, r) := by rintro m ⟨-, _, _, _, _, h⟩; cases h
    have h' := h
    unfold ApiCall.prog Manager.delAccount at h'
    simp only [bind_eq, exec] at h'
    rw [run_bind] at h'
    rcases hg : run Store.impl O (Manager.getAccount env n true) w with ⟨z, w1⟩
    obtain ⟨hst, hcourse⟩ := getAccount_course hg
    rw [hg] at h'
    cases z with
    | error e => cases h'; exact same (hinit hst) hadd (by rintro m ⟨h, -⟩; cases h)
    | ok a =>
      have hal : env.isalnum n = true := by cases hcourse with | opened h1 _ _ => exact h1
      obtain rfl : a = n := by cases hcourse with | opened => rfl
      dsimp only at h'
      have hr : r = .ok () := (congrArg Prod.fst h').symm
      have hlog : ∀ m, env.isalnum m = true → w'.log (ownHead m) = if m = a then [] else w.log (ownHead m) := by
        intro m hm
        have e1 : (exec O (Act.removeAccount a).prog w1).2.log (ownHead m) = _ := get_act ..
        rw [show (exec O (Act.removeAccount a).prog w1).2 = w' from congrArg Prod.snd h'] at e1
        rw [e1]
        dsimp only
        rw [matchAccount_ownHead (colon_not_mem_of_isalnum hm), hst, get_initStore (ownHead_ne_managerHead m)]
        by_cases hma : m = a
        · simp [hma]
        · simp [hma]; rfl
      subst hr
      have hw' : Reachable O env w' := by
        have := hw.runCalls [.delAccount a]
        rwa [show runCalls Store.impl O env [.delAccount a] w = w' from congrArg Prod.snd h] at this
      have hdrops : ∀ m, Drops m (ApiCall.delAccount a, .ok ()) ↔ m = a := by
        intro m; constructor
        · rintro ⟨-, h | h⟩ <;> cases h; rfl
        · rintro rfl; exact ⟨rfl, Or.inl rfl⟩
      constructor
      · intro m
        constructor
        · intro hm
          have := hlog m (hw'.own_alnum hm.log_ne)
          by_cases hma : m = a
          · rw [if_pos hma] at this; exact absurd this hm.log_ne
          · rw [if_neg hma] at this
            exact Or.inr ⟨(Configured.of_log this).mp hm, by rw [hdrops]; exact hma⟩
        · rintro (h1 | ⟨h1, h2⟩)
          · exact absurd h1 (hadd m)
          · rw [hdrops] at h2
            have := hlog m (hw.own_alnum h1.log_ne)
            rw [if_neg h2] at this
            exact (Configured.of_log this).mpr h1
      · intro m hne
        have := hlog m (hw'.own_alnum hne)
        by_cases hma : m = a
        · rw [if_pos hma] at this; exact absurd this hne
        · rw [if_neg hma] at this
          rw [this] at hne
          exact (Configured.of_log this).mpr (hI m hne)
  case removeAll =>
    have hr : r = .ok () := (congrArg Prod.fst h).symm
    have hlog : ∀ m, w'.log (ownHead m) = [] := by
      intro m
      rw [← show (exec O (ApiCall.removeAll.prog env) w).2 = w' from congrArg Prod.snd h]; rfl
    constructor
    · intro m
      constructor
      · intro hm; exact absurd (hlog m) hm.log_ne
      · rintro (⟨-, _, _, _, _, h⟩ | ⟨-, h⟩)
        · cases h
        · exact absurd ⟨hr, Or.inr rfl⟩ h
    · intro m hm; exact absurd (hlog m) hm

theorem AddedAndKept.concat {n : Str} {os : List (ApiCall × Except Exc Unit)} {o : ApiCall × Except Exc Unit} :
    AddedAndKept n (os ++ [o]) ↔ Adds n o ∨ (AddedAndKept n os ∧ ¬ Drops n o) := by
  constructor
  · rintro ⟨before, d, since, he, h1, h2⟩
    rcases List.eq_nil_or_concat since with rfl | ⟨since', x, rfl⟩
    · obtain ⟨rfl, h⟩ := List.append_inj' he rfl
      cases h; exact Or.inl h1
    · rw [List.concat_eq_append] at he h2
      rw [show before ++ d :: (since' ++ [x]) = (before ++ d :: since') ++ [x] by simp] at he
      obtain ⟨rfl, h⟩ := List.append_inj' he rfl
      cases h
      exact Or.inr ⟨⟨before, d, since', rfl, h1, fun c' hc' => h2 c' (by simp [hc'])⟩, h2 o (by simp)⟩
  · rintro (h1 | ⟨⟨before, d, since, rfl, h1, h2⟩, h0⟩)
    · exact ⟨os, o, [], rfl, h1, by simp⟩
    · refine ⟨before, d, since ++ [o], by simp, h1, ?_⟩
      intro c' hc'
      rcases List.mem_append.mp hc' with h | h
      · exact h2 c' h
      · rw [List.mem_singleton.mp h]; exact h0

theorem outcomes_append (O : Oracle K) (env : Env) (l1 l2 : List ApiCall) (w : World Store K) :
    outcomes O env (l1 ++ l2) w = outcomes O env l1 w ++ outcomes O env l2 (runCalls Store.impl O env l1 w) := by
  induction l1 generalizing w with
  | nil => rfl
  | cons c l1 ih => exact congrArg _ (ih _)

/-- C51: in every reachable state the list of account names is sorted and has no duplicates. If no creation failed, other than
for a name in use, the names listed are exactly those which were added and not deleted since. -/
theorem C51_listed (O : Oracle K) (env : Env) (clock : Nat → Time) (k : K) (calls : List ApiCall) :
    ∃ l, listed O (runCalls Store.impl O env calls ⟨[], clock, 0, k, []⟩) = .ok l ∧ l.Pairwise (· ≤ ·) ∧ l.Nodup ∧
    (NoFailedCreation (outcomes O env calls ⟨[], clock, 0, k, []⟩) →
      ∀ n, n ∈ l ↔ AddedAndKept n (outcomes O env calls ⟨[], clock, 0, k, []⟩)) := by
  generalize hw0 : (⟨[], clock, 0, k, []⟩ : World Store K) = w0
  have hreach : ∀ calls, Reachable O env (runCalls Store.impl O env calls w0) := by
    intro calls; rw [← hw0]; exact .of_calls calls
  have main := reachable_ind (O := O) (env := env) (w0 := w0)
    (P := fun calls w => NoFailedCreation (outcomes O env calls w0) →
      (∀ n, Configured w n ↔ AddedAndKept n (outcomes O env calls w0)) ∧ ∀ n, w.log (ownHead n) ≠ [] → Configured w n) (by
      intro _
      constructor
      · intro n
        constructor
        · intro h; exact absurd (by rw [← hw0]; rfl) h.log_ne
        · rintro ⟨b, c, s, h, -⟩; simp [outcomes] at h
      · intro n h; exact absurd (by rw [← hw0]; rfl) h) (by
      intro calls c ih hno
      have hos : outcomes O env (calls ++ [c]) w0 = outcomes O env calls w0 ++
          [(c, (exec O (c.prog env) (runCalls Store.impl O env calls w0)).1)] := outcomes_append ..
      rw [hos] at hno ⊢
      obtain ⟨i1, i2⟩ := ih (fun b o s h => hno b o (s ++ [_]) (by rw [h, List.append_assoc]; rfl))
      rcases hr : exec O (c.prog env) (runCalls Store.impl O env calls w0) with ⟨r, w'⟩
      rw [hr] at hno
      obtain ⟨s1, s2⟩ := kept_step (hreach calls) hr i2 (by
        intro n x k b m hc
        rw [i1]
        exact hno _ _ [] rfl n x k b m hc)
      refine ⟨fun n => ?_, s2⟩
      rw [s1, AddedAndKept.concat, i1]) calls
  refine ⟨_, listed_eq .., ?_, ?_, ?_⟩
  · exact (pairwise_sorted _).imp fun h => (strLe_iff _ _).mp h
  · exact nodup_sorted.mpr (nodup_stripPrefix (hreach calls).wf.1)
  · intro hno n
    obtain ⟨m1, m2⟩ := main hno
    rw [mem_listed (O := O) (hreach calls).wf (listed_eq ..), ← m1]
    exact ⟨m2 n, Configured.log_ne⟩

/-- "a" and "b" are added, "a" is deleted, "b" is added again -/
def Concrete.history : List ApiCall := [Concrete.addA, Concrete.addB, .delAccount (str!"a"), Concrete.addB]

theorem Concrete.outcomes_history : outcomes Concrete.oracle Concrete.env Concrete.history Concrete.world0 =
    [(Concrete.addA, .ok ()), (Concrete.addB, .ok ()), (.delAccount (str!"a"), .ok ()), (Concrete.addB, .error .accountExists)] := by
  have e1 : (exec Concrete.oracle (Concrete.addA.prog Concrete.env) (Concrete.after [])).1 = .ok () :=
    Except.eq_ok_of_toOption (by decide +kernel)
  have e2 : (exec Concrete.oracle (Concrete.addB.prog Concrete.env) (Concrete.after [Concrete.addA])).1 = .ok () :=
    Except.eq_ok_of_toOption (by decide +kernel)
  have e3 : (exec Concrete.oracle ((ApiCall.delAccount (str!"a")).prog Concrete.env) (Concrete.after [Concrete.addA, Concrete.addB])).1 =
    .ok () := Except.eq_ok_of_toOption (by decide +kernel)
  have e4 : (exec Concrete.oracle (Concrete.addB.prog Concrete.env)
      (Concrete.after [Concrete.addA, Concrete.addB, .delAccount (str!"a")])).1 = .error .accountExists :=
    Except.eq_error_of_exc? (by decide +kernel)
  show [(_, (exec _ _ (Concrete.after [])).1), (_, (exec _ _ (Concrete.after [Concrete.addA])).1),
    (_, (exec _ _ (Concrete.after [Concrete.addA, Concrete.addB])).1),
    (_, (exec _ _ (Concrete.after [Concrete.addA, Concrete.addB, .delAccount (str!"a")])).1)] = _
  rw [e1, e2, e3, e4]

example : AddedAndKept (str!"b") (outcomes Concrete.oracle Concrete.env Concrete.history Concrete.world0) ∧
    ¬ AddedAndKept (str!"a") (outcomes Concrete.oracle Concrete.env Concrete.history Concrete.world0) ∧
    NoFailedCreation (outcomes Concrete.oracle Concrete.env Concrete.history Concrete.world0) := by
  rw [Concrete.outcomes_history]
  refine ⟨⟨[_], _, [_, _], rfl, ⟨rfl, _, _, _, _, rfl⟩, ?_⟩, ?_, ?_⟩
  · simp [Drops, Concrete.addB]
  · show ¬ AddedAndKept (str!"a") ([(Concrete.addA, .ok ()), (Concrete.addB, .ok ())] ++ [(.delAccount (str!"a"), .ok ())] ++
      [(Concrete.addB, .error .accountExists)])
    rw [AddedAndKept.concat, AddedAndKept.concat]
    simp [Adds, Drops, Concrete.addB]
  · intro before o since h n r k b m ho
    match before, h with
    | [], h => cases h; exact Or.inl rfl
    | [_], h => cases h; exact Or.inl rfl
    | [_, _], h => cases h; cases ho
    | [_, _, _], h =>
      cases h; cases ho
      exact Or.inr ⟨[_], _, [_], rfl, ⟨rfl, _, _, _, _, rfl⟩, by simp [Drops]⟩
    | _ :: _ :: _ :: _ :: _, h => simp at h

end Verif
