import Verif.Props.ReadOnly
import Verif.Props.EncryptCourse
/-!
# What opening and creating accounts does
-/
namespace Verif

variable {K : Type}

/-- an account of that name exists: it has settings and a key -/
def Configured (w : World Store K) (n : Str) : Prop :=
  (∃ c, Entry.cfg c ∈ w.log (ownHead n)) ∧ ∃ k, Entry.keygen k ∈ w.log (ownHead n)

/-- plugins were told about the account -/
def Event.instantiate (env : Env) (n : Str) (ret : Except Exc Unit) : Event := ⟨.hookInstantiate (env.dir ++ str!"/" ++ n), ret⟩

theorem Newest.of_mem {α : Type} {P : α → Prop} {l : List α} {x : α} (hx : x ∈ l) (hp : P x) : ∃ y, Newest P l y := by
  induction l with
  | nil => cases hx
  | cons a l ih =>
    by_cases ha : P a
    · exact ⟨a, [], l, rfl, ha, by simp⟩
    · rcases List.mem_cons.mp hx with rfl | hx
      · exact absurd hp ha
      · obtain ⟨y, n, o, h1, h2, h3⟩ := ih hx
        refine ⟨y, a :: n, o, by rw [h1]; rfl, h2, ?_⟩
        intro z hz
        rcases List.mem_cons.mp hz with rfl | hz
        · exact ha
        · exact h3 z hz

theorem Newest.mem {α : Type} {P : α → Prop} {l : List α} {x : α} (h : Newest P l x) : x ∈ l := by
  obtain ⟨n, o, rfl, _⟩ := h; simp

theorem isConfigured_iff {w : World Store K} {n : Str} : Own.isConfigured (w.log (ownHead n)) = true ↔ Configured w n := by
  unfold Own.isConfigured Configured
  rw [Bool.and_eq_true, Option.isSome_iff_exists, Option.isSome_iff_exists]
  constructor
  · rintro ⟨⟨c, hc⟩, k, hk⟩
    exact ⟨⟨c, (latestConfig_iff.mp hc).mem⟩, k, (latestKeygen_iff.mp hk).mem⟩
  · rintro ⟨⟨c, hc⟩, k, hk⟩
    obtain ⟨y, hy⟩ := Newest.of_mem (P := fun e => ∃ c, e = Entry.cfg c) hc ⟨c, rfl⟩
    obtain ⟨z, hz⟩ := Newest.of_mem (P := fun e => ∃ k, e = Entry.keygen k) hk ⟨k, rfl⟩
    obtain ⟨c', rfl⟩ : ∃ c', y = Entry.cfg c' := by obtain ⟨_, _, _, h, _⟩ := hy; exact h
    obtain ⟨k', rfl⟩ : ∃ c', z = Entry.keygen c' := by obtain ⟨_, _, _, h, _⟩ := hz; exact h
    exact ⟨⟨c', latestConfig_iff.mpr hy⟩, k', latestKeygen_iff.mpr hz⟩

theorem Configured.conf {w : World Store K} {n : Str} (h : Configured w n) : ∃ c, OwnConf w n c := by
  obtain ⟨⟨c, hc⟩, _⟩ := h
  obtain ⟨y, hy⟩ := Newest.of_mem (P := fun e => ∃ c, e = Entry.cfg c) hc ⟨c, rfl⟩
  obtain ⟨c', rfl⟩ : ∃ c', y = Entry.cfg c' := by obtain ⟨_, _, _, h, _⟩ := hy; exact h
  exact ⟨c', hy⟩

theorem OwnConf.mem {w : World Store K} {n : Str} {c : OwnConfig} (h : OwnConf w n c) : Entry.cfg c ∈ w.log (ownHead n) := Newest.mem h

/-- the store after the manager was initialised if need be -/
def initStore (s : Store) : Store := if (Mgr.version (s.get managerHead)).isNone then s.push managerHead (.acfg (str!"0.1")) else s

theorem run_chain (O : Oracle K) (h : Str) (w : World Store K) :
    run Store.impl O (Prog.chain h) w = (.ok (w.store.get h), w) := rfl
theorem run_append (O : Oracle K) (h : Str) (e : Entry) (w : World Store K) :
    run Store.impl O (Prog.append h e) w = (.ok (), { w with store := w.store.push h e, tick := w.tick + 1 }) := rfl

theorem exec_ensureInit (O : Oracle K) (w : World Store K) :
    ∃ w1, exec O Manager.ensureInit w = (.ok (), w1) ∧ w1.store = initStore w.store ∧ w1.trace = w.trace ∧ w1.clock = w.clock := by
  unfold Manager.ensureInit Manager.init Mgr.setVersion exec initStore
  simp only [bind_eq, pure_eq]
  rw [run_bind, run_chain]
  dsimp only
  cases h : Mgr.version (w.store.get managerHead) with
  | some v => exact ⟨w, rfl, rfl, rfl, rfl⟩
  | none =>
    simp only [Option.isSome_none, Bool.false_eq_true, if_false, run_bind, run_chain, h, Option.isNone_none, run_assert, if_true, run_append]
    exact ⟨_, rfl, rfl, rfl, rfl⟩

theorem get_initStore {s : Store} {h : Str} (hne : h ≠ managerHead) : (initStore s).get h = s.get h := by
  unfold initStore
  split
  · rw [Store.get_push, if_neg hne]
  · rfl

theorem initStore_of_initialised {w : World Store K} (h : Initialised w) : initStore w.store = w.store := by
  obtain ⟨v, hv⟩ := h
  have := version_isSome hv
  unfold World.log at this
  unfold initStore; rw [this]; rfl

theorem run_hookInstantiate (O : Oracle K) (env : Env) (n : Str) (w : World Store K) :
    ∃ (ret : Except Exc Unit) (w' : World Store K), exec O (Prog.hookInstantiate (env.dir ++ str!"/" ++ n)) w = (ret, w') ∧
      w'.trace = Event.instantiate env n ret :: w.trace ∧ w'.store = w.store ∧ w'.clock = w.clock ∧ w'.tick = w.tick ∧
      ret = (O.step (.hookInstantiate (env.dir ++ str!"/" ++ n)) w.env).1 :=
  ⟨(O.step (.hookInstantiate (env.dir ++ str!"/" ++ n)) w.env).1,
   { w with env := (O.step (.hookInstantiate (env.dir ++ str!"/" ++ n)) w.env).2,
            trace := Event.instantiate env n (O.step (.hookInstantiate (env.dir ++ str!"/" ++ n)) w.env).1 :: w.trace },
   run_ofExcept .., rfl, rfl, rfl, rfl, rfl⟩

/-- outcomes of `get_account` -/
inductive GetCourse (env : Env) (w : World Store K) (n : Str) (check : Bool) (w' : World Store K) : Except Exc Str → Prop
  | badName : env.isalnum n = false → w'.trace = w.trace → GetCourse env w n check w' (.error .assertionError)
  | notFound : env.isalnum n = true → check = true → ¬ Configured w n → w'.trace = w.trace →
      GetCourse env w n check w' (.error .accountNotFound)
  | plugin (e) : env.isalnum n = true → (check = true → Configured w n) → w'.trace = Event.instantiate env n (.error e) :: w.trace →
      GetCourse env w n check w' (.error e)
  | opened : env.isalnum n = true → (check = true → Configured w n) → w'.trace = Event.instantiate env n (.ok ()) :: w.trace →
      GetCourse env w n check w' (.ok n)

theorem getAccount_course {O : Oracle K} {env : Env} {n : Str} {check : Bool} {w w' : World Store K} {r : Except Exc Str}
    (h : exec O (Manager.getAccount env n check) w = (r, w')) : w'.store = initStore w.store ∧ GetCourse env w n check w' r := by
  obtain ⟨w1, h1, hst, htr, _⟩ := exec_ensureInit O w
  unfold Manager.getAccount Manager.account exec at h
  simp only [bind_eq, pure_eq] at h
  simp only [exec] at h1
  rw [run_bind, h1] at h
  dsimp only at h
  rw [run_bind, run_assert] at h
  cases hn : env.isalnum n with
  | false =>
    rw [hn, if_neg (by simp)] at h
    cases h; exact ⟨hst, .badName hn htr⟩
  | true =>
  rw [hn, if_pos rfl] at h
  dsimp only at h
  have hconf : Own.isConfigured (w1.store.get (ownHead n)) = true ↔ Configured w n := by
    rw [← isConfigured_iff]; unfold World.log
    rw [hst, get_initStore (ownHead_ne_managerHead n)]
  have hrest : ∀ ok, (ok = true → (check = true → Configured w n)) → (ok = false → check = true ∧ ¬ Configured w n) →
      run Store.impl O (if ok = true then (Prog.hookInstantiate (env.dir ++ str!"/" ++ n)).bind fun _ => Prog.pure n
        else Prog.raise .accountNotFound) w1 = (r, w') → w'.store = initStore w.store ∧ GetCourse env w n check w' r := by
    intro ok hok hno h
    cases ok with
    | false => cases h; exact ⟨hst, .notFound hn (hno rfl).1 (hno rfl).2 htr⟩
    | true =>
      rw [if_pos rfl, run_bind] at h
      obtain ⟨ret, w2, hh, htr2, hst2, _⟩ := run_hookInstantiate O env n w1
      simp only [exec] at hh
      rw [hh] at h
      cases ret with
      | error e => cases h; exact ⟨hst2.trans hst, .plugin e hn (hok rfl) (by rw [htr2, htr])⟩
      | ok u => cases h; exact ⟨hst2.trans hst, .opened hn (hok rfl) (by rw [htr2, htr])⟩
  rw [run_bind] at h
  cases check with
  | false => exact hrest true (fun _ h => by cases h) (fun h => by cases h) h
  | true =>
    unfold Account.exists_ at h
    simp only [if_true, bind_eq, pure_eq, run_bind, run_chain, run_pure] at h
    refine hrest (Own.isConfigured (w1.store.get (ownHead n))) (fun h' _ => hconf.mp h') (fun h' => ⟨rfl, ?_⟩) h
    rw [← hconf, h']; simp

end Verif
