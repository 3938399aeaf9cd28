import Verif.Props.OwnKept
import Verif.Props.AccountHistory

/-!
C51 over histories in which commands are run and calls and commands are interrupted (`states.py:71-77`, `account.py:112-159`).
-/
namespace Verif
open Mime

variable {K : Type}

/-- the account `n` is listed -/
def Listed (O : Oracle K) (w : World Store K) (n : Str) : Prop := ∃ l, listed O w = .ok l ∧ n ∈ l

/-- an account named `n` is added by `c` -/
def ApiCall.AddsAccount (n : Str) (c : ApiCall) : Prop := ∃ regex kh bin mode, c = .addAccount n regex kh bin mode

theorem Reachable.listed_iff {O : Oracle K} {env : Env} {w : World Store K} (hw : Reachable O env w) (n : Str) :
    Listed O w n ↔ w.log (ownHead n) ≠ [] :=
  ⟨fun ⟨_, h1, h2⟩ => (mem_listed hw.wf h1 n).mp h2, fun h => ⟨_, listed_eq .., (mem_listed (O := O) hw.wf (listed_eq ..) n).mpr h⟩⟩

/-- a call which does not add the account leaves it without a chain, also if it is interrupted -/
theorem call_unlisted {O : Oracle K} {env : Env} {n : Str} (hn : env.isalnum n = true) {c : ApiCall} (hc : ¬ c.AddsAccount n)
    {w : World Store K} (h : w.log (ownHead n) = []) (i : Nat) : (runFor Store.impl O i (c.prog env) w).log (ownHead n) = [] := by
  by_cases hs : c.Sets n
  · cases c with
    | addAccount n' regex kh bin mode => cases hs; exact absurd ⟨_, _, _, _, rfl⟩ hc
    | modAccount n' regex kh bin pe =>
      cases hs
      have hact : ∀ a, (ApiCall.modAccount n regex kh bin pe).acts env a → ∀ w : World Store K,
          w.log (ownHead n) <:+ (exec O a.prog w).2.log (ownHead n) := by
        intro a ha w
        obtain ⟨h1, h2⟩ := act_of_call ha
        exact act_suffix O a w _ (fun m hm => (by cases h1 m hm)) (fun hw => (by cases h2 hw))
      have hi := (safe_call env (.modAccount n regex kh bin pe)).killed_suffix (O := O) hact i w
      have e : (exec O ((ApiCall.modAccount n regex kh bin pe).prog env) w).2 = (exec O (Manager.modAccount env n regex kh bin pe) w).2 :=
        exec_void ..
      have hu : (exec O (Manager.modAccount env n regex kh bin pe) w).2.log (ownHead n) = [] := by
        have hc : ¬ Configured w n := fun hh => hh.log_ne h
        have hg := getAccount_unknown (O := O) hn hc
        rcases hr : exec O (Manager.getAccount env n) w with ⟨r, w1⟩
        obtain ⟨hst, -⟩ := getAccount_course hr
        rw [hr] at hg
        cases hg
        unfold Manager.modAccount exec
        simp only [bind_eq]
        rw [run_bind, show run Store.impl O (Manager.getAccount env n) w = _ from hr]
        show w1.store.get (ownHead n) = []
        rw [hst, get_initStore (ownHead_ne_managerHead n)]; exact h
      rw [e, hu] at hi
      exact List.suffix_nil.mp hi
    | delAccount n' =>
      cases hs
      refine (safe_call env (.delAccount n)).respects_killed (R := fun w w' : World Store K => w.log (ownHead n) = [] → w'.log (ownHead n) = [])
        (fun _ _ _ h1 h2 h => h2 (h1 h)) (fun w w' hs _ _ _ => by simp only [World.log]; rw [hs]; exact id) ?_ i w h
      intro a ha w h
      rcases ha with ha | ⟨-, rfl⟩
      · have : a = .setVersion := by cases a <;> first | rfl | exact ha.elim
        subst this
        simp only [World.log] at h ⊢
        rw [get_act]; dsimp only
        rw [if_neg fun h => ownHead_ne_managerHead n h.1]; exact h
      · simp only [World.log] at h ⊢
        rw [get_act]; dsimp only
        split
        · rfl
        · exact h
    | removeAll =>
      refine (safe_call env .removeAll).respects_killed (R := fun w w' : World Store K => w.log (ownHead n) = [] → w'.log (ownHead n) = [])
        (fun _ _ _ h1 h2 h => h2 (h1 h)) (fun w w' hs _ _ _ => by simp only [World.log]; rw [hs]; exact id) ?_ i w h
      intro a ha w h
      cases ha
      simp only [World.log]
      rw [get_act]
    | _ => exact hs.elim
  · exact ((call_frame O hn c i w).1 hs).trans h

/-- C51: whatever happened, the list of account names can be had, is sorted and has no duplicates. -/
theorem C51_sorted {O : Oracle K} {env : Env} {w : World Store K} (hw : Reachable O env w) :
    ∃ l, listed O w = .ok l ∧ l.Pairwise (· ≤ ·) ∧ l.Nodup :=
  ⟨_, listed_eq .., (pairwise_sorted _).imp fun h => (strLe_iff _ _).mp h, nodup_sorted.mpr (nodup_stripPrefix hw.wf.1)⟩

/-- C51: an account which is listed stays listed, whatever calls and commands are run and wherever they are interrupted, unless it is deleted or everything
is reset. -/
theorem C51_stays {O : Oracle K} {env : Env} {w : World Store K} (hw : Reachable O env w) {n : Str} (h : Listed O w n) (hist : List (Happening K))
    (hh : ∀ c ∈ callsMade hist, ¬ c.removes n) : Listed O (runHistory Store.impl O env hist w) n := by
  have h1 := (hw.listed_iff n).mp h
  rw [(hw.runHistory hist).listed_iff]
  intro h2
  refine h1 (List.suffix_nil.mp ?_)
  rw [← h2]
  refine suffix_of_calls O env hist (ownHead n) (fun c hc => ⟨fun e => hh c hc (.inr e), fun m hm => ?_⟩) w
  rw [matchAccount_ownHead (colon_not_mem_of_isalnum (hw.own_alnum h1)), decide_eq_false_iff_not]
  rintro rfl
  exact hh c hc (.inl hm)

/-- C51: an account which is listed was listed before or one of this name was added, by a call which may have been interrupted or failed. -/
theorem C51_source {O : Oracle K} {env : Env} {w : World Store K} (hw : Reachable O env w) {n : Str} (hist : List (Happening K))
    (h : Listed O (runHistory Store.impl O env hist w) n) : Listed O w n ∨ ∃ c ∈ callsMade hist, c.AddsAccount n := by
  have h1 := ((hw.runHistory hist).listed_iff n).mp h
  have hn := (hw.runHistory hist).own_alnum h1
  by_cases hc : ∃ c ∈ callsMade hist, c.AddsAccount n
  · exact .inr hc
  · refine .inl ((hw.listed_iff n).mpr fun h0 => h1 ?_)
    refine runHistory_ind (P := fun w => w.log (ownHead n) = []) hist ?_ ?_ w h0
    · intro w w' hq h; simp only [World.log] at h ⊢; rw [hq.1]; exact h
    · intro c hm i w h; exact call_unlisted hn (fun ha => hc ⟨c, hm, ha⟩) h i

/-- C51: so an account which was deleted is not listed until one of this name is added. -/
theorem C51_deleted {O : Oracle K} {env : Env} {w w' : World Store K} (hw : Reachable O env w) {n : Str}
    (h : exec O (Manager.delAccount env n) w = (.ok (), w')) (hist : List (Happening K)) (hh : ∀ c ∈ callsMade hist, ¬ c.AddsAccount n) :
    ¬ Listed O (runHistory Store.impl O env hist w') n := by
  have hw' : Reachable O env w' := by
    have := hw.runHistory [.call (.delAccount n)]
    rwa [show runHistory Store.impl O env [.call (.delAccount n)] w = w' from congrArg Prod.snd h] at this
  intro hl
  rcases C51_source hw' hist hl with ⟨l, h1, h2⟩ | ⟨c, hc, ha⟩
  · rcases hg : exec O (Manager.getAccount env n) w with ⟨x, w1⟩
    have hco := (getAccount_course hg).2
    cases x with
    | error e =>
      unfold Manager.delAccount exec at h
      simp only [bind_eq] at h
      rw [run_bind, show run Store.impl O (Manager.getAccount env n) w = _ from hg] at h
      cases h
    | ok m =>
      cases hco with
      | opened _ hcf => exact (delAccount_opened hw (hcf rfl) (by rw [hg]) h).2.2.1 l h1 h2
  · exact hh c hc ha

/-- a second account is begun but not finished, mail arrives, and the deletion of a third one fails -/
def Concrete.meanwhile : List (Happening Unit) :=
  [.killed Concrete.addB 8, .call (Concrete.recv Concrete.bob (str!"1") (str!"100") [7]), .call (.delAccount (str!"c"))]

example : Listed Concrete.oracle (Concrete.after [Concrete.addA]) (str!"a") ∧
    (∀ c ∈ callsMade Concrete.meanwhile, ¬ c.removes (str!"a")) ∧
    listed Concrete.oracle (runHistory Store.impl Concrete.oracle Concrete.env Concrete.meanwhile (Concrete.after [Concrete.addA])) =
      .ok [str!"a", str!"b"] := by
  refine ⟨⟨[str!"a"], ?_, List.mem_singleton.mpr rfl⟩, ?_, ?_⟩
  · rw [listed_eq]; exact congrArg Except.ok (by decide +kernel)
  · rintro c ⟨h, hm, hc⟩
    simp only [Concrete.meanwhile, List.mem_cons, List.not_mem_nil, or_false] at hm
    rcases hm with rfl | rfl | rfl <;> cases hc <;> simp [ApiCall.removes, Concrete.addB, Concrete.recv]
  · rw [listed_eq]; exact congrArg Except.ok (by decide +kernel)

example : (exec Concrete.oracle (Manager.delAccount Concrete.env (str!"a")) (Concrete.after [Concrete.addA])).1.toOption = some () ∧
    ∀ c ∈ callsMade Concrete.meanwhile, ¬ c.AddsAccount (str!"a") := by
  refine ⟨by decide +kernel, ?_⟩
  rintro c ⟨h, hm, hc⟩
  simp only [Concrete.meanwhile, List.mem_cons, List.not_mem_nil, or_false] at hm
  rcases hm with rfl | rfl | rfl <;> cases hc <;> simp [ApiCall.AddsAccount, Concrete.addB, Concrete.recv]

end Verif
