import Verif.Lemmas.Composed
import Verif.Lemmas.Names
/-!
# Invariants of reachable states
-/
namespace Verif

variable {K : Type}

/-- an invariant of stores which holds initially and under all updates of all calls holds after every history -/
theorem runHistory_inv {O : Oracle K} {env : Env} {I : Store → Prop} (hist : List (Happening K))
    (hact : ∀ c ∈ callsMade hist, ∀ a, ApiCall.acts env c a → ∀ w : World Store K, I w.store → I (exec O a.prog w).2.store)
    (w : World Store K) (hw : I w.store) : I (runHistory Store.impl O env hist w).store := by
  refine runHistory_respects (R := fun w w' => I w.store → I w'.store) (fun _ _ _ h1 h2 h => h2 (h1 h)) ?_ hist ?_ w hw
  · intro w w' h _ _ _ hI; rw [h]; exact hI
  · intro c hc a ha w hI; exact hact c hc a ha w hI

/-- an invariant of stores which holds initially and under all updates of all calls holds in all reachable
states -/
theorem runCalls_inv {O : Oracle K} {env : Env} {I : Store → Prop} (calls : List ApiCall)
    (hact : ∀ c ∈ calls, ∀ a, ApiCall.acts env c a → ∀ w : World Store K, I w.store → I (exec O a.prog w).2.store)
    (w : World Store K) (hw : I w.store) : I (runCalls Store.impl O env calls w).store := by
  refine runCalls_respects (R := fun w w' => I w.store → I w'.store) (fun _ _ _ h1 h2 h => h2 (h1 h)) ?_ calls ?_ w hw
  · intro w w' h _ _ _ hI; rw [h]; exact hI
  · intro c hc a ha w hI; exact hact c hc a ha w hI

theorem reachable_inv {O : Oracle K} {env : Env} {I : Store → Prop} (h0 : I [])
    (hact : ∀ c a, ApiCall.acts env c a → ∀ w : World Store K, I w.store → I (exec O a.prog w).2.store)
    {w : World Store K} (hw : Reachable O env w) : I w.store := by
  obtain ⟨clock, k, hist, rfl⟩ := hw
  exact runHistory_inv hist (fun c _ => hact c) _ h0

theorem runCalls_append {σ : Type} {S : StoreImpl σ} {O : Oracle K} {env : Env} (l1 l2 : List ApiCall) (w : World σ K) :
    runCalls S O env (l1 ++ l2) w = runCalls S O env l2 (runCalls S O env l1 w) := by
  induction l1 generalizing w with
  | nil => rfl
  | cons c l1 ih => exact ih _

theorem Reachable.runCalls {O : Oracle K} {env : Env} {w : World Store K} (hw : Reachable O env w)
    (calls : List ApiCall) : Reachable O env (runCalls Store.impl O env calls w) := by
  obtain ⟨clock, k, hist, rfl⟩ := hw
  exact ⟨clock, k, hist ++ calls.map .call, by rw [runHistory_append, runHistory_calls]⟩

theorem Reachable.runHistory {O : Oracle K} {env : Env} {w : World Store K} (hw : Reachable O env w)
    (hist : List (Happening K)) : Reachable O env (runHistory Store.impl O env hist w) := by
  obtain ⟨clock, k, hist', rfl⟩ := hw
  exact ⟨clock, k, hist' ++ hist, by rw [runHistory_append]⟩

/-- states reached by calls none of which was interrupted -/
theorem Reachable.of_calls {O : Oracle K} {env : Env} {clock : Nat → Time} {k : K} (calls : List ApiCall) :
    Reachable O env (Verif.runCalls Store.impl O env calls ⟨[], clock, 0, k, []⟩) :=
  ⟨clock, k, calls.map .call, by rw [runHistory_calls]⟩

/-! ## stores after single updates -/

/-- the store after an update -/
theorem store_act (O : Oracle K) (a : Act) (w : World Store K) :
    (exec O a.prog w).2.store = match a with
      | .msg n ad u => (match Peer.updateEntry (w.store.get (peerHead n ad)) u with
        | .ok (some e) => w.store.push (peerHead n ad) (.msg e)
        | _ => w.store)
      | .gossip n ad u => (match Peer.gossipEntry (w.store.get (peerHead n ad)) u with
        | .ok (some e) => w.store.push (peerHead n ad) (.gossip e)
        | _ => w.store)
      | .cfg n c => w.store.push (ownHead n) (.cfg c)
      | .keygen n k => w.store.push (ownHead n) (.keygen k)
      | .oob n v => w.store.push (oobHead n) (.oob v)
      | .setVersion => if (Mgr.version (w.store.get managerHead)).isNone
          then w.store.push managerHead (.acfg (str!"0.1")) else w.store
      | .removeAccount n => w.store.removeIf (matchAccount n)
      | .wipe => [] := by
  cases a with
  | msg n ad u =>
    simp only [Act.prog, Peer.exec_updateFromMsg]
    rcases Peer.updateEntry (w.store.get (peerHead n ad)) u with e | (_ | e) <;> rfl
  | gossip n ad u =>
    simp only [Act.prog, Peer.exec_updateFromGossip]
    rcases Peer.gossipEntry (w.store.get (peerHead n ad)) u with e | (_ | e) <;> rfl
  | cfg n c => rfl
  | keygen n k => rfl
  | oob n v => rfl
  | setVersion =>
    simp only [Act.prog, Mgr.setVersion, bind_eq, exec, run_bind]
    rw [show run Store.impl O (Prog.chain managerHead) w = (.ok (w.store.get managerHead), w) from rfl]
    simp only [run_assert]
    split <;> rename_i h
    · split at h <;> cases h
      rename_i hn; rw [if_pos hn]; rfl
    · split at h <;> cases h
      rename_i hn; rw [if_neg hn]
  | removeAccount n => rfl
  | wipe => rfl

/-- the log of a head after an update -/
theorem get_act (O : Oracle K) (a : Act) (w : World Store K) (h : Str) :
    (exec O a.prog w).2.store.get h = match a with
      | .msg n ad u => if h = peerHead n ad then Peer.applyMsg (w.store.get h) u else w.store.get h
      | .gossip n ad u => if h = peerHead n ad then Peer.applyGossip (w.store.get h) u else w.store.get h
      | .cfg n c => if h = ownHead n then .cfg c :: w.store.get h else w.store.get h
      | .keygen n k => if h = ownHead n then .keygen k :: w.store.get h else w.store.get h
      | .oob n v => if h = oobHead n then .oob v :: w.store.get h else w.store.get h
      | .setVersion => if h = managerHead ∧ (Mgr.version (w.store.get h)).isNone
          then .acfg (str!"0.1") :: w.store.get h else w.store.get h
      | .removeAccount n => if matchAccount n h then [] else w.store.get h
      | .wipe => [] := by
  cases a with
  | msg n ad u =>
    simp only [Act.prog, Peer.get_updateFromMsg]
    split
    · next hh => rw [hh]
    · rfl
  | gossip n ad u =>
    simp only [Act.prog, Peer.get_updateFromGossip]
    split
    · next hh => rw [hh]
    · rfl
  | cfg n c => rw [store_act]; exact Store.get_push ..
  | keygen n c => rw [store_act]; exact Store.get_push ..
  | oob n c => rw [store_act]; exact Store.get_push ..
  | setVersion =>
    rw [store_act]; dsimp only
    by_cases hh : h = managerHead
    · subst hh
      by_cases hv : (Mgr.version (w.store.get managerHead)).isNone = true
      · simp [hv, Store.get_push]
      · simp [hv]
    · by_cases hv : (Mgr.version (w.store.get managerHead)).isNone = true
      · simp [hv, Store.get_push, hh]
      · simp [hv, hh]
  | removeAccount n => rw [store_act]; exact Store.get_removeIf ..
  | wipe => rw [store_act]; rfl

/-- logs are never empty and names unique -/
def Store.Wf (s : Store) : Prop := s.names.Nodup ∧ ∀ h, h ∈ s.names ↔ s.get h ≠ []

theorem Store.Wf.nil : Store.Wf [] := ⟨List.nodup_nil, by intro h; simp [Store.names]⟩

theorem Store.Wf.push {s : Store} (hs : s.Wf) (h : Str) (e : Entry) : (s.push h e).Wf := by
  refine ⟨Store.nodup_push hs.1 h e, ?_⟩
  intro h'
  rw [Store.mem_names_push, Store.get_push]
  split
  · simp [*]
  · rename_i hne; simp [hne, hs.2]

theorem Store.Wf.removeIf {s : Store} (hs : s.Wf) (p : Str → Bool) : (s.removeIf p).Wf := by
  refine ⟨Store.nodup_removeIf hs.1 p, ?_⟩
  intro h'
  rw [Store.mem_names_removeIf, Store.get_removeIf, hs.2]
  cases p h' <;> simp

theorem Store.Wf.act {O : Oracle K} (a : Act) {w : World Store K} (hw : w.store.Wf) :
    (exec O a.prog w).2.store.Wf := by
  rw [store_act]
  cases a <;> dsimp only
  · split
    · exact hw.push _ _
    · exact hw
  · split
    · exact hw.push _ _
    · exact hw
  · exact hw.push _ _
  · exact hw.push _ _
  · exact hw.push _ _
  · split
    · exact hw.push _ _
    · exact hw
  · exact hw.removeIf _
  · exact .nil

theorem Reachable.wf {O : Oracle K} {env : Env} {w : World Store K} (hw : Reachable O env w) : w.store.Wf :=
  reachable_inv .nil (fun _ a _ _ h => Store.Wf.act a h) hw

end Verif
