import Verif.Props.Removal
import Verif.Lemmas.Reach
import Verif.Spec.Concrete
/-!
# C97: a process which dies within a call

`C03` is about single appends. Here the process dies at any point of a call of the public interface, between file operations or within
one.
-/
namespace Verif

open Chainstore

variable {c : Codec} {K : Type}

/-- the heads file is a proper beginning of a serialized dictionary -/
def TornHeads (c : Codec) (d : Disk) : Prop := ∃ hs pre, pre <+: c.dumpDict hs ∧ pre ≠ c.dumpDict hs ∧ d.heads = some pre

/-- a block file which `d` has is a proper beginning of what it was -/
def TornBlock (d d' : Disk) : Prop := ∃ cid b pre, Disk.lookup d.blocks cid = some b ∧ pre <+: b ∧ pre ≠ b ∧ d' = d.torn (.block cid) pre

theorem removeIf_crash (hl : c.Lawful) {d d' : Disk} {s : Store} (h : Represents c d s) (p : Str → Bool)
    (hcrash : (Chainstore.removeIf c p).Crash c 0 d d') : Represents c d' s ∨ Represents c d' (s.removeIf p) ∨ TornHeads c d' := by
  have hrep := h
  obtain ⟨hnd, hs, hh, hf⟩ := h
  have hfin : Represents c (d.write c .heads (c.dumpDict (hs.filter (fun x => !p x.1)))) (s.removeIf p) := by
    have hrun : (Disk.impl c).removeIf d p = (.ok (), d.write c .heads (c.dumpDict (hs.filter (fun x => !p x.1)))) := by
      simp [Disk.impl, Chainstore.removeIf, FProg.run_bind, run_getheads hh]
    have := (impl_removeIf hl hrep p).2.1
    rwa [hrun] at this
  rcases FProg.crash_bind hcrash with g | ⟨hs', d1, g1, g2⟩
  · exact Or.inl (getheads_readOnly.crash g ▸ hrep)
  · rw [run_getheads hh] at g1
    cases g1
    rcases g2 with g | g | g
    · exact Or.inl (g ▸ hrep)
    · obtain ⟨pre, g5, g6⟩ := g
      by_cases hp : pre = c.dumpDict (hs.filter (fun x => !p x.1))
      · subst hp
        refine Or.inr (Or.inl ?_)
        obtain ⟨k1, k2, k3, k4⟩ := hfin
        exact ⟨k1, k2, by unfold HeadsAre; rw [g6]; exact k3, by rw [g6]; exact k4⟩
      · exact Or.inr (Or.inr ⟨_, pre, g5, hp, by rw [g6]; rfl⟩)
    · exact Or.inr (Or.inl (by cases g; exact hfin))

theorem prog_crash (hl : c.Lawful) (O : Oracle K) {α : Type} (p : Prog α) {w : World Disk K} {v : World Store K}
    (hw : SameWorld c w v) (hnc : (run (Disk.impl c) O p w).2.store.collided = false) {d' : Disk} (hcrash : p.Crash c O w d') :
    (∃ n, Represents c d' (runFor Store.impl O n p v).store) ∨ TornHeads c d' ∨ (∃ n, TornBlock (runFor (Disk.impl c) O n p w).store d') ∨
    ¬ p.AllOps Op.notWipe ∧ ∃ n ps, d' = (runFor (Disk.impl c) O n p w).store.removing ps ∧
      Represents c (runFor (Disk.impl c) O n p w).store (runFor Store.impl O n p v).store := by
  induction p generalizing w v with
  | pure a => exact Or.inl ⟨0, by rw [show d' = w.store from hcrash]; exact hw.store⟩
  | raise a => exact Or.inl ⟨0, by rw [show d' = w.store from hcrash]; exact hw.store⟩
  | op o k ih =>
    have start : d' = w.store → ∃ n, Represents c d' (runFor Store.impl O n (.op o k) v).store := fun h => ⟨0, h ▸ hw.store⟩
    have hc1 : (step (Disk.impl c) O o w).2.store.collided = false := run_collided O _ _ hnc
    have hst := step_same hl O o hw hc1
    rcases hcrash with h | h | h
    · exact Or.inl (start h)
    · cases o with
      | append n e =>
        have hs1 : (runFor Store.impl O 1 (.op (.append n e) k) v).store = v.store.push n e := by
          simp only [runFor]; cases k (step Store.impl O (.append n e) v).1 <;> rfl
        rcases C03_crash_partial hl hw.store n e _ hc1 h with h | h | h | h
        · exact Or.inl ⟨0, h⟩
        · exact Or.inl ⟨1, by rw [hs1]; exact h⟩
        · obtain ⟨hs, pre, g1, g2, g3, -⟩ := h
          exact Or.inr (Or.inl ⟨hs, pre, g1, g2, g3⟩)
        · obtain ⟨_, cid, b, pre, -, g1, g2, g3, g4⟩ := h
          exact Or.inr (Or.inr (Or.inl ⟨0, cid, b, pre, g1, g2, g3, g4⟩))
      | removeIf q =>
        have hs1 : (runFor Store.impl O 1 (.op (.removeIf q) k) v).store = v.store.removeIf q := by
          simp only [runFor]; cases k (step Store.impl O (.removeIf q) v).1 <;> rfl
        rcases removeIf_crash hl hw.store q h with h | h | h
        · exact Or.inl ⟨0, h⟩
        · exact Or.inl ⟨1, by rw [hs1]; exact h⟩
        · exact Or.inr (Or.inl h)
      | wipe =>
        obtain ⟨ps, h⟩ := h
        exact Or.inr (Or.inr (Or.inr ⟨fun hp => hp.1, 0, ps, h, hw.store⟩))
      | now => exact Or.inl (start h)
      | chain _ => exact Or.inl (start h)
      | heads => exact Or.inl (start h)
      | ext _ => exact Or.inl (start h)
    · rw [hst.1] at h
      have hnc' : (run (Disk.impl c) O (k (step Store.impl O o v).1) (step (Disk.impl c) O o w).2).2.store.collided = false := by
        rw [← hst.1]; exact hnc
      rcases ih _ hst.2 hnc' h with ⟨n, h⟩ | h | ⟨n, h⟩ | ⟨hn, n, ps, h1, h2⟩
      · exact Or.inl ⟨n + 1, h⟩
      · exact Or.inr (Or.inl h)
      · refine Or.inr (Or.inr (Or.inl ⟨n + 1, ?_⟩))
        show TornBlock (runFor (Disk.impl c) O n (k (step (Disk.impl c) O o w).1) _).store d'
        rw [hst.1]; exact h
      · refine Or.inr (Or.inr (Or.inr ⟨fun hp => hn (hp.2 _), n + 1, ps, ?_⟩))
        show d' = (runFor (Disk.impl c) O n (k (step (Disk.impl c) O o w).1) _).store.removing ps ∧
          Represents c (runFor (Disk.impl c) O n (k (step (Disk.impl c) O o w).1) _).store (runFor Store.impl O n (k (step Store.impl O o v).1) _).store
        rw [hst.1]; exact ⟨h1, h2⟩

theorem Safe.notWipe {A : Act → Prop} {α : Type} {p : Prog α} (hp : Safe A p) (hA : ∀ a, A a → a ≠ .wipe) : p.AllOps Op.notWipe := by
  induction hp with
  | ro h => exact h.mono fun o ho => by cases o <;> trivial
  | act a h =>
    cases a with
    | msg n ad u =>
      refine .bind (.chain trivial) fun _ => .bind (.ofExcept _) fun r => ?_
      cases r with
      | none => trivial
      | some e => exact .append trivial
    | gossip n ad u =>
      refine .bind (.chain trivial) fun _ => .bind (.ofExcept _) fun r => ?_
      cases r with
      | none => trivial
      | some e => exact .append trivial
    | cfg n c => exact .append trivial
    | keygen n k => exact .append trivial
    | oob n v => exact .append trivial
    | setVersion => exact .bind (.chain trivial) fun _ => .bind (.assert _) fun _ => .append trivial
    | removeAccount n => exact ⟨trivial, fun _ => .ofExcept _⟩
    | wipe => exact absurd rfl (hA _ h)
  | bindQ Q _ hq _ ih1 ih2 =>
    rename_i p f _ _
    clear * - hq ih1 ih2
    induction p with
    | pure a => exact ih2 a hq
    | raise e => trivial
    | op o k ih => exact ⟨ih1.1, fun r => ih r (hq r) (ih1.2 r)⟩
  | attempt _ ih => exact ih.attempt

theorem call_notWipe (env : Env) (call : ApiCall) (hcall : call ≠ .removeAll) : (call.prog env).AllOps Op.notWipe :=
  (safe_call env call).notWipe fun a ha h => hcall (by
    subst h
    cases call <;> simp_all [ApiCall.acts, InitAct, OwnAct, CfgAct, Account.IncomingAct, Account.HeaderAct, Account.GossipAct, Account.ImportAct])

/-- C97, the part that holds: if the process dies at any point of a call, between or within file operations, then the next process reads
what was stored after some of the operations of the call, or the heads file is torn, or a block file is torn which existed before, or the
call was `remove_all` and some files are removed: then it reads the newest parts of the logs, or none. Missing, and false (`C97_refuted`,
`C03_refuted_shared`): the other cases do not occur. -/
theorem C97_call_partial (hl : c.Lawful) (O : Oracle K) (env : Env) (call : ApiCall) {w : World Disk K}
    {v : World Store K} (hw : SameWorld c w v) (hnc : (run (Disk.impl c) O (call.prog env) w).2.store.collided = false) {d' : Disk}
    (hcrash : (call.prog env).Crash c O w d') :
    (∃ n, ReadsAs c d' (runFor Store.impl O n (call.prog env) v).store) ∨ TornHeads c d' ∨
    (∃ n, TornBlock (runFor (Disk.impl c) O n (call.prog env) w).store d') ∨
    call = .removeAll ∧ ∃ n s, (s = [] ∨ NewestParts (runFor Store.impl O n (call.prog env) v).store s) ∧ ReadsAs c d' s := by
  rcases prog_crash hl O _ hw hnc hcrash with ⟨n, h⟩ | h | h | ⟨hn, n, ps, h1, h2⟩
  · exact Or.inl ⟨n, h.readsAs hl⟩
  · exact Or.inr (Or.inl h)
  · exact Or.inr (Or.inr (Or.inl h))
  · refine Or.inr (Or.inr (Or.inr ⟨Classical.byContradiction fun hc => hn (call_notWipe env call hc), n, ?_⟩))
    subst h1
    obtain ⟨s', k1, k2⟩ := h2.remains hl (removing_left _ ps)
    exact ⟨s', k2.symm.imp (·.1) (·.1), remains_heads k1, remains_chain hl k1⟩

/-- With torn heads nothing is lost silently: every read raises, if the serializer rejects truncated data. -/
theorem C97_torn {d : Disk} (ht : c.RejectsTruncated) (h : TornHeads c d) :
    (∃ e, (Disk.impl c).heads d = .error e) ∧ ∀ name, ∃ e, (Disk.impl c).chain d name = .error e := by
  obtain ⟨hs, pre, h1, h2, h3⟩ := h
  exact C03_torn_heads ht h1 h2 h3

theorem prog_torn (hl : c.Lawful) (ht : c.RejectsTruncated) (hne : ∀ hs, c.dumpDict hs ≠ []) (O : Oracle K) {α : Type} (p : Prog α)
    (hp : p.AllOps Op.notWipe) {w : World Disk K} {v : World Store K} (hw : SameWorld c w v)
    (hnc : (run (Disk.impl c) O p w).2.store.collided = false) (hch : (run Store.impl O p v).2.store ≠ v.store) :
    ∃ d', p.Crash c O w d' ∧ ∀ name, ∃ e, (Disk.impl c).chain d' name = .error e := by
  induction p generalizing w v with
  | pure a => exact absurd rfl hch
  | raise a => exact absurd rfl hch
  | op o k ih =>
    have hc1 : (step (Disk.impl c) O o w).2.store.collided = false := run_collided O _ _ hnc
    have hst := step_same hl O o hw hc1
    have hnc' : (run (Disk.impl c) O (k (step Store.impl O o v).1) (step (Disk.impl c) O o w).2).2.store.collided = false := by
      rw [← hst.1]; exact hnc
    have rest : (step Store.impl O o v).2.store = v.store → ∃ d', (Prog.op o k).Crash c O w d' ∧
        ∀ name, ∃ e, (Disk.impl c).chain d' name = .error e := by
      intro hs
      obtain ⟨d', h1, h2⟩ := ih _ (hp.2 _) hst.2 hnc' (by rw [hs]; exact hch)
      refine ⟨d', Or.inr (Or.inr ?_), h2⟩
      rw [hst.1]; exact h1
    cases o with
    | append n e =>
      obtain ⟨d', h1, h2⟩ := C03_refuted hl ht hne hw.store n e (w.clock w.tick)
      exact ⟨d', Or.inr (Or.inl h1), h2⟩
    | removeIf q =>
      obtain ⟨hnd, hs, hh, hf⟩ := hw.store
      refine ⟨w.store.torn .heads [], Or.inr (Or.inl ?_), (C03_torn_heads ht (hs := []) List.nil_prefix (Ne.symm (hne [])) rfl).2⟩
      exact FProg.crash_intro (p := getheads c) (run_getheads (hs := hs) hh 0) (Or.inr (Or.inl ⟨[], List.nil_prefix, rfl⟩))
    | wipe => exact hp.1.elim
    | now => exact rest rfl
    | chain _ => exact rest rfl
    | heads => exact rest rfl
    | ext _ => exact rest rfl

/-- C97 is false, in every state and for every call which changes what is stored: the process may die with the heads file emptied, and
then no chain can be read any more. -/
theorem C97_refuted (hl : c.Lawful) (ht : c.RejectsTruncated) (hne : ∀ hs, c.dumpDict hs ≠ []) (O : Oracle K) (env : Env) (call : ApiCall)
    (hcall : call ≠ .removeAll) {w : World Disk K} {v : World Store K} (hw : SameWorld c w v)
    (hnc : (run (Disk.impl c) O (call.prog env) w).2.store.collided = false)
    (hch : (run Store.impl O (call.prog env) v).2.store ≠ v.store) :
    ∃ d', (call.prog env).Crash c O w d' ∧ ∀ name, ∃ e, (Disk.impl c).chain d' name = .error e :=
  prog_torn hl ht hne O _ (call_notWipe env call hcall) hw hnc hch

/-- the other way round, all states between operations are possible -/
theorem crash_runFor (O : Oracle K) {α : Type} (p : Prog α) (n : Nat) (w : World Disk K) :
    p.Crash c O w (runFor (Disk.impl c) O n p w).store := by
  induction p generalizing n w with
  | pure a => cases n <;> rfl
  | raise a => cases n <;> rfl
  | op o k ih =>
    cases n with
    | zero => exact Or.inl rfl
    | succ n => exact Or.inr (Or.inr (ih _ n _))

theorem runFor_collided (O : Oracle K) {α : Type} (p : Prog α) (n : Nat) (w : World Disk K)
    (h : (runFor (Disk.impl c) O n p w).store.collided = false) : w.store.collided = false := by
  induction p generalizing n w with
  | pure a => cases n <;> exact h
  | raise a => cases n <;> exact h
  | op o k ih =>
    cases n with
    | zero => exact h
    | succ n => exact step_collided O o w (ih _ n _ h)

theorem runFor_same (hl : c.Lawful) (O : Oracle K) {α : Type} (p : Prog α) (n : Nat) {w : World Disk K} {v : World Store K}
    (h : SameWorld c w v) (hc : (runFor (Disk.impl c) O n p w).store.collided = false) :
    SameWorld c (runFor (Disk.impl c) O n p w) (runFor Store.impl O n p v) := by
  induction p generalizing n w v with
  | pure a => cases n <;> exact h
  | raise a => cases n <;> exact h
  | op o k ih =>
    cases n with
    | zero => exact h
    | succ n =>
      have hc1 := runFor_collided O (k (step (Disk.impl c) O o w).1) n (step (Disk.impl c) O o w).2 hc
      have hst := step_same hl O o h hc1
      have := ih (step (Disk.impl c) O o w).1 n hst.2 hc
      show SameWorld c (runFor (Disk.impl c) O n (k (step (Disk.impl c) O o w).1) _) (runFor Store.impl O n (k (step Store.impl O o v).1) _)
      rw [← hst.1]; exact this

theorem runHistory_collided (O : Oracle K) (env : Env) (l : List (Happening K)) (w : World Disk K)
    (h : (runHistory (Disk.impl c) O env l w).store.collided = false) : w.store.collided = false := by
  induction l generalizing w with
  | nil => exact h
  | cons y l ih =>
    have h1 := ih (y.after (Disk.impl c) O env w) h
    cases y with
    | call x => exact run_collided O _ _ h1
    | killed x n => exact runFor_collided O _ n _ h1
    | command ce be x => exact run_collided O _ _ h1
    | commandKilled ce be x n => exact runFor_collided O _ n _ h1
    | outside k => exact h1

/-- **C01** for histories with interrupted calls: the files hold the logs which the same history leaves in a map from names to logs. -/
theorem C01_interrupted (hl : c.Lawful) (O : Oracle K) (env : Env) (hist : List (Happening K)) {w : World Disk K} {v : World Store K}
    (hw : SameWorld c w v) (hc : (runHistory (Disk.impl c) O env hist w).store.collided = false) :
    SameWorld c (runHistory (Disk.impl c) O env hist w) (runHistory Store.impl O env hist v) := by
  induction hist generalizing w v with
  | nil => exact hw
  | cons x hist ih =>
    have h1 := runHistory_collided O env hist (x.after (Disk.impl c) O env w) hc
    cases x with
    | call x => exact ih (C01_refinement hl O (x.prog env) hw h1).2 hc
    | killed x n => exact ih (runFor_same hl O (x.prog env) n hw h1) hc
    | command ce be x => exact ih (C01_refinement hl O (x.prog ce be env) hw h1).2 hc
    | commandKilled ce be x n => exact ih (runFor_same hl O (x.prog ce be env) n hw h1) hc
    | outside k => exact ih ⟨hw.store, hw.clock, hw.tick, rfl, hw.trace⟩ hc

namespace Concrete

/-- a fresh directory -/
def disk0 : World Disk Unit := freshDisk world0.clock ()

/-- account "a" and two messages from Bob; the process died in between, within the processing of a third one -/
def withInterruption : List (Happening Unit) :=
  [.call addA, .call (recv bob (str!"1") (str!"100") [7]), .killed (recv bob (str!"2") (str!"200") [8]) 8, .call (recv bob (str!"3") (str!"300") [9])]

theorem disk0_same : SameWorld codec disk0 world0 := fresh_same world0.clock ()

/-- no collision in that history, and in a call after it, which changes the store -/
theorem withInterruption_ok : (runHistory (Disk.impl codec) oracle env withInterruption disk0).store.collided = false := by decide +kernel

example : (run (Disk.impl codec) oracle ((recv bob (str!"4") (str!"400") [9]).prog env)
    (runHistory (Disk.impl codec) oracle env withInterruption disk0)).2.store.collided = false := by decide +kernel

example : ((run Store.impl oracle ((recv bob (str!"4") (str!"400") [9]).prog env)
    (runHistory Store.impl oracle env withInterruption world0)).2.store).get (peerHead (str!"a") bob) ≠
    (runHistory Store.impl oracle env withInterruption world0).store.get (peerHead (str!"a") bob) := by decide +kernel

/-- the interrupted message was not recorded, the two others were; a process which dies one operation later has recorded it -/
example : (bobs (runHistory Store.impl oracle env withInterruption world0)).length = 2 := by decide +kernel

/-- the hypotheses of `C97_call_partial` are met for all crashes between operations, and the one of `C97_refuted` -/
example (n : Nat) : ((recv bob (str!"4") (str!"400") [9]).prog env).Crash codec oracle
    (runHistory (Disk.impl codec) oracle env withInterruption disk0)
    (runFor (Disk.impl codec) oracle n ((recv bob (str!"4") (str!"400") [9]).prog env)
      (runHistory (Disk.impl codec) oracle env withInterruption disk0)).store := crash_runFor ..

/-- `remove_all` may be interrupted after it has removed any of the files -/
example (ps : List Path) : (ApiCall.removeAll.prog env).Crash codec oracle (runHistory (Disk.impl codec) oracle env withInterruption disk0)
    ((runHistory (Disk.impl codec) oracle env withInterruption disk0).store.removing ps) :=
  Or.inr (Or.inr (Or.inr (Or.inl ⟨ps, rfl⟩)))

/-- a directory with an account from which `remove_all` has removed all blocks but not yet the heads file -/
def headsLeft : World Disk Unit :=
  { runHistory (Disk.impl codec) oracle env [.call addA] disk0 with
    store := (runHistory (Disk.impl codec) oracle env [.call addA] disk0).store.removing
      ((runHistory (Disk.impl codec) oracle env [.call addA] disk0).store.blocks.map fun x => .block x.1) }

/-- then the account is still listed but cannot be opened, and no account can be found for any address -/
example : ((run (Disk.impl codec) oracle getAccountNames headsLeft).1.toOption = some [str!"a"]) ∧
    (match (run (Disk.impl codec) oracle (Manager.getAccountFromEmailadr env bob false) headsLeft).1 with
      | .error .accountNotFound => true
      | _ => false) = true := by
  decide +kernel

end Concrete

end Verif
