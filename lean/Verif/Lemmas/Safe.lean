import Verif.Lemmas.Run
import Verif.Lemmas.Peer
import Verif.Model.Api
/-!
# What API calls can do to the store

Every API call is built from reads, external operations and a few kinds of updates (`Act`). `Safe A p` says
that `p` is built using only updates in `A`. Relations between worlds which are preserved by these
updates are then preserved by `p`.
-/
namespace Verif

/-- updates of the store -/
inductive Act where
  | msg (name addr : Str) (u : Peer.MsgUpdate)
  | gossip (name addr : Str) (u : Peer.GossipUpdate)
  | cfg (name : Str) (c : OwnConfig)
  | keygen (name : Str) (k : KeygenEntry)
  | oob (name : Str) (v : Verification)
  | setVersion
  | removeAccount (name : Str)
  | wipe

/-- the program of an update -/
def Act.prog : Act → Prog Unit
  | .msg n a u => Peer.updateFromMsg (peerHead n a) u
  | .gossip n a u => Peer.updateFromGossip (peerHead n a) u
  | .cfg n c => Prog.append (ownHead n) (.cfg c)
  | .keygen n k => Prog.append (ownHead n) (.keygen k)
  | .oob n v => Prog.append (oobHead n) (.oob v)
  | .setVersion => Mgr.setVersion (str!"0.1")
  | .removeAccount n => Verif.removeAccount n
  | .wipe => Prog.rmtree

/-- operations which do not change the store -/
def Op.readOnly : Op → Prop
  | .now | .chain _ | .heads | .ext _ => True
  | _ => False

/-- all results which any run of the program can give satisfy `Q` -/
def Prog.Returns {α : Type} (Q : α → Prop) : Prog α → Prop
  | .pure a => Q a
  | .raise _ => True
  | .op _ k => ∀ r, (k r).Returns Q

namespace Prog.Returns
variable {α β : Type} {Q : α → Prop} {R : β → Prop}

theorem trivially (p : Prog α) : p.Returns fun _ => True := by
  induction p with
  | pure a => trivial
  | raise e => trivial
  | op o k ih => exact ih

theorem mono {Q' : α → Prop} {p : Prog α} (hp : p.Returns Q) (h : ∀ a, Q a → Q' a) : p.Returns Q' := by
  induction p with
  | pure a => exact h a hp
  | raise e => trivial
  | op o k ih => exact fun r => ih r (hp r)

theorem bind {p : Prog α} {f : α → Prog β} (hp : p.Returns Q) (hf : ∀ a, Q a → (f a).Returns R) :
    (p.bind f).Returns R := by
  induction p with
  | pure a => exact hf a hp
  | raise e => trivial
  | op o k ih => exact fun r => ih r (hp r)

theorem ofExcept {x : Except Exc α} : (Prog.ofExcept x).Returns fun a => x = .ok a := by
  cases x with
  | ok a => exact rfl
  | error e => trivial

theorem of_run {σ K : Type} {S : StoreImpl σ} {O : Oracle K} {p : Prog α} (hp : p.Returns Q) {w w' : World σ K} {a : α}
    (h : run S O p w = (.ok a, w')) : Q a := by
  induction p generalizing w with
  | pure b => cases h; exact hp
  | raise e => cases h
  | op o k ih => exact ih _ (hp _) h

end Prog.Returns

/-- programs built from read-only operations and updates in `A` -/
inductive Safe (A : Act → Prop) : {α : Type} → Prog α → Prop
  | ro {α : Type} {p : Prog α} (h : p.AllOps Op.readOnly) : Safe A p
  | act (a : Act) (h : A a) : Safe A a.prog
  | bindQ {α β : Type} {p : Prog α} {f : α → Prog β} (Q : α → Prop) (hp : Safe A p) (hq : p.Returns Q)
      (hf : ∀ a, Q a → Safe A (f a)) : Safe A (p.bind f)
  | attempt {α : Type} {p : Prog α} (hp : Safe A p) : Safe A p.attempt

namespace Safe
variable {A B : Act → Prop} {α β : Type}

theorem pure (a : α) : Safe A (.pure a) := .ro trivial
theorem raise (e : Exc) : Safe A (.raise e : Prog α) := .ro trivial

theorem bind {p : Prog α} {f : α → Prog β} (hp : Safe A p) (hf : ∀ a, Safe A (f a)) : Safe A (p.bind f) :=
  .bindQ (fun _ => True) hp (.trivially p) fun a _ => hf a

theorem ofExcept_bind {x : Except Exc α} {f : α → Prog β} (hf : ∀ a, x = .ok a → Safe A (f a)) :
    Safe A ((Prog.ofExcept x).bind f) :=
  .bindQ (fun a => x = .ok a) (.ro (.ofExcept x)) .ofExcept hf

theorem mono {p : Prog α} (h : ∀ a, A a → B a) (hp : Safe A p) : Safe B p := by
  induction hp with
  | ro h => exact .ro h
  | act a ha => exact .act a (h a ha)
  | bindQ Q _ hq _ ih1 ih2 => exact .bindQ Q ih1 hq ih2
  | attempt _ ih => exact .attempt ih

/-- relations preserved by reads and by the updates in `A` are preserved by the program -/
theorem respects {K : Type} {O : Oracle K} {R : World Store K → World Store K → Prop}
    (htrans : ∀ a b c, R a b → R b c → R a c)
    (hro : ∀ w w' : World Store K, w'.store = w.store → w'.clock = w.clock → w.tick ≤ w'.tick →
      (∃ l, w'.trace = l ++ w.trace) → R w w')
    (hact : ∀ a, A a → ∀ w, R w (exec O a.prog w).2)
    {p : Prog α} (hp : Safe A p) : ∀ w, R w (exec O p w).2 := by
  have key : ∀ {α : Type} (p : Prog α), p.AllOps Op.readOnly → ∀ w : World Store K,
      (exec O p w).2.store = w.store ∧ (exec O p w).2.clock = w.clock ∧ w.tick ≤ (exec O p w).2.tick ∧
      ∃ l, (exec O p w).2.trace = l ++ w.trace := by
    intro α p
    induction p with
    | pure a => intro _ w; exact ⟨rfl, rfl, Nat.le_refl _, [], rfl⟩
    | raise e => intro _ w; exact ⟨rfl, rfl, Nat.le_refl _, [], rfl⟩
    | op o k ih =>
      intro h w
      have h2 := ih (step Store.impl O o w).1 (h.2 _) (step Store.impl O o w).2
      simp only [exec, run] at h2 ⊢
      have hs : (step Store.impl O o w).2.store = w.store ∧ (step Store.impl O o w).2.clock = w.clock ∧
          w.tick ≤ (step Store.impl O o w).2.tick ∧ ∃ l, (step Store.impl O o w).2.trace = l ++ w.trace := by
        have := h.1
        cases o with
        | now => exact ⟨rfl, rfl, Nat.le_succ _, [], rfl⟩
        | chain _ => exact ⟨rfl, rfl, Nat.le_refl _, [], rfl⟩
        | append _ _ => exact this.elim
        | heads => exact ⟨rfl, rfl, Nat.le_refl _, [], rfl⟩
        | removeIf _ => exact this.elim
        | wipe => exact this.elim
        | ext o => exact ⟨rfl, rfl, Nat.le_refl _, [_], rfl⟩
      obtain ⟨l, hl⟩ := h2.2.2.2
      obtain ⟨l', hl'⟩ := hs.2.2.2
      exact ⟨h2.1.trans hs.1, h2.2.1.trans hs.2.1, Nat.le_trans hs.2.2.1 h2.2.2.1,
        l ++ l', by rw [hl, hl', List.append_assoc]⟩
  induction hp with
  | ro h => intro w; obtain ⟨a, b, c, d⟩ := key _ h w; exact hro _ _ a b c d
  | act a h => exact hact a h
  | bindQ Q _ hq _ ih1 ih2 =>
    intro w
    rename_i p f _ _
    have h1 := ih1 w
    simp only [exec, run_bind]
    simp only [exec] at h1
    rcases hrun : run Store.impl O p w with ⟨_ | a, w1⟩
    · rw [hrun] at h1; exact h1
    · rw [hrun] at h1; exact htrans _ _ _ h1 (ih2 a (hq.of_run hrun) w1)
  | attempt _ ih =>
    intro w
    have := ih w
    simp only [exec, run_attempt] at this ⊢
    exact this

/-- a program which changes the store with its last operation only, if at all -/
inductive Late : {α : Type} → Prog α → Prop
  | pure {α : Type} (a : α) : Late (.pure a)
  | raise {α : Type} (e : Exc) : Late (.raise e : Prog α)
  | ro {α : Type} (o : Op) (k : o.Ret → Prog α) (ho : o.readOnly) (hk : ∀ r, Late (k r)) : Late (.op o k)
  | last {α : Type} (o : Op) (k : o.Ret → Prog α) (hk : ∀ r, (∃ a, k r = .pure a) ∨ ∃ e, k r = .raise e) : Late (.op o k)

/-- only the clock has been read and external operations have been done -/
def Quiet {K : Type} (w w' : World Store K) : Prop :=
  w'.store = w.store ∧ w'.clock = w.clock ∧ w.tick ≤ w'.tick ∧ ∃ l, w'.trace = l ++ w.trace

theorem Quiet.rfl' {K : Type} (w : World Store K) : Quiet w w := ⟨rfl, rfl, Nat.le_refl _, [], rfl⟩

theorem Quiet.trans {K : Type} {a b c : World Store K} (h : Quiet a b) (h' : Quiet b c) : Quiet a c := by
  obtain ⟨h1, h2, h3, l, h4⟩ := h
  obtain ⟨k1, k2, k3, l', k4⟩ := h'
  exact ⟨k1.trans h1, k2.trans h2, Nat.le_trans h3 k3, l' ++ l, by rw [k4, h4, List.append_assoc]⟩

theorem Quiet.step {K : Type} {O : Oracle K} {o : Op} (h : o.readOnly) (w : World Store K) : Quiet w (Verif.step Store.impl O o w).2 := by
  cases o with
  | now => exact ⟨rfl, rfl, Nat.le_succ _, [], rfl⟩
  | chain _ => exact ⟨rfl, rfl, Nat.le_refl _, [], rfl⟩
  | append _ _ => exact h.elim
  | heads => exact ⟨rfl, rfl, Nat.le_refl _, [], rfl⟩
  | removeIf _ => exact h.elim
  | wipe => exact h.elim
  | ext o => exact ⟨rfl, rfl, Nat.le_refl _, [_], rfl⟩

theorem Late.runFor {K : Type} {O : Oracle K} {p : Prog α} (hp : Late p) (n : Nat) (w : World Store K) :
    Quiet w (Verif.runFor Store.impl O n p w) ∨ Verif.runFor Store.impl O n p w = (exec O p w).2 := by
  induction hp generalizing n w with
  | pure a => cases n <;> exact Or.inl (.rfl' w)
  | raise e => cases n <;> exact Or.inl (.rfl' w)
  | ro o k ho _ ih =>
    cases n with
    | zero => exact Or.inl (.rfl' w)
    | succ n =>
      rcases ih (step Store.impl O o w).1 n (step Store.impl O o w).2 with h | h
      · exact Or.inl ((Quiet.step ho w).trans h)
      · exact Or.inr h
  | last o k hk =>
    cases n with
    | zero => exact Or.inl (.rfl' w)
    | succ n =>
      right
      simp only [Verif.runFor, exec, run]
      rcases hk (step Store.impl O o w).1 with ⟨a, h⟩ | ⟨e, h⟩ <;> rw [h] <;> cases n <;> rfl

theorem late_act (a : Act) : Late a.prog := by
  have ofEx : ∀ (o : Op) (f : o.Ret → Except Exc Unit), Late (.op o fun r => Prog.ofExcept (f r)) := fun o f => .last _ _ fun r => by
    cases f r with
    | ok a => exact Or.inl ⟨a, rfl⟩
    | error e => exact Or.inr ⟨e, rfl⟩
  cases a with
  | msg n a u =>
    refine .ro _ _ trivial fun r => ?_
    cases r with
    | error e => exact .raise e
    | ok es =>
      change Late (Prog.bind (Prog.ofExcept (Peer.updateEntry es u)) _)
      rcases Peer.updateEntry es u with e | (_ | e)
      · exact .raise e
      · exact .pure _
      · exact ofEx _ _
  | gossip n a u =>
    refine .ro _ _ trivial fun r => ?_
    cases r with
    | error e => exact .raise e
    | ok es =>
      change Late (Prog.bind (Prog.ofExcept (Peer.gossipEntry es u)) _)
      rcases Peer.gossipEntry es u with e | (_ | e)
      · exact .raise e
      · exact .pure _
      · exact ofEx _ _
  | cfg n c => exact ofEx _ _
  | keygen n k => exact ofEx _ _
  | oob n v => exact ofEx _ _
  | setVersion =>
    refine .ro _ _ trivial fun r => ?_
    cases r with
    | error e => exact .raise e
    | ok es =>
      show Late ((Prog.assert _).bind _)
      cases (Mgr.version es).isNone
      · exact .raise _
      · exact ofEx _ _
  | removeAccount n => exact ofEx _ _
  | wipe => exact .ro _ _ trivial fun _ => .last _ _ fun _ => Or.inl ⟨(), rfl⟩

theorem runFor_bind {σ K : Type} (S : StoreImpl σ) (O : Oracle K) (n : Nat) (p : Prog α) (f : α → Prog β) (w : World σ K) :
    runFor S O n (p.bind f) w = runFor S O n p w ∨
    ∃ a w1 m, run S O p w = (.ok a, w1) ∧ runFor S O n (p.bind f) w = runFor S O m (f a) w1 := by
  induction p generalizing n w with
  | pure a => exact Or.inr ⟨a, w, n, rfl, rfl⟩
  | raise e => left; cases n <;> rfl
  | op o k ih =>
    cases n with
    | zero => exact Or.inl rfl
    | succ n => exact ih (step S O o w).1 n (step S O o w).2

theorem runFor_attempt {σ K : Type} (S : StoreImpl σ) (O : Oracle K) (n : Nat) (p : Prog α) (w : World σ K) :
    runFor S O n p.attempt w = runFor S O n p w := by
  have key : ∀ (p : Prog α) (n : Nat) (w : World σ K), runFor S O n ((p.bind fun a => .pure (Except.ok a)).tryCatch
      fun e => .pure (Except.error e : Except Exc α)) w = runFor S O n p w := by
    intro p
    induction p with
    | pure a => intro n w; cases n <;> rfl
    | raise e => intro n w; cases n <;> rfl
    | op o k ih =>
      intro n w
      cases n with
      | zero => rfl
      | succ n => exact ih (step S O o w).1 n (step S O o w).2
  exact key p n w

theorem runFor_ro {K : Type} {O : Oracle K} {p : Prog α} (hp : p.AllOps Op.readOnly) (n : Nat) (w : World Store K) :
    Quiet w (runFor Store.impl O n p w) := by
  induction p generalizing n w with
  | pure a => cases n <;> exact .rfl' w
  | raise e => cases n <;> exact .rfl' w
  | op o k ih =>
    cases n with
    | zero => exact .rfl' w
    | succ n => exact (Quiet.step hp.1 w).trans (ih _ (hp.2 _) n _)

/-- relations preserved by reads and by the updates in `A` hold between the start of the program and the state in which the process
dies within it -/
theorem respects_killed {K : Type} {O : Oracle K} {R : World Store K → World Store K → Prop}
    (htrans : ∀ a b c, R a b → R b c → R a c)
    (hro : ∀ w w' : World Store K, w'.store = w.store → w'.clock = w.clock → w.tick ≤ w'.tick →
      (∃ l, w'.trace = l ++ w.trace) → R w w')
    (hact : ∀ a, A a → ∀ w, R w (exec O a.prog w).2)
    {p : Prog α} (hp : Safe A p) : ∀ n w, R w (runFor Store.impl O n p w) := by
  have quiet : ∀ {w w' : World Store K}, Quiet w w' → R w w' := fun ⟨a, b, c, d⟩ => hro _ _ a b c d
  induction hp with
  | ro h => exact fun n w => quiet (runFor_ro h n w)
  | act a h =>
    intro n w
    rcases (late_act a).runFor (O := O) n w with hq | he
    · exact quiet hq
    · rw [he]; exact hact a h w
  | bindQ Q hp hq _ ih1 ih2 =>
    intro n w
    rcases runFor_bind Store.impl O n _ _ w with he | ⟨a, w1, m, h1, he⟩
    · rw [he]; exact ih1 n w
    · rw [he]
      have := hp.respects htrans hro hact w
      rw [exec, h1] at this
      exact htrans _ _ _ this (ih2 a (hq.of_run h1) m w1)
  | attempt _ ih => intro n w; rw [runFor_attempt]; exact ih n w

end Safe
end Verif
