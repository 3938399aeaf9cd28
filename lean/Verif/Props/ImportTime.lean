import Verif.Props.AnyTime

/-!
C129 for the import of a key by the user (`account.py:373-408`): the time at which it is made is recorded, but apart from that it does not matter.
-/
namespace Verif

variable {K : Type} {α β : Type}

/-- the same state of the machine, the same operations so far and the same account `n`; clocks, and what is stored about peers, may differ -/
def AlikeFor (n : Str) (w w' : World Store K) : Prop :=
  w.env = w'.env ∧ w.trace = w'.trace ∧ w.log (ownHead n) = w'.log (ownHead n)

/-- a program gives and does the same in such worlds -/
def AnyPeers (n : Str) (p : Prog α) : Prop :=
  ∀ (K : Type) (O : Oracle K) (w w' : World Store K), AlikeFor n w w' →
    (exec O p w).1 = (exec O p w').1 ∧ AlikeFor n (exec O p w).2 (exec O p w').2

theorem AnyPeers.bind {n : Str} {p : Prog α} {f : α → Prog β} (hp : AnyPeers n p) (hf : ∀ a, AnyPeers n (f a)) : AnyPeers n (p.bind f) := by
  intro K O w w' hw
  obtain ⟨h1, h2⟩ := hp K O w w' hw
  unfold exec at *
  rw [run_bind, run_bind]
  rcases hx : run Store.impl O p w with ⟨r, w1⟩
  rcases hy : run Store.impl O p w' with ⟨r', w1'⟩
  rw [hx, hy] at h1 h2
  cases h1
  cases r with
  | error e => exact ⟨rfl, h2⟩
  | ok a => exact hf a K O w1 w1' h2

/-- operations which look at the account itself, or leave the store alone -/
def Op.ofOwn (n : Str) : Op → Prop
  | .chain h => h = ownHead n
  | .ext _ => True
  | _ => False

theorem AnyPeers.of_ops {n : Str} {p : Prog α} (h : p.AllOps (Op.ofOwn n)) : AnyPeers n p := by
  intro K O
  induction p with
  | pure a => exact fun w w' hw => ⟨rfl, hw⟩
  | raise e => exact fun w w' hw => ⟨rfl, hw⟩
  | op o k ih =>
    intro w w' hw
    have key : (step Store.impl O o w).1 = (step Store.impl O o w').1 ∧ AlikeFor n (step Store.impl O o w).2 (step Store.impl O o w').2 := by
      obtain ⟨h1, h2, h3⟩ := hw
      cases o with
      | chain c =>
        have hc : c = ownHead n := h.1
        subst hc
        exact ⟨congrArg Except.ok h3, h1, h2, h3⟩
      | ext o =>
        refine ⟨?_, ?_, ?_, h3⟩
        · show (O.step o w.env).1 = (O.step o w'.env).1
          rw [h1]
        · show (O.step o w.env).2 = (O.step o w'.env).2
          rw [h1]
        · show (⟨o, (O.step o w.env).1⟩ : Event) :: w.trace = ⟨o, (O.step o w'.env).1⟩ :: w'.trace
          rw [h1, h2]
      | _ => exact h.1.elim
    have := ih _ (h.2 (step Store.impl O o w).1) (step Store.impl O o w).2 (step Store.impl O o w').2 key.2
    rw [show exec O (Prog.op o k) w = exec O (k (step Store.impl O o w).1) (step Store.impl O o w).2 from rfl,
      show exec O (Prog.op o k) w' = exec O (k (step Store.impl O o w').1) (step Store.impl O o w').2 from rfl, ← key.1]
    exact this

theorem ofOwn_bingpg (env : Env) (n : Str) : (Account.bingpg env n).AllOps (Op.ofOwn n) := by
  unfold Account.bingpg Own.config; simp only [bind_eq, pure_eq]
  have := BinGPG.create_ops (P := Op.ofOwn n) (fun _ _ => trivial) env
  allops <;> first | exact this _ _ | exact rfl

/-- an update with a key and a valid preference ends without error, whatever the time -/
theorem exec_updateFromMsg_ok {O : Oracle K} {head n : Str} (hh : ownHead n ≠ head) {id : Str} {t : Time} {pe : PE} {kd : Option Bytes} {kh : Option Str} (w : World Store K) :
    (exec O (Peer.updateFromMsg head ⟨id, t, some pe.toStr, kd, kh⟩) w).1 = .ok () ∧
    (exec O (Peer.updateFromMsg head ⟨id, t, some pe.toStr, kd, kh⟩) w).2.env = w.env ∧
    (exec O (Peer.updateFromMsg head ⟨id, t, some pe.toStr, kd, kh⟩) w).2.trace = w.trace ∧
    (exec O (Peer.updateFromMsg head ⟨id, t, some pe.toStr, kd, kh⟩) w).2.log (ownHead n) = w.log (ownHead n) := by
  rw [Peer.exec_updateFromMsg]
  have hne : ∀ e, Peer.updateEntry (w.store.get head) ⟨id, t, some pe.toStr, kd, kh⟩ ≠ .error e := by
    intro e
    have hpe : Peer.peArg (some pe.toStr) = .ok pe := peArg_ok.mpr rfl
    unfold Peer.updateEntry
    dsimp only
    rw [hpe]
    repeat' split
    all_goals simp_all
  cases hu : Peer.updateEntry (w.store.get head) ⟨id, t, some pe.toStr, kd, kh⟩ with
  | error e => exact absurd hu (hne e)
  | ok o =>
    cases o with
    | none => exact ⟨rfl, rfl, rfl, rfl⟩
    | some e =>
      refine ⟨rfl, rfl, rfl, ?_⟩
      show (w.store.push head (.msg e)).get (ownHead n) = w.store.get (ownHead n)
      exact Store.get_push_ne _ hh _

theorem anyPeers_importLoop (env : Env) (n : Str) (pe : PE) (kh : Str) (l : List Str) : AnyPeers n (Account.importLoop env n pe.toStr kh l) := by
  induction l with
  | nil => exact fun K O w w' hw => ⟨rfl, hw⟩
  | cons a l ih =>
    intro K O w w' hw
    unfold Account.importLoop; simp only [bind_eq]
    have hrest : ∀ t t', ∀ w w' : World Store K, AlikeFor n w w' →
        let p := fun t => (Account.bingpg env n).bind fun g => (BinGPG.getPublicKeydata env g kh).bind fun kd =>
          (Peer.updateFromMsg (Account.peerHeadOf env n a) ⟨[], t, some pe.toStr, some kd, some kh⟩).bind fun _ => Account.importLoop env n pe.toStr kh l
        (exec O (p t) w).1 = (exec O (p t') w').1 ∧ AlikeFor n (exec O (p t) w).2 (exec O (p t') w').2 := by
      intro t t' w w' hw
      obtain ⟨h1, h2⟩ := AnyPeers.of_ops (ofOwn_bingpg env n) K O w w' hw
      simp only [exec] at *
      rw [run_bind, run_bind]
      rcases hx : run Store.impl O (Account.bingpg env n) w with ⟨r, w1⟩
      rcases hy : run Store.impl O (Account.bingpg env n) w' with ⟨r', w1'⟩
      rw [hx, hy] at h1 h2
      cases h1
      cases r with
      | error e => exact ⟨rfl, h2⟩
      | ok g =>
        dsimp only
        obtain ⟨h3, h4⟩ := AnyPeers.of_ops (BinGPG.getPublicKeydata_ops (P := Op.ofOwn n) (fun _ _ => trivial) env g kh false) K O w1 w1' h2
        simp only [exec] at *
        rw [run_bind, run_bind]
        rcases hx : run Store.impl O (BinGPG.getPublicKeydata env g kh) w1 with ⟨r, w2⟩
        rcases hy : run Store.impl O (BinGPG.getPublicKeydata env g kh) w1' with ⟨r', w2'⟩
        rw [hx, hy] at h3 h4
        cases h3
        cases r with
        | error e => exact ⟨rfl, h4⟩
        | ok kd =>
          dsimp only
          have hne : ownHead n ≠ Account.peerHeadOf env n a := ownHead_ne_peerHead _ _ _
          obtain ⟨a1, a2, a3, a4⟩ := exec_updateFromMsg_ok (O := O) hne (id := []) (t := t) (pe := pe) (kd := some kd) (kh := some kh) w2
          obtain ⟨b1, b2, b3, b4⟩ := exec_updateFromMsg_ok (O := O) hne (id := []) (t := t') (pe := pe) (kd := some kd) (kh := some kh) w2'
          rw [run_bind, run_bind]
          simp only [exec] at a1 a2 a3 a4 b1 b2 b3 b4
          rcases hx : run Store.impl O (Peer.updateFromMsg (Account.peerHeadOf env n a) ⟨[], t, some pe.toStr, some kd, some kh⟩) w2 with ⟨r, w3⟩
          rcases hy : run Store.impl O (Peer.updateFromMsg (Account.peerHeadOf env n a) ⟨[], t', some pe.toStr, some kd, some kh⟩) w2' with ⟨r', w3'⟩
          rw [hx] at a1 a2 a3 a4
          rw [hy] at b1 b2 b3 b4
          cases a1
          cases b1
          exact ih K O w3 w3' ⟨a2.trans (h4.1.trans b2.symm), a3.trans (h4.2.1.trans b3.symm), a4.trans (h4.2.2.trans b4.symm)⟩
    exact hrest _ _ { w with tick := w.tick + 1 } { w' with tick := w'.tick + 1 } hw

/-- **C129, imports.** With another clock, and with anything else stored about peers, the import of a key by the user gives the same result or exception and
runs the same programs with the same input. -/
theorem C129_import (env : Env) (n : Str) (a : Option Str) (k : Bytes) (pe : PE) :
    AnyPeers n (Account.importKeydataAsAutocrypt env n a k pe.toStr) := by
  have hg := AnyPeers.of_ops (ofOwn_bingpg env n)
  have hi := fun g m => AnyPeers.of_ops (BinGPG.importKeydata_ops (P := Op.ofOwn n) (fun _ _ => trivial) env g k m)
  unfold Account.importKeydataAsAutocrypt; simp only [bind_eq, pure_eq]
  refine .bind hg fun g => .bind (hi g _) fun kh => .bind ?_ fun addrs => .bind hg fun g => .bind (hi g _) fun kh => .bind (anyPeers_importLoop env n pe kh addrs) fun _ =>
    .bind hg fun g => .bind (AnyPeers.of_ops (BinGPG.getPublicKeydata_ops (P := Op.ofOwn n) (fun _ _ => trivial) env g kh _)) fun _ => fun K O w w' hw => ⟨rfl, hw⟩
  split
  · exact fun K O w w' hw => ⟨rfl, hw⟩
  · exact .bind hg fun g => .bind (AnyPeers.of_ops (BinGPG.listPublicKeyinfos_ops (P := Op.ofOwn n) (fun _ _ => trivial) env g _)) fun _ =>
      fun K O w w' hw => ⟨rfl, hw⟩

/-- The date which is recorded is that of the clock, so the same cannot be said of what is stored. -/
theorem C129_import_recorded : ∃ (O : Oracle Unit) (env : Env) (w w' : World Store Unit) (h : Str), AlikeFor (str!"a") w w' ∧ w.store = w'.store ∧
    (exec O (Account.importKeydataAsAutocrypt env (str!"a") (some Concrete.bob) [1, 2] PE.mutual.toStr) w).1.toOption.isSome = true ∧
    (exec O (Account.importKeydataAsAutocrypt env (str!"a") (some Concrete.bob) [1, 2] PE.mutual.toStr) w).2.log h ≠
      (exec O (Account.importKeydataAsAutocrypt env (str!"a") (some Concrete.bob) [1, 2] PE.mutual.toStr) w').2.log h :=
  ⟨Concrete.oracle, Concrete.env, Concrete.after [Concrete.addA], { Concrete.after [Concrete.addA] with clock := fun _ => sec 7 }, peerHead (str!"a") Concrete.bob,
   ⟨rfl, rfl, rfl⟩, rfl, by decide +kernel, by decide +kernel⟩

end Verif
