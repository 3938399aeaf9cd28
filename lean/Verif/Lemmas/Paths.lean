import Verif.Model.Accesses
import Verif.Lemmas.Events
/-!
# Paths of programs
-/
namespace Verif
variable {σ K : Type} {α β : Type}

/-- a gpg command with the data given to it and what came back -/
def Did.gpg (argv : List Str) (stdin : Option Bytes) (ret : Except Exc GpgOut) : Did := ⟨.ext (.gpg argv stdin), ret⟩
/-- plugins are called before encryption -/
def Did.hook (sender kh : Str) (r2k : List (Str × Bytes)) (m : Msg) (ret : Except Exc Msg) : Did :=
  ⟨.ext (.hookBeforeEnc sender kh r2k m), ret⟩
/-- a log is read -/
def Did.chain (h : Str) (ret : Except Exc (List Entry)) : Did := ⟨.chain h, ret⟩
/-- an entry is appended to a log -/
def Did.append (h : Str) (e : Entry) (ret : Except Exc Unit) : Did := ⟨.append h e, ret⟩
/-- the clock is read -/
def Did.now (t : Time) : Did := ⟨.now, t⟩

namespace Prog.Path

theorem pure {a : α} {l : List Did} {r : Except Exc α} : (Prog.pure a).Path l r ↔ l = [] ∧ r = .ok a := Iff.rfl
theorem raise {e : Exc} {l : List Did} {r : Except Exc α} : (Prog.raise e : Prog α).Path l r ↔ l = [] ∧ r = .error e := Iff.rfl

theorem bind {p : Prog α} {f : α → Prog β} {l : List Did} {r : Except Exc β} :
    (p.bind f).Path l r ↔ (∃ a l1 l2, p.Path l1 (.ok a) ∧ (f a).Path l2 r ∧ l = l1 ++ l2) ∨
      ∃ e, p.Path l (.error e) ∧ r = .error e := by
  induction p generalizing l with
  | pure a =>
    constructor
    · exact fun h => .inl ⟨a, [], l, ⟨rfl, rfl⟩, h, rfl⟩
    · rintro (⟨_, _, l2, ⟨rfl, h⟩, h2, rfl⟩ | ⟨e, ⟨_, h⟩, _⟩)
      · cases h; exact h2
      · cases h
  | raise e =>
    constructor
    · rintro ⟨rfl, rfl⟩; exact .inr ⟨e, ⟨rfl, rfl⟩, rfl⟩
    · rintro (⟨_, _, l2, ⟨rfl, h⟩, h2, rfl⟩ | ⟨e, ⟨rfl, h⟩, rfl⟩)
      · cases h
      · cases h; exact ⟨rfl, rfl⟩
  | op o k ih =>
    constructor
    · rintro ⟨x, l', rfl, h⟩
      rcases (ih x).mp h with ⟨a, l1, l2, h1, h2, rfl⟩ | ⟨e, h1, rfl⟩
      · exact .inl ⟨a, ⟨o, x⟩ :: l1, l2, ⟨x, l1, rfl, h1⟩, h2, rfl⟩
      · exact .inr ⟨e, ⟨x, l', rfl, h1⟩, rfl⟩
    · rintro (⟨a, _, l2, ⟨x, l1, rfl, h1⟩, h2, rfl⟩ | ⟨e, ⟨x, l1, rfl, h1⟩, rfl⟩)
      · exact ⟨x, l1 ++ l2, rfl, (ih x).mpr (.inl ⟨a, l1, l2, h1, h2, rfl⟩)⟩
      · exact ⟨x, l1, rfl, (ih x).mpr (.inr ⟨e, h1, rfl⟩)⟩

theorem bind_ok {p : Prog α} {f : α → Prog β} {l : List Did} {b : β} :
    (p.bind f).Path l (.ok b) ↔ ∃ a l1 l2, p.Path l1 (.ok a) ∧ (f a).Path l2 (.ok b) ∧ l = l1 ++ l2 := by
  rw [bind]
  exact ⟨fun h => h.elim id (fun ⟨_, _, h⟩ => by cases h), .inl⟩

theorem ofExcept {x : Except Exc α} {l : List Did} {r : Except Exc α} : (Prog.ofExcept x).Path l r ↔ l = [] ∧ r = x := by
  cases x <;> exact Iff.rfl

theorem tryCatch {p : Prog α} {h : Exc → Prog α} {l : List Did} {r : Except Exc α} :
    (p.tryCatch h).Path l r ↔ (∃ a, p.Path l (.ok a) ∧ r = .ok a) ∨
      ∃ e l1 l2, p.Path l1 (.error e) ∧ (h e).Path l2 r ∧ l = l1 ++ l2 := by
  induction p generalizing l with
  | pure a =>
    constructor
    · rintro ⟨rfl, rfl⟩; exact .inl ⟨a, ⟨rfl, rfl⟩, rfl⟩
    · rintro (⟨_, ⟨rfl, h⟩, rfl⟩ | ⟨e, _, _, ⟨_, h⟩, _⟩)
      · cases h; exact ⟨rfl, rfl⟩
      · cases h
  | raise e =>
    constructor
    · exact fun hh => .inr ⟨e, [], l, ⟨rfl, rfl⟩, hh, rfl⟩
    · rintro (⟨_, ⟨_, h⟩, _⟩ | ⟨e, _, l2, ⟨rfl, h⟩, h2, rfl⟩)
      · cases h
      · cases h; exact h2
  | op o k ih =>
    constructor
    · rintro ⟨x, l', rfl, hh⟩
      rcases (ih x).mp hh with ⟨a, h1, rfl⟩ | ⟨e, l1, l2, h1, h2, rfl⟩
      · exact .inl ⟨a, ⟨x, l', rfl, h1⟩, rfl⟩
      · exact .inr ⟨e, ⟨o, x⟩ :: l1, l2, ⟨x, l1, rfl, h1⟩, h2, rfl⟩
    · rintro (⟨a, ⟨x, l1, rfl, h1⟩, rfl⟩ | ⟨e, _, l2, ⟨x, l1, rfl, h1⟩, h2, rfl⟩)
      · exact ⟨x, l1, rfl, (ih x).mpr (.inl ⟨a, h1, rfl⟩)⟩
      · exact ⟨x, l1 ++ l2, rfl, (ih x).mpr (.inr ⟨e, l1, l2, h1, h2, rfl⟩)⟩

theorem attempt {p : Prog α} {l : List Did} {r : Except Exc (Except Exc α)} :
    p.attempt.Path l r ↔ ∃ x, p.Path l x ∧ r = .ok x := by
  rw [Prog.attempt, tryCatch]
  constructor
  · rintro (⟨a, h, rfl⟩ | ⟨e, l1, l2, h, ⟨rfl, rfl⟩, rfl⟩)
    · obtain ⟨x, l1, l2, h1, ⟨rfl, h2⟩, rfl⟩ := bind_ok.mp h
      cases h2
      exact ⟨.ok x, by simpa using h1, rfl⟩
    · rcases bind.mp h with ⟨a, _, _, _, ⟨_, h⟩, _⟩ | ⟨e', h, he⟩
      · cases h
      · cases he; exact ⟨.error e, by simpa using h, rfl⟩
  · rintro ⟨x | a, h, rfl⟩
    · exact .inr ⟨x, l, [], bind.mpr (.inr ⟨x, h, rfl⟩), ⟨rfl, rfl⟩, by simp⟩
    · exact .inl ⟨.ok a, bind_ok.mpr ⟨a, l, [], h, ⟨rfl, rfl⟩, by simp⟩, rfl⟩

theorem assert {b : Bool} {l : List Did} {r : Except Exc Unit} (h : (Prog.assert b).Path l r) :
    l = [] ∧ (r = .ok () → b = true) := by
  cases b
  · exact ⟨h.1, fun h' => by rw [h.2] at h'; cases h'⟩
  · exact ⟨h.1, fun _ => rfl⟩

/-- an operation whose answer may be an exception -/
theorem single {o : Op} {k : o.Ret → Except Exc α} {l : List Did} {r : Except Exc α}
    (h : (Prog.op o fun a => Prog.ofExcept (k a)).Path l r) : ∃ a, l = [⟨o, a⟩] ∧ r = k a := by
  obtain ⟨a, l', rfl, h⟩ := h
  obtain ⟨rfl, rfl⟩ := ofExcept.mp h
  exact ⟨a, rfl, rfl⟩

theorem chain {h : Str} {l : List Did} {r : Except Exc (List Entry)} (hp : (Prog.chain h).Path l r) : l = [Did.chain h r] := by
  obtain ⟨a, rfl, h⟩ := single (o := .chain h) hp
  rw [h]; rfl

theorem append {h : Str} {e : Entry} {l : List Did} {r : Except Exc Unit} (hp : (Prog.append h e).Path l r) : l = [Did.append h e r] := by
  obtain ⟨a, rfl, h⟩ := single (o := .append h e) hp
  rw [h]; rfl

theorem gpg {argv : List Str} {stdin : Option Bytes} {l : List Did} {r : Except Exc GpgOut} (hp : (Prog.gpg argv stdin).Path l r) :
    l = [Did.gpg argv stdin r] := by
  obtain ⟨a, rfl, h⟩ := single (o := .ext (.gpg argv stdin)) hp
  rw [h]; rfl

theorem hook {s k : Str} {r2k : List (Str × Bytes)} {m : Msg} {l : List Did} {r : Except Exc Msg}
    (hp : (Prog.hookBeforeEnc s k r2k m).Path l r) : l = [Did.hook s k r2k m r] := by
  obtain ⟨a, rfl, h⟩ := single (o := .ext (.hookBeforeEnc s k r2k m)) hp
  rw [h]; rfl

/-- the operations on a path are operations of the program -/
theorem ops {P : Op → Prop} {p : Prog α} (hp : p.AllOps P) {l : List Did} {r : Except Exc α} (h : p.Path l r) : ∀ d ∈ l, P d.op := by
  induction p generalizing l with
  | pure a => rw [h.1]; simp
  | raise e => rw [h.1]; simp
  | op o k ih =>
    obtain ⟨x, l', rfl, h⟩ := h
    intro d hd
    rcases List.mem_cons.mp hd with rfl | hd
    · exact hp.1
    · exact ih x (hp.2 x) h d hd

theorem returns {p : Prog α} {Q : α → Prop} (hq : p.Returns Q) {l : List Did} {a : α} (h : p.Path l (.ok a)) : Q a := by
  induction p generalizing l with
  | pure b => obtain ⟨_, h⟩ := h; cases h; exact hq
  | raise e => obtain ⟨_, h⟩ := h; cases h
  | op o k ih => obtain ⟨x, l', _, h⟩ := h; exact ih x (hq x) h

end Prog.Path

/-- a run is a path -/
theorem run_path (S : StoreImpl σ) (O : Oracle K) (p : Prog α) (w : World σ K) : ∃ l, p.Path l (run S O p w).1 ∧
    ∃ evs, (run S O p w).2.trace = evs ++ w.trace ∧ ∀ ev, ev ∈ evs ↔ (⟨.ext ev.op, ev.ret⟩ : Did) ∈ l := by
  induction p generalizing w with
  | pure a => exact ⟨[], ⟨rfl, rfl⟩, [], rfl, by simp⟩
  | raise e => exact ⟨[], ⟨rfl, rfl⟩, [], rfl, by simp⟩
  | op o k ih =>
    obtain ⟨l, hl, evs, h1, h2⟩ := ih (step S O o w).1 (step S O o w).2
    refine ⟨⟨o, (step S O o w).1⟩ :: l, ⟨_, l, rfl, hl⟩, ?_⟩
    cases o with
    | ext o =>
      refine ⟨evs ++ [⟨o, (O.step o w.env).1⟩], h1.trans (by simp [step]), ?_⟩
      intro ev
      rw [List.mem_append, List.mem_singleton, h2, List.mem_cons, or_comm]
      refine or_congr_left ?_
      constructor
      · rintro rfl; rfl
      · intro h
        obtain ⟨o', r'⟩ := ev
        injection h with h1 h2
        injection h1 with h1
        subst h1
        exact congrArg (Event.mk o') (eq_of_heq h2)
    | _ =>
      refine ⟨evs, h1, fun ev => ?_⟩
      rw [h2, List.mem_cons]
      refine ⟨.inr, ?_⟩
      rintro (h | h)
      · injection h with h1 _; cases h1
      · exact h

/-- a run while others work on the same store is a path -/
theorem runAmid_path (S : StoreImpl σ) (O : Oracle K) (others : Nat → Prog Unit) (p : Prog α) (n : Nat) (w : World σ K) :
    ∃ l, p.Path l (runAmid S O others p n w).1 := by
  induction p generalizing n w with
  | pure a => exact ⟨[], rfl, rfl⟩
  | raise e => exact ⟨[], rfl, rfl⟩
  | op o k ih =>
    obtain ⟨l, hl⟩ := ih (step S O o (run S O (others n) w).2).1 (n + 1) (step S O o (run S O (others n) w).2).2
    exact ⟨_ :: l, _, l, rfl, hl⟩

end Verif
