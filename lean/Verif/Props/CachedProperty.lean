import Verif.Model.CachedProperty
/-!
# C62: cached properties

A function which, directly or through other properties, reads its own property is called again before the
first call has returned, and both calls may return; `C62_refuted_reentrant` shows this. The claim is for
properties which do not depend on themselves: there is a rank such that each function only reads properties of
lower rank.
-/
namespace Verif.Cached
variable {α K : Type}

/-- the function reads only properties below that rank -/
inductive Body.Below (rank : Str → Nat) (r : Nat) : Body α K → Prop
  | ret (a : α) : Below rank r (.ret a)
  | raise (e : Exc) : Below rank r (.raise e)
  | get (n : Str) (k : α → Body α K) (h : rank n < r) (hk : ∀ v, Below rank r (k v)) : Below rank r (.get n k)
  | env (f : K → K) (k : K → Body α K) (hk : ∀ x, Below rank r (k x)) : Below rank r (.env f k)

/-- no property depends on itself -/
def Acyclic (bodies : Str → Body α K) : Prop := ∃ rank : Str → Nat, ∀ n, (bodies n).Below rank (rank n)

/-- the calls of the function of a property which returned -/
def Obj.callsOf (o : Obj α K) (n : Str) : List α := (o.calls.filter (fun c => c.1 == n)).map (·.2)

/-- the sequence does not assign to that property -/
def NoWrite (n : Str) (us : List (Use α)) : Prop := ∀ v, Use.write n v ∉ us

theorem lookup_store_self (o : Obj α K) (n : Str) (v : α) : (o.store n v).lookup n = some v := by
  simp [Obj.store, Obj.lookup]

theorem lookup_store_ne (o : Obj α K) {n m : Str} (v : α) (h : m ≠ n) : (o.store n v).lookup m = o.lookup m := by
  have h1 : (n == m) = false := by simp [h.symm]
  simp only [Obj.store, Obj.lookup, List.find?_cons, h1]
  congr 1
  induction o.cache with
  | nil => rfl
  | cons p ps ih =>
    by_cases hp : p.1 = n
    · have : (p.1 == m) = false := by simp [hp, h.symm]
      simp [hp, h1, ih]
    · rw [List.filter_cons_of_pos (by simp [hp]), List.find?_cons, List.find?_cons, ih]

/-- what holds between an object before and after running code: property values stay, a property without value
gets one only by one call, and otherwise its calls are the same -/
structure Step (o o' : Obj α K) (n : Str) : Prop where
  keep : ∀ v, o.lookup n = some v → o'.lookup n = some v ∧ o'.callsOf n = o.callsOf n
  fresh : o.lookup n = none → (o'.lookup n = none ∧ o'.callsOf n = o.callsOf n) ∨
    ∃ v, o'.lookup n = some v ∧ o'.callsOf n = v :: o.callsOf n

theorem Step.refl (o : Obj α K) (n : Str) : Step o o n := ⟨fun _ h => ⟨h, rfl⟩, fun h => Or.inl ⟨h, rfl⟩⟩

theorem Step.trans {a b c : Obj α K} {n : Str} (h : Step a b n) (h' : Step b c n) : Step a c n := by
  refine ⟨fun v hv => ?_, fun hv => ?_⟩
  · obtain ⟨h1, h2⟩ := h.keep v hv
    obtain ⟨h3, h4⟩ := h'.keep v h1
    exact ⟨h3, h4.trans h2⟩
  · rcases h.fresh hv with ⟨h1, h2⟩ | ⟨v, h1, h2⟩
    · rcases h'.fresh h1 with ⟨h3, h4⟩ | ⟨v, h3, h4⟩
      · exact Or.inl ⟨h3, h4.trans h2⟩
      · exact Or.inr ⟨v, h3, by rw [h4, h2]⟩
    · obtain ⟨h3, h4⟩ := h'.keep v h1
      exact Or.inr ⟨v, h3, h4.trans h2⟩

/-- running a function: properties of its rank and above are untouched, the others make steps -/
theorem eval_step {rank : Str → Nat} {rd : Str → Obj α K → Except Exc α × Obj α K} {r : Nat}
    (hrd : ∀ n o m, (rank n < rank m → (rd n o).2.lookup m = o.lookup m ∧ (rd n o).2.callsOf m = o.callsOf m) ∧ Step o (rd n o).2 m)
    {b : Body α K} (hb : b.Below rank r) (o : Obj α K) (m : Str) :
    (r ≤ rank m → (eval rd b o).2.lookup m = o.lookup m ∧ (eval rd b o).2.callsOf m = o.callsOf m) ∧ Step o (eval rd b o).2 m := by
  induction hb generalizing o with
  | ret a => exact ⟨fun _ => ⟨rfl, rfl⟩, Step.refl _ _⟩
  | raise e => exact ⟨fun _ => ⟨rfl, rfl⟩, Step.refl _ _⟩
  | env f k _ ih =>
    obtain ⟨h1, h2⟩ := ih o.rest { o with rest := f o.rest }
    exact ⟨h1, ⟨h2.keep, h2.fresh⟩⟩
  | get n k hn _ ih =>
    obtain ⟨h1, h2⟩ := hrd n o m
    rw [eval]
    rcases hr : rd n o with ⟨_ | v, o'⟩ <;> rw [hr] at h1 h2 <;> dsimp only
    · exact ⟨fun h => h1 (by omega), h2⟩
    · obtain ⟨h3, h4⟩ := ih v o'
      refine ⟨fun h => ?_, h2.trans h4⟩
      obtain ⟨h5, h6⟩ := h1 (by omega)
      obtain ⟨h7, h8⟩ := h3 h
      exact ⟨h7.trans h5, h8.trans h6⟩

theorem read_step {rank : Str → Nat} {bodies : Str → Body α K} (hb : ∀ n, (bodies n).Below rank (rank n)) (d : Nat) (n : Str)
    (o : Obj α K) (m : Str) :
    (rank n < rank m → (read bodies d n o).2.lookup m = o.lookup m ∧ (read bodies d n o).2.callsOf m = o.callsOf m) ∧
      Step o (read bodies d n o).2 m := by
  induction d generalizing n o m with
  | zero => exact ⟨fun _ => ⟨rfl, rfl⟩, Step.refl _ _⟩
  | succ d ih =>
    rw [read]
    cases hl : o.lookup n with
    | some v => exact ⟨fun _ => ⟨rfl, rfl⟩, Step.refl _ _⟩
    | none =>
      dsimp only
      have he := eval_step ih (hb n) o
      rcases hr : eval (read bodies d) (bodies n) o with ⟨_ | v, o'⟩ <;> simp only [hr] at he <;> dsimp only
      · exact ⟨fun h => (he m).1 (by omega), (he m).2⟩
      · by_cases hm : m = n
        · subst hm
          obtain ⟨h1, h2⟩ := (he m).1 (Nat.le_refl _)
          refine ⟨fun h => absurd h (Nat.lt_irrefl _), ⟨fun v hv => ?_, fun _ => Or.inr ⟨v, lookup_store_self _ _ _, ?_⟩⟩⟩
          · rw [hl] at hv; cases hv
          · simp only [Obj.callsOf, Obj.store] at h2 ⊢
            simp [h2]
        · have h1 : ∀ w, ({ o'.store n v with calls := w } : Obj α K).lookup m = o'.lookup m := fun w => lookup_store_ne o' v hm
          have h2 : ({ o'.store n v with calls := (n, v) :: o'.calls } : Obj α K).callsOf m = o'.callsOf m := by
            simp [Obj.callsOf, Ne.symm hm]
          rw [h1, h2]
          obtain ⟨h3, h4⟩ := he m
          exact ⟨fun h => h3 (by omega), ⟨fun w hw => by rw [h1, h2]; exact h4.keep w hw, fun hw => by rw [h1, h2]; exact h4.fresh hw⟩⟩

/-- after a read which returned, the value is stored -/
theorem read_stores {bodies : Str → Body α K} {d : Nat} {n : Str} {o : Obj α K} {v : α}
    (h : (read bodies d n o).1 = .ok v) : (read bodies d n o).2.lookup n = some v := by
  cases d with
  | zero => cases h
  | succ d =>
    rw [read] at h ⊢
    cases hl : o.lookup n with
    | some w => rw [hl] at h; cases h; exact hl
    | none =>
      rw [hl] at h
      dsimp only at h ⊢
      rcases hr : eval (read bodies d) (bodies n) o with ⟨_ | w, o'⟩ <;> rw [hr] at h
      · cases h
      · cases h; exact lookup_store_self _ _ _

/-- with a stored value a read returns it and calls nothing -/
theorem read_stored {bodies : Str → Body α K} {d : Nat} {n : Str} {o : Obj α K} {v : α} (h : o.lookup n = some v) :
    read bodies (d + 1) n o = (.ok v, o) := by
  rw [read, h]

theorem uses_stored {bodies : Str → Body α K} (hb : Acyclic bodies) (d : Nat) {n : Str} {v : α} (us : List (Use α)) (hn : NoWrite n us)
    {o : Obj α K} (h : o.lookup n = some v) : (uses bodies d us o).lookup n = some v ∧ (uses bodies d us o).callsOf n = o.callsOf n := by
  obtain ⟨rank, hb⟩ := hb
  induction us generalizing o with
  | nil => exact ⟨h, rfl⟩
  | cons u us ih =>
    have hn' : NoWrite n us := fun v hv => hn v (List.mem_cons_of_mem _ hv)
    cases u with
    | read m =>
      obtain ⟨h1, h2⟩ := (read_step hb d m o n).2.keep v h
      obtain ⟨h3, h4⟩ := ih hn' h1
      exact ⟨h3, h4.trans h2⟩
    | write m w =>
      have hm : n ≠ m := fun e => hn w (by simp [e])
      have h1 : (o.store m w).lookup n = some v := by rw [lookup_store_ne o w hm]; exact h
      obtain ⟨h3, h4⟩ := ih hn' h1
      exact ⟨h3, h4⟩

/-- a property with a value was called at most once, one without was never called -/
theorem uses_calls {bodies : Str → Body α K} (hb : Acyclic bodies) (d : Nat) (n : Str) (us : List (Use α)) {o : Obj α K}
    (h : (o.callsOf n).length ≤ 1 ∧ (o.lookup n = none → o.callsOf n = [])) :
    ((uses bodies d us o).callsOf n).length ≤ 1 ∧ ((uses bodies d us o).lookup n = none → (uses bodies d us o).callsOf n = []) := by
  obtain ⟨rank, hb⟩ := hb
  induction us generalizing o with
  | nil => exact h
  | cons u us ih =>
    apply ih
    cases u with
    | read m =>
      simp only [use]
      have hs := (read_step hb d m o n).2
      cases hl : o.lookup n with
      | some v =>
        obtain ⟨h1, h2⟩ := hs.keep v hl
        exact ⟨by rw [h2]; exact h.1, fun h3 => by rw [h1] at h3; cases h3⟩
      | none =>
        rcases hs.fresh hl with ⟨h1, h2⟩ | ⟨v, h1, h2⟩
        · exact ⟨by rw [h2]; exact h.1, fun _ => by rw [h2]; exact h.2 hl⟩
        · exact ⟨by rw [h2, h.2 hl]; simp, fun h3 => by rw [h1] at h3; cases h3⟩
    | write m w =>
      simp only [use]
      refine ⟨h.1, fun h3 => ?_⟩
      by_cases hm : n = m
      · subst hm; rw [lookup_store_self] at h3; cases h3
      · rw [lookup_store_ne o w hm] at h3; exact h.2 h3

end Verif.Cached

namespace Verif
open Cached
variable {α K : Type}

/-- C62: for every sequence of reads and assignments of any properties of a new object, whatever the functions
do and however deep the stack is, each function returns at most once. -/
theorem C62_once {bodies : Str → Body α K} (hb : Acyclic bodies) (d : Nat) (us : List (Use α)) (k : K) (n : Str) :
    ((uses bodies d us (new k)).callsOf n).length ≤ 1 :=
  (uses_calls hb d n us (o := new k) ⟨by simp [Obj.callsOf, new], fun _ => rfl⟩).1

/-- C62: once a read has returned a value, every later read returns that value without calling the function, as
long as nobody assigns to the property. -/
theorem C62_stable {bodies : Str → Body α K} (hb : Acyclic bodies) (d : Nat) {n : Str} {o : Obj α K} {v : α}
    (h : (read bodies (d + 1) n o).1 = .ok v) (us : List (Use α)) (hn : NoWrite n us) :
    let o' := uses bodies (d + 1) us (read bodies (d + 1) n o).2
    read bodies (d + 1) n o' = (.ok v, o') ∧ o'.callsOf n = (read bodies (d + 1) n o).2.callsOf n := by
  obtain ⟨h1, h2⟩ := uses_stored hb (d + 1) us hn (read_stores h)
  exact ⟨read_stored h1, h2⟩

/-- C62: after an assignment, whether or not the property was read before, every read returns the assigned value
without calling the function, until the next assignment to it. -/
theorem C62_assigned {bodies : Str → Body α K} (hb : Acyclic bodies) (d : Nat) (n : Str) (o : Obj α K) (v : α) (us : List (Use α))
    (hn : NoWrite n us) :
    let o' := uses bodies (d + 1) us (use bodies (d + 1) (.write n v) o)
    read bodies (d + 1) n o' = (.ok v, o') ∧ o'.callsOf n = o.callsOf n := by
  obtain ⟨h1, h2⟩ := uses_stored hb (d + 1) us hn (o := use bodies (d + 1) (.write n v) o) (lookup_store_self o n v)
  exact ⟨read_stored h1, h2⟩

namespace Cached

/-- a property which fails at first and then gives the number of attempts, and one which reads it -/
def exampleBodies (n : Str) : Body Nat Nat :=
  if n = str!"a" then .env (· + 1) (fun k => if k = 0 then .raise .valueError else .ret k)
  else if n = str!"b" then .get (str!"a") (fun v => .ret (v + 10))
  else .raise .attributeError

theorem exampleBodies_acyclic : Acyclic exampleBodies := by
  refine ⟨fun n => if n = str!"b" then 1 else 0, fun n => ?_⟩
  unfold exampleBodies
  split
  · refine .env _ _ fun x => ?_
    by_cases h : x = 0
    · simp only [h, if_true]; exact .raise _
    · simp only [h, if_false]; exact .ret _
  · split
    · rename_i h
      subst h
      exact .get _ _ (by decide) fun v => .ret _
    · exact .raise _

/-- the first read of `b` fails, the second one gives 11 through one call of each function, an assignment to `a`
shows in `a` only -/
example : (read exampleBodies 5 (str!"b") (new 0)).1.toOption = none ∧
    (read exampleBodies 5 (str!"b") (uses exampleBodies 5 [.read (str!"b")] (new 0))).1.toOption = some 11 ∧
    (uses exampleBodies 5 [.read (str!"b"), .read (str!"b"), .read (str!"a"), .write (str!"a") 7, .read (str!"b")] (new 0)).calls =
      [(str!"b", 11), (str!"a", 1)] ∧
    (read exampleBodies 5 (str!"a")
      (uses exampleBodies 5 [.read (str!"b"), .read (str!"b"), .read (str!"a"), .write (str!"a") 7, .read (str!"b")] (new 0))).1.toOption = some 7 := by
  decide +kernel

end Cached

/-- a function which reads its own property is called again before its first call has returned -/
theorem C62_refuted_reentrant : ∃ (bodies : Str → Body Nat Nat) (us : List (Use Nat)),
    ((uses bodies 5 us (new 0)).callsOf (str!"a")).length = 2 :=
  ⟨fun _ => .env (· + 1) (fun k => if k = 0 then .get (str!"a") (fun v => .ret (v + 1)) else .ret 5), [.read (str!"a")],
    by decide +kernel⟩

end Verif
