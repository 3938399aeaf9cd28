import Verif.Props.Processes
/-!
# Lost appends (C04)

Appends of several processes may be lost, even if they concern different chains. They are not if every call which
changes the heads file runs without another such change in between.
-/
namespace Verif

open Chainstore

variable {c : Codec}

/-- the effect of a call on the logs -/
def Job.apply : Job → Store → Store
  | .append n e, s => s.push n e
  | .remove p, s => s.removeIf p
  | .read _ _, s => s

/-- does the call change something? -/
def Job.writes : Job → Bool
  | .append _ _ => true
  | .remove _ => true
  | .read _ _ => false

/-- If this turn writes the heads file, has no other call written it since the call of this process started? -/
def Sys.undisturbed (s : Sys) : Turn → Bool
  | .start _ _ => true
  | .step i _ =>
    match s.procs i with
    | none => true
    | some r =>
      match r.rest with
      | .op o _ => !o.writesHeads || s.disk.headWrites == r.since
      | _ => true

/-- this holds at every turn of a schedule -/
def Sys.exclusive (c : Codec) : List Turn → Sys → Bool
  | [], _ => true
  | x :: xs, s => s.undisturbed x && Sys.exclusive c xs (s.act c x)

theorem Sys.undisturbed_step {s : Sys} {i : Nat} {t : Time} {r : Proc} {o : FOp}
    {k : o.Ret → FProg (Option (List Entry))} (h : s.undisturbed (.step i t) = true) (h1 : s.procs i = some r)
    (h2 : r.rest = .op o k) (h3 : o.writesHeads = true) : s.disk.headWrites = r.since := by
  simpa [Sys.undisturbed, h1, h2, h3] using h

/-- a later state: block files stay; if the heads file was not written, the logs are the same -/
def After (c : Codec) (d : Disk) (s : Store) (d1 : Disk) (s1 : Store) : Prop :=
  Keeps c d d1 ∧ d.headWrites ≤ d1.headWrites ∧ (d1.headWrites = d.headWrites → s1 = s ∧ d1.heads = d.heads)

theorem After.refl (d : Disk) (s : Store) : After c d s d s :=
  ⟨fun _ _ _ h => h, Nat.le_refl _, fun _ => ⟨rfl, rfl⟩⟩

theorem After.trans {d d1 d2 : Disk} {s s1 s2 : Store} (h : After c d s d1 s1) (h' : After c d1 s1 d2 s2) :
    After c d s d2 s2 := by
  refine ⟨fun x b hb hl => h'.1 x b hb (h.1 x b hb hl), Nat.le_trans h.2.1 h'.2.1, fun he => ?_⟩
  have h1 := h.2.1
  have h2 := h'.2.1
  obtain ⟨e1, e2⟩ := h.2.2 (by omega)
  obtain ⟨e3, e4⟩ := h'.2.2 (by omega)
  exact ⟨e3.trans e1, e4.trans e2⟩

/-- the rest of a program which does not write the heads file -/
def FProg.Calm (c : Codec) {α : Type} (Q : α → Disk → Store → Prop) : FProg α → Disk → Store → Prop
  | .pure a, d, s => Q a d s
  | .raise _, _, _ => True
  | .op o k, d, s => o.writesHeads = false ∧
      ∀ d1 s1, After c d s d1 s1 → Represents c d1 s1 → ∀ t, (d1.step c t o).2.collided = false →
        After c d1 s1 (d1.step c t o).2 s1 ∧ Represents c (d1.step c t o).2 s1 ∧
        (k (d1.step c t o).1).Calm c Q (d1.step c t o).2 s1

/-- the rest of the program of a call which started when the heads file had been written `n` times: it writes the heads
file at most once, at its end, and then does what it should unless someone else wrote the file -/
def FProg.Pend (c : Codec) (j : Job) (n : Nat) {α : Type} : FProg α → Disk → Store → Prop
  | .pure _, _, _ => j.writes = false
  | .raise _, _, _ => True
  | .op o k, d, s => ∀ d1 s1, After c d s d1 s1 → Represents c d1 s1 → ∀ t, (d1.step c t o).2.collided = false →
      if o.writesHeads then
        (d1.headWrites = n → Represents c (d1.step c t o).2 (j.apply s1)) ∧ ∃ a, k (d1.step c t o).1 = .pure a
      else
        After c d1 s1 (d1.step c t o).2 s1 ∧ Represents c (d1.step c t o).2 s1 ∧
        (k (d1.step c t o).1).Pend c j n (d1.step c t o).2 s1

theorem FProg.Pend.later {α : Type} {j : Job} {n : Nat} {p : FProg α} {d d1 : Disk} {s s1 : Store}
    (h : p.Pend c j n d s) (ha : After c d s d1 s1) : p.Pend c j n d1 s1 := by
  cases p with
  | pure a => exact h
  | raise e => exact h
  | op o k => exact fun d2 s2 h2 => h d2 s2 (ha.trans h2)

theorem FProg.Calm.bind {α β : Type} {Q : α → Disk → Store → Prop} {Q' : β → Disk → Store → Prop} {p : FProg α}
    {f : α → FProg β} {d : Disk} {s : Store} (h : p.Calm c Q d s) (hr : Represents c d s)
    (hf : ∀ a d1 s1, After c d s d1 s1 → Represents c d1 s1 → Q a d1 s1 → (f a).Calm c Q' d1 s1) :
    (p.bind f).Calm c Q' d s := by
  induction p generalizing d s with
  | pure a => exact hf a d s (.refl d s) hr h
  | raise e => trivial
  | op o k ih =>
    refine ⟨h.1, fun d1 s1 h1 h2 t h3 => ?_⟩
    obtain ⟨g1, g2, g3⟩ := h.2 d1 s1 h1 h2 t h3
    exact ⟨g1, g2, ih _ g3 g2 fun a d2 s2 h4 => hf a d2 s2 ((h1.trans g1).trans h4)⟩

theorem FProg.Calm.pend {α β : Type} {Q : α → Disk → Store → Prop} {j : Job} {n : Nat} {p : FProg α}
    {f : α → FProg β} {d : Disk} {s : Store} (h : p.Calm c Q d s) (hr : Represents c d s)
    (hf : ∀ a d1 s1, After c d s d1 s1 → Represents c d1 s1 → Q a d1 s1 → (f a).Pend c j n d1 s1) :
    (p.bind f).Pend c j n d s := by
  induction p generalizing d s with
  | pure a => exact hf a d s (.refl d s) hr h
  | raise e => trivial
  | op o k ih =>
    intro d1 s1 h1 h2 t h3
    obtain ⟨g1, g2, g3⟩ := h.2 d1 s1 h1 h2 t h3
    rw [if_neg (by rw [h.1]; exact Bool.false_ne_true)]
    exact ⟨g1, g2, ih _ g3 g2 fun a d2 s2 h4 => hf a d2 s2 ((h1.trans g1).trans h4)⟩

theorem FProg.ReadOnly.calm {α : Type} {p : FProg α} (hp : p.ReadOnly) (d : Disk) (s : Store) :
    p.Calm c (fun _ _ _ => True) d s := by
  induction p generalizing d s with
  | pure a => trivial
  | raise e => trivial
  | op o k ih =>
    cases o with
    | write p b => exact hp.1.elim
    | read p => exact ⟨rfl, fun d1 s1 _ h2 t _ => ⟨.refl _ _, h2, ih _ (hp.2 _) _ _⟩⟩
    | time => exact ⟨rfl, fun d1 s1 _ h2 t _ => ⟨.refl _ _, h2, ih _ (hp.2 _) _ _⟩⟩

/-! ## the functions of the store -/

/-- known as long as nobody has written the heads file -/
def Unless (n : Nat) (P : Disk → Store → Prop) (d : Disk) (s : Store) : Prop :=
  n ≤ d.headWrites ∧ (d.headWrites = n → P d s)

theorem Unless.later {n : Nat} {P P' : Disk → Store → Prop} {d d1 : Disk} {s s1 : Store} (h : Unless n P d s)
    (ha : After c d s d1 s1) (hP : Keeps c d d1 → d1.heads = d.heads → P d s → P' d1 s) : Unless n P' d1 s1 := by
  refine ⟨Nat.le_trans h.1 ha.2.1, fun he => ?_⟩
  have h1 := h.1
  have h2 := ha.2.1
  obtain ⟨rfl, e2⟩ := ha.2.2 (by omega)
  exact hP ha.1 e2 (h.2 (by omega))

theorem calm_getheads {n : Nat} {d : Disk} {s : Store} (hn : n ≤ d.headWrites) :
    (getheads c).Calm c (fun hs => Unless n (fun d _ => HeadsAre c d hs)) d s := by
  refine ⟨rfl, fun d1 s1 h1 h2 t _ => ⟨.refl _ _, h2, ?_⟩⟩
  simp only [Disk.step, Disk.read]
  have hle := Nat.le_trans hn h1.2.1
  cases hh : d1.heads with
  | none => exact ⟨hle, fun _ => Or.inl ⟨hh, rfl⟩⟩
  | some b =>
    cases hx : c.loadDict b with
    | error e => simp only [FProg.bind, hx]; trivial
    | ok hs =>
      simp only [FProg.bind, hx]
      exact ⟨hle, fun _ => Or.inr ⟨b, hh, hx⟩⟩

/-- the log of a name lies below a cid -/
def LogAt (c : Codec) (name : Str) (o : Option Str) (d : Disk) (s : Store) : Prop :=
  ∃ l, Linked c d.blocks o l ∧ s.get name = l.map (·.2)

theorem calm_getBlock {n : Nat} {name cid : Str} {d : Disk} {s : Store} (h : Unless n (LogAt c name (some cid)) d s) :
    (getBlock c cid).Calm c (fun r => Unless n (LogAt c name (r.map (·.cid)))) d s := by
  refine ⟨rfl, fun d1 s1 h1 h2 t _ => ⟨.refl _ _, h2, ?_⟩⟩
  have h' : Unless n (LogAt c name (some cid)) d1 s1 := h.later h1 fun hk _ ⟨l, g1, g2⟩ => ⟨l, g1.keeps hk, g2⟩
  simp only [Disk.step, Disk.read]
  cases hf : Disk.lookup d1.blocks cid with
  | none =>
    refine ⟨h'.1, fun he => ?_⟩
    obtain ⟨l, g1, -⟩ := h'.2 he
    cases g1 with
    | cons file _ _ _ => rw [hf] at file; cases file
  | some b =>
    simp only [FProg.bind, FProg.bind_eq]
    cases hx : c.loadList b with
    | error e => trivial
    | ok data =>
      simp only [FProg.ofExcept, FProg.bind]
      cases hy : Block.ofData cid data with
      | error e => trivial
      | ok blk =>
        have : blk.cid = cid := by
          unfold Block.ofData at hy
          split at hy
          · cases hy; rfl
          · cases hy
        simp only [FProg.bind, FProg.pure_eq]
        show Unless n (LogAt c name (some blk.cid)) d1 s1
        rw [this]; exact h'

theorem calm_getHeadBlock {n : Nat} {name : Str} {d : Disk} {s : Store} (hl : c.Lawful) (hr : Represents c d s)
    (hn : n ≤ d.headWrites) :
    (getHeadBlock c name).Calm c (fun r => Unless n (LogAt c name (r.map (·.cid)))) d s := by
  refine FProg.Calm.bind (p := getHeadCid c name) (Q := fun r => Unless n (LogAt c name r)) ?_ hr ?_
  · refine FProg.Calm.bind (p := getheads c) (calm_getheads hn) hr fun hs d1 s1 _ hr1 h => ⟨h.1, fun he => ?_⟩
    obtain ⟨-, hs', g1, g2⟩ := hr1
    have : hs' = hs := by
      have e1 := run_getheads g1 0
      rw [run_getheads (h.2 he) 0] at e1
      cases e1; rfl
    subst this
    rcases headOf_forall g2 name with ⟨k1, k2⟩ | ⟨cid, l, k1, k2, k3⟩
    · rw [k1]; exact ⟨[], .nil, k2⟩
    · rw [k1]; exact ⟨l, k2, k3⟩
  · intro r d1 s1 _ _ h
    match r with
    | none => exact h
    | some [] =>
      refine ⟨h.1, fun he => ?_⟩
      obtain ⟨l, g1, -⟩ := h.2 he
      exact absurd rfl (g1.cid_ne hl)
    | some (x :: xs) => exact calm_getBlock h

theorem represents_keeps {d d' : Disk} {s : Store} (h : Represents c d s) (hh : d'.heads = d.heads)
    (hk : Keeps c d d') : Represents c d' s := by
  obtain ⟨h1, hs, h2, h3⟩ := h
  refine ⟨h1, hs, ?_, h3.imp fun _ _ ⟨g1, l, g2, g3⟩ => ⟨g1, l, g2.keeps hk, g3⟩⟩
  unfold HeadsAre; rw [hh]; exact h2

theorem calm_storeBlock {n : Nat} {name : Str} {e : Entry} {par : Option Str} {d : Disk} {s : Store} (hl : c.Lawful)
    (h : Unless n (LogAt c name par) d s) :
    (storeBlock c e.tag e.args par).Calm c
      (fun cid => Unless n (fun d s => ∃ l, Linked c d.blocks (some cid) ((cid, e) :: l) ∧ s.get name = l.map (·.2)))
      d s := by
  refine ⟨rfl, fun d1 s1 h1 h2 t _ => ⟨.refl _ _, h2, rfl, fun d2 s2 h3 h4 t' hcol => ?_⟩⟩
  have hk := keeps_write (not_collided_write hcol)
  have ha : After c d2 s2 (d2.write c _ _) s2 := ⟨hk, Nat.le_refl _, fun _ => ⟨rfl, rfl⟩⟩
  refine ⟨ha, represents_keeps h4 rfl hk, ?_⟩
  refine Unless.later (c := c) (P' := fun d s => ∃ l, Linked c d.blocks (some (c.hash (c.dumpList (blockData e par t))))
    ((c.hash (c.dumpList (blockData e par t)), e) :: l) ∧ s.get name = l.map (·.2)) h ((h1.trans h3).trans ha) fun hk _ ⟨l, g1, g2⟩ =>
    ⟨l, .cons (Disk.lookup_put_self ..) rfl (hl.load_dump_list _) (g1.keeps hk), g2⟩

theorem FProg.bind_assoc {α β γ : Type} (p : FProg α) (f : α → FProg β) (g : β → FProg γ) :
    (p.bind f).bind g = p.bind fun a => (f a).bind g := by
  induction p with
  | pure a => rfl
  | raise e => rfl
  | op o k ih => simp only [FProg.bind, ih]

theorem pend_append {n : Nat} {name : Str} {e : Entry} {d : Disk} {s : Store} (hl : c.Lawful) (hr : Represents c d s)
    (hn : n ≤ d.headWrites) : ((Job.append name e).prog c).Pend c (.append name e) n d s := by
  simp only [Job.prog, appendEntry, newHeadBlock, upsert, FProg.bind_eq, FProg.bind_assoc]
  refine (calm_getHeadBlock hl hr hn).pend hr fun r d1 s1 _ hr1 h1 => ?_
  refine (calm_storeBlock hl h1).pend hr1 fun cid d2 s2 _ hr2 h2 => ?_
  refine (calm_getheads h2.1).pend hr2 fun hs d3 s3 ha3 hr3 h3 => ?_
  intro d4 s4 ha4 hr4 t _
  refine ⟨fun he => ?_, none, rfl⟩
  have h3' : Unless n (fun d _ => HeadsAre c d hs) d4 s4 := h3.later ha4 fun _ hh hP => by
    unfold HeadsAre; rw [hh]; exact hP
  have h2' := h2.later (P' := fun d s => ∃ l, Linked c d.blocks (some cid) ((cid, e) :: l) ∧ s.get name = l.map (·.2))
    (ha3.trans ha4) fun hk _ ⟨l, g1, g2⟩ => ⟨l, g1.keeps hk, g2⟩
  obtain ⟨l, g1, g2⟩ := h2'.2 he
  obtain ⟨hnd, hs', k1, k2⟩ := hr4
  have : hs' = hs := by
    have e1 := run_getheads k1 0
    rw [run_getheads (h3'.2 he) 0] at e1
    cases e1; rfl
  subst this
  have hfn := setHead_forall k2 g1 g2
  refine ⟨Store.nodup_push hnd name e, _, Or.inr ⟨_, rfl, hl.load_dump_dict _ ?_⟩, hfn⟩
  rw [heads_nodup hfn]
  exact Store.nodup_push hnd name e

theorem represents_removeIf (hl : c.Lawful) {d : Disk} {s : Store} (h : Represents c d s) {hs : List (Str × Str)}
    (hh : HeadsAre c d hs) (p : Str → Bool) :
    Represents c (d.write c .heads (c.dumpDict (hs.filter fun x => !p x.1))) (s.removeIf p) := by
  have := (impl_removeIf hl h p).2.1
  simpa [Disk.impl, Chainstore.removeIf, FProg.run_bind, run_getheads hh] using this

theorem pend_remove {n : Nat} {p : Str → Bool} {d : Disk} {s : Store} (hl : c.Lawful) (hr : Represents c d s)
    (hn : n ≤ d.headWrites) : ((Job.remove p).prog c).Pend c (.remove p) n d s := by
  have : (Job.remove p).prog c = (getheads c).bind fun hs =>
      (FProg.write .heads (c.dumpDict (hs.filter fun x => !p x.1))).bind fun _ => .pure none := by
    simp only [Job.prog, Chainstore.removeIf, FProg.bind_eq, FProg.bind_assoc]
  rw [this]
  refine (calm_getheads hn).pend hr fun hs d3 s3 ha3 hr3 h3 => ?_
  intro d4 s4 ha4 hr4 t _
  refine ⟨fun he => ?_, none, rfl⟩
  have h3' : Unless n (fun d _ => HeadsAre c d hs) d4 s4 := h3.later ha4 fun _ hh hP => by
    unfold HeadsAre; rw [hh]; exact hP
  exact represents_removeIf hl hr4 (h3'.2 he) p

theorem parent_readOnly (b : Block) : (parent c b).ReadOnly := by
  unfold parent
  split
  · trivial
  · trivial
  · exact getBlock_readOnly _
  · trivial

theorem ancestors_readOnly (n : Nat) (b : Option Block) : (ancestors c n b).ReadOnly := by
  induction n generalizing b with
  | zero => cases b <;> trivial
  | succ n ih =>
    cases b with
    | none => trivial
    | some b =>
      refine FProg.ReadOnly.bind (parent_readOnly b) fun p => FProg.ReadOnly.bind (ih p) fun r => ?_
      cases r <;> trivial

theorem iterEntries_readOnly (fuel : Nat) (name : Str) : (iterEntries c fuel name).ReadOnly := by
  refine FProg.ReadOnly.bind (getHeadBlock_readOnly name) fun p =>
    FProg.ReadOnly.bind (ancestors_readOnly _ p) fun r => ?_
  cases r with
  | none => trivial
  | some bs => exact FProg.ReadOnly.bind (p := FProg.ofExcept _) (.ofExcept _) fun _ => trivial

theorem FProg.bind_pure {α : Type} (p : FProg α) : p.bind .pure = p := by
  induction p with
  | pure a => rfl
  | raise e => rfl
  | op o k ih => simp only [FProg.bind, ih]

theorem pend_job (hl : c.Lawful) {n : Nat} (j : Job) {d : Disk} {s : Store} (hr : Represents c d s)
    (hn : n ≤ d.headWrites) : (j.prog c).Pend c j n d s := by
  cases j with
  | append name e => exact pend_append hl hr hn
  | remove p => exact pend_remove hl hr hn
  | read name fuel =>
    have h := ((iterEntries_readOnly (c := c) fuel name).calm d s).pend (f := .pure) (j := .read name fuel) (n := n) hr
      fun _ _ _ _ _ _ => rfl
    rw [FProg.bind_pure] at h
    exact h

/-! ## schedules -/

/-- the logs after the calls which wrote the heads file, one after the other -/
def Sys.logs (s : Sys) : Store := s.committed.foldr Job.apply []

structure Sys.Serial (c : Codec) (s : Sys) : Prop where
  store : Represents c s.disk s.logs
  pending : ∀ i r, s.procs i = some r → r.wrote = false → r.rest.Pend c r.job r.since s.disk s.logs
  wrote : ∀ i r, s.procs i = some r → r.wrote = true → r.job ∈ s.committed ∧ ∃ a, r.rest = .pure a
  finished : ∀ j a, (j, .ok a) ∈ s.finished → j.writes = true → j ∈ s.committed

theorem Sys.Serial.act (hl : c.Lawful) {s : Sys} (hi : s.Serial c) (x : Turn)
    (hx : s.undisturbed x = true) (h : (s.act c x).disk.collided = false) : (s.act c x).Serial c := by
  cases x with
  | start i j =>
    simp only [Sys.act] at h ⊢
    split
    · exact hi
    · refine ⟨hi.store, ?_, ?_, hi.finished⟩
      · intro i' r hr hw
        simp only [Sys.setProc] at hr
        split at hr
        · cases hr; exact pend_job hl j hi.store (Nat.le_refl _)
        · exact hi.pending i' r hr hw
      · intro i' r hr hw
        simp only [Sys.setProc] at hr
        split at hr
        · cases hr; cases hw
        · exact hi.wrote i' r hr hw
  | step i t =>
    simp only [Sys.act] at h ⊢
    split
    · exact hi
    · rename_i r hr
      split
      · rename_i a ha
        refine ⟨hi.store, fun i' r' hr' hw => ?_, fun i' r' hr' hw => ?_, fun j a' hm hj => ?_⟩
        · simp only [Sys.setProc] at hr'
          split at hr'
          · cases hr'
          · exact hi.pending i' r' hr' hw
        · simp only [Sys.setProc] at hr'
          split at hr'
          · cases hr'
          · exact hi.wrote i' r' hr' hw
        · rcases List.mem_cons.1 hm with e | hm
          · cases e
            cases hw : r.wrote with
            | true => exact (hi.wrote i r hr hw).1
            | false =>
              have := hi.pending i r hr hw
              rw [ha] at this
              have : r.job.writes = false := this
              rw [hj] at this; cases this
          · exact hi.finished j a' hm hj
      · rename_i e he
        refine ⟨hi.store, fun i' r' hr' hw => ?_, fun i' r' hr' hw => ?_, fun j a' hm hj => ?_⟩
        · simp only [Sys.setProc] at hr'
          split at hr'
          · cases hr'
          · exact hi.pending i' r' hr' hw
        · simp only [Sys.setProc] at hr'
          split at hr'
          · cases hr'
          · exact hi.wrote i' r' hr' hw
        · rcases List.mem_cons.1 hm with e | hm
          · cases e
          · exact hi.finished j a' hm hj
      · rename_i o k hok
        simp only [hr, hok] at h
        have hw : r.wrote = false := by
          cases hw : r.wrote with
          | false => rfl
          | true =>
            obtain ⟨-, a, ha⟩ := hi.wrote i r hr hw
            rw [hok] at ha; cases ha
        have hp := hi.pending i r hr hw
        rw [hok] at hp
        have hp := hp s.disk s.logs (.refl _ _) hi.store t h
        cases ho : o.writesHeads with
        | true =>
          rw [if_pos ho] at hp
          obtain ⟨h1, a, h2⟩ := hp
          have hsince := Sys.undisturbed_step hx hr hok ho
          have hlater : After c s.disk s.logs (s.disk.step c t o).2 (r.job.apply s.logs) := by
            cases o with
            | read p => cases ho
            | time => cases ho
            | write p b =>
              cases p with
              | block cid => cases ho
              | heads =>
                refine ⟨fun _ _ _ h => h, Nat.le_succ _, fun he => ?_⟩
                simp only [Disk.step, Disk.write] at he
                omega
          refine ⟨h1 hsince, fun i' r' hr' hw' => ?_, fun i' r' hr' hw' => ?_, fun j a' hm hj => ?_⟩
          · simp only [Sys.setProc] at hr'
            split at hr'
            · cases hr'; simp at hw'
            · exact (hi.pending i' r' hr' hw').later hlater
          · simp only [Sys.setProc] at hr'
            split at hr'
            · cases hr'; exact ⟨by simp, a, h2⟩
            · obtain ⟨k1, k2⟩ := hi.wrote i' r' hr' hw'
              exact ⟨by simp [k1], k2⟩
          · have := hi.finished j a' hm hj
            simp [this]
        | false =>
          rw [if_neg (by rw [ho]; exact Bool.false_ne_true)] at hp
          obtain ⟨h1, h2, h3⟩ := hp
          refine ⟨h2, fun i' r' hr' hw' => ?_, fun i' r' hr' hw' => ?_, fun j a' hm hj => ?_⟩
          · simp only [Sys.setProc] at hr'
            split at hr'
            · cases hr'; exact h3
            · exact (hi.pending i' r' hr' hw').later h1
          · simp only [Sys.setProc] at hr'
            split at hr'
            · cases hr'; simp [hw] at hw'
            · obtain ⟨k1, k2⟩ := hi.wrote i' r' hr' hw'
              exact ⟨by simpa using k1, k2⟩
          · have := hi.finished j a' hm hj
            simpa using this

theorem Sys.Serial.runs (hl : c.Lawful) (turns : List Turn) {s : Sys} (hi : s.Serial c)
    (hx : Sys.exclusive c turns s = true) (h : (s.runs c turns).disk.collided = false) : (s.runs c turns).Serial c := by
  induction turns generalizing s with
  | nil => exact hi
  | cons x xs ih =>
    obtain ⟨hx1, hx2⟩ := Bool.and_eq_true_iff.1 hx
    exact ih (hi.act hl x hx1 (Sys.runs_collided xs _ h)) hx2 h

theorem Sys.serial_init : ({} : Sys).Serial c :=
  ⟨⟨List.nodup_nil, [], Or.inl ⟨rfl, rfl⟩, .nil⟩, (fun _ _ h => nomatch h), (fun _ _ h => nomatch h),
    (fun _ _ h => nomatch h)⟩

/-- jobs of processes and jobs which wrote were started -/
theorem Sys.known_act {s : Sys} (h1 : ∀ i r, s.procs i = some r → r.job ∈ s.started) (h2 : s.committed ⊆ s.started)
    (x : Turn) : (∀ i r, (s.act c x).procs i = some r → r.job ∈ (s.act c x).started) ∧
      (s.act c x).committed ⊆ (s.act c x).started := by
  cases x with
  | start i j =>
    simp only [Sys.act]
    split
    · exact ⟨h1, h2⟩
    · refine ⟨fun i' r hr => ?_, fun y hy => List.mem_cons_of_mem _ (h2 hy)⟩
      simp only [Sys.setProc] at hr
      split at hr
      · cases hr; exact List.mem_cons_self
      · exact List.mem_cons_of_mem _ (h1 i' r hr)
  | step i t =>
    simp only [Sys.act]
    split
    · exact ⟨h1, h2⟩
    · rename_i r hr
      have key : ∀ (q : Option Proc), (∀ r', q = some r' → r'.job = r.job) →
          ∀ i' r', s.setProc i q i' = some r' → r'.job ∈ s.started := by
        intro q hq i' r' hr'
        simp only [Sys.setProc] at hr'
        split at hr'
        · rw [hq r' hr']; exact h1 i r hr
        · exact h1 i' r' hr'
      split
      · exact ⟨key none (fun _ h => nomatch h), h2⟩
      · exact ⟨key none (fun _ h => nomatch h), h2⟩
      · refine ⟨key _ fun r' hr' => by cases hr'; rfl, ?_⟩
        split
        · intro y hy
          rcases List.mem_cons.1 hy with rfl | hy
          · exact h1 i r hr
          · exact h2 hy
        · exact h2

theorem Sys.known_runs (turns : List Turn) : ∀ {s : Sys}, (∀ i r, s.procs i = some r → r.job ∈ s.started) →
    s.committed ⊆ s.started → (s.runs c turns).committed ⊆ (s.runs c turns).started := by
  induction turns with
  | nil => exact fun _ h2 => h2
  | cons x xs ih =>
    intro s h1 h2
    obtain ⟨g1, g2⟩ := Sys.known_act (c := c) h1 h2 x
    exact ih g1 g2

theorem mem_logs {js : List Job} {n : Str} {e : Entry} (h : Job.append n e ∈ js)
    (hr : ∀ p, Job.remove p ∈ js → p n = false) : e ∈ (js.foldr Job.apply []).get n := by
  induction js with
  | nil => cases h
  | cons j js ih =>
    have ih' := fun hm => ih hm fun p hp => hr p (List.mem_cons_of_mem _ hp)
    rcases List.mem_cons.1 h with rfl | h
    · simp only [List.foldr_cons, Job.apply, Store.get_push_self]
      exact List.mem_cons_self
    · have := ih' h
      cases j with
      | append m f =>
        simp only [List.foldr_cons, Job.apply]
        by_cases hm : m = n
        · subst hm; rw [Store.get_push_self]; exact List.mem_cons_of_mem _ this
        · rw [Store.get_push_ne _ (fun h => hm h.symm)]; exact this
      | remove p =>
        simp only [List.foldr_cons, Job.apply]
        rw [Store.get_removeIf, if_neg (by rw [hr p List.mem_cons_self]; exact Bool.false_ne_true)]
        exact this
      | read m k => exact this

/-- **C04** (partial). If every call which changes the heads file does so without another change of it since the call
started, the calls of all processes have the same effect as if they ran one after the other, in the order in which they
wrote the heads file, and every append or removal which returned is among them. Missing is the claim without that
condition; it is false, see `C04_refuted`. -/
theorem C04_serial_partial (hl : c.Lawful) (turns : List Turn) (hx : Sys.exclusive c turns {} = true)
    (h : (({} : Sys).runs c turns).disk.collided = false) :
    ReadsAs c (({} : Sys).runs c turns).disk ((({} : Sys).runs c turns).committed.foldr Job.apply []) ∧
    ∀ j a, (j, .ok a) ∈ (({} : Sys).runs c turns).finished → j.writes = true →
      j ∈ (({} : Sys).runs c turns).committed :=
  have hs := Sys.serial_init.runs hl turns hx h
  ⟨hs.store.readsAs hl, hs.finished⟩

/-- **C04** (partial): under the same condition an append which returned is visible, unless a removal concerned its
chain. -/
theorem C04_visible_partial (hl : c.Lawful) (turns : List Turn) (hx : Sys.exclusive c turns {} = true)
    (h : (({} : Sys).runs c turns).disk.collided = false) (n : Str) (e : Entry) (a : Option (List Entry))
    (hfin : (Job.append n e, .ok a) ∈ (({} : Sys).runs c turns).finished)
    (hrem : ∀ p, Job.remove p ∈ (({} : Sys).runs c turns).started → p n = false) :
    ∃ es, (Disk.impl c).chain (({} : Sys).runs c turns).disk n = .ok es ∧ e ∈ es := by
  obtain ⟨h1, h2⟩ := C04_serial_partial hl turns hx h
  refine ⟨_, h1.2 n, mem_logs (h2 _ _ hfin rfl) fun p hp => hrem p ?_⟩
  exact Sys.known_runs turns (by intro _ _ h; cases h) (by intro _ h; cases h) hp

namespace Concrete

/-- a process which appends as the first to a chain goes on until it has read the heads file for the second time -/
def untilWrite (i : Nat) : List Turn := List.replicate 4 (.step i 1)
/-- the rest: it writes the heads file and returns -/
def writeAndReturn (i : Nat) : List Turn := List.replicate 2 (.step i 1)

/-- two processes append to two chains -/
def race : List Turn :=
  [.start 0 (.append (str!"a") (.acfg (str!"1"))), .start 1 (.append (str!"b") (.acfg (str!"2")))] ++
  untilWrite 0 ++ untilWrite 1 ++ writeAndReturn 1 ++ writeAndReturn 0

/-- the same, one after the other, with a reader in between -/
def noRace : List Turn :=
  [.start 0 (.append (str!"a") (.acfg (str!"1")))] ++ [.start 2 (.read (str!"a") 5), .step 2 1] ++
  untilWrite 0 ++ writeAndReturn 0 ++
  [.start 1 (.append (str!"b") (.acfg (str!"2")))] ++ untilWrite 1 ++ writeAndReturn 1

/-- the hypotheses of `C04_serial_partial` and `C04_visible_partial` are met by this schedule, not by the first one -/
example : Sys.exclusive codec noRace {} = true ∧ (({} : Sys).runs codec noRace).disk.collided = false := by
  decide +kernel
example : Sys.exclusive codec race {} = false := by decide +kernel
example : (Job.append (str!"a") (.acfg (str!"1")), .ok none) ∈ (({} : Sys).runs codec noRace).finished ∧
    ∀ p, Job.remove p ∈ (({} : Sys).runs codec noRace).started → p (str!"a") = false := by
  have h1 : (({} : Sys).runs codec noRace).finished =
      [(.append (str!"b") (.acfg (str!"2")), .ok none), (.append (str!"a") (.acfg (str!"1")), .ok none)] := by rfl
  have h2 : (({} : Sys).runs codec noRace).started =
      [.append (str!"b") (.acfg (str!"2")), .read (str!"a") 5, .append (str!"a") (.acfg (str!"1"))] := by rfl
  rw [h1, h2]
  exact ⟨List.mem_cons_of_mem _ List.mem_cons_self, fun p hp => by simp at hp⟩

end Concrete

/-- **C04** fails: two processes append to different chains, both calls return, and the entry of the second process is
gone: the first one writes back the heads it has read before. -/
theorem C04_refuted : ∃ turns : List Turn,
    (({} : Sys).runs Concrete.codec turns).disk.collided = false ∧
    (∀ j ∈ (({} : Sys).runs Concrete.codec turns).started, j.writes = true ∧ ∀ p, j ≠ .remove p) ∧
    (Job.append (str!"b") (.acfg (str!"2")), .ok none) ∈ (({} : Sys).runs Concrete.codec turns).finished ∧
    (Disk.impl Concrete.codec).chain (({} : Sys).runs Concrete.codec turns).disk (str!"b") = .ok [] := by
  refine ⟨Concrete.race, by decide +kernel, ?_, ?_, Except.eq_ok_of_toOption (by decide +kernel)⟩
  · have : (({} : Sys).runs Concrete.codec Concrete.race).started =
        [.append (str!"b") (.acfg (str!"2")), .append (str!"a") (.acfg (str!"1"))] := by rfl
    rw [this]
    intro j hj
    rcases List.mem_cons.1 hj with rfl | hj
    · exact ⟨rfl, fun p h => nomatch h⟩
    · rw [List.mem_singleton.1 hj]; exact ⟨rfl, fun p h => nomatch h⟩
  · have : (({} : Sys).runs Concrete.codec Concrete.race).finished =
        [(.append (str!"a") (.acfg (str!"1")), .ok none), (.append (str!"b") (.acfg (str!"2")), .ok none)] := by rfl
    rw [this]
    exact List.mem_cons_of_mem _ List.mem_cons_self

/-- `C05_sound` and `C05_calls` apply to the racing schedule followed by a read of the chain which was not lost -/
example : (({} : Sys).runs Concrete.codec (Concrete.race ++ .start 3 (.read (str!"a") 5) ::
      List.replicate 5 (.step 3 1))).disk.collided = false ∧
    ((({} : Sys).runs Concrete.codec (Concrete.race ++ .start 3 (.read (str!"a") 5) ::
      List.replicate 5 (.step 3 1))).finished.head?.bind fun x => x.2.toOption) = some (some [.acfg (str!"1")]) := by
  decide +kernel

end Verif
