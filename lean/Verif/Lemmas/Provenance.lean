import Verif.Props.PeerOrder
/-!
# Where entries come from, and which logs stay the same
-/
namespace Verif

variable {K : Type} {α : Type}

/-- `a.Adds h e`: the update `a` can put the entry `e` on the log of `h` -/
def Act.Adds : Act → Str → Entry → Prop
  | .msg n ad u, h, .msg e => h = peerHead n ad ∧ e.msgId = u.msgId ∧ e.date = u.date ∧
      ((e.keydata = [] ∧ e.keyhandle = [] ∧ e.pe = .nopreference) ∨
       (e.keydata ≠ [] ∧ u.keydata = some e.keydata ∧ u.pe = some e.pe.toStr ∧ e.keyhandle = Peer.orEmpty u.keyhandle))
  | .gossip n ad u, h, .gossip e => h = peerHead n ad ∧ e.msgId = u.msgId ∧ e.date = u.date ∧
      u.keydata = some e.keydata ∧ u.keyhandle = some e.keyhandle ∧ e.keydata ≠ []
  | .cfg n c, h, .cfg c' => h = ownHead n ∧ c' = c
  | .keygen n k, h, .keygen k' => h = ownHead n ∧ k' = k
  | .oob n v, h, .oob v' => h = oobHead n ∧ v' = v
  | .setVersion, h, .acfg v => h = managerHead ∧ v = str!"0.1"
  | _, _, _ => False

/-- the heads whose log an update can change -/
def Act.Touches : Act → Str → Prop
  | .msg n ad _, h => h = peerHead n ad
  | .gossip n ad _, h => h = peerHead n ad
  | .cfg n _, h => h = ownHead n
  | .keygen n _, h => h = ownHead n
  | .oob n _, h => h = oobHead n
  | .setVersion, h => h = managerHead
  | .removeAccount n, h => matchAccount n h = true
  | .wipe, _ => True

theorem act_new (O : Oracle K) (a : Act) (w : World Store K) (h : Str) (e : Entry)
    (he : e ∈ (exec O a.prog w).2.log h) : e ∈ w.log h ∨ a.Adds h e := by
  simp only [World.log] at he ⊢
  rw [get_act] at he
  cases a with
  | msg n ad u =>
    dsimp only at he; split at he
    · rename_i hh
      rcases Peer.applyMsg_cases (w.store.get h) u with h' | ⟨x, hx, h'⟩ <;> rw [h'] at he
      · exact Or.inl he
      · rcases List.mem_cons.mp he with rfl | he
        · right
          obtain ⟨_, h2, h3, h4⟩ := Peer.updateEntry_some hx
          refine ⟨hh, h2, h3, ?_⟩
          rcases h4 with ⟨_, _, h5, h6, h7⟩ | ⟨h5, h6, h7, h8⟩
          · exact Or.inl ⟨h5, h6, h7⟩
          · refine Or.inr ⟨?_, h6, peArg_ok.mp h8, h7⟩
            rw [h6] at h5; simpa [Peer.noKey] using h5
        · exact Or.inl he
    · exact Or.inl he
  | gossip n ad u =>
    dsimp only at he; split at he
    · rename_i hh
      rcases Peer.applyGossip_cases (w.store.get h) u with h' | ⟨x, hx, h'⟩ <;> rw [h'] at he
      · exact Or.inl he
      · rcases List.mem_cons.mp he with rfl | he
        · right
          obtain ⟨_, h2, h3, h4, h5, h6⟩ := Peer.gossipEntry_some hx
          exact ⟨hh, h2, h3, h4, h5, by simpa using h6⟩
        · exact Or.inl he
    · exact Or.inl he
  | cfg n c =>
    dsimp only at he; split at he
    · rcases List.mem_cons.mp he with rfl | he
      · exact Or.inr ⟨by assumption, rfl⟩
      · exact Or.inl he
    · exact Or.inl he
  | keygen n c =>
    dsimp only at he; split at he
    · rcases List.mem_cons.mp he with rfl | he
      · exact Or.inr ⟨by assumption, rfl⟩
      · exact Or.inl he
    · exact Or.inl he
  | oob n c =>
    dsimp only at he; split at he
    · rcases List.mem_cons.mp he with rfl | he
      · exact Or.inr ⟨by assumption, rfl⟩
      · exact Or.inl he
    · exact Or.inl he
  | setVersion =>
    dsimp only at he; split at he
    · rename_i hh
      rcases List.mem_cons.mp he with rfl | he
      · exact Or.inr ⟨hh.1, rfl⟩
      · exact Or.inl he
    · exact Or.inl he
  | removeAccount n =>
    dsimp only at he; split at he
    · cases he
    · exact Or.inl he
  | wipe => cases he

theorem act_frame (O : Oracle K) (a : Act) (w : World Store K) (h : Str) (hh : ¬ a.Touches h) :
    (exec O a.prog w).2.log h = w.log h := by
  simp only [World.log]
  rw [get_act]
  cases a <;> simp_all [Act.Touches]

/-- every entry is old or was added by an allowed update -/
theorem Safe.new {O : Oracle K} {A : Act → Prop} {p : Prog α} (hp : Safe A p) (w : World Store K) (h : Str) (e : Entry)
    (he : e ∈ (exec O p w).2.log h) : e ∈ w.log h ∨ ∃ a, A a ∧ a.Adds h e := by
  have := hp.respects (O := O) (R := fun w w' => ∀ e ∈ w'.log h, e ∈ w.log h ∨ ∃ a, A a ∧ a.Adds h e)
    (by
      intro a b c h1 h2 e he
      rcases h2 e he with h | h
      · exact h1 e h
      · exact Or.inr h)
    (by intro w w' hs _ _ _ e he; simp only [World.log, hs] at he; exact Or.inl he)
    (by
      intro a ha w e he
      rcases act_new O a w h e he with h | h
      · exact Or.inl h
      · exact Or.inr ⟨a, ha, h⟩) w
  exact this e he

/-- the clock never changes and reads only advance it -/
theorem run_clock {σ : Type} {S : StoreImpl σ} {O : Oracle K} (p : Prog α) (w : World σ K) :
    (run S O p w).2.clock = w.clock ∧ w.tick ≤ (run S O p w).2.tick := by
  induction p generalizing w with
  | pure a => exact ⟨rfl, Nat.le_refl _⟩
  | raise e => exact ⟨rfl, Nat.le_refl _⟩
  | op o k ih =>
    obtain ⟨h1, h2⟩ := ih (step S O o w).1 (step S O o w).2
    have : (step S O o w).2.clock = w.clock ∧ w.tick ≤ (step S O o w).2.tick := by
      cases o <;> first | exact ⟨rfl, Nat.le_refl _⟩ | exact ⟨rfl, Nat.le_succ _⟩
    exact ⟨h1.trans this.1, Nat.le_trans this.2 h2⟩

/-- the same if the process dies within the program -/
theorem Safe.new_killed {O : Oracle K} {A : Act → Prop} {p : Prog α} (hp : Safe A p) (n : Nat) (w : World Store K) :
    (runFor Store.impl O n p w).clock = w.clock ∧ w.tick ≤ (runFor Store.impl O n p w).tick ∧
    ∀ h, ∀ e ∈ (runFor Store.impl O n p w).log h, e ∈ w.log h ∨ ∃ a, A a ∧ a.Adds h e :=
  hp.respects_killed (O := O) (R := fun w w' => w'.clock = w.clock ∧ w.tick ≤ w'.tick ∧
      ∀ h, ∀ e ∈ w'.log h, e ∈ w.log h ∨ ∃ a, A a ∧ a.Adds h e)
    (by
      rintro a b c ⟨c1, t1, h1⟩ ⟨c2, t2, h2⟩
      refine ⟨c2.trans c1, Nat.le_trans t1 t2, fun h e he => ?_⟩
      rcases h2 h e he with h' | h'
      · exact h1 h e h'
      · exact Or.inr h')
    (by intro w w' hs hc ht _; exact ⟨hc, ht, fun h e he => Or.inl (by simp only [World.log, hs] at he; exact he)⟩)
    (by
      intro a ha w
      refine ⟨(run_clock _ _).1, (run_clock _ _).2, fun h e he => ?_⟩
      rcases act_new O a w h e he with h | h
      · exact Or.inl h
      · exact Or.inr ⟨a, ha, h⟩) n w

/-- logs which no allowed update touches stay the same -/
theorem Safe.frame {O : Oracle K} {A : Act → Prop} {p : Prog α} (hp : Safe A p) (w : World Store K) (h : Str)
    (hh : ∀ a, A a → ¬ a.Touches h) : (exec O p w).2.log h = w.log h :=
  hp.respects (R := fun w w' => w'.log h = w.log h) (fun _ _ _ h1 h2 => h2.trans h1)
    (fun w w' hs _ _ _ => by simp only [World.log, hs]) (fun a ha w => act_frame O a w h (hh a ha)) w

/-- logs only grow under updates other than removals -/
theorem Safe.suffix {O : Oracle K} {A : Act → Prop} {p : Prog α} (hp : Safe A p) (w : World Store K) (h : Str)
    (hh : ∀ a, A a → (∀ n, a ≠ .removeAccount n) ∧ a ≠ .wipe) : w.log h <:+ (exec O p w).2.log h :=
  hp.respects (R := fun w w' => w.log h <:+ w'.log h) (fun _ _ _ => List.IsSuffix.trans)
    (fun w w' hs _ _ _ => by simp only [World.log, hs]; exact List.suffix_refl _)
    (fun a ha w => act_suffix O a w h (fun n hn => absurd hn ((hh a ha).1 n)) (hh a ha).2) w

/-- a program which reads and calls externals only -/
theorem run_ro {O : Oracle K} {p : Prog α} (hp : p.AllOps Op.readOnly) (w : World Store K) :
    (exec O p w).2.store = w.store ∧ (exec O p w).2.clock = w.clock ∧ w.tick ≤ (exec O p w).2.tick :=
  (Safe.ro (A := fun _ => False) hp).respects
    (R := fun w w' => w'.store = w.store ∧ w'.clock = w.clock ∧ w.tick ≤ w'.tick)
    (fun _ _ _ h1 h2 => ⟨h2.1.trans h1.1, h2.2.1.trans h1.2.1, Nat.le_trans h1.2.2 h2.2.2⟩)
    (fun _ _ hs hc ht _ => ⟨hs, hc, ht⟩) (fun _ ha => ha.elim) w

end Verif
