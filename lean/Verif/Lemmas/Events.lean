import Verif.Lemmas.Provenance
/-!
# External operations performed by a run
-/
namespace Verif
variable {σ K : Type} {α β : Type}

/-- all external operations between `w` and `w'` satisfy `E` -/
def Events (E : Event → Prop) (w w' : World σ K) : Prop := ∃ new, w'.trace = new ++ w.trace ∧ ∀ ev ∈ new, E ev

namespace Events
variable {E F : Event → Prop} {w w1 w2 : World σ K}

theorem rfl' : Events E w w := ⟨[], rfl, by simp⟩

theorem of_trace_eq (h : w1.trace = w.trace) : Events E w w1 := ⟨[], h, by simp⟩

theorem trans (h1 : Events E w w1) (h2 : Events E w1 w2) : Events E w w2 := by
  obtain ⟨n1, h1, e1⟩ := h1
  obtain ⟨n2, h2, e2⟩ := h2
  refine ⟨n2 ++ n1, by rw [h2, h1, List.append_assoc], ?_⟩
  intro ev hev
  rcases List.mem_append.mp hev with h | h
  · exact e2 ev h
  · exact e1 ev h

theorem mono (h : ∀ ev, E ev → F ev) (h1 : Events E w w1) : Events F w w1 := by
  obtain ⟨n1, h1, e1⟩ := h1
  exact ⟨n1, h1, fun ev hev => h ev (e1 ev hev)⟩

/-- every new event -/
theorem all (h : Events E w w1) {new : List Event} (hn : w1.trace = new ++ w.trace) : ∀ ev ∈ new, E ev := by
  obtain ⟨n1, h1, e1⟩ := h
  rw [h1] at hn
  rw [← List.append_cancel_right hn]
  exact e1

end Events

/-- events of a program with restricted operations -/
theorem run_events {S : StoreImpl σ} {O : Oracle K} {P : Op → Prop} {p : Prog α} (hp : p.AllOps P) (w : World σ K) :
    Events (fun ev => P (.ext ev.op)) w (run S O p w).2 := by
  induction p generalizing w with
  | pure a => exact .rfl'
  | raise e => exact .rfl'
  | op o k ih =>
    simp only [run]
    refine Events.trans ?_ (ih _ (hp.2 _) _)
    cases o with
    | ext o => exact ⟨[⟨o, (O.step o w.env).1⟩], rfl, fun ev hev => by rw [List.mem_singleton.mp hev]; exact hp.1⟩
    | _ => exact .of_trace_eq rfl

/-- events of a sequence -/
theorem events_bind {S : StoreImpl σ} {O : Oracle K} {E : Event → Prop} {p : Prog α} {f : α → Prog β} {w : World σ K}
    (hp : Events E w (run S O p w).2)
    (hf : ∀ a w1, run S O p w = (.ok a, w1) → Events E w1 (run S O (f a) w1).2) :
    Events E w (run S O (p.bind f) w).2 := by
  rw [run_bind]
  rcases h : run S O p w with ⟨e | a, w1⟩
  · rw [h] at hp; exact hp
  · rw [h] at hp; exact hp.trans (hf a w1 h)

/-! ## Quiet programs -/

/-- operations which change no stored state and pass no data to gpg or to plugins: reading, gpg commands without input,
preparing the gpg home directory -/
def Op.quiet : Op → Prop
  | .now | .chain _ | .heads => True
  | .ext (.gpg _ stdin) => stdin = none
  | .ext (.findExecutable _) | .ext (.pathExists _) | .ext (.makedirs _) | .ext (.writeFile _ _) => True
  | _ => False

theorem Op.quiet.readOnly {o : Op} (h : o.quiet) : o.readOnly := by
  cases o <;> first | trivial | exact h

namespace BinGPG
variable (env : Env) (g : BinGPG)

theorem gpgOuterr_quiet (a c d) : (gpgOuterr env g a none c d).AllOps Op.quiet := by
  unfold gpgOuterr; simp only [bind_eq]; allops; exact rfl
theorem gpgOutText_quiet (a) : (gpgOutText env g a none).AllOps Op.quiet := by
  unfold gpgOutText; simp only [bind_eq]
  exact .bind (gpgOuterr_quiet env g _ _ _) (fun _ => .ofExcept _)
theorem versionAtLeast_quiet (v) : (versionAtLeast env g v).AllOps Op.quiet := by
  unfold versionAtLeast; simp only [bind_eq]
  exact .bind (gpgOutText_quiet env g _) (fun _ => .ofExcept _)
theorem ensureInit_quiet : (ensureInit env g).AllOps Op.quiet := by
  unfold ensureInit badDefaults
  split
  · trivial
  · simp only [bind_eq, pure_eq]
    have := versionAtLeast_quiet env g
    allops <;> exact this _
theorem create_quiet (h p) : (create env h p).AllOps Op.quiet := by
  unfold create; simp only [bind_eq, pure_eq]
  have := fun g => ensureInit_quiet env g
  allops <;> exact this _
theorem nopassphrase_quiet : (nopassphrase env g).AllOps Op.quiet := by
  unfold nopassphrase; simp only [bind_eq, pure_eq]
  have := versionAtLeast_quiet env g
  allops <;> exact this _
theorem getPublicKeydata_quiet (k a) : (getPublicKeydata env g k a).AllOps Op.quiet :=
  .bind (gpgOuterr_quiet env g _ _ _) (fun _ => trivial)
theorem getSecretKeydata_quiet (k a) : (getSecretKeydata env g k a).AllOps Op.quiet :=
  .bind (nopassphrase_quiet env g) (fun _ => .bind (gpgOuterr_quiet env g _ _ _) (fun _ => trivial))
end BinGPG

namespace Account
variable (env : Env) (n : Str)

theorem config_quiet : (Own.config n).AllOps Op.quiet := by
  unfold Own.config; simp only [bind_eq, pure_eq]; allops
theorem ownKeyhandle_quiet : (ownKeyhandle n).AllOps Op.quiet := by
  unfold ownKeyhandle Own.keyhandle; simp only [bind_eq, pure_eq]; allops
theorem bingpg_quiet : (bingpg env n).AllOps Op.quiet := by
  unfold bingpg; simp only [bind_eq]
  refine .bind (config_quiet n) (fun c => ?_)
  split
  · trivial
  · exact BinGPG.create_quiet env _ _
theorem makeAcHeader_quiet (a) : (makeAcHeader env n a).AllOps Op.quiet := by
  unfold makeAcHeader; simp only [bind_eq]
  exact .bind (bingpg_quiet env n) fun _ => .bind (ownKeyhandle_quiet n) fun _ =>
    .bind (BinGPG.getPublicKeydata_quiet env _ _ _) fun _ => .bind (config_quiet n) fun _ => .ofExcept _
theorem readPeers_quiet (l) : (readPeers env n l).AllOps Op.quiet := by
  induction l with
  | nil => trivial
  | cons a l ih =>
    unfold readPeers; simp only [bind_eq, pure_eq]
    exact .bind (.chain trivial) fun _ => .bind ih fun _ => trivial
theorem recommendation_quiet (a r f) : (recommendation env n a r f).AllOps Op.quiet := by
  unfold recommendation; simp only [bind_eq]
  exact .bind (config_quiet n) fun _ => .bind (readPeers_quiet env n _) fun _ => .ofExcept _
end Account

theorem run_quiet {S : StoreImpl σ} {O : Oracle K} {p : Prog α} (hp : p.AllOps Op.quiet) (w : World σ K) :
    Events (fun ev => Op.quiet (.ext ev.op)) w (run S O p w).2 := run_events hp w

theorem quiet_store {O : Oracle K} {p : Prog α} (hp : p.AllOps Op.quiet) (w : World Store K) :
    (exec O p w).2.store = w.store := (run_ro (hp.mono fun _ h => h.readOnly) w).1

end Verif
