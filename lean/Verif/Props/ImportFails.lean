import Verif.Props.Gpg
import Verif.Lemmas.Mime
/-!
# C57 for incoming mail: which failures of gpg are caught, and where they show

Processing of incoming mail goes on if a key cannot be imported. No other failure of gpg is caught, and one that is shows in the result.
-/
namespace Verif
open BinGPG Mime
variable {σ K α β : Type}

/-! ## Specification -/

/-- a command which is run for the import of a key: the question for the version, the import, and the listing of the key imported -/
def ImportCommand (argv : List Str) : Prop :=
  ∃ g, argv = commandLine g [str!"--version"] ∨ argv = commandLine g [str!"--skip-verify", str!"--import"] ∨
    ∃ x, argv = commandLine g [str!"--skip-verify", str!"--with-colons", str!"--list-public-keys", x]

/-- a gpg command which could not be started or exited with another status than 0 -/
def FailedCommand (argv : List Str) (ev : Event) : Prop :=
  ∃ (stdin : Option Bytes) (ret : Except Exc GpgOut), ev = ⟨.gpg argv stdin, ret⟩ ∧ ¬ ∃ out, ret = .ok out ∧ out.ret = 0

/-- the result says about the key of the sender, or of somebody who is introduced, that something is wrong -/
def SaysError (res : Account.IncomingResult) : Prop :=
  res.pah.error = some .importFailed ∨ ∃ p ∈ res.gossip, p.2.error ≠ none

/-! ## Lemmas -/

/-- if gpg is run it is for an import -/
def ForImport : Op → Prop
  | .ext (.gpg argv _) => ImportCommand argv
  | _ => True

theorem import_gpgOutText {env : Env} {g : BinGPG} {a i} (h : ImportCommand (g.argv a)) : (gpgOutText env g a i).AllOps ForImport := by
  unfold gpgOutText gpgOuterr; simp only [bind_eq]; allops
theorem import_versionAtLeast {env : Env} {g : BinGPG} (v) : (versionAtLeast env g v).AllOps ForImport := by
  unfold versionAtLeast versionInfo; simp only [bind_eq]
  exact .bind (import_gpgOutText ⟨g, .inl (argv_eq ..)⟩) (fun _ => .ofExcept _)
theorem import_bingpg {env : Env} {n : Str} : (Account.bingpg env n).AllOps ForImport := by
  unfold Account.bingpg create ensureInit badDefaults Own.config; simp only [bind_eq, pure_eq]
  have := fun g v => import_versionAtLeast (env := env) (g := g) v
  allops <;> exact this _ _
theorem import_findKeyhandle {env : Env} {g : BinGPG} (t) : (findKeyhandle env g t).AllOps ForImport := by
  unfold findKeyhandle listPublicKeyinfos parseList; simp only [bind_eq, pure_eq]
  have := fun x i => import_gpgOutText (env := env) (g := g) (i := i) ⟨g, .inr (.inr ⟨x, argv_eq g _⟩)⟩
  allops <;> exact this _ _
theorem import_importKeydata {env : Env} {g : BinGPG} (d) : (importKeydata env g d).AllOps ForImport := by
  unfold importKeydata gpgOuterr; simp only [bind_eq, pure_eq, Bool.false_eq_true, if_false]
  have := import_findKeyhandle (env := env) (g := g)
  allops
  · exact ⟨g, .inr (.inl (argv_eq ..))⟩
  · exact this _
theorem import_importKey {env : Env} {n : Str} (d) : (Account.importKey env n d).AllOps ForImport := by
  unfold Account.importKey; simp only [bind_eq, pure_eq]
  have h1 := import_bingpg (env := env) (n := n)
  have h2 := fun g => import_importKeydata (env := env) (g := g) d
  allops
  all_goals exact h2 _

/-- the events allowed -/
def Excused (ev : Event) : Prop := ∀ argv, FailedCommand argv ev → ImportCommand argv

theorem Event.gpgOk.excused {ev : Event} (h : ev.gpgOk) : Excused ev := by
  rintro argv ⟨i, r, rfl, hn⟩
  exact absurd (h argv i r rfl) hn

/-- only such failures are caught, and then the result satisfies `Q` -/
def Owns (S : StoreImpl σ) (O : Oracle K) (p : Prog α) (Q : α → Prop) : Prop :=
  ∀ w w' a, run S O p w = (.ok a, w') → Events Excused w w' ∧ (¬ Events Event.gpgOk w w' → Q a)

variable {S : StoreImpl σ} {O : Oracle K} {env : Env} {n : Str}

theorem Owns.built {p : Prog α} {Q : α → Prop} (h : Built false p) : Owns S O p Q := fun _ _ _ hr =>
  ⟨(h.clean hr).mono fun _ h => h.excused, fun hn => absurd (h.clean hr) hn⟩

theorem Owns.bind {p : Prog α} {f : α → Prog β} {Q1 : α → Prop} {Q2 : β → Prop} (h1 : Owns S O p Q1) (h2 : ∀ a, Owns S O (f a) Q2)
    (h3 : ∀ a w w' b, Q1 a → run S O (f a) w = (.ok b, w') → Q2 b) : Owns S O (p.bind f) Q2 := by
  intro w w' b h
  obtain ⟨a, w1, ha, hb⟩ := run_bind_ok.mp h
  obtain ⟨k1, k2⟩ := h1 _ _ _ ha
  obtain ⟨k3, k4⟩ := h2 a _ _ _ hb
  refine ⟨k1.trans k3, fun hn => ?_⟩
  by_cases hc : Events Event.gpgOk w w1
  · exact k4 fun hd => hn (hc.trans hd)
  · exact h3 a w1 w' b (k2 hc) hb

theorem owns_importKey (d) : Owns S O (Account.importKey env n d) (· = none) := by
  intro w w' a h
  constructor
  · have := run_events (S := S) (O := O) (import_importKey (env := env) (n := n) d) w
    rw [h] at this
    refine this.mono ?_
    rintro ev hev argv ⟨i, r, rfl, -⟩
    exact hev
  · intro hn
    unfold Account.importKey at h
    simp only [bind_eq, pure_eq] at h
    obtain ⟨r, w1, h1, h⟩ := run_bind_ok.mp h
    rw [run_attempt] at h1
    cases r with
    | error e =>
      simp only at h
      obtain ⟨_, w2, -, h⟩ := run_bind_ok.mp h
      split at h
      · cases h; rfl
      · cases h
    | ok g =>
      obtain ⟨r2, w2, h2, h⟩ := run_bind_ok.mp h
      rw [run_attempt] at h2
      cases r2 with
      | error e =>
        simp only at h
        split at h
        · cases h; rfl
        · cases h
      | ok kh =>
        exfalso
        cases h
        refine hn (Events.trans (w1 := w1) ?_ ?_)
        · exact Built.clean (Account.built_bingpg _ _) (Prod.ext (Except.ok.inj (Prod.mk.inj h1).1) (Prod.mk.inj h1).2)
        · exact Built.clean (built_importKeydata _ _ _ _) (Prod.ext (Except.ok.inj (Prod.mk.inj h2).1) (Prod.mk.inj h2).2)

theorem owns_importPah (p) : Owns S O (Account.importPah env n p) (·.2.error = some .importFailed) := by
  unfold Account.importPah
  simp only [bind_eq, pure_eq]
  refine .bind (owns_importKey _) (fun a => .built ?_) ?_
  · cases a <;> exact .pure _
  · rintro _ w w' b rfl h
    cases h; rfl

theorem owns_header (m f h d i) : Owns S O (Account.processAutocryptHeader env n m f h d i) (·.error = some .importFailed) := by
  unfold Account.processAutocryptHeader
  simp only [bind_eq, pure_eq]
  refine .bind (Q1 := fun _ => False) (.built (.ofExcept _)) (fun pah => ?_) (fun _ _ _ _ h => h.elim)
  refine .bind (Q1 := (·.2.error = some .importFailed)) ?_ (fun x => .built ?_) ?_
  · split
    · exact .built (.pure _)
    · exact owns_importPah _
  · built [Peer.built_updateFromMsg]
  · rintro ⟨kh, p⟩ w w' b hp h
    obtain ⟨_, _, _, h⟩ := run_bind_ok.mp h
    cases h
    exact hp

/-- the dictionary has an error -/
def HasError (d : List (Str × ACResult)) : Prop := ∃ r v, dictGet d r = some v ∧ v.error ≠ none

theorem gossipLoop_keeps (x d i) (l : List Str) : ∀ (p : List (Str × ACResult)) (w w' : World σ K) (b), HasError p →
    run S O (Account.gossipLoop env n x d i p l) w = (.ok b, w') → HasError b := by
  induction l with
  | nil => intro p w w' b hp h; cases h; exact hp
  | cons r rs ih =>
    intro p w w' b hp h
    unfold Account.gossipLoop at h
    split at h
    · exact ih _ _ _ _ hp h
    · simp only [bind_eq] at h
      obtain ⟨⟨kh, pah⟩, w1, -, h⟩ := run_bind_ok.mp h
      obtain ⟨_, w2, -, h⟩ := run_bind_ok.mp h
      refine ih _ _ _ _ ?_ h
      obtain ⟨r', v, h1, h2⟩ := hp
      by_cases hr : r' = r
      · subst hr
        refine ⟨r', _, by rw [dictGet_dictSet, if_pos rfl], ?_⟩
        unfold Account.keepError
        rw [h1]
        cases hv : v.error with
        | none => exact absurd hv h2
        | some e => simp [hv]
      · exact ⟨r', v, by rw [dictGet_dictSet, if_neg hr]; exact h1, h2⟩

theorem owns_gossipLoop (x d i) (l : List Str) : ∀ p, Owns S O (Account.gossipLoop env n x d i p l) HasError := by
  induction l with
  | nil => intro p; exact .built (by unfold Account.gossipLoop; exact .pure _)
  | cons r rs ih =>
    intro p
    unfold Account.gossipLoop
    split
    · exact ih _
    · simp only [bind_eq]
      refine .bind (owns_importPah _) (fun y => .bind (Q1 := fun _ => False) (.built (Peer.built_updateFromGossip _ _)) (fun _ => ih _) (fun _ _ _ _ h => h.elim)) ?_
      rintro ⟨kh, pah⟩ w w' b hp h
      obtain ⟨_, w2, -, h⟩ := run_bind_ok.mp h
      refine gossipLoop_keeps _ _ _ _ _ _ _ _ ?_ h
      refine ⟨r, _, by rw [dictGet_dictSet, if_pos rfl], ?_⟩
      unfold Account.keepError
      split
      · simp
      · rw [hp]; simp

theorem HasError.mem {d : List (Str × ACResult)} (h : HasError d) : ∃ p ∈ d, p.2.error ≠ none := by
  obtain ⟨r, v, h1, h2⟩ := h
  unfold dictGet at h1
  obtain ⟨p, h3, rfl⟩ := Option.map_eq_some_iff.mp h1
  exact ⟨p, List.mem_of_find?_eq_some h3, h2⟩

theorem owns_incoming (m i d) : Owns S O (Account.processIncoming env n m i d) (fun r => ∃ res, r = some res ∧ SaysError res) := by
  unfold Account.processIncoming
  simp only [bind_eq, pure_eq]
  refine .bind (Q1 := fun _ => False) (.built (.ofExcept _)) (fun _ => ?_) (fun _ _ _ _ h => h.elim)
  refine .bind (Q1 := fun _ => False) (.built (Account.built_effectiveDate _)) (fun date => ?_) (fun _ _ _ _ h => h.elim)
  refine .bind (Q1 := fun _ => False) (.built (by built)) (fun known => ?_) (fun _ _ _ _ h => h.elim)
  split
  · exact .built (.pure _)
  refine .bind (owns_header _ _ _ _ _) (fun pah => ?_) ?_
  · refine .bind (Q1 := fun _ => False) (.built (by built)) (fun enc => ?_) (fun _ _ _ _ h => h.elim)
    refine .bind (Q1 := HasError) ?_ (fun g => .built (.pure _)) ?_
    · split
      · refine .bind (Q1 := fun _ => False) (.built (Account.built_decryptMime ..)) (fun r => ?_) (fun _ _ _ _ h => h.elim)
        unfold Account.processGossipHeaders
        simp only [bind_eq]
        refine .bind (Q1 := HasError) (.bind (Q1 := fun _ => False) (.built (.ofExcept _)) (fun _ => owns_gossipLoop _ _ _ _ _) (fun _ _ _ _ h => h.elim))
          (fun g => .built (by built [Account.built_ownKeyhandle])) ?_
        intro g w w' b hg h
        obtain ⟨_, _, _, h⟩ := run_bind_ok.mp h
        obtain ⟨_, _, _, h⟩ := run_bind_ok.mp h
        cases h
        exact hg
      · exact .built (.pure _)
    · intro g w w' b hg h
      cases h
      exact ⟨_, rfl, .inr hg.mem⟩
  · intro pah w w' b hp h
    obtain ⟨_, _, _, h⟩ := run_bind_ok.mp h
    obtain ⟨_, _, _, h⟩ := run_bind_ok.mp h
    cases h
    exact ⟨_, rfl, .inl hp⟩

/-! ## C57 -/

/-- C57 for incoming mail: if it is processed then the only gpg commands which may have failed are those for the import of a key, and if one of them
did then the result says that something is wrong with a key. -/
theorem C57_incoming {S : StoreImpl σ} {O : Oracle K} (env : Env) (n : Str) (m : Msg) (i d : Bool) (w w' : World σ K)
    (res : Option Account.IncomingResult) (h : run S O (Account.processIncoming env n m i d) w = (.ok res, w')) :
    ∃ new, w'.trace = new ++ w.trace ∧ (∀ ev ∈ new, ∀ argv, FailedCommand argv ev → ImportCommand argv) ∧
      ∀ ev ∈ new, ∀ argv, FailedCommand argv ev → ∃ r, res = some r ∧ SaysError r := by
  obtain ⟨⟨new, h1, h2⟩, h3⟩ := owns_incoming (env := env) (n := n) m i d w w' res h
  refine ⟨new, h1, h2, fun ev hev argv hf => ?_⟩
  exact h3 fun hok => by
    obtain ⟨i, r, rfl, hn⟩ := hf
    exact hn (hok.all h1 _ hev argv i r rfl)

/-! ## Examples -/
open Concrete

/-- a gpg which cannot import keys -/
def Concrete.noImport : Oracle Unit where
  step
    | .gpg argv i, k => if argv.contains (str!"--import") then (.ok ⟨2, [], str!"gpg: no valid data found".map fun c => c.toNat.toUInt8⟩, k) else oracle.step (.gpg argv i) k
    | o, k => oracle.step o k

/-- the import of Bob's key fails, which shows in the result -/
example : ((run Store.impl noImport (Account.processIncoming Concrete.env (str!"a") (mail bob (str!"1") (str!"100") [7]) false false) (after [addA])).1.toOption.bind id).map
    (fun r => r.pah.error) = some (some AcErr.importFailed) := by
  decide +kernel

/-- the import of Carol's key from an old mail fails, which shows in the result -/
example : ((run Store.impl noImport (Account.processIncoming Concrete.env (str!"a") (encMail (str!"1") (str!"100") [] [gossipField carol [5]]) false false)
      (after [addA, recv carol (str!"0") (str!"200") [6]])).1.toOption.bind id).map
    (fun r => r.gossip.map (·.2.error)) = some [some AcErr.importFailed] := by
  decide +kernel

end Verif
