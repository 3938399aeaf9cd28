import Verif.Props.AccountsBase
/-!
# The gpg home of an account: C72
-/
namespace Verif
open Mime

variable {K : Type}

/-! ## Specification -/

/-- the directory for the key ring of an account -/
def gpgHome (env : Env) (n : Str) : Str := env.dir ++ str!"/gpg/" ++ n

/-- an external operation which, if it concerns gpg, is confined to the key ring of the account -/
def Confined (env : Env) (n : Str) : ExtOp → Prop
  | .gpg argv _ => ∃ path args, argv = path :: str!"--batch" :: str!"--homedir" :: gpgHome env n :: args
  | .makedirs p => p = gpgHome env n
  | .writeFile p _ => p = gpgHome env n ++ str!"/gpg-agent.conf"
  | _ => True

/-- the options for the home directory of gpg: that of the account in mode 'own', none in mode 'system' -/
def HomeOptions (env : Env) (n : Str) (mode : GpgMode) (opts args : List Str) : Prop :=
  match mode with
  | .own => opts = [str!"--homedir", gpgHome env n]
  | .system => opts = [] ∧ args.head? ≠ some (str!"--homedir")

/-- the home of the account was seen to exist, or made -/
def HomeReady (env : Env) (n : Str) (seen : Event → Prop) : Prop := seen ⟨.pathExists (gpgHome env n), true⟩ ∨ seen ⟨.makedirs (gpgHome env n), .ok ()⟩

/-- an external operation which, if it concerns gpg, is right for the account: a program which was found is run, with the right home, which is there; only
the home of the account is set up, and what exists isn't made again. `seen` is what happened before. -/
def RightGpg (env : Env) (n bin : Str) (mode : GpgMode) (seen : Event → Prop) : ExtOp → Prop
  | .gpg argv _ => ∃ path opts args, seen ⟨.findExecutable bin, some path⟩ ∧ HomeOptions env n mode opts args ∧
      argv = path :: str!"--batch" :: (opts ++ args) ∧ (mode = .own → HomeReady env n seen)
  | .makedirs p => mode = .own ∧ p = gpgHome env n ∧ seen ⟨.pathExists p, false⟩
  | .writeFile p _ => mode = .own ∧ p = gpgHome env n ++ str!"/gpg-agent.conf" ∧ seen ⟨.pathExists p, false⟩
  | _ => True

/-- the account has no configuration or one in mode 'own' -/
def OwnMode (w : World Store K) (n : Str) : Prop := ∀ c, OwnConf w n c → c.gpgmode = .own

/-- the account which a call uses gpg for -/
def ApiCall.gpgAccount : ApiCall → Option Str
  | .addAccount n .. | .makeAcHeader n _ | .exportPublicKey n _ | .exportSecretKey n | .processIncoming n .. | .processOutgoing n _
  | .encryptMime n .. | .decryptMime n _ | .importKey n .. => some n
  | _ => none

/-- if the account has a configuration then with this program and mode -/
def Uses (w : World Store K) (n bin : Str) (mode : GpgMode) : Prop := ∀ c, OwnConf w n c → c.gpgbin = bin ∧ c.gpgmode = mode

/-- whatever happened from `w` to `w'` and concerns gpg is right for the account, given what happened since `w` -/
def RightRuns (env : Env) (n bin : Str) (mode : GpgMode) (w w' : World Store K) : Prop :=
  ∃ new, w'.trace = new ++ w.trace ∧ ∀ post ev pre, new = post ++ ev :: pre →
    RightGpg env n bin mode (· ∈ pre) ev.op

/-! ## A logic for programs which only run on states of that kind -/

/-- the gpg of an account: the program, the mode and what happened so far -/
structure GpgUse where
  bin : Str
  mode : GpgMode
  seen : Event → Prop

/-- what reads give as long as account `n` uses this gpg -/
def ReadsOwn (u : GpgUse) (n : Str) : (o : Op) → o.Ret → Prop
  | .chain h, r => h = ownHead n → ∀ es, r = .ok es → ∀ c, Own.latestConfig es = some c → c.gpgbin = u.bin ∧ c.gpgmode = u.mode
  | .ext o, r => u.seen ⟨o, r⟩
  | _, _ => True

/-- operations which respect that -/
def KeepsOwn (u : GpgUse) (env : Env) (n : Str) : Op → Prop
  | .ext o => RightGpg env n u.bin u.mode u.seen o
  | .append h e => h = ownHead n → ∀ c, e = .cfg c → c.gpgbin = u.bin ∧ c.gpgmode = u.mode
  | _ => True

/-- every operation of every run is of this kind, as long as reads are, and results satisfy `Q` -/
def Homed (u : GpgUse) (env : Env) (n : Str) {α : Type} (Q : α → Prop) : Prog α → Prop
  | .pure a => Q a
  | .raise _ => True
  | .op o k => KeepsOwn u env n o ∧ ∀ r, ReadsOwn u n o r → Homed u env n Q (k r)

/-- without condition on the result -/
abbrev Homed' (u : GpgUse) (env : Env) (n : Str) {α : Type} (p : Prog α) : Prop := Homed u env n (fun _ => True) p

namespace Homed
variable {u : GpgUse} {env : Env} {n : Str} {α β : Type} {Q : α → Prop} {R : β → Prop}

theorem bind {p : Prog α} {f : α → Prog β} (hp : Homed u env n Q p) (hf : ∀ a, Q a → Homed u env n R (f a)) : Homed u env n R (p.bind f) := by
  induction p with
  | pure a => exact hf a hp
  | raise e => trivial
  | op o k ih => exact ⟨hp.1, fun r hr => ih r (hp.2 r hr)⟩

theorem mono {Q' : α → Prop} {p : Prog α} (hp : Homed u env n Q p) (h : ∀ a, Q a → Q' a) : Homed u env n Q' p := by
  induction p with
  | pure a => exact h a hp
  | raise e => trivial
  | op o k ih => exact ⟨hp.1, fun r hr => ih r (hp.2 r hr)⟩

theorem void {p : Prog α} (hp : Homed u env n Q p) : Homed' u env n p.void := .bind hp fun _ _ => trivial

theorem of_ops {p : Prog α} (hp : p.AllOps (KeepsOwn u env n)) : Homed' u env n p := by
  induction p with
  | pure a => trivial
  | raise e => trivial
  | op o k ih => exact ⟨hp.1, fun r _ => ih r (hp.2 r)⟩

theorem ofExcept (x : Except Exc α) : Homed' u env n (Prog.ofExcept x) := by cases x <;> trivial

theorem ext {o : ExtOp} {k : o.Ret → Prog α} (h : RightGpg env n u.bin u.mode u.seen o) (hk : ∀ r, Homed u env n Q (k r)) : Homed u env n Q (.op (.ext o) k) :=
  ⟨h, fun r _ => hk r⟩

theorem chain (h : Str) : Homed u env n (fun es => h = ownHead n → ∀ c, Own.latestConfig es = some c → c.gpgbin = u.bin ∧ c.gpgmode = u.mode) (Prog.chain h) := by
  refine ⟨trivial, fun r hr => ?_⟩
  cases r with
  | error e => trivial
  | ok es => exact fun he c hc => hr he es rfl c hc

theorem attempt {p : Prog α} (hp : Homed u env n Q p) : Homed u env n (fun r => ∀ a, r = .ok a → Q a) p.attempt := by
  unfold Prog.attempt
  induction p with
  | pure a => intro b hb; cases hb; exact hp
  | raise e => intro b hb; cases hb
  | op o k ih => exact ⟨hp.1, fun r hr => ih r (hp.2 r hr)⟩

/-- the event of an operation, if it is external -/
def _root_.Verif.Op.events : (o : Op) → o.Ret → List Event
  | .ext o, r => [⟨o, r⟩]
  | _, _ => []

theorem _root_.Verif.RightGpg.mono {env : Env} {n bin : Str} {mode : GpgMode} {F G : Event → Prop} {o : ExtOp} (hFG : ∀ x, F x → G x)
    (h : RightGpg env n bin mode F o) : RightGpg env n bin mode G o := by
  cases o <;> try exact h
  · obtain ⟨path, opts, args, h1, h2, h3, h4⟩ := h
    exact ⟨path, opts, args, hFG _ h1, h2, h3, fun hm => (h4 hm).imp (hFG _) (hFG _)⟩
  · exact ⟨h.1, h.2.1, hFG _ h.2.2⟩
  · exact ⟨h.1, h.2.1, hFG _ h.2.2⟩

/-- a run from a state in which the account uses this program and mode; `P` is what happened in the call before -/
theorem run {O : Oracle K} {bin : Str} {mode : GpgMode} {Q : α → Prop} {p : Prog α} {P : Event → Prop}
    (hp : ∀ F : Event → Prop, (∀ x, P x → F x) → Homed ⟨bin, mode, F⟩ env n Q p) (w : World Store K) (hw : Uses w n bin mode) :
    ∃ new, (exec O p w).2.trace = new ++ w.trace ∧ ∀ post ev pre, new = post ++ ev :: pre →
      RightGpg env n bin mode (fun x => P x ∨ x ∈ pre) ev.op := by
  induction p generalizing w P with
  | pure a => exact ⟨[], rfl, fun post ev pre h => by simp at h⟩
  | raise e => exact ⟨[], rfl, fun post ev pre h => by simp at h⟩
  | op o k ih =>
    have hr : ∀ F : Event → Prop, (∀ x, P x → F x) → (∀ x, x ∈ o.events (step Store.impl O o w).1 → F x) →
        ReadsOwn ⟨bin, mode, F⟩ n o (step Store.impl O o w).1 := by
      intro F _ hF
      cases o <;> try trivial
      · rename_i h
        intro he es hes c hc
        cases hes
        subst he
        exact hw c (latestConfig_iff.mp hc)
      · exact hF _ (.head _)
    have hw' : Uses (step Store.impl O o w).2 n bin mode := by
      intro c hc
      cases o with
      | append h e =>
        have hc' := latestConfig_iff.mpr hc
        have hlog : (step Store.impl O (.append h e) w).2.log (ownHead n) = if ownHead n = h then e :: w.log (ownHead n) else w.log (ownHead n) :=
          Store.get_push _ _ _ _
        rw [hlog] at hc'
        split at hc'
        · rename_i he
          cases e with
          | cfg c' =>
            unfold Own.latestConfig at hc'
            cases hc'
            exact (hp P fun _ h => h).1 he.symm _ rfl
          | _ => exact hw c (latestConfig_iff.mp hc')
        · exact hw c (latestConfig_iff.mp hc')
      | removeIf q =>
        have hc' := latestConfig_iff.mpr hc
        have hlog : (step Store.impl O (.removeIf q) w).2.log (ownHead n) = if q (ownHead n) then [] else w.log (ownHead n) :=
          Store.get_removeIf _ _ _
        rw [hlog] at hc'
        split at hc'
        · cases hc'
        · exact hw c (latestConfig_iff.mp hc')
      | wipe =>
        obtain ⟨x, y, h1, _⟩ := hc
        have : ([] : List Entry) = x ++ Entry.cfg c :: y := h1
        simp at this
      | _ => exact hw c hc
    obtain ⟨new, h1, h2⟩ := ih _ (P := fun x => P x ∨ x ∈ o.events (step Store.impl O o w).1)
      (fun F hF => (hp F fun x hx => hF x (.inl hx)).2 _ (hr F (fun x hx => hF x (.inl hx)) fun x hx => hF x (.inr hx)))
      (step Store.impl O o w).2 hw'
    cases o with
    | ext o =>
      refine ⟨new ++ [⟨o, (step Store.impl O (.ext o) w).1⟩], by rw [List.append_assoc]; exact h1, fun post ev pre he => ?_⟩
      rcases List.eq_nil_or_concat pre with rfl | ⟨pre', e', rfl⟩
      · obtain ⟨rfl, h3⟩ := List.append_inj' he rfl
        cases h3
        exact RightGpg.mono (fun x hx => .inl hx) (hp P fun _ h => h).1
      · have he' : new ++ [⟨o, (step Store.impl O (.ext o) w).1⟩] = (post ++ ev :: pre') ++ [e'] := by rw [he]; simp
        obtain ⟨h3, h4⟩ := List.append_inj' he' rfl
        cases h4
        refine RightGpg.mono ?_ (h2 post ev pre' h3)
        rintro x ((hx | hx) | hx)
        · exact .inl hx
        · rw [List.mem_singleton.mp hx]
          exact .inr (by simp)
        · exact .inr (by simp [hx])
    | _ =>
      refine ⟨new, h1, fun post ev pre he => RightGpg.mono ?_ (h2 post ev pre he)⟩
      rintro x ((hx | hx) | hx)
      · exact .inl hx
      · cases hx
      · exact .inr hx

end Homed

/-! ## gpg -/

/-- the wrapper is right for the account: its program was found and its home is the right one, which is there -/
def BinGPG.RightFor (u : GpgUse) (env : Env) (n : Str) (g : BinGPG) : Prop :=
  u.seen ⟨.findExecutable u.bin, some g.path⟩ ∧ (g.home = match u.mode with | .own => some (gpgHome env n) | .system => none) ∧
    (u.mode = .own → HomeReady env n u.seen)

namespace BinGPG
variable {u : GpgUse} {env : Env} {n : Str} {g : BinGPG} (hg : g.RightFor u env n)
include hg

theorem homed_argv (args : List Str) (ha : args.head? ≠ some (str!"--homedir")) (i : Option Bytes) : KeepsOwn u env n (.ext (.gpg (g.argv args) i)) := by
  have : (gpgHome env n).isEmpty = false := by unfold gpgHome; simp
  obtain ⟨h1, h2, h3⟩ := hg
  refine ⟨g.path, g.homedirflags, args, h1, ?_, by simp [argv], h3⟩
  unfold homedirflags
  rw [h2]
  unfold HomeOptions
  cases u.mode with
  | own => exact if_neg (by rw [this]; exact Bool.false_ne_true)
  | system => exact ⟨rfl, ha⟩

theorem homed_gpgOuterr (a b c d) (ha : a.head? ≠ some (str!"--homedir")) : (gpgOuterr env g a b c d).AllOps (KeepsOwn u env n) := by
  unfold gpgOuterr; simp only [bind_eq]; allops; exact homed_argv hg _ ha _
theorem homed_gpgOutText (a b) (ha : a.head? ≠ some (str!"--homedir")) : (gpgOutText env g a b).AllOps (KeepsOwn u env n) := by
  unfold gpgOutText; simp only [bind_eq]
  exact .bind (homed_gpgOuterr hg _ _ _ _ ha) (fun _ => .ofExcept _)
theorem homed_versionAtLeast (v) : (versionAtLeast env g v).AllOps (KeepsOwn u env n) := by
  unfold versionAtLeast; simp only [bind_eq]
  exact .bind (homed_gpgOutText hg _ _ (by simp)) (fun _ => .ofExcept _)
theorem homed_badDefaults : (badDefaults env g).AllOps (KeepsOwn u env n) := by
  unfold badDefaults; simp only [bind_eq, pure_eq]
  have := homed_versionAtLeast hg
  allops <;> exact this _
omit hg in
theorem homed_ensureInit (h1 : u.seen ⟨.findExecutable u.bin, some g.path⟩)
    (h2 : g.home = match u.mode with | .own => some (gpgHome env n) | .system => none) : Homed u env n (fun _ => g.RightFor u env n) (ensureInit env g) := by
  unfold ensureInit
  cases hm : u.mode with
  | own =>
    rw [hm] at h2
    rw [h2]
    have rest : HomeReady env n u.seen → Homed u env n (fun _ => g.RightFor u env n) ((badDefaults env g).bind fun b =>
        if b = true then (Prog.pathExists (gpgHome env n ++ str!"/gpg-agent.conf")).bind fun r =>
          if (!r) = true then Prog.writeFile (gpgHome env n ++ str!"/gpg-agent.conf") (str!"allow-loopback-pinentry\n") else .pure ()
        else .pure ()) := by
      intro hready
      have hg : g.RightFor u env n := ⟨h1, by rw [hm]; exact h2, fun _ => hready⟩
      refine .bind (.of_ops (homed_badDefaults hg)) fun b _ => ?_
      split
      · refine .bind (Q := fun r => u.seen ⟨.pathExists (gpgHome env n ++ str!"/gpg-agent.conf"), r⟩) ⟨trivial, fun _ h => h⟩ fun r hr => ?_
        cases r
        · refine ⟨⟨hm, rfl, hr⟩, fun r _ => ?_⟩
          cases r
          · trivial
          · exact hg
        · exact hg
      · exact hg
    refine .bind (Q := fun r => u.seen ⟨.pathExists (gpgHome env n), r⟩) ⟨trivial, fun _ h => h⟩ fun r hr => ?_
    cases r
    · refine .bind (Q := fun _ => HomeReady env n u.seen) ⟨⟨hm, rfl, hr⟩, fun r h => ?_⟩ fun _ h => rest h
      cases r
      · trivial
      · exact .inr h
    · exact rest (.inl hr)
  | system =>
    have h2' := h2
    rw [hm] at h2
    rw [h2]
    exact ⟨h1, h2', fun h => by rw [hm] at h; cases h⟩
theorem homed_nopassphrase : (nopassphrase env g).AllOps (KeepsOwn u env n) := by
  unfold nopassphrase; simp only [bind_eq, pure_eq]
  have := homed_versionAtLeast hg
  allops <;> exact this _
omit hg in
theorem nopassphrase_first : (nopassphrase env g).Returns fun np => np.head? = some (str!"--passphrase") := by
  unfold nopassphrase; simp only [bind_eq, pure_eq]
  exact .bind (.trivially _) fun _ _ => rfl
theorem homed_unlocked {α : Type} {f : List Str → Prog α} (hf : ∀ np : List Str, np.head? = some (str!"--passphrase") → (f np).AllOps (KeepsOwn u env n)) :
    ((nopassphrase env g).bind f).AllOps (KeepsOwn u env n) := by
  have h1 := homed_nopassphrase hg
  have h2 := nopassphrase_first (env := env) (g := g)
  generalize nopassphrase env g = p at h1 h2
  induction p with
  | pure a => exact hf a h2
  | raise e => trivial
  | op o k ih => exact ⟨h1.1, fun r => ih r (h1.2 r) (h2 r)⟩
omit hg in
theorem unlocked_first {np args : List Str} (h : np.head? = some (str!"--passphrase")) : (np ++ args).head? ≠ some (str!"--homedir") := by
  rw [List.head?_append, h]; simp
omit hg in
theorem homed_withTempFile {α} (d) (b : Str → Prog α) (hb : ∀ s, (b s).AllOps (KeepsOwn u env n)) : (withTempFile d b).AllOps (KeepsOwn u env n) := by
  unfold withTempFile; simp only [bind_eq]
  allops <;> first | exact trivial | exact hb _
theorem homed_parseList (a t) (ha : a.head? ≠ some (str!"--homedir")) : (parseList env g a t).AllOps (KeepsOwn u env n) := by
  unfold parseList; simp only [bind_eq]
  exact .bind (homed_gpgOutText hg _ _ ha) (fun _ => .ofExcept _)
theorem homed_listPublicKeyinfos (k) : (listPublicKeyinfos env g k).AllOps (KeepsOwn u env n) := homed_parseList hg _ _ (by simp)
theorem homed_getSecretKeyhandle (k) : (getSecretKeyhandle env g k).AllOps (KeepsOwn u env n) :=
  .bind (homed_parseList hg _ _ (by simp)) (fun _ => trivial)
theorem homed_findKeyhandle (t) : (findKeyhandle env g t).AllOps (KeepsOwn u env n) := by
  unfold findKeyhandle; simp only [bind_eq, pure_eq]
  have := homed_listPublicKeyinfos hg
  allops <;> exact this _
theorem homed_genSecretKey (e) : (genSecretKey env g e).AllOps (KeepsOwn u env n) := by
  unfold genSecretKey; simp only [bind_eq]
  exact .bind (homed_withTempFile _ _ (fun _ => homed_unlocked hg fun _ h => homed_gpgOuterr hg _ _ _ _ (unlocked_first h))) (fun _ => homed_findKeyhandle hg _)
theorem homed_getPublicKeydata (k a) : (getPublicKeydata env g k a).AllOps (KeepsOwn u env n) :=
  .bind (homed_gpgOuterr hg _ _ _ _ (by cases a <;> simp)) (fun _ => trivial)
theorem homed_getSecretKeydata (k a) : (getSecretKeydata env g k a).AllOps (KeepsOwn u env n) :=
  homed_unlocked hg fun np h => .bind (homed_gpgOuterr hg _ _ _ _ (by
    cases a
    · exact unlocked_first h
    · simp)) (fun _ => trivial)
theorem homed_encrypt (d r s t) : (encrypt env g d r s t).AllOps (KeepsOwn u env n) :=
  homed_unlocked hg fun np h => .bind (homed_gpgOuterr hg _ _ _ _ (by
    unfold encryptOpts; simp only [List.append_assoc]; exact unlocked_first h)) (fun _ => trivial)
theorem homed_decrypt (d) : (decrypt env g d).AllOps (KeepsOwn u env n) :=
  homed_unlocked hg fun np h => .bind (homed_gpgOuterr hg _ _ _ _ (unlocked_first h)) (fun _ =>
    .bind (.ofExcept _) (fun _ => trivial))
theorem homed_importKeydata (d m) : (importKeydata env g d m).AllOps (KeepsOwn u env n) := by
  unfold importKeydata; simp only [bind_eq, pure_eq]
  have h1 := homed_gpgOuterr hg
  have h2 := homed_findKeyhandle hg
  have h3 := homed_getPublicKeydata hg
  allops <;> first | exact h1 _ _ _ _ (by simp) | exact h2 _ | exact h3 _ _

end BinGPG

/-! ## Accounts -/

namespace Account
variable (u : GpgUse) (env : Env) (n : Str)

theorem homed_config : Homed u env n (fun c => c.gpgbin = u.bin ∧ c.gpgmode = u.mode) (Own.config n) := by
  unfold Own.config
  refine .bind (.chain _) fun es hes => ?_
  split
  · exact hes rfl _ ‹_›
  · trivial

theorem homed_ownKeyhandle : Homed' u env n (ownKeyhandle n) := by
  unfold ownKeyhandle Own.keyhandle
  refine .of_ops ?_
  simp only [bind_eq, pure_eq]
  allops

/-- the wrapper is right -/
theorem homed_bingpg : Homed u env n (fun g => g.RightFor u env n) (bingpg env n) := by
  unfold bingpg
  refine .bind (homed_config u env n) fun c hc => ?_
  dsimp only
  split
  · trivial
  · unfold BinGPG.create
    refine .bind (Q := fun r => u.seen ⟨.findExecutable u.bin, r⟩) ⟨trivial, fun p hp => by rw [← hc.1]; exact hp⟩ fun p hp => ?_
    cases p with
    | none => trivial
    | some p =>
      exact .bind (BinGPG.homed_ensureInit (g := ⟨(match c.gpgmode with | .own => some (env.dir ++ str!"/gpg/" ++ n) | .system => none), p⟩) hp
        (by rw [hc.2]; rfl)) fun _ h => h

theorem homed_with {α : Type} {f : BinGPG → Prog α} (hf : ∀ g : BinGPG, g.RightFor u env n → Homed' u env n (f g)) :
    Homed' u env n ((bingpg env n).bind f) := .bind (homed_bingpg u env n) hf

theorem homed_createKey (k) : Homed' u env n (createKey env n k) := by
  unfold createKey
  split
  · exact .bind (.ext (Q := fun _ => True) trivial fun _ => trivial) fun _ _ => homed_with u env n fun g hg => .of_ops (BinGPG.homed_genSecretKey hg _)
  · refine homed_with u env n fun g hg => .bind (.of_ops (BinGPG.homed_getSecretKeyhandle hg _)) fun x _ => ?_
    cases x <;> trivial

theorem homed_makeAcHeader (a) : Homed' u env n (makeAcHeader env n a) :=
  homed_with u env n fun _ hg => .bind (homed_ownKeyhandle u env n) fun _ _ => .bind (.of_ops (BinGPG.homed_getPublicKeydata hg _ _)) fun _ _ =>
    .bind (homed_config u env n) fun _ _ => .ofExcept _

theorem homed_exportPublicKey (k) : Homed' u env n (exportPublicKey env n k) := by
  unfold exportPublicKey
  refine .bind (Q := fun _ => True) ?_ fun _ _ => homed_with u env n fun _ hg => .of_ops (BinGPG.homed_getPublicKeydata hg _ _)
  cases k
  · exact homed_ownKeyhandle u env n
  · trivial

theorem homed_exportSecretKey : Homed' u env n (exportSecretKey env n) :=
  homed_with u env n fun _ hg => .bind (homed_ownKeyhandle u env n) fun _ _ => .of_ops (BinGPG.homed_getSecretKeydata hg _ _)

theorem homed_importKey (k) : Homed' u env n (importKey env n k) := by
  unfold importKey
  refine .bind (homed_bingpg u env n).attempt fun x hx => ?_
  cases x with
  | ok g =>
    refine .bind (Q := fun _ => True) ((Homed.of_ops (BinGPG.homed_importKeydata (hx g rfl) k false)).attempt.mono fun _ _ => trivial) fun y _ => ?_
    cases y with
    | ok _ => trivial
    | error e => dsimp only; split <;> trivial
  | error e =>
    refine homed_with u env n fun _ _ => ?_
    split <;> trivial

theorem homed_importPah (p) : Homed' u env n (importPah env n p) := by
  unfold importPah
  refine .bind (homed_importKey u env n _) fun x _ => ?_
  cases x <;> trivial

theorem homed_updateFromMsg (h : Str) (hh : h ≠ ownHead n) (v) : Homed' u env n (Peer.updateFromMsg h v) := by
  refine .of_ops ?_
  unfold Peer.updateFromMsg
  simp only [bind_eq, pure_eq]
  allops
  all_goals exact .append fun he => absurd he hh

theorem homed_updateFromGossip (h : Str) (hh : h ≠ ownHead n) (v) : Homed' u env n (Peer.updateFromGossip h v) := by
  refine .of_ops ?_
  unfold Peer.updateFromGossip
  simp only [bind_eq, pure_eq]
  allops
  all_goals exact .append fun he => absurd he hh

theorem peerHeadOf_ne (a : Str) : peerHeadOf env n a ≠ ownHead n := (ownHead_ne_peerHead _ _ _).symm

theorem homed_processAutocryptHeader (m f h d i) (hh : h ≠ ownHead n) : Homed' u env n (processAutocryptHeader env n m f h d i) := by
  unfold processAutocryptHeader
  refine .bind (.ofExcept _) fun p _ => .bind (Q := fun _ => True) ?_ fun x _ => .bind (homed_updateFromMsg u env n h hh _) fun _ _ => trivial
  split
  · trivial
  · exact homed_importPah u env n _

theorem homed_decryptMime (m) : Homed' u env n (decryptMime env n m) :=
  .bind (.ofExcept _) fun _ _ => homed_with u env n fun _ hg => .bind (.of_ops (BinGPG.homed_decrypt hg _)) fun _ _ => trivial

theorem homed_gossipLoop (dict dt i pr l) : Homed' u env n (gossipLoop env n dict dt i pr l) := by
  induction l generalizing pr with
  | nil => trivial
  | cons r rs ih =>
    unfold gossipLoop
    split
    · exact ih _
    · exact .bind (homed_importPah u env n _) fun _ _ => .bind (homed_updateFromGossip u env n _ (peerHeadOf_ne env n _) _) fun _ _ => ih _

theorem homed_processIncoming (m i d) : Homed' u env n (processIncoming env n m i d) := by
  unfold processIncoming effectiveDate
  simp only [bind_eq, pure_eq]
  refine .bind (.ofExcept _) fun _ _ => .bind (Q := fun _ => True) (.of_ops (by allops)) fun _ _ => .bind (Q := fun _ => True) (.of_ops (by allops)) fun known _ => ?_
  split
  · trivial
  · refine .bind (homed_processAutocryptHeader u env n _ _ _ _ _ (peerHeadOf_ne env n _)) fun _ _ => .bind (Q := fun _ => True) ?_ fun enc _ =>
      .bind (Q := fun _ => True) ?_ fun _ _ => trivial
    · split
      · trivial
      · exact .ofExcept _
    · split
      · refine .bind (homed_decryptMime u env n m) fun _ _ => .bind (Q := fun _ => True) ?_ fun _ _ => .bind (homed_ownKeyhandle u env n) fun _ _ =>
          .bind (Q := fun _ => True) (.of_ops (by allops)) fun _ _ => trivial
        exact .bind (.ofExcept _) fun _ _ => homed_gossipLoop u env n _ _ _ _ _
      · trivial

theorem homed_readPeers (l) : Homed' u env n (readPeers env n l) := by
  induction l with
  | nil => trivial
  | cons a l ih => exact .bind (.chain _) fun _ _ => .bind ih fun _ _ => trivial

theorem homed_recommendation (a r f) : Homed' u env n (recommendation env n a r f) :=
  .bind (homed_config u env n) fun _ _ => .bind (homed_readPeers u env n _) fun _ _ => .ofExcept _

theorem homed_encLoop (acc l) : Homed' u env n (encLoop env n acc l) := by
  induction l generalizing acc with
  | nil => trivial
  | cons a l ih =>
    unfold encLoop
    refine .bind (.chain _) fun es _ => ?_
    dsimp only
    split
    · refine .bind (homed_config u env n) fun c _ => .bind (.ofExcept _) fun mine _ => ?_
      split
      · exact .bind (homed_ownKeyhandle u env n) fun _ _ => ih _
      · trivial
    · exact .bind (.ofExcept _) fun _ _ => ih _

theorem homed_encryptMime (m a) : Homed' u env n (encryptMime env n m a) :=
  .bind (.of_ops (.assert _)) fun _ _ => .bind (homed_encLoop u env n _ _) fun _ _ => .bind (homed_ownKeyhandle u env n) fun _ _ =>
    .bind (.of_ops (.hookBeforeEnc trivial)) fun _ _ => .bind (.ofExcept _) fun _ _ => homed_with u env n fun _ hg =>
    .bind (homed_ownKeyhandle u env n) fun _ _ => .bind (.of_ops (BinGPG.homed_encrypt hg _ _ _ _)) fun _ _ => trivial

theorem homed_processOutgoing (m) : Homed' u env n (processOutgoing env n m) := by
  unfold processOutgoing outgoingBody
  refine .bind (.ofExcept _) fun _ _ => .bind (Q := fun _ => True) ?_ fun _ _ => .bind (Q := fun _ => True) ?_ fun _ _ => trivial
  · split
    · trivial
    · exact .bind (homed_makeAcHeader u env n _) fun _ _ => trivial
  · refine .bind (.ofExcept _) fun b _ => ?_
    split
    · trivial
    · split
      · refine .bind (homed_recommendation u env n _ _ _) fun _ _ => ?_
        dsimp only
        split
        · split
          · exact .bind (homed_encryptMime u env n _ _) fun _ _ => trivial
          · split <;> trivial
        · trivial
      · trivial

theorem homed_importLoop (pe kh l) : Homed' u env n (importLoop env n pe kh l) := by
  induction l with
  | nil => trivial
  | cons a l ih =>
    exact .bind (Q := fun _ => True) (.of_ops (.now trivial)) fun _ _ => homed_with u env n fun _ hg => .bind (.of_ops (BinGPG.homed_getPublicKeydata hg _ _)) fun _ _ =>
      .bind (homed_updateFromMsg u env n _ (peerHeadOf_ne env n _) _) fun _ _ => ih

theorem homed_import (a k p) : Homed' u env n (importKeydataAsAutocrypt env n a k p) := by
  refine homed_with u env n fun _ hg => .bind (.of_ops (BinGPG.homed_importKeydata hg _ _)) fun kh _ => .bind (Q := fun _ => True) ?_ fun _ _ =>
    homed_with u env n fun _ hg => .bind (.of_ops (BinGPG.homed_importKeydata hg _ _)) fun kh _ =>
    .bind (homed_importLoop u env n _ _ _) fun _ _ => homed_with u env n fun _ hg => .bind (.of_ops (BinGPG.homed_getPublicKeydata hg _ _)) fun _ _ => trivial
  split
  · trivial
  · exact homed_with u env n fun _ hg => .bind (.of_ops (BinGPG.homed_listPublicKeyinfos hg _)) fun _ _ => trivial

end Account

/-! ## Calls -/

/-- operations which do not concern gpg -/
def Op.noGpg : Op → Prop
  | .ext (.gpg ..) | .ext (.makedirs _) | .ext (.writeFile ..) => False
  | _ => True

theorem Op.noGpg.right (env : Env) (n bin : Str) (mode : GpgMode) (seen : Event → Prop) {o : ExtOp} (h : Op.noGpg (.ext o)) : RightGpg env n bin mode seen o := by
  cases o <;> first | trivial | exact h.elim

theorem ensureInit_noGpg : Manager.ensureInit.AllOps Op.noGpg := by
  unfold Manager.ensureInit Manager.init Mgr.setVersion; simp only [bind_eq, pure_eq]
  allops
  exact .append trivial

theorem getAccount_noGpg (env : Env) (n : Str) (b : Bool) : (Manager.getAccount env n b).AllOps Op.noGpg := by
  have := ensureInit_noGpg
  unfold Manager.getAccount Manager.account Account.exists_; simp only [bind_eq, pure_eq]
  allops

theorem config_noGpg (n : Str) : (Own.config n).AllOps Op.noGpg := by
  unfold Own.config; simp only [bind_eq, pure_eq]; allops

theorem firstMatch_noGpg (env : Env) (a : Str) (l : List Str) : (Manager.firstMatch env a l).AllOps Op.noGpg := by
  induction l with
  | nil => trivial
  | cons n l ih =>
    have h1 := getAccount_noGpg env
    have h2 := config_noGpg
    unfold Manager.firstMatch; simp only [bind_eq, pure_eq]
    allops <;> first | exact h1 _ _ | exact h2 _

theorem fromEmailadr_noGpg (env : Env) (a : Str) (b : Bool) : (Manager.getAccountFromEmailadr env a b).AllOps Op.noGpg := by
  unfold Manager.getAccountFromEmailadr getAccountNames; simp only [bind_eq, pure_eq]
  have h1 := firstMatch_noGpg env a
  allops <;> exact h1 _

theorem patterns_noGpg (env : Env) (l : List Str) : (Manager.patterns env l).AllOps Op.noGpg := by
  induction l with
  | nil => trivial
  | cons n l ih =>
    have h1 := getAccount_noGpg env
    have h2 := config_noGpg
    unfold Manager.patterns; simp only [bind_eq, pure_eq]
    allops <;> first | exact h1 _ _ | exact h2 _

theorem matching_noGpg (env : Env) (m : Msg) : (Manager.getMatchingAccount env m).AllOps Op.noGpg := by
  unfold Manager.getMatchingAccount getAccountNames; simp only [bind_eq, pure_eq]
  have h1 := patterns_noGpg env
  have h2 := fromEmailadr_noGpg env
  allops <;> first | exact h1 _ | exact h2 _ _

theorem onAccount_noGpg {α : Type} (env : Env) (n : Str) {p : Prog α} (hp : p.AllOps Op.noGpg) : (onAccount env n p).AllOps Op.noGpg :=
  .bind (.assert _) fun _ => .bind hp fun _ => trivial

theorem others_noGpg (env : Env) (c : ApiCall) (hc : c.gpgAccount = none) : (c.prog env).AllOps Op.noGpg := by
  have h1 := getAccount_noGpg env
  cases c <;> try cases hc
  case init => unfold ApiCall.prog Manager.init Mgr.setVersion; simp only [bind_eq, pure_eq]; allops; exact .append trivial
  case getAccount n b => exact .bind (h1 _ _) fun _ => trivial
  case modAccount n r k b p =>
    unfold ApiCall.prog Manager.modAccount Account.modify Own.changeConfig Prog.void; simp only [bind_eq, pure_eq]
    allops <;> first | exact h1 _ _ | exact .append trivial
  case delAccount n =>
    unfold ApiCall.prog Manager.delAccount removeAccount; simp only [bind_eq, pure_eq]
    exact .bind (h1 _ _) fun _ => ⟨trivial, fun r => .ofExcept r⟩
  case listAccountNames => exact .bind (.bind (.heads trivial) fun _ => trivial) fun _ => trivial
  case accountFromEmailadr a b => exact .bind (fromEmailadr_noGpg env a b) fun _ => trivial
  case matchingAccount m => exact .bind (matching_noGpg env m) fun _ => trivial
  case removeAll => exact ⟨trivial, fun _ => ⟨trivial, fun _ => trivial⟩⟩
  case peernames n => exact onAccount_noGpg env n (.bind (.heads trivial) fun _ => trivial)
  case recommendation n as r f =>
    refine onAccount_noGpg env n (.bind (config_noGpg n) fun _ => .bind ?_ fun _ => .ofExcept _)
    generalize Account.peerAddrs env as f = l
    induction l with
    | nil => trivial
    | cons a l ih => exact .bind (.chain trivial) fun _ => .bind ih fun _ => trivial
  case peerMsg n a u =>
    refine onAccount_noGpg env n ?_
    unfold Peer.updateFromMsg; simp only [bind_eq, pure_eq]
    allops; all_goals exact .append trivial
  case peerGossip n a u =>
    refine onAccount_noGpg env n ?_
    unfold Peer.updateFromGossip; simp only [bind_eq, pure_eq]
    allops; all_goals exact .append trivial
  case verifySelf n a k => exact onAccount_noGpg env n (.append trivial)
  case verifyPeer n a k => exact onAccount_noGpg env n (.append trivial)
  case getVerification n a =>
    refine onAccount_noGpg env n ?_
    unfold OOB.getVerification; simp only [bind_eq, pure_eq]
    allops

theorem RightRuns.trans {env : Env} {n bin : Str} {mode : GpgMode} {w1 w2 w3 : World Store K} (h1 : RightRuns env n bin mode w1 w2)
    (h2 : RightRuns env n bin mode w2 w3) : RightRuns env n bin mode w1 w3 := by
  obtain ⟨a, ha, h1⟩ := h1
  obtain ⟨b, hb, h2⟩ := h2
  refine ⟨b ++ a, by rw [hb, ha, List.append_assoc], fun post ev pre he => ?_⟩
  rcases List.append_eq_append_iff.mp he with ⟨x, h3, h4⟩ | ⟨x, h3, h4⟩
  · exact h1 _ _ _ h4
  · cases x with
    | nil => exact h1 [] _ _ (by simpa using h4.symm)
    | cons y x =>
      cases h4
      exact (h2 _ _ _ h3).mono fun x hx => by simp [hx]

theorem RightRuns.of_noGpg {env : Env} {n bin : Str} {mode : GpgMode} {w1 w2 : World Store K} (h : Events (fun ev => Op.noGpg (.ext ev.op)) w1 w2) :
    RightRuns env n bin mode w1 w2 := by
  obtain ⟨new, h1, h2⟩ := h
  exact ⟨new, h1, fun post ev pre he => (h2 ev (by simp [he])).right env n bin mode _⟩

theorem RightRuns.rfl' {env : Env} {n bin : Str} {mode : GpgMode} {w : World Store K} : RightRuns env n bin mode w w := .of_noGpg .rfl'

theorem RightRuns.bind {O : Oracle K} {env : Env} {n bin : Str} {mode : GpgMode} {α β : Type} {p : Prog α} {f : α → Prog β} {w : World Store K}
    (h1 : RightRuns env n bin mode w (exec O p w).2) (h2 : ∀ a w1, exec O p w = (.ok a, w1) → RightRuns env n bin mode w1 (exec O (f a) w1).2) :
    RightRuns env n bin mode w (exec O (p.bind f) w).2 := by
  rw [exec, run_bind]
  rw [exec] at h1 h2
  generalize hx : run Store.impl O p w = x at h1 h2 ⊢
  obtain ⟨r, w1⟩ := x
  cases r with
  | ok a => exact h1.trans (h2 a w1 rfl)
  | error e => exact h1

theorem Homed.runs {O : Oracle K} {env : Env} {n bin : Str} {mode : GpgMode} {α : Type} {p : Prog α}
    (hp : ∀ u : GpgUse, u.bin = bin → u.mode = mode → Homed' u env n p) (w : World Store K) (hw : Uses w n bin mode) :
    RightRuns env n bin mode w (exec O p w).2 := by
  obtain ⟨new, h1, h2⟩ := Homed.run (O := O) (P := fun _ => False) (fun F _ => hp ⟨bin, mode, F⟩ rfl rfl) w hw
  exact ⟨new, h1, fun post ev pre he => (h2 post ev pre he).mono fun x hx => hx.resolve_left id⟩

/-- the text for a mode -/
def ModeText (mode : GpgMode) (t : Str) : Prop := match mode with | .own => t = str!"own" | .system => t = str!"system"

theorem create_runs (O : Oracle K) (env : Env) (n re : Str) (k : Option Str) (b : Str) (mode : GpgMode) (m : Str) (hm : ModeText mode m) (w : World Store K) :
    RightRuns env n b mode w (exec O (Account.create env n re k b m) w).2 := by
  have hrest : ∀ u : GpgUse, u.bin = b → u.mode = mode → Homed' u env n ((Account.createKey env n k).bind fun k => (Account.bingpg env n).bind fun g =>
      (BinGPG.getSecretKeydata env g k).bind fun kd => Own.appendKeygen n (some kd) (some k)) := fun u _ _ =>
    .bind (Account.homed_createKey u env n k) fun _ _ => Account.homed_with u env n fun _ hg =>
      .bind (.of_ops (BinGPG.homed_getSecretKeydata hg _ _)) fun _ _ => .of_ops (.append fun _ c hc => by cases hc)
  let w1 : World Store K := { w with store := w.store.push (ownHead n) (.cfg { pe := .nopreference, name := n, emailRegex := re, gpgmode := mode, gpgbin := b }), tick := w.tick + 1 }
  have hw1 : Uses w1 n b mode := by
    intro c hc
    have hc' := latestConfig_iff.mpr hc
    have hlog : w1.log (ownHead n) = _ := Store.get_push_self _ _ _
    rw [hlog] at hc'
    cases hc'
    exact ⟨rfl, rfl⟩
  obtain ⟨new, h1, h2⟩ := Homed.runs (O := O) hrest w1 hw1
  refine ⟨new, ?_, h2⟩
  cases mode <;> cases hm <;> exact h1

theorem getAccount_returns (env : Env) (n : Str) (b : Bool) : (Manager.getAccount env n b).Returns fun a => a = n := by
  unfold Manager.getAccount
  refine .bind (.trivially _) fun _ _ => .bind (.trivially _) fun _ _ => .bind (.trivially _) fun ok _ => ?_
  split
  · exact .bind (.trivially _) fun _ _ => rfl
  · trivial

/-- C104: whatever a call for an account does with gpg is right for the account: each run is one of the program in the configuration, by a path found for
it before in this call, with the home directory of the account in mode 'own', which was found or made before in this call, and with no other one in mode
'system'; the directory and the file gpg-agent.conf in it are made only for mode 'own' and after they were found not to exist. -/
theorem C104_program (O : Oracle K) (env : Env) (w w' : World Store K) (n bin : Str) (mode : GpgMode) (c : ApiCall) (hc : c.gpgAccount = some n)
    (hm : (∃ r k m, c = .addAccount n r k bin m ∧ ModeText mode m) ∨ ((∀ r k b m, c ≠ .addAccount n r k b m) ∧ Uses w n bin mode))
    {r : Except Exc Unit} (h : exec O (c.prog env) w = (r, w')) : RightRuns env n bin mode w w' := by
  have hw' : w' = (exec O (c.prog env) w).2 := by rw [h]
  subst hw'
  rcases hm with ⟨r, k, m, rfl, hm⟩ | ⟨hne, hw⟩
  · refine .bind ?_ fun _ _ _ => .rfl'
    unfold Manager.addAccount
    simp only [bind_eq, pure_eq]
    refine .bind (.of_noGpg (run_events (getAccount_noGpg env n false) w)) fun a w1 ha => ?_
    have ha : a = n := (getAccount_returns env n false).of_run ha
    subst ha
    refine .bind (.of_noGpg (run_events (P := Op.noGpg) (by unfold Account.exists_; simp only [bind_eq, pure_eq]; allops) w1)) fun ex w2 _ => ?_
    split
    · exact .rfl'
    · exact .bind (create_runs O env a _ _ _ mode _ hm _) fun _ _ _ => .rfl'
  refine Homed.runs (fun u _ _ => ?_) w hw
  have on : ∀ {α : Type} {p : Prog α}, Homed' u env n p → Homed' u env n (onAccount env n p) := fun hp =>
    .bind (.of_ops (.assert _)) fun _ _ => hp.void
  have : Homed' u env n (c.prog env) := by
    cases c <;> cases hc
    case addAccount r k b m => exact absurd rfl (hne r k b m)
    case makeAcHeader => exact on (Account.homed_makeAcHeader u env n _)
    case exportPublicKey => exact on (Account.homed_exportPublicKey u env n _)
    case exportSecretKey => exact on (Account.homed_exportSecretKey u env n)
    case processIncoming => exact on (Account.homed_processIncoming u env n _ _ _)
    case processOutgoing => exact on (Account.homed_processOutgoing u env n _)
    case encryptMime => exact on (Account.homed_encryptMime u env n _ _)
    case decryptMime => exact on (Account.homed_decryptMime u env n _)
    case importKey => exact on (Account.homed_import u env n _ _ _)
  exact this

/-- C72: a call on an account which is in mode 'own', or is created with this mode, runs gpg only with the home of the account, and
creates directories and files for gpg only there. -/
theorem C72_home (O : Oracle K) (env : Env) (w w' : World Store K) (n : Str) (c : ApiCall) (hc : c.gpgAccount = some n)
    (hm : (∃ r k b, c = .addAccount n r k b (str!"own")) ∨ ((∀ r k b m, c ≠ .addAccount n r k b m) ∧ OwnMode w n))
    {r : Except Exc Unit} (h : exec O (c.prog env) w = (r, w')) : Events (fun ev => Confined env n ev.op) w w' := by
  obtain ⟨bin, hm⟩ : ∃ bin, (∃ r k m, c = .addAccount n r k bin m ∧ ModeText .own m) ∨ ((∀ r k b m, c ≠ .addAccount n r k b m) ∧ Uses w n bin .own) := by
    rcases hm with ⟨r, k, b, rfl⟩ | ⟨h1, h2⟩
    · exact ⟨b, .inl ⟨r, k, _, rfl, rfl⟩⟩
    · cases hl : Own.latestConfig (w.log (ownHead n)) with
      | none => exact ⟨[], .inr ⟨h1, fun c hc => by rw [latestConfig_iff.mpr hc] at hl; cases hl⟩⟩
      | some c =>
        refine ⟨c.gpgbin, .inr ⟨h1, fun c' hc => ?_⟩⟩
        have h3 := latestConfig_iff.mpr hc
        rw [hl] at h3
        cases h3
        exact ⟨rfl, h2 _ hc⟩
  obtain ⟨new, h1, h2⟩ := C104_program O env w w' n bin .own c hc hm h
  refine ⟨new, h1, fun ev hev => ?_⟩
  obtain ⟨pre, post, rfl⟩ := List.append_of_mem hev
  have := h2 _ _ _ rfl
  revert this
  cases ev.op <;> try exact id
  · rintro ⟨path, opts, args, -, rfl, h4, -⟩
    exact ⟨path, args, h4⟩
  · exact fun h => h.2.1
  · exact fun h => h.2.1

/-- C72: all other calls run no gpg and create no directories and files for it. -/
theorem C72_others (O : Oracle K) (env : Env) (w w' : World Store K) (c : ApiCall) (hc : c.gpgAccount = none)
    {r : Except Exc Unit} (h : exec O (c.prog env) w = (r, w')) :
    Events (fun ev => (∀ a i, ev.op ≠ .gpg a i) ∧ (∀ p, ev.op ≠ .makedirs p) ∧ ∀ p s, ev.op ≠ .writeFile p s) w w' := by
  have hw' : w' = (exec O (c.prog env) w).2 := by rw [h]
  subst hw'
  refine (run_events (others_noGpg env c hc) w).mono fun ev hev => ?_
  revert hev
  cases ev.op <;> intro hev <;> first | exact hev.elim | (refine ⟨?_, ?_, ?_⟩ <;> simp)

open Concrete in
/-- an account in mode 'own' receives and sends mail, and gpg runs; one in mode 'system' is different -/
example : OwnMode (after [addA]) (str!"a") ∧
    (exec oracle ((recv bob (str!"1") (str!"100") [7]).prog env) (after [addA])).2.trace.length > (after [addA]).trace.length ∧
    ¬ OwnMode (after [.addAccount (str!"a") none none (str!"gpg") (str!"system")]) (str!"a") := by
  refine ⟨?_, by decide +kernel, ?_⟩
  · intro c hc
    have h : (Own.latestConfig ((after [addA]).log (ownHead (str!"a")))).map (·.gpgmode) = some .own := by decide +kernel
    rw [latestConfig_iff.mpr hc] at h
    simpa using h
  · intro h
    have hs : (Own.latestConfig ((after [.addAccount (str!"a") none none (str!"gpg") (str!"system")]).log (ownHead (str!"a")))).map (·.gpgmode) =
        some .system := by decide +kernel
    obtain ⟨c, h1, h2⟩ := Option.map_eq_some_iff.mp hs
    rw [h c (latestConfig_iff.mp h1)] at h2
    cases h2

open Concrete in
/-- an account with another program in mode 'system', changed to a third program later, makes a header -/
example : let w := after [.addAccount (str!"a") none none (str!"gpg2") (str!"system"), .modAccount (str!"a") none none (some (str!"gpg3")) none]
    Uses w (str!"a") (str!"gpg3") .system ∧
    ((exec oracle ((ApiCall.makeAcHeader (str!"a") bob).prog env) w).2.trace.take 2).map (fun ev => match ev.op with | .gpg argv _ => argv | .findExecutable b => [b] | _ => []) =
      [[str!"/usr/bin/gpg3", str!"--batch", str!"--export-options=export-minimal", str!"--export", str!"BBBBBBBBBBBBBBBB"], [str!"gpg3"]] := by
  refine ⟨?_, by decide +kernel⟩
  intro c hc
  have h : (Own.latestConfig ((after [.addAccount (str!"a") none none (str!"gpg2") (str!"system"),
      .modAccount (str!"a") none none (some (str!"gpg3")) none]).log (ownHead (str!"a")))).map (fun c => (c.gpgbin, c.gpgmode)) = some (str!"gpg3", .system) := by decide +kernel
  rw [latestConfig_iff.mpr hc] at h
  simpa using h

open Concrete in
/-- a new home is made before gpg is run with it, and so is the file for a gpg which needs it -/
example : let fresh : Oracle Unit := { step := fun o k => match o with
      | .pathExists _ => (false, k)
      | .gpg a i => (if str!"--version" ∈ a then .ok ⟨0, bs (str!"gpg (GnuPG) 2.1.11\n"), []⟩ else .ok (gpg a i), k)
      | o => oracle.step o k }
    ((exec fresh (ApiCall.prog env (.addAccount (str!"a") none none (str!"gpg") (str!"own"))) world0).2.trace.reverse.drop 2).head?.map
      (fun ev => match ev.op with | .findExecutable b => b | _ => []) = some (str!"gpg") ∧
    (((exec fresh (ApiCall.prog env (.addAccount (str!"a") none none (str!"gpg") (str!"own"))) world0).2.trace.reverse.drop 3).take 2).map
      (fun ev => match ev.op with | .pathExists p => (str!"exists", p) | .makedirs p => (str!"make", p) | _ => ([], [])) =
      [(str!"exists", gpgHome env (str!"a")), (str!"make", gpgHome env (str!"a"))] ∧
    ((exec fresh (ApiCall.prog env (.addAccount (str!"a") none none (str!"gpg") (str!"own"))) world0).2.trace.filterMap
      (fun ev => match ev.op with | .writeFile p _ => some p | _ => none)).head? = some (gpgHome env (str!"a") ++ str!"/gpg-agent.conf") := by
  decide +kernel

end Verif
