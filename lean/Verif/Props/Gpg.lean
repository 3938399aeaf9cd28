import Verif.Lemmas.Built
import Verif.Lemmas.Events
import Verif.Spec.Concrete
/-!
# Running gpg: failures and temporary files (C57, C58)
-/
namespace Verif

/-- the exception -/
def _root_.Except.exc? {ε α : Type} : Except ε α → Option ε
  | .error e => some e
  | .ok _ => none

theorem _root_.Except.eq_error_of_exc? {ε α : Type} {x : Except ε α} {e : ε} (h : x.exc? = some e) : x = .error e := by
  cases x <;> cases h; rfl

variable {σ K : Type} {α β : Type}

/-- what a checked gpg command does: one event, and a result which depends only on what gpg returned -/
theorem run_gpgOuterr (S : StoreImpl σ) (O : Oracle K) (env : Env) (g : BinGPG) (args : List Str) (input : Option Bytes)
    (strict decode : Bool) (w : World σ K) :
    ∃ (ret : Except Exc GpgOut) (w' : World σ K),
      run S O (BinGPG.gpgOuterr env g args input strict decode) w = (ret.bind (BinGPG.checkResult env strict decode), w') ∧
      w'.trace = ⟨.gpg (g.argv args) input, ret⟩ :: w.trace ∧ w'.store = w.store ∧ w'.clock = w.clock ∧ w'.tick = w.tick := by
  refine ⟨(O.step (.gpg (g.argv args) input) w.env).1, { w with env := (O.step (.gpg (g.argv args) input) w.env).2,
                                                                                  trace := ⟨.gpg (g.argv args) input, (O.step (.gpg (g.argv args) input) w.env).1⟩ :: w.trace }, ?_, rfl, rfl, rfl, rfl⟩
  unfold BinGPG.gpgOuterr
  simp only [bind_eq]
  rw [run_bind, run_gpg]
  generalize ((O.step (.gpg (g.argv args) input) w.env).1 : Except Exc GpgOut) = x
  cases x with
  | error e => rfl
  | ok out => dsimp only; rw [run_ofExcept]; rfl

/-! ## C57 -/

/-- gpg failed: it exited with a non-zero status or, in strict mode, wrote to stderr -/
def GpgOut.Failed (strict : Bool) (out : GpgOut) : Prop := out.ret ≠ 0 ∨ (strict = true ∧ out.err ≠ [])

/-- what gpg wrote can be decoded where the code decodes it -/
def GpgOut.Readable (env : Env) (decode : Bool) (out : GpgOut) : Prop :=
  (∃ s, env.utf8Decode out.err = .ok s) ∧ (decode = true → ∃ s, env.utf8Decode out.out = .ok s)

/-- C57: the command is run once. If it fails, an exception is raised: `KeyboardInterrupt` on status 130,
otherwise `InvocationFailure` if its output is utf-8. If it raised (it could not be started), so does the call.
Missing: if the output of a failed command is not utf-8 the exception is another one (`C57_refuted`). -/
theorem C57_failure_partial {S : StoreImpl σ} {O : Oracle K} {env : Env} (hdec : ∀ b, env.utf8Decode b = .ok [] ↔ b = [])
    (g : BinGPG) (args : List Str) (input : Option Bytes) (strict decode : Bool) (w w' : World σ K) (r : Except Exc (Bytes × Str))
    (h : run S O (BinGPG.gpgOuterr env g args input strict decode) w = (r, w')) :
    ∃ ret : Except Exc GpgOut, w'.trace = ⟨.gpg (commandLine g args) input, ret⟩ :: w.trace ∧
      (∀ e, ret = .error e → r = .error e) ∧
      ∀ out, ret = .ok out →
        (¬ out.Failed strict → out.Readable env decode → ∃ err, env.utf8Decode out.err = .ok err ∧ r = .ok (out.out, err)) ∧
        (out.Failed strict → ∃ e, r = .error e ∧ (out.ret = 130 → e = .keyboardInterrupt) ∧
          (out.ret ≠ 130 → out.Readable env decode → e = .invocationFailure)) := by
  obtain ⟨ret, w1, h1, htr, -⟩ := run_gpgOuterr S O env g args input strict decode w
  rw [h1] at h
  obtain ⟨rfl, rfl⟩ : ret.bind (BinGPG.checkResult env strict decode) = r ∧ w1 = w' := by
    exact ⟨congrArg Prod.fst h, congrArg Prod.snd h⟩
  refine ⟨ret, by rw [htr, argv_eq], ?_, ?_⟩
  · rintro e rfl; rfl
  · rintro out rfl
    show (_ → _ → ∃ err, _ ∧ BinGPG.checkResult env strict decode out = _) ∧ (_ → ∃ e, BinGPG.checkResult env strict decode out = _ ∧ _)
    unfold BinGPG.checkResult GpgOut.Failed GpgOut.Readable
    constructor
    · rintro hf ⟨⟨err, he⟩, ho⟩
      have h0 : out.ret = 0 := Classical.byContradiction fun hh => hf (Or.inl hh)
      have h130 : ¬ out.ret = 130 := by rw [h0]; decide
      rw [if_neg h130, he]
      have hd : (if decode = true then Except.map (fun _ => ()) (env.utf8Decode out.out) else .ok ()) = (.ok () : Except Exc Unit) := by
        split
        · rename_i hd; obtain ⟨s, hs⟩ := ho hd; rw [hs]; rfl
        · rfl
      dsimp only
      rw [hd]
      refine ⟨err, rfl, ?_⟩
      dsimp only
      rw [if_neg]
      rintro (hh | ⟨hs, hne⟩)
      · exact hh h0
      · have herr : out.err = [] := Classical.byContradiction fun hh => hf (Or.inr ⟨hs, hh⟩)
        rw [herr, (hdec []).mpr rfl] at he
        cases he; exact hne rfl
    · intro hf
      by_cases h130 : out.ret = 130
      · rw [if_pos h130]
        exact ⟨_, rfl, fun _ => rfl, fun hh => absurd h130 hh⟩
      rw [if_neg h130]
      cases he : env.utf8Decode out.err with
      | error e => exact ⟨e, rfl, fun hh => absurd hh h130, by rintro - ⟨⟨s, hs⟩, -⟩; cases hs⟩
      | ok err =>
        dsimp only
        cases hd : (if decode = true then Except.map (fun _ => ()) (env.utf8Decode out.out) else .ok () : Except Exc Unit) with
        | error e =>
          refine ⟨e, rfl, fun hh => absurd hh h130, ?_⟩
          rintro - ⟨-, ho⟩
          split at hd
          · rename_i hdc; obtain ⟨s, hs⟩ := ho hdc; rw [hs] at hd; cases hd
          · cases hd
        | ok u =>
          dsimp only
          rw [if_pos]
          · exact ⟨_, rfl, fun hh => absurd hh h130, fun _ _ => rfl⟩
          · rcases hf with hf | ⟨hs, hne⟩
            · exact Or.inl hf
            · exact Or.inr ⟨hs, fun hh => hne ((hdec _).mp (hh ▸ he))⟩

/-- a gpg whose failure message is not utf-8, and a decoder which rejects it -/
theorem C57_refuted : ∃ (env : Env) (O : Oracle Unit) (g : BinGPG) (w : World Store Unit) (out : GpgOut),
    (∀ b, env.utf8Decode b = .ok [] ↔ b = []) ∧
    (exec O (BinGPG.gpgOuterr env g [str!"--list-public-keys"] none false true) w).2.trace =
      ⟨.gpg [g.path, str!"--batch", str!"--list-public-keys"] none, (.ok out : Except Exc GpgOut)⟩ :: w.trace ∧
    out.ret = 2 ∧
    (exec O (BinGPG.gpgOuterr env g [str!"--list-public-keys"] none false true) w).1 = .error .unicodeError := by
  refine ⟨{ Concrete.env with utf8Decode := fun b => if b.all (· < 128) then .ok (Py.asciiDecode b) else .error .unicodeError },
    { step := fun o k => match o with
        | .gpg _ _ => (.ok ⟨2, [], [255]⟩, k)
        | o => Concrete.oracle.step o k }, ⟨none, str!"gpg"⟩, Concrete.world0, ⟨2, [], [255]⟩, ?_, rfl, rfl, rfl⟩
  intro b
  dsimp only
  constructor
  · intro h
    split at h
    · cases b with
      | nil => rfl
      | cons x b => simp [Py.asciiDecode] at h
    · cases h
  · rintro rfl; rfl

/-- the gpg command of an event, if any, was run and exited with status 0 -/
def Event.gpgOk (ev : Event) : Prop :=
  ∀ (argv : List Str) (stdin : Option Bytes) (ret : Except Exc GpgOut), ev = ⟨.gpg argv stdin, ret⟩ →
    ∃ out, ret = .ok out ∧ out.ret = 0

theorem checkResult_returns {env : Env} {strict decode : Bool} {out : GpgOut} {r : Bytes × Str}
    (h : BinGPG.checkResult env strict decode out = .ok r) : out.ret = 0 ∧ r.1 = out.out ∧ env.utf8Decode out.err = .ok r.2 ∧
      (strict = true → r.2 = []) := by
  unfold BinGPG.checkResult at h
  split at h
  · cases h
  · split at h
    · cases h
    · rename_i err he
      split at h
      · cases h
      · split at h
        · cases h
        · rename_i hc
          cases h
          refine ⟨Classical.byContradiction fun hh => hc (Or.inl hh), rfl, he, fun hs => Classical.byContradiction fun hh => hc (Or.inr ⟨hs, hh⟩)⟩

theorem Op.plain.gpgOk {o : ExtOp} (h : Op.plain (.ext o)) (ret : o.Ret) : Event.gpgOk ⟨o, ret⟩ := by
  intro a i r he
  have := congrArg Event.op he
  dsimp only at this
  subst this
  exact h.elim

theorem step_plain_events {S : StoreImpl σ} {O : Oracle K} {E : Event → Prop} {o : Op} (ho : o.plain)
    (hE : ∀ (x : ExtOp) (ret : x.Ret), Op.plain (.ext x) → E ⟨x, ret⟩) (w : World σ K) : Events E w (step S O o w).2 := by
  cases o with
  | ext o => exact ⟨[⟨o, (O.step o w.env).1⟩], rfl, fun ev hev => by rw [List.mem_singleton.mp hev]; exact hE _ _ ho⟩
  | _ => exact .of_trace_eq rfl

theorem run_withTempFile (S : StoreImpl σ) (O : Oracle K) (d : Bytes) (b : Str → Prog α) (w : World σ K) :
    (∃ e w1, run S O (BinGPG.withTempFile d b) w = (.error e, w1) ∧
      (w1.trace = ⟨.mkTemp, (.error e : Except Exc Str)⟩ :: w.trace ∨
        ∃ name, w1.trace = ⟨.writeTemp name d, (.error e : Except Exc Unit)⟩ :: ⟨.mkTemp, (.ok name : Except Exc Str)⟩ :: w.trace)) ∨
    ∃ name w1 rr w3,
      w1.trace = ⟨.writeTemp name d, (.ok () : Except Exc Unit)⟩ :: ⟨.mkTemp, (.ok name : Except Exc Str)⟩ :: w.trace ∧
      w3.trace = ⟨.rmTemp name, (rr : Except Exc Unit)⟩ :: (run S O (b name) w1).2.trace ∧
      run S O (BinGPG.withTempFile d b) w = (match rr with | .ok _ => (run S O (b name) w1).1 | .error e => .error e, w3) := by
  have hm : run S O Prog.mkTemp w = ((O.step .mkTemp w.env).1,
      { w with env := (O.step .mkTemp w.env).2, trace := ⟨.mkTemp, (O.step .mkTemp w.env).1⟩ :: w.trace }) := run_ofExcept ..
  unfold BinGPG.withTempFile Prog.finally_
  simp only [bind_eq]
  rw [run_bind, hm]
  generalize ((O.step .mkTemp w.env).1 : Except Exc Str) = x
  generalize (O.step .mkTemp w.env).2 = k
  cases x with
  | error e => exact Or.inl ⟨e, _, rfl, .inl rfl⟩
  | ok name =>
    dsimp only
    generalize hw0 : ({ w with env := k, trace := ⟨.mkTemp, (.ok name : Except Exc Str)⟩ :: w.trace } : World σ K) = w0
    have hw : run S O (Prog.writeTemp name d) w0 = ((O.step (.writeTemp name d) w0.env).1,
      { w0 with env := (O.step (.writeTemp name d) w0.env).2, trace := ⟨.writeTemp name d, (O.step (.writeTemp name d) w0.env).1⟩ :: w0.trace }) :=
        run_ofExcept ..
    rw [run_bind, hw]
    generalize ((O.step (.writeTemp name d) w0.env).1 : Except Exc Unit) = y
    generalize (O.step (.writeTemp name d) w0.env).2 = k0
    cases y with
    | error e => exact Or.inl ⟨e, _, rfl, .inr ⟨name, by rw [← hw0]⟩⟩
    | ok u =>
    right
    dsimp only
    generalize hw1 : ({ w0 with env := k0, trace := ⟨.writeTemp name d, (.ok u : Except Exc Unit)⟩ :: w0.trace } : World σ K) = w1
    have hr : ∀ v : World σ K, run S O (Prog.rmTemp name) v = ((O.step (.rmTemp name) v.env).1,
      { v with env := (O.step (.rmTemp name) v.env).2, trace := ⟨.rmTemp name, (O.step (.rmTemp name) v.env).1⟩ :: v.trace }) :=
        fun v => run_ofExcept ..
    rw [run_bind, run_attempt]
    dsimp only
    rw [run_bind, hr]
    generalize hv : (run S O (b name) w1).2 = v
    generalize ((O.step (.rmTemp name) v.env).1 : Except Exc Unit) = rr
    refine ⟨name, w1, rr, { v with env := (O.step (.rmTemp name) v.env).2, trace := ⟨.rmTemp name, rr⟩ :: v.trace }, by rw [← hw1, ← hw0], by rw [hv], ?_⟩
    cases rr with
    | error e => rfl
    | ok u =>
      dsimp only
      cases (run S O (b name) w1).1 <;> rfl

/-- a program which handles no exceptions and returns normally has run only successful gpg commands -/
theorem Built.clean {p : Prog α} (hp : Built false p) {S : StoreImpl σ} {O : Oracle K} {w w' : World σ K} {a : α}
    (h : run S O p w = (.ok a, w')) : Events Event.gpgOk w w' := by
  induction hp generalizing w w' with
  | pure b => cases h; exact .rfl'
  | raise e => cases h
  | op o k ho _ ih =>
    simp only [run] at h
    exact (step_plain_events ho (fun x ret hx => hx.gpgOk ret) w).trans (ih _ h)
  | bind _ _ ihp ihf =>
    obtain ⟨b, w1, h1, h2⟩ := run_bind_ok.mp h
    exact (ihp h1).trans (ihf b h2)
  | gpg env g args i s d =>
    obtain ⟨ret, w1, h1, htr, -⟩ := run_gpgOuterr S O env g args i s d w
    rw [h1] at h
    obtain rfl : w1 = w' := congrArg Prod.snd h
    have h := congrArg Prod.fst h
    dsimp only at h
    refine ⟨[_], htr, ?_⟩
    intro ev hev
    rw [List.mem_singleton.mp hev]
    intro a' i' r' he
    cases ret with
    | error e => cases h
    | ok out =>
      have hret : ∀ (x : Event) (hx : x = ⟨.gpg (g.argv args) i, (.ok out : Except Exc GpgOut)⟩) (y : Except Exc GpgOut), x = ⟨.gpg a' i', y⟩ →
          y = .ok out := by
        rintro x rfl y hy; cases hy; rfl
      exact ⟨out, hret _ rfl _ he, (checkResult_returns h).1⟩
  | temp d b _ ih =>
    rcases run_withTempFile S O d b w with ⟨e, w1, h1, -⟩ | ⟨name, w1, rr, w3, ht1, ht3, hr⟩
    · rw [h1] at h; cases h
    · rw [hr] at h
      obtain rfl : w3 = w' := congrArg Prod.snd h
      have h := congrArg Prod.fst h
      dsimp only at h
      cases rr with
      | error e => cases h
      | ok u =>
        refine Events.trans (w1 := w1) ⟨[_, _], ht1, ?_⟩ (Events.trans (w1 := (run S O (b name) w1).2) (ih name (Prod.ext h rfl)) ⟨[_], ht3, ?_⟩)
        · intro ev hev
          rcases List.mem_cons.mp hev with rfl | hev
          · intro _ _ _ he; cases he
          · rw [List.mem_singleton.mp hev]; intro _ _ _ he; cases he
        · intro ev hev; rw [List.mem_singleton.mp hev]; intro _ _ _ he; cases he
  | attempt hc => cases hc

/-- C57: no failure of gpg is swallowed. If an API call other than the processing of incoming mail (which records that
a key could not be imported) returns normally, every gpg command it ran exited with status 0. -/
theorem C57_calls {S : StoreImpl σ} {O : Oracle K} (env : Env) (c : ApiCall) (hc : ∀ n m i d, c ≠ .processIncoming n m i d)
    (w w' : World σ K) (h : run S O (c.prog env) w = (.ok (), w')) :
    ∃ new, w'.trace = new ++ w.trace ∧ ∀ argv stdin (ret : Except Exc GpgOut), (⟨.gpg argv stdin, ret⟩ : Event) ∈ new →
      ∃ out, ret = .ok out ∧ out.ret = 0 := by
  have hb : Built false (c.prog env) := by
    have := built_call env c
    cases c <;> first | exact this | exact absurd rfl (hc _ _ _ _)
  obtain ⟨new, h1, h2⟩ := hb.clean h
  exact ⟨new, h1, fun argv stdin ret hm => h2 _ hm argv stdin ret rfl⟩

example : (exec Concrete.oracle (Concrete.addA.prog Concrete.env) Concrete.world0).1 = .ok () ∧
    5 ≤ ((exec Concrete.oracle (Concrete.addA.prog Concrete.env) Concrete.world0).2.trace.filter
      fun e => match e.op with | .gpg _ _ => true | _ => false).length :=
  ⟨Except.eq_ok_of_toOption (by decide +kernel), by decide +kernel⟩

/-- C57: exported key data is what a gpg command wrote to stdout which exited with 0 and wrote nothing to stderr -/
theorem C57_export {S : StoreImpl σ} {O : Oracle K} {env : Env} (hdec : ∀ b, env.utf8Decode b = .ok [] ↔ b = [])
    (g : BinGPG) (kh : Str) (armor : Bool) (cmd : Str) (w w' : World σ K) (b : Bytes)
    (h : run S O (BinGPG.getPublicKeydata env g kh armor) w = (.ok b, w') ∧ cmd = str!"--export" ∨
         run S O (BinGPG.getSecretKeydata env g kh armor) w = (.ok b, w') ∧ cmd = str!"--export-secret-key") :
    ∃ argv opts old, w'.trace = ⟨.gpg argv none, (.ok ⟨0, b, []⟩ : Except Exc GpgOut)⟩ :: old ++ w.trace ∧
      argv = commandLine g ((if armor then [str!"-a"] else []) ++ opts ++ [str!"--export-options=export-minimal", cmd, kh]) := by
  have key : ∀ args w, run S O ((BinGPG.gpgOuterr env g args none true false).bind fun r => .pure r.1) w = (.ok b, w') →
      w'.trace = ⟨.gpg (g.argv args) none, (.ok ⟨0, b, []⟩ : Except Exc GpgOut)⟩ :: w.trace := by
    intro args w h
    obtain ⟨ret, w1, h1, htr, -⟩ := run_gpgOuterr S O env g args none true false w
    rw [run_bind, h1] at h
    cases ret with
    | error e => cases h
    | ok out =>
      simp only [Except.bind] at h
      cases hc : BinGPG.checkResult env true false out with
      | error e => rw [hc] at h; cases h
      | ok r =>
        rw [hc] at h
        obtain ⟨h0, hb, he, hs⟩ := checkResult_returns hc
        simp only [run_pure, Prod.mk.injEq, Except.ok.injEq] at h
        rw [hs rfl] at he
        have := (hdec _).mp he
        rw [← h.2, htr, ← h.1, hb, ← h0, ← this]
  rcases h with ⟨h, rfl⟩ | ⟨h, rfl⟩
  · exact ⟨_, [], [], key _ w h, by rw [argv_eq]; simp⟩
  · unfold BinGPG.getSecretKeydata at h
    simp only [bind_eq] at h
    obtain ⟨np, w1, h1, h2⟩ := run_bind_ok.mp h
    obtain ⟨old, ho⟩ := run_trace (S := S) (O := O) (BinGPG.nopassphrase env g) w
    rw [h1] at ho
    exact ⟨_, np, old, by rw [key _ w1 h2, ← ho]; rfl, by rw [argv_eq]⟩

example : (exec Concrete.oracle (BinGPG.getPublicKeydata Concrete.env ⟨none, str!"gpg"⟩ (str!"AAAAAAAAAAAA0102")) Concrete.world0).1 =
    .ok [1, 2] := Except.eq_ok_of_toOption (by decide +kernel)
example : ∀ b, Concrete.env.utf8Decode b = .ok [] ↔ b = [] := by
  intro b; cases b <;> simp [Concrete.env, Py.asciiDecode]

/-! ## C58 -/

/-- in this part of a trace (newest first) each temporary file that was made is removed later, or it could not be written -/
def TidyTrace (new : List Event) : Prop :=
  ∀ later earlier name, new = later ++ ⟨.mkTemp, (.ok name : Except Exc Str)⟩ :: earlier →
    (∃ r : Except Exc Unit, (⟨.rmTemp name, r⟩ : Event) ∈ later) ∨
    ∃ l d e, later = l ++ [⟨.writeTemp name d, (.error e : Except Exc Unit)⟩]

theorem TidyTrace.nil : TidyTrace [] := by
  intro l e n h
  cases l <;> cases h

theorem TidyTrace.append {a b : List Event} (ha : TidyTrace a) (hb : TidyTrace b) : TidyTrace (a ++ b) := by
  intro l e n h
  rcases List.append_eq_append_iff.mp h with ⟨x, hx, hb'⟩ | ⟨x, hx, hb'⟩
  · rcases hb x e n hb' with ⟨r, hr⟩ | ⟨l', d, er, hr⟩
    · exact .inl ⟨r, hx ▸ List.mem_append_right _ hr⟩
    · exact .inr ⟨a ++ l', d, er, by rw [hx, hr, List.append_assoc]⟩
  · cases x with
    | nil =>
      rcases hb [] e n (by simpa using hb'.symm) with ⟨r, hr⟩ | ⟨l', d, er, hr⟩
      · cases hr
      · simp at hr
    | cons y x =>
      simp only [List.cons_append, List.cons.injEq] at hb'
      obtain ⟨rfl, -⟩ := hb'
      exact ha l x n hx

theorem TidyTrace.single {ev : Event} (h : ∀ name, ev ≠ ⟨.mkTemp, (.ok name : Except Exc Str)⟩) : TidyTrace [ev] := by
  intro l e n he
  cases l with
  | nil => cases he; exact absurd rfl (h n)
  | cons x l => cases l <;> cases he

theorem TidyTrace.made {m : List Event} {name : Str} (hm : TidyTrace m)
    (h : (∃ r : Except Exc Unit, (⟨.rmTemp name, r⟩ : Event) ∈ m) ∨ ∃ l d e, m = l ++ [⟨.writeTemp name d, (.error e : Except Exc Unit)⟩]) :
    TidyTrace (m ++ [⟨.mkTemp, (.ok name : Except Exc Str)⟩]) := by
  intro l e n' he
  rcases List.append_eq_append_iff.mp he with ⟨x, hx, hb'⟩ | ⟨x, hx, hb'⟩
  · cases x with
    | nil =>
      simp only [List.nil_append, List.cons.injEq] at hb'
      obtain ⟨h1, -⟩ := hb'
      cases h1
      rw [List.append_nil] at hx
      rw [hx]
      exact h
    | cons y x => cases x <;> cases hb'
  · cases x with
    | nil =>
      simp only [List.nil_append, List.cons.injEq] at hb'
      obtain ⟨h1, -⟩ := hb'
      cases h1
      rw [List.append_nil] at hx
      rw [← hx]
      exact h
    | cons y x =>
      simp only [List.cons_append, List.cons.injEq] at hb'
      obtain ⟨rfl, -⟩ := hb'
      exact hm l x n' hx

/-- programs remove the temporary files they make -/
theorem Built.tidy {c : Bool} {p : Prog α} (hp : Built c p) (S : StoreImpl σ) (O : Oracle K) (w : World σ K) :
    ∃ new, (run S O p w).2.trace = new ++ w.trace ∧ TidyTrace new := by
  induction hp generalizing w with
  | pure b => exact ⟨[], rfl, .nil⟩
  | raise e => exact ⟨[], rfl, .nil⟩
  | op o k ho _ ih =>
    simp only [run]
    obtain ⟨n2, h2, t2⟩ := ih (step S O o w).1 (step S O o w).2
    have h1 : ∃ n1, (step S O o w).2.trace = n1 ++ w.trace ∧ TidyTrace n1 := by
      cases o with
      | ext o =>
        refine ⟨[⟨o, (O.step o w.env).1⟩], rfl, .single fun name he => ?_⟩
        have := congrArg Event.op he
        dsimp only at this
        subst this
        exact ho
      | _ => exact ⟨[], rfl, .nil⟩
    obtain ⟨n1, h1, t1⟩ := h1
    exact ⟨n2 ++ n1, by rw [h2, h1, List.append_assoc], t2.append t1⟩
  | bind _ _ ihp ihf =>
    rename_i p f _ _
    obtain ⟨n1, h1, t1⟩ := ihp w
    rw [run_bind]
    rcases hr : run S O p w with ⟨e | a, w1⟩
    · rw [hr] at h1; exact ⟨n1, h1, t1⟩
    · rw [hr] at h1
      obtain ⟨n2, h2, t2⟩ := ihf a w1
      exact ⟨n2 ++ n1, by dsimp only at h1 ⊢; rw [h2, h1, List.append_assoc], t2.append t1⟩
  | gpg env g args i s d =>
    obtain ⟨ret, w1, h1, htr, -⟩ := run_gpgOuterr S O env g args i s d w
    rw [h1]
    exact ⟨[_], htr, .single fun _ he => by cases he⟩
  | temp d b _ ih =>
    rcases run_withTempFile S O d b w with ⟨e, w1, h1, htr | ⟨name, htr⟩⟩ | ⟨name, w1, rr, w3, ht1, ht3, hr⟩
    · rw [h1]
      exact ⟨[_], htr, .single fun _ he => by cases he⟩
    · rw [h1]
      exact ⟨[_, _], htr, TidyTrace.made (m := [_]) (.single fun _ he => by cases he) (.inr ⟨[], d, e, rfl⟩)⟩
    · rw [hr]
      obtain ⟨n, hn, tn⟩ := ih name w1
      refine ⟨(⟨.rmTemp name, rr⟩ :: n ++ [⟨.writeTemp name d, (.ok () : Except Exc Unit)⟩]) ++ [⟨.mkTemp, (.ok name : Except Exc Str)⟩],
        by dsimp only; rw [ht3, hn, ht1]; simp, TidyTrace.made ?_ (.inl ⟨rr, by simp⟩)⟩
      exact (TidyTrace.append (a := [_]) (.single fun _ he => by cases he) tn).append (.single fun _ he => by cases he)
  | attempt _ _ ih => rw [run_attempt]; exact ih w

/-- C58: whenever an API call ends, normally or with an exception, each temporary file it made has been
removed, unless writing the file failed.
Missing: if the file was made but could not be written, it is left (`C58_refuted`). -/
theorem C58_removed_partial {S : StoreImpl σ} {O : Oracle K} (env : Env) (c : ApiCall) (w : World σ K) :
    ∃ new, (run S O (c.prog env) w).2.trace = new ++ w.trace ∧
      ∀ later earlier name, new = later ++ ⟨.mkTemp, (.ok name : Except Exc Str)⟩ :: earlier →
        (∃ r : Except Exc Unit, (⟨.rmTemp name, r⟩ : Event) ∈ later) ∨
        ∃ l d e, later = l ++ [⟨.writeTemp name d, (.error e : Except Exc Unit)⟩] := (built_call env c).tidy S O w

/-- C58 for signature verification, which no API call of an account uses.
Missing: as above -/
theorem C58_verify_partial {S : StoreImpl σ} {O : Oracle K} (env : Env) (g : BinGPG) (data sig : Bytes) (w : World σ K) :
    ∃ new, (run S O (BinGPG.verify env g data sig) w).2.trace = new ++ w.trace ∧
      ∀ later earlier name, new = later ++ ⟨.mkTemp, (.ok name : Except Exc Str)⟩ :: earlier →
        (∃ r : Except Exc Unit, (⟨.rmTemp name, r⟩ : Event) ∈ later) ∨
        ∃ l d e, later = l ++ [⟨.writeTemp name d, (.error e : Except Exc Unit)⟩] :=
  (BinGPG.built_verify (c := true) env g data sig).tidy S O w

/-- as `Concrete`, except that temporary files cannot be written, as on a full disk -/
def Concrete.diskFull : Oracle Unit where
  step o k := match o with
    | .writeTemp _ _ => (.error .osError, k)
    | o => Concrete.oracle.step o k

/-- C58 does not hold if writing the file fails: it was made before, and isn't removed -/
theorem C58_refuted : ¬ ∀ (O : Oracle Unit) (c : ApiCall) (name : Str),
    (⟨.mkTemp, (.ok name : Except Exc Str)⟩ : Event) ∈ (exec O (c.prog Concrete.env) Concrete.world0).2.trace →
    ∃ r : Except Exc Unit, (⟨.rmTemp name, r⟩ : Event) ∈ (exec O (c.prog Concrete.env) Concrete.world0).2.trace := by
  intro h
  have h1 : (exec Concrete.diskFull (Concrete.addA.prog Concrete.env) Concrete.world0).2.trace.any
      (fun e => match e with | ⟨.mkTemp, r⟩ => decide ((r : Except Exc Str).toOption = some (str!"/tmp/t")) | _ => false) = true := by decide +kernel
  have h2 : (exec Concrete.diskFull (Concrete.addA.prog Concrete.env) Concrete.world0).2.trace.any
      (fun e => match e.op with | .rmTemp _ => true | _ => false) = false := by decide +kernel
  obtain ⟨e, he, h1⟩ := List.any_eq_true.mp h1
  split at h1
  · rename_i r
    have hr : (r : Except Exc Str) = .ok (str!"/tmp/t") := Except.eq_ok_of_toOption (of_decide_eq_true h1)
    obtain ⟨r', hr'⟩ := h Concrete.diskFull Concrete.addA (str!"/tmp/t") (by rw [← hr]; exact he)
    have := List.any_eq_false.mp h2 _ hr'
    simp at this
  · cases h1

/-- gpg as in `Concrete`, except that key generation fails -/
def Concrete.noKeygen : Oracle Unit where
  step o k := match o with
    | .gpg a i => (.ok (if str!"--gen-key" ∈ a then ⟨2, [], []⟩ else Concrete.gpg a i), k)
    | o => Concrete.oracle.step o k

/-- a call which makes a temporary file and fails -/
example : (exec Concrete.noKeygen (Concrete.addA.prog Concrete.env) Concrete.world0).1 = .error .invocationFailure ∧
    ∃ e ∈ (exec Concrete.noKeygen (Concrete.addA.prog Concrete.env) Concrete.world0).2.trace, ∃ n d, e.op = .writeTemp n d :=
  ⟨Except.eq_error_of_exc? (by decide +kernel), by
    have h : (exec Concrete.noKeygen (Concrete.addA.prog Concrete.env) Concrete.world0).2.trace.any
      (fun e => match e.op with | .writeTemp _ _ => true | _ => false) = true := by decide +kernel
    obtain ⟨e, he, h⟩ := List.any_eq_true.mp h
    refine ⟨e, he, ?_⟩
    split at h
    · rename_i n d hd; exact ⟨n, d, hd⟩
    · cases h⟩

end Verif
