import Verif.Lemmas.SafeApi
import Verif.Lemmas.Provenance
import Verif.Lemmas.SafeCalls
import Verif.Spec.Concrete
/-!
# C120: remembering the gpg of an account and what `gpg --version` writes makes no difference

`Account.bingpg` and `BinGPG._version_info`, `gpg_version`, … are cached properties; the model computes them
anew for each access.
-/
namespace Verif
namespace Remembered

variable {K : Type}

/-- the operations which opening gpg consists of, if nothing is to be created -/
def opening : ExtOp → Bool
  | .findExecutable _ => true
  | .pathExists _ => true
  | .gpg argv none => argv.getLast? == some (str!"--version")
  | _ => false

/-- the second list is the first one without some of the opening events -/
inductive Omits : List Event → List Event → Prop
  | nil : Omits [] []
  | same (e) {l l'} : Omits l l' → Omits (e :: l) (e :: l')
  | skip (e) {l l'} : opening e.op = true → Omits l l' → Omits (e :: l) l'

/-- the second world is the first one, with fewer opening events in its trace -/
structure Fewer (w w' : World Store K) : Prop where
  store : w'.store = w.store
  clock : w'.clock = w.clock
  tick : w'.tick = w.tick
  env : w'.env = w.env
  trace : Omits w.trace w'.trace

/-- `shutil.rmtree` removes the keyrings of all accounts -/
def keepsFiles : ExtOp → Bool
  | .rmtree => false
  | _ => true

/-- what is forgotten: if an account is configured anew, its gpg; if accounts are removed, everything -/
def forget : Op → List (Str × BinGPG) → List (Str × BinGPG)
  | .append h (.cfg _), ms => ms.filter fun m => ownHead m.1 ≠ h
  | .removeIf _, _ => []
  | .wipe, _ => []
  | .ext .rmtree, _ => []
  | _, ms => ms

/-- how the machine behaves, as far as finding gpg is concerned -/
structure Settled (env : Env) (O : Oracle K) : Prop where
  /-- programs are found at the same place each time -/
  find : ∀ n s s', (O.step (.findExecutable n) s).1 = (O.step (.findExecutable n) s').1
  find_env : ∀ n s, (O.step (.findExecutable n) s).2 = s
  /-- gpg tells the same version each time -/
  version : ∀ argv s s', argv.getLast? = some (str!"--version") →
    (O.step (.gpg argv none) s).1 = (O.step (.gpg argv none) s').1
  version_env : ∀ argv s, argv.getLast? = some (str!"--version") → (O.step (.gpg argv none) s).2 = s
  exists_env : ∀ p s, (O.step (.pathExists p) s).2 = s
  /-- nobody else removes what is below the directory of the accounts -/
  stays : ∀ p o s, (env.dir ++ str!"/gpg/") <+: p → keepsFiles o = true →
    (O.step (.pathExists p) s).1 = true → (O.step (.pathExists p) (O.step o s).2).1 = true
  made : ∀ p s, (O.step (.makedirs p) s).1.toBool = true →
    (O.step (.pathExists p) (O.step (.makedirs p) s).2).1 = true
  written : ∀ p c s, (O.step (.writeFile p c) s).1.toBool = true →
    (O.step (.pathExists p) (O.step (.writeFile p c) s).2).1 = true

/-- the second program is the first one with some of its accesses to the gpg of an account, and to what gpg
tells about its version, answered from memory. `ms` is what is remembered. -/
inductive Remembers (env : Env) (V : BinGPG → Except Exc Str) :
    {α : Type} → List (Str × BinGPG) → Prog α → Prog α → Prop
  | pure {α ms} (a : α) : Remembers env V ms (.pure a) (.pure a)
  | raise {α ms} (e : Exc) : Remembers env V (α := α) ms (.raise e) (.raise e)
  /-- both do the same; what an operation may have changed is forgotten -/
  | op {α ms} (o : Op) (k k' : o.Ret → Prog α) :
      (∀ r, Remembers env V (forget o ms) (k r) (k' r)) →
      Remembers env V ms (.op o k) (.op o k')
  /-- `gpg --version` is not run -/
  | version {α ms} (g : BinGPG) (f : Except Exc Str → Prog α) (p' : Prog α) :
      Remembers env V ms (f (V g)) p' →
      Remembers env V ms ((BinGPG.versionInfo env g).attempt.bind f) p'
  /-- `gpg --version` is run and gives what it always gives -/
  | tells {α ms} (g : BinGPG) (f f' : Except Exc Str → Prog α) :
      Remembers env V ms (f (V g)) (f' (V g)) →
      Remembers env V ms ((BinGPG.versionInfo env g).attempt.bind f) ((BinGPG.versionInfo env g).attempt.bind f')
  /-- the gpg of the account was accessed before -/
  | opened {α ms} (n : Str) (g : BinGPG) (f : Except Exc BinGPG → Prog α) (p' : Prog α) :
      (n, g) ∈ ms → Remembers env V ms (f (.ok g)) p' →
      Remembers env V ms ((Account.bingpg env n).attempt.bind f) p'
  /-- the gpg of the account is accessed and remembered; a failure is not -/
  | opens {α ms} (n : Str) (q' : Prog BinGPG) (f f' : Except Exc BinGPG → Prog α) :
      Remembers env V ms (Account.bingpg env n) q' →
      (∀ g, Remembers env V ((n, g) :: ms) (f (.ok g)) (f' (.ok g))) →
      (∀ e, Remembers env V ms (f (.error e)) (f' (.error e))) →
      Remembers env V ms ((Account.bingpg env n).attempt.bind f) (q'.attempt.bind f')

/-! ## programs which give the same each time -/

/-- opening events are skipped -/
theorem Omits.skips {evs l l' : List Event} (h : ∀ e ∈ evs, opening e.op = true) (hl : Omits l l') :
    Omits (evs ++ l) l' := by
  induction evs with
  | nil => exact hl
  | cons e evs ih =>
    exact .skip e (h e (by simp)) (ih (fun e' he => h e' (by simp [he])))

/-- the program gives `x` in every world and leaves nothing but opening events in the trace -/
def Steady {α : Type} (O : Oracle K) (p : Prog α) (x : Except Exc α) : Prop :=
  ∀ w : World Store K, ∃ evs, exec O p w = (x, { w with trace := evs ++ w.trace }) ∧
    ∀ e ∈ evs, opening e.op = true

theorem Steady.pure {α : Type} (O : Oracle K) (a : α) : Steady O (.pure a) (.ok a) :=
  fun _ => ⟨[], rfl, by simp⟩
theorem Steady.raise {α : Type} (O : Oracle K) (e : Exc) : Steady O (.raise e : Prog α) (.error e) :=
  fun _ => ⟨[], rfl, by simp⟩
theorem Steady.ofExcept {α : Type} (O : Oracle K) (x : Except Exc α) : Steady O (Prog.ofExcept x) x := by
  cases x
  · exact .raise O _
  · exact .pure O _

theorem Steady.bind {α β : Type} {O : Oracle K} {p : Prog α} {f : α → Prog β} {x : Except Exc α}
    {y : α → Except Exc β} (hp : Steady O p x) (hf : ∀ a, Steady O (f a) (y a)) :
    Steady O (p.bind f) (x.bind y) := by
  intro w
  obtain ⟨evs, h, hev⟩ := hp w
  cases x with
  | error e => exact ⟨evs, by simp only [exec] at h ⊢; rw [run_bind, h]; rfl, hev⟩
  | ok a =>
    obtain ⟨evs', h', hev'⟩ := hf a { w with trace := evs ++ w.trace }
    refine ⟨evs' ++ evs, ?_, ?_⟩
    · simp only [exec] at h h' ⊢
      rw [run_bind, h]
      simp only [h', List.append_assoc]; rfl
    · intro e he
      rcases List.mem_append.mp he with he | he
      · exact hev' e he
      · exact hev e he

theorem argv_last (g : BinGPG) : (g.argv [str!"--version"]).getLast? = some (str!"--version") := by
  unfold BinGPG.argv; rw [List.getLast?_append]; rfl

/-- one opening operation -/
theorem Steady.ext {α : Type} {O : Oracle K} (o : ExtOp) (ho : opening o = true)
    (h1 : ∀ s s', (O.step o s).1 = (O.step o s').1) (h2 : ∀ s, (O.step o s).2 = s)
    (k : o.Ret → Prog α) (s₀ : K) {x : Except Exc α} (hk : Steady O (k (O.step o s₀).1) x) :
    Steady O (.op (.ext o) k) x := by
  intro w
  obtain ⟨evs, h, hev⟩ := hk { w with trace := ⟨o, (O.step o s₀).1⟩ :: w.trace }
  refine ⟨evs ++ [⟨o, (O.step o s₀).1⟩], ?_, ?_⟩
  · simp only [exec, run, step] at h ⊢
    rw [h2, h1 w.env s₀, h]
    simp
  · intro e he
    rcases List.mem_append.mp he with he | he
    · exact hev e he
    · rw [List.mem_singleton.mp he]; exact ho

theorem exec_ext {α : Type} {O : Oracle K} (o : ExtOp) (k : o.Ret → Prog α) (w : World Store K) (r : o.Ret) (s : K)
    (h1 : (O.step o w.env).1 = r) (h2 : (O.step o w.env).2 = s) :
    exec O (.op (.ext o) k) w = exec O (k r) { w with env := s, trace := ⟨o, r⟩ :: w.trace } := by
  subst h1; subst h2; rfl

theorem exec_bind_ok {α β : Type} {O : Oracle K} {p : Prog α} {f : α → Prog β} {w w' : World Store K} {a : α}
    (h : exec O p w = (.ok a, w')) : exec O (p.bind f) w = exec O (f a) w' := by
  simp only [exec] at h ⊢; rw [run_bind, h]

variable {env : Env} {O : Oracle K} (hO : Settled env O)
include hO

theorem versionInfo_steady (g : BinGPG) (w₀ : World Store K) :
    Steady O (BinGPG.versionInfo env g) (exec O (BinGPG.versionInfo env g) w₀).1 := by
  have h : ∃ x, Steady O (BinGPG.versionInfo env g) x := by
    refine ⟨(((O.step (.gpg (g.argv [str!"--version"]) none) w₀.env).1.bind
      (fun r => BinGPG.checkResult env false true r)).bind (fun r => env.utf8Decode r.1)),
      .ext (.gpg (g.argv [str!"--version"]) none) (by simp [opening, argv_last])
      (fun s s' => hO.version _ s s' (argv_last g)) (fun s => hO.version_env _ s (argv_last g)) _ w₀.env
      ?_⟩
    exact .bind (.bind (.ofExcept O _) fun _ => .ofExcept O _) fun _ => .ofExcept O _
  obtain ⟨x, hx⟩ := h
  obtain ⟨evs, h, -⟩ := hx w₀
  rw [h]; exact hx

theorem badDefaults_steady (g : BinGPG) (s : K) :
    ∃ x, Steady O (BinGPG.badDefaults env g) x := by
  have hv := versionInfo_steady hO g ⟨[], fun _ => 0, 0, s, []⟩
  have h1 : ∀ v, ∃ x, Steady O (BinGPG.versionAtLeast env g v) x := fun v =>
    ⟨_, .bind hv fun _ => .ofExcept O _⟩
  obtain ⟨x, hx⟩ := h1 (str!"2.0")
  obtain ⟨y, hy⟩ := h1 (str!"2.1.12")
  have hf : ∀ b : Bool, ∃ z, Steady O (if b = true then (BinGPG.versionAtLeast env g (str!"2.1.12")).bind
      (fun v => Prog.pure !v) else Prog.pure false) z := by
    intro b
    cases b
    · exact ⟨_, .pure O _⟩
    · exact ⟨_, .bind hy fun _ => .pure O _⟩
  exact ⟨_, .bind hx fun b => (hf b).choose_spec⟩

omit hO in
/-- where the keyring of an account is, account.py:273-276 -/
def homeOf (env : Env) (n : Str) (c : OwnConfig) : Option Str :=
  match c.gpgmode with
  | .own => some (env.dir ++ str!"/gpg/" ++ n)
  | .system => none

omit hO in
/-- the gpg of the account in this world is `g`, and nothing has to be created -/
structure Valid (env : Env) (O : Oracle K) (n : Str) (g : BinGPG) (w : World Store K) : Prop where
  intro ::
  conf : ∃ c, Own.latestConfig (w.store.get (ownHead n)) = some c ∧ c.gpgbin.isEmpty = false ∧
    g.home = homeOf env n c ∧
    (O.step (.findExecutable c.gpgbin) w.env).1 = some g.path
  home : ∀ h, g.home = some h → (O.step (.pathExists h) w.env).1 = true ∧
    ∃ b, Steady O (BinGPG.badDefaults env g) (.ok b) ∧
      (b = true → (O.step (.pathExists (h ++ str!"/gpg-agent.conf")) w.env).1 = true)

omit hO in
theorem Valid.below {n g} {w : World Store K} (h : Valid env O n g w) {d : Str} (hd : g.home = some d) :
    (env.dir ++ str!"/gpg/") <+: d := by
  obtain ⟨c, -, -, hc, -⟩ := h.conf
  rw [hd] at hc
  cases hm : c.gpgmode <;> simp only [homeOf, hm] at hc
  all_goals first | (cases hc; done) | (rw [Option.some.inj hc]; exact ⟨n, rfl⟩)

/-- what is known stays known unless it is forgotten -/
theorem Valid.step {n g} {w : World Store K} (o : Op) (ms : List (Str × BinGPG))
    (hm : (n, g) ∈ forget o ms) (h : (n, g) ∈ ms → Valid env O n g w) :
    Valid env O n g (step Store.impl O o w).2 := by
  cases o with
  | now => exact ⟨(h hm).1, (h hm).2⟩
  | chain _ => exact h hm
  | heads => exact h hm
  | removeIf p => simp [forget] at hm
  | wipe => simp [forget] at hm
  | append hd e =>
    have key : (∃ c, e = .cfg c) ∧ (n, g) ∈ ms ∧ ownHead n ≠ hd ∨ (∀ c, e ≠ .cfg c) ∧ (n, g) ∈ ms := by
      cases e <;> simp_all [forget]
    have hv : Valid env O n g w := h (by rcases key with h | h <;> simp [h])
    refine ⟨?_, hv.2⟩
    obtain ⟨c, h1, h2⟩ := hv.conf
    refine ⟨c, ?_, h2⟩
    show Own.latestConfig (Store.get (w.store.push hd e) (ownHead n)) = some c
    rw [Store.get_push]
    split
    · next hh =>
      rcases key with ⟨-, -, h⟩ | ⟨h, -⟩
      · exact absurd hh (h)
      · rw [← h1]
        cases e <;> first | (exact absurd rfl (h _)) | (subst hh; rfl)
    · exact h1
  | ext o =>
    have ho : keepsFiles o = true := by cases o <;> first | rfl | simp [forget] at hm
    have hv : Valid env O n g w := h (by cases o <;> first | exact hm | simp [forget] at hm)
    obtain ⟨c, h1, h2, h3, h4⟩ := hv.conf
    refine ⟨⟨c, h1, h2, h3, ?_⟩, ?_⟩
    · rw [← h4]; exact hO.find _ _ _
    · intro d hd
      obtain ⟨h5, b, h6, h7⟩ := hv.home d hd
      have hb := hv.below hd
      exact ⟨hO.stays _ _ _ hb ho h5, b, h6, fun hb' =>
        hO.stays _ _ _ (hb.trans ⟨_, rfl⟩) ho (h7 hb')⟩

/-- opening gpg again gives the same -/
theorem Valid.again {n g} {w : World Store K} (h : Valid env O n g w) :
    ∃ evs, exec O (Account.bingpg env n) w = (.ok g, { w with trace := evs ++ w.trace }) ∧
      ∀ e ∈ evs, opening e.op = true := by
  obtain ⟨c, h1, h2, h3, h4⟩ := h.conf
  have hinit : ∃ evs, exec O (BinGPG.ensureInit env g)
      { w with trace := ⟨.findExecutable c.gpgbin, some g.path⟩ :: w.trace } =
      (.ok (), { w with trace := evs ++ ⟨.findExecutable c.gpgbin, some g.path⟩ :: w.trace }) ∧
        ∀ e ∈ evs, opening e.op = true := by
    generalize (⟨.findExecutable c.gpgbin, some g.path⟩ :: w.trace : List Event) = tr
    unfold BinGPG.ensureInit
    cases hh : g.home with
    | none => exact ⟨[], rfl, by simp⟩
    | some d =>
      obtain ⟨h5, b, h6, h7⟩ := h.home d hh
      obtain ⟨evs, h8, h9⟩ := h6 { w with trace := ⟨.pathExists d, true⟩ :: tr }
      simp only [Prog.pathExists, bind_eq, Prog.bind, pure_eq]
      cases b with
      | false =>
        refine ⟨evs ++ [⟨.pathExists d, true⟩], ?_, ?_⟩
        · refine (exec_ext (.pathExists d) _ { w with trace := tr } true w.env h5 (hO.exists_env _ _)).trans ?_
          simp only [Bool.not_true, Bool.false_eq_true, if_false, Prog.bind]
          rw [exec_bind_ok h8]
          simp [exec, run]
        · intro e he
          rcases List.mem_append.mp he with he | he
          · exact h9 e he
          · rw [List.mem_singleton.mp he]; rfl
      | true =>
        refine ⟨⟨.pathExists (d ++ str!"/gpg-agent.conf"), true⟩ :: (evs ++ [⟨.pathExists d, true⟩]), ?_, ?_⟩
        · refine (exec_ext (.pathExists d) _ { w with trace := tr } true w.env h5 (hO.exists_env _ _)).trans ?_
          simp only [Bool.not_true, Bool.false_eq_true, if_false, Prog.bind]
          rw [exec_bind_ok h8]
          simp only [if_true]
          refine (exec_ext (.pathExists (d ++ str!"/gpg-agent.conf")) _
            { w with trace := evs ++ ⟨.pathExists d, true⟩ :: tr } true w.env (h7 rfl) (hO.exists_env _ _)).trans ?_
          simp [exec, run]
        · intro e he
          rcases List.mem_cons.mp he with he | he
          · rw [he]; rfl
          · rcases List.mem_append.mp he with he | he
            · exact h9 e he
            · rw [List.mem_singleton.mp he]; rfl
  obtain ⟨evs, h5, h6⟩ := hinit
  refine ⟨evs ++ [⟨.findExecutable c.gpgbin, some g.path⟩], ?_, ?_⟩
  · have hc : exec O (Own.config n) w = (.ok c, w) := by
      simp only [exec, Own.config, bind_eq, run_bind]
      rw [show run Store.impl O (Prog.chain (ownHead n)) w = _ from exec_chain O _ w]
      simp only [h1]; rfl
    unfold Account.bingpg
    simp only [bind_eq]
    rw [exec_bind_ok hc]
    simp only [h2, Bool.false_eq_true, if_false]
    show exec O (BinGPG.create env (homeOf env n c) c.gpgbin) w = _
    rw [← h3]
    unfold BinGPG.create
    simp only [Prog.findExecutable, bind_eq, Prog.bind, pure_eq]
    refine (exec_ext (.findExecutable c.gpgbin) _ _ (some g.path) w.env h4 (hO.find_env _ _)).trans ?_
    simp only []
    rw [exec_bind_ok h5]
    simp [exec, run]
  · intro e he
    rcases List.mem_append.mp he with he | he
    · exact h6 e he
    · rw [List.mem_singleton.mp he]; rfl

omit hO in
theorem exec_bind_inv {α β : Type} {p : Prog α} {f : α → Prog β} {w w' : World Store K} {b : β}
    (h : exec O (p.bind f) w = (.ok b, w')) :
    ∃ a w₁, exec O p w = (.ok a, w₁) ∧ exec O (f a) w₁ = (.ok b, w') := by
  simp only [exec] at h ⊢
  rw [run_bind] at h
  rcases hp : run Store.impl O p w with ⟨_ | a, w₁⟩
  · rw [hp] at h; simp at h
  · rw [hp] at h; exact ⟨a, w₁, rfl, h⟩

omit hO in
theorem exec_ext_inv {α : Type} {o : ExtOp} {k : o.Ret → Prog α} {w w' : World Store K} {x : Except Exc α}
    (h : exec O (.op (.ext o) k) w = (x, w')) :
    exec O (k (O.step o w.env).1)
      { w with env := (O.step o w.env).2, trace := ⟨o, (O.step o w.env).1⟩ :: w.trace } = (x, w') := h

/-- after the keyring is set up, nothing has to be created -/
theorem ensureInit_done {g : BinGPG} {d : Str} (hd : g.home = some d) (hb : (env.dir ++ str!"/gpg/") <+: d)
    {w w' : World Store K} (h : exec O (BinGPG.ensureInit env g) w = (.ok (), w')) :
    (O.step (.pathExists d) w'.env).1 = true ∧
      ∃ b, Steady O (BinGPG.badDefaults env g) (.ok b) ∧
        (b = true → (O.step (.pathExists (d ++ str!"/gpg-agent.conf")) w'.env).1 = true) := by
  obtain ⟨x, hx⟩ := badDefaults_steady hO g w.env
  unfold BinGPG.ensureInit at h
  rw [hd] at h
  simp only [Prog.pathExists, bind_eq, Prog.bind, pure_eq] at h
  have h1 := exec_ext_inv h
  -- the rest, from a world in which the directory exists
  have rest : ∀ w₁ : World Store K, (O.step (.pathExists d) w₁.env).1 = true →
      exec O ((BinGPG.badDefaults env g).bind fun b => if b = true then
        Prog.op (.ext (.pathExists (d ++ str!"/gpg-agent.conf"))) (fun r : Bool => if (!r) = true then
          Prog.writeFile (d ++ str!"/gpg-agent.conf") (str!"allow-loopback-pinentry\n") else .pure ())
        else .pure ()) w₁ = (.ok (), w') →
      (O.step (.pathExists d) w'.env).1 = true ∧
      ∃ b, Steady O (BinGPG.badDefaults env g) (.ok b) ∧
        (b = true → (O.step (.pathExists (d ++ str!"/gpg-agent.conf")) w'.env).1 = true) := by
    intro w₁ hw h
    obtain ⟨b, w₂, h2, h3⟩ := exec_bind_inv h
    obtain ⟨evs, h4, -⟩ := hx w₁
    rw [h2] at h4
    have hxb : x = .ok b := (congrArg Prod.fst h4).symm
    have hw2 : w₂.env = w₁.env := congrArg (fun y => y.2.env) h4
    subst hxb
    cases b with
    | false =>
      simp only [Bool.false_eq_true, if_false] at h3
      have : w₂ = w' := congrArg Prod.snd h3
      subst this
      exact ⟨by rw [hw2]; exact hw, false, hx, by simp⟩
    | true =>
      simp only [if_true] at h3
      have h5 := exec_ext_inv h3
      have he : (O.step (.pathExists (d ++ str!"/gpg-agent.conf")) w₂.env).2 = w₂.env := hO.exists_env _ _
      generalize hr : (O.step (.pathExists (d ++ str!"/gpg-agent.conf")) w₂.env).1 = r at h5
      cases r with
      | true =>
        simp only [Bool.not_true, Bool.false_eq_true, if_false] at h5
        have hw' : w'.env = w₂.env := by
          rw [← congrArg (fun y => y.2.env) h5]; exact he
        exact ⟨by rw [hw', hw2]; exact hw, true, hx, fun _ => by rw [hw']; exact hr⟩
      | false =>
        simp only [Bool.not_false, if_true, Prog.writeFile] at h5
        rw [he] at h5
        have h6 := exec_ext_inv h5
        have hok : (O.step (.writeFile (d ++ str!"/gpg-agent.conf") (str!"allow-loopback-pinentry\n"))
            w₂.env).1.toBool = true := by
          generalize (O.step (.writeFile (d ++ str!"/gpg-agent.conf") (str!"allow-loopback-pinentry\n"))
            w₂.env).1 = y at h6
          cases y with
          | error e => exact absurd (congrArg Prod.fst h6) (by simp [Prog.ofExcept, exec, run])
          | ok _ => rfl
        have hw' : w'.env = (O.step (.writeFile (d ++ str!"/gpg-agent.conf")
            (str!"allow-loopback-pinentry\n")) w₂.env).2 := by
          rw [← congrArg (fun y => y.2.env) h6]
          exact congrArg (fun y => y.2.env) (run_ofExcept Store.impl O (α := Unit) _ _)
        refine ⟨?_, true, hx, fun _ => ?_⟩
        · rw [hw']; exact hO.stays _ _ _ hb rfl (by rw [hw2]; exact hw)
        · rw [hw']; exact hO.written _ _ _ hok
  have he : (O.step (.pathExists d) w.env).2 = w.env := hO.exists_env _ _
  rw [he] at h1
  generalize hr : (O.step (.pathExists d) w.env).1 = r at h1
  cases r with
  | true =>
    simp only [Bool.not_true, Bool.false_eq_true, if_false] at h1
    exact rest { w with trace := ⟨.pathExists d, true⟩ :: w.trace } hr h1
  | false =>
    simp only [Bool.not_false, if_true] at h1
    obtain ⟨u, w₁, h2, h3⟩ := exec_bind_inv h1
    have h4 := exec_ext_inv h2
    have hok : (O.step (.makedirs d) w.env).1.toBool = true := by
      generalize (O.step (.makedirs d) w.env).1 = y at h4
      cases y with
      | error e => exact absurd (congrArg Prod.fst h4) (by simp [Prog.ofExcept, exec, run])
      | ok _ => rfl
    have hw1 : w₁.env = (O.step (.makedirs d) w.env).2 := by
      rw [← congrArg (fun y => y.2.env) h4]
      exact congrArg (fun y => y.2.env) (run_ofExcept Store.impl O (α := Unit) _ _)
    exact rest w₁ (by rw [hw1]; exact hO.made _ _ hok) h3

/-- what opening gpg gives may be remembered -/
theorem valid_of_opened {n g} {w w' : World Store K} (h : exec O (Account.bingpg env n) w = (.ok g, w')) :
    Valid env O n g w' := by
  have hstore : w'.store = w.store := by
    have := (run_ro (O := O) (Account.bingpg_ops permissive_readOnly env n) w).1
    rw [h] at this; exact this
  unfold Account.bingpg at h
  simp only [bind_eq] at h
  obtain ⟨c, w₁, hc, h1⟩ := exec_bind_inv h
  have hcw : w₁ = w ∧ Own.latestConfig (w.store.get (ownHead n)) = some c := by
    simp only [exec, Own.config, bind_eq, run_bind] at hc
    rw [show run Store.impl O (Prog.chain (ownHead n)) w = _ from exec_chain O _ w] at hc
    simp only [] at hc
    cases hl : Own.latestConfig (w.store.get (ownHead n)) with
    | none => rw [hl] at hc; simp [run] at hc
    | some c' =>
      rw [hl] at hc
      simp only [pure_eq, run_pure, Prod.mk.injEq, Except.ok.injEq] at hc
      exact ⟨hc.2.symm, by rw [hc.1]⟩
  obtain ⟨rfl, hl⟩ := hcw
  cases hg : c.gpgbin.isEmpty with
  | true => rw [hg] at h1; simp [exec] at h1
  | false =>
    simp only [hg, Bool.false_eq_true, if_false] at h1
    replace h1 : exec O (BinGPG.create env (homeOf env n c) c.gpgbin) w₁ = (.ok g, w') := h1
    unfold BinGPG.create at h1
    simp only [Prog.findExecutable, bind_eq, Prog.bind, pure_eq] at h1
    have h2 := exec_ext_inv h1
    have he : (O.step (.findExecutable c.gpgbin) w₁.env).2 = w₁.env := hO.find_env _ _
    rw [he] at h2
    generalize hr : (O.step (.findExecutable c.gpgbin) w₁.env).1 = r at h2
    cases r with
    | none => simp [exec, run] at h2
    | some p =>
      simp only [] at h2
      obtain ⟨u, w₂, h3, h4⟩ := exec_bind_inv h2
      have h5 : g = { home := homeOf env n c, path := p } ∧ w' = w₂ := by
        simp only [exec, run_pure, Prod.mk.injEq, Except.ok.injEq] at h4
        exact ⟨h4.1.symm, h4.2.symm⟩
      obtain ⟨rfl, rfl⟩ := h5
      refine ⟨⟨c, by rw [hstore]; exact hl, hg, rfl, ?_⟩, ?_⟩
      · rw [← hr]; exact hO.find _ _ _
      · intro d hd
        refine ensureInit_done hO hd ?_ h3
        simp only [homeOf] at hd
        cases hm : c.gpgmode <;> rw [hm] at hd <;>
          first | (cases hd; done) | (rw [← Option.some.inj hd]; exact ⟨n, rfl⟩)

omit hO in
/-- a step from worlds which differ only in opening events of the past -/
theorem Fewer.step {w w' : World Store K} (h : Fewer w w') (o : Op) :
    (Verif.step Store.impl O o w').1 = (Verif.step Store.impl O o w).1 ∧
      Fewer (Verif.step Store.impl O o w).2 (Verif.step Store.impl O o w').2 := by
  obtain ⟨st, cl, tk, en, tr⟩ := w
  obtain ⟨st', cl', tk', en', tr'⟩ := w'
  obtain ⟨h1, h2, h3, h4, h5⟩ := h
  simp only at h1 h2 h3 h4 h5
  subst h1; subst h2; subst h3; subst h4
  cases o with
  | ext o => exact ⟨rfl, rfl, rfl, rfl, rfl, .same _ h5⟩
  | _ => exact ⟨rfl, rfl, rfl, rfl, rfl, h5⟩

omit hO in
theorem Fewer.exec {α : Type} {w w' : World Store K} (h : Fewer w w') (p : Prog α) :
    Fewer (exec O p w).2 (Verif.exec O p w').2 := by
  induction p generalizing w w' with
  | pure a => exact h
  | raise e => exact h
  | op o k ih =>
    obtain ⟨h1, h2⟩ := h.step (O := O) o
    simp only [Verif.exec, run] at ih ⊢
    rw [h1]; exact ih _ h2

/-- opening gpg makes nothing forgotten -/
theorem valid_after_opening {n n' g} {w : World Store K} (h : Valid env O n g w) :
    Valid env O n g (exec O (Account.bingpg env n') w).2 := by
  have hops : (Account.bingpg env n').AllOps (fun o => ∀ ms, forget o ms = ms) :=
    Account.bingpg_ops ⟨fun _ => rfl, fun _ _ => rfl, fun _ => rfl, fun o ho => by
      cases o <;> first | (intro _; rfl) | simp [ExtOp.internal] at ho⟩ env n'
  refine run_invariant (S := Store.impl) (O := O) (I := Valid env O n g) ?_ hops h
  intro o w ho hw
  exact Valid.step hO o [(n, g)] (by rw [ho]; simp) (fun _ => hw)

theorem remembers_run {V : BinGPG → Except Exc Str}
    (hV : ∀ g (w : World Store K), (exec O (BinGPG.versionInfo env g) w).1 = V g)
    {α : Type} {ms : List (Str × BinGPG)} {p p' : Prog α} (h : Remembers env V ms p p')
    {w w' : World Store K} (hms : ∀ m ∈ ms, Valid env O m.1 m.2 w) (hw : Fewer w w') :
    (exec O p' w').1 = (exec O p w).1 ∧ Fewer (exec O p w).2 (exec O p' w').2 := by
  induction h generalizing w w' with
  | pure a => exact ⟨rfl, hw⟩
  | raise e => exact ⟨rfl, hw⟩
  | op o k k' _ ih =>
    obtain ⟨h1, h2⟩ := hw.step (O := O) o
    have := ih (Verif.step Store.impl O o w).1 (w := (Verif.step Store.impl O o w).2)
      (w' := (Verif.step Store.impl O o w').2) (fun m hm => Valid.step hO o _ hm (fun h => hms m h)) h2
    simp only [exec, run]
    rw [h1]; exact this
  | version g f p' _ ih =>
    obtain ⟨evs, h1, h2⟩ := versionInfo_steady hO g w w
    rw [hV] at h1
    have h3 : exec O ((BinGPG.versionInfo env g).attempt.bind f) w =
        exec O (f (V g)) { w with trace := evs ++ w.trace } := by
      refine exec_bind_ok ?_
      simp only [exec] at h1 ⊢
      rw [run_attempt, h1]
    rw [h3]
    exact ih (fun m hm => ⟨(hms m hm).1, (hms m hm).2⟩) ⟨hw.1, hw.2, hw.3, hw.4, .skips h2 hw.5⟩
  | tells g f f' _ ih =>
    obtain ⟨evs, h1, -⟩ := versionInfo_steady hO g w w
    obtain ⟨evs', h1', -⟩ := versionInfo_steady hO g w w'
    have h2 := hw.exec (O := O) (BinGPG.versionInfo env g)
    rw [hV] at h1 h1'
    rw [h1, h1'] at h2
    have h3 : exec O ((BinGPG.versionInfo env g).attempt.bind f) w =
        exec O (f (V g)) { w with trace := evs ++ w.trace } := by
      refine exec_bind_ok ?_
      simp only [exec] at h1 ⊢
      rw [run_attempt, h1]
    have h3' : exec O ((BinGPG.versionInfo env g).attempt.bind f') w' =
        exec O (f' (V g)) { w' with trace := evs' ++ w'.trace } := by
      refine exec_bind_ok ?_
      simp only [exec] at h1' ⊢
      rw [run_attempt, h1']
    rw [h3, h3']
    exact ih (fun m hm => ⟨(hms m hm).1, (hms m hm).2⟩) h2
  | opened n g f p' hm _ ih =>
    obtain ⟨evs, h1, h2⟩ := (hms _ hm).again hO
    have h3 : exec O ((Account.bingpg env n).attempt.bind f) w =
        exec O (f (.ok g)) { w with trace := evs ++ w.trace } := by
      refine exec_bind_ok ?_
      simp only [exec] at h1 ⊢
      rw [run_attempt, h1]
    rw [h3]
    exact ih (fun m hm => ⟨(hms m hm).1, (hms m hm).2⟩) ⟨hw.1, hw.2, hw.3, hw.4, .skips h2 hw.5⟩
  | @opens _ ms n q' f f' _ _ _ ih1 ih2 ih3 =>
    obtain ⟨h1, h2⟩ := ih1 hms hw
    have e1 : exec O ((Account.bingpg env n).attempt.bind f) w =
        exec O (f (exec O (Account.bingpg env n) w).1) (exec O (Account.bingpg env n) w).2 :=
      exec_bind_ok (run_attempt ..)
    have e2 : exec O (q'.attempt.bind f') w' = exec O (f' (exec O q' w').1) (exec O q' w').2 :=
      exec_bind_ok (run_attempt ..)
    rw [e1, e2, h1]
    have hms' : ∀ m ∈ ms, Valid env O m.1 m.2 (exec O (Account.bingpg env n) w).2 :=
      fun m hm => valid_after_opening hO (hms m hm)
    rcases hr : exec O (Account.bingpg env n) w with ⟨e | g, w₁⟩
    · rw [hr] at h2 hms'
      exact ih3 e hms' h2
    · rw [hr] at h2 hms'
      refine ih2 g ?_ h2
      intro m hm
      rcases List.mem_cons.mp hm with rfl | hm
      · exact valid_of_opened hO hr
      · exact hms' m hm

/-! ## how programs come to remember -/

section
omit hO
variable {V : BinGPG → Except Exc Str}

theorem bind_attempt {α β : Type} (p : Prog α) (f : α → Prog β) :
    p.bind f = p.attempt.bind fun r => match r with | .ok a => f a | .error e => .raise e := by
  induction p with
  | pure a => rfl
  | raise e => rfl
  | op o k ih =>
    show Prog.op o _ = Prog.op o _
    congr 1; funext r; exact ih r

theorem Remembers.refl {α : Type} (ms) (p : Prog α) : Remembers env V ms p p := by
  induction p generalizing ms with
  | pure a => exact .pure a
  | raise e => exact .raise e
  | op o k ih => exact .op o k k (fun r => ih r _)

/-- what both do and which changes nothing about gpg -/
theorem Remembers.common {α β : Type} {ms} {p : Prog α} (hp : p.AllOps fun o => ∀ ms, forget o ms = ms)
    {f f' : α → Prog β} (h : ∀ a, Remembers env V ms (f a) (f' a)) :
    Remembers env V ms (p.bind f) (p.bind f') := by
  induction p with
  | pure a => exact h a
  | raise e => exact .raise e
  | op o k ih => exact .op o _ _ (fun r => by rw [hp.1]; exact ih r (hp.2 r))

theorem Remembers.anything {α β : Type} {ms} (p : Prog α)
    {f f' : α → Prog β} (h : ∀ ms a, Remembers env V ms (f a) (f' a)) :
    Remembers env V ms (p.bind f) (p.bind f') := by
  induction p generalizing ms with
  | pure a => exact h _ a
  | raise e => exact .raise e
  | op o k ih => exact .op o _ _ (fun r => ih r)

theorem Remembers.first {β : Type} {ms} (n : Str) {f f' : BinGPG → Prog β}
    (h : ∀ g, Remembers env V ((n, g) :: ms) (f g) (f' g)) :
    Remembers env V ms ((Account.bingpg env n).bind f) ((Account.bingpg env n).bind f') := by
  rw [bind_attempt _ f, bind_attempt _ f']
  exact .opens n _ _ _ (.refl _ _) h (fun e => .raise e)

theorem Remembers.next {β : Type} {ms} {n : Str} {g : BinGPG} (hm : (n, g) ∈ ms) {f : BinGPG → Prog β}
    {p' : Prog β} (h : Remembers env V ms (f g) p') :
    Remembers env V ms ((Account.bingpg env n).bind f) p' := by
  rw [bind_attempt _ f]
  exact .opened n g _ _ hm h

theorem Remembers.told {β : Type} {ms} (g : BinGPG) (f f' : Str → Prog β)
    (h : ∀ info, V g = .ok info → Remembers env V ms (f info) (f' info)) :
    Remembers env V ms ((BinGPG.versionInfo env g).bind f) ((BinGPG.versionInfo env g).bind f') := by
  rw [bind_attempt _ f, bind_attempt _ f']
  refine .tells g _ _ ?_
  cases hv : V g with
  | error e => exact .raise e
  | ok info => exact h info hv

theorem permissive_forget : Permissive fun o => ∀ ms, forget o ms = ms :=
  ⟨fun _ => rfl, fun _ _ => rfl, fun _ => rfl, fun o ho => by
    cases o <;> first | (intro _; rfl) | simp [ExtOp.internal] at ho⟩

end

end Remembered

open Remembered

/-- C120: a program which remembers the gpg of an account once it was accessed, and what gpg told about its
version, does what the program does which finds them out each time: the results, what is stored, the state of
the machine and the other operations are the same, only looking for gpg, for its directory and running
`gpg --version` occur less often. -/
theorem C120_remembered {K : Type} {env : Env} {O : Oracle K} (hO : Settled env O) (w : World Store K)
    {V : BinGPG → Except Exc Str} (hV : ∀ g, V g = (exec O (BinGPG.versionInfo env g) w).1)
    {α : Type} {p p' : Prog α} (h : Remembers env V [] p p') :
    (exec O p' w).1 = (exec O p w).1 ∧ Fewer (exec O p w).2 (exec O p' w).2 := by
  refine remembers_run hO ?_ h (by simp) ⟨rfl, rfl, rfl, rfl, ?_⟩
  · intro g w₁
    obtain ⟨_, h1, -⟩ := versionInfo_steady hO g w w₁
    rw [h1, hV]
  · induction w.trace with
    | nil => exact .nil
    | cons e l ih => exact .same e ih

/-! ## programs of the code which access gpg several times -/

namespace Remembered

/-- `Account.create` with one access to gpg, account.py:223-256 -/
def createOnce (env : Env) (name emailRegex : Str) (kh : Option Str) (gpgbin : Str) (gpgmode : Str) : Prog Unit := do
  let mode ← (if gpgmode = str!"own" then pure GpgMode.own
              else if gpgmode = str!"system" then pure GpgMode.system
              else .raise .assertionError : Prog GpgMode)
  Own.newConfig name { pe := .nopreference, name, emailRegex, gpgmode := mode, gpgbin }
  match kh with
  | none => do
    let id ← Prog.uuid
    let g ← Account.bingpg env name
    let k ← BinGPG.genSecretKey env g (id ++ str!"@random.muacrypt.org")
    let keydata ← BinGPG.getSecretKeydata env g k
    Own.appendKeygen name (some keydata) (some k)
  | some k => do
    let g ← Account.bingpg env name
    match ← BinGPG.getSecretKeyhandle env g k with
    | some k => do
      let keydata ← BinGPG.getSecretKeydata env g k
      Own.appendKeygen name (some keydata) (some k)
    | none => .raise .valueError

/-- the loop of `import_keydata_as_autocrypt`, with the gpg which was found before, account.py:397-403 -/
def importLoopOnce (env : Env) (name : Str) (g : BinGPG) (pe : Str) (kh : Str) : List Str → Prog Unit
  | [] => return ()
  | a :: as => do
    let t ← Prog.now
    let kd ← BinGPG.getPublicKeydata env g kh
    Peer.updateFromMsg (Account.peerHeadOf env name a)
      { msgId := [], date := t, pe := some pe, keydata := some kd, keyhandle := some kh }
    importLoopOnce env name g pe kh as

/-- `import_keydata_as_autocrypt` with one access to gpg, account.py:373-408 -/
def importOnce (env : Env) (name : Str) (addr : Option Str) (keydata : Bytes) (pe : Str) :
    Prog Account.ImportResult := do
  let g ← Account.bingpg env name
  let kh ← BinGPG.importKeydata env g keydata
  let addrs ← (match addr with
    | some a => pure [Mime.parseEmailAddr env (some a)]
    | none => do
      let infos ← BinGPG.listPublicKeyinfos env g (some kh)
      return Account.uidAddrs env kh infos : Prog (List Str))
  let kh ← BinGPG.importKeydata env g keydata true
  importLoopOnce env name g pe kh addrs
  let kd ← BinGPG.getPublicKeydata env g kh
  return { addrs, pe, keyhandle := kh, keydata := kd }

/-- whether the agent needs an option, with one run of `gpg --version`, bingpg.py:90-105 and 117 -/
def badDefaultsOnce (env : Env) (g : BinGPG) : Prog Bool := do
  let info ← BinGPG.versionInfo env g
  if ← Prog.ofExcept (BinGPG.versionGe env info (str!"2.0")) then
    let v ← Prog.ofExcept (BinGPG.versionGe env info (str!"2.1.12"))
    return !v
  else return false

variable (env : Env) (V : BinGPG → Except Exc Str)

theorem remembers_create (name emailRegex : Str) (kh : Option Str) (gpgbin gpgmode : Str) :
    Remembers env V [] (Account.create env name emailRegex kh gpgbin gpgmode)
      (createOnce env name emailRegex kh gpgbin gpgmode) := by
  have hP := permissive_forget
  unfold Account.create createOnce
  simp only [bind_eq, pure_eq]
  refine .anything _ fun _ _ => .anything _ fun ms _ => ?_
  cases kh with
  | none =>
    simp only [Account.createKey, bind_eq, Prog.bind_assoc]
    refine .anything _ fun _ _ => .first _ fun g => ?_
    refine .common (BinGPG.genSecretKey_ops hP.2.2.2 env g _) fun k => ?_
    exact .next (g := g) (by simp) (.refl _ _)
  | some k =>
    simp only [Account.createKey, bind_eq, Prog.bind_assoc]
    refine .first _ fun g => ?_
    refine .common (BinGPG.getSecretKeyhandle_ops hP.2.2.2 env g _) fun k => ?_
    cases k with
    | none => exact .raise _
    | some k => exact .next (g := g) (by simp) (.refl _ _)

theorem updateFromMsg_forget (h u) : (Peer.updateFromMsg h u).AllOps (fun o => ∀ ms, forget o ms = ms) := by
  unfold Peer.updateFromMsg
  simp only [bind_eq, pure_eq]
  refine .bind (.chain fun _ => rfl) fun es => .bind (.ofExcept _) fun e => ?_
  cases e with
  | none => trivial
  | some e => exact .append fun _ => rfl

theorem remembers_loop {β : Type} {ms : List (Str × BinGPG)} {name : Str} {g : BinGPG} (hm : (name, g) ∈ ms)
    (pe kh : Str) (as : List Str) {f f' : Unit → Prog β} (h : ∀ u, Remembers env V ms (f u) (f' u)) :
    Remembers env V ms ((Account.importLoop env name pe kh as).bind f)
      ((importLoopOnce env name g pe kh as).bind f') := by
  have hP := permissive_forget
  induction as with
  | nil => exact h ()
  | cons a as ih =>
    simp only [Account.importLoop, importLoopOnce, bind_eq, Prog.bind_assoc]
    refine .common (.now fun _ => rfl) fun t => .next hm ?_
    refine .common (BinGPG.getPublicKeydata_ops hP.2.2.2 env g _ _) fun kd => ?_
    exact .common (updateFromMsg_forget _ _) fun _ => ih

theorem remembers_import (name : Str) (addr : Option Str) (keydata : Bytes) (pe : Str) :
    Remembers env V [] (Account.importKeydataAsAutocrypt env name addr keydata pe)
      (importOnce env name addr keydata pe) := by
  have hP := permissive_forget
  unfold Account.importKeydataAsAutocrypt importOnce
  simp only [bind_eq, pure_eq]
  refine .first _ fun g => .common (BinGPG.importKeydata_ops hP.2.2.2 env g _ _) fun kh => ?_
  have rest : ∀ addrs : List Str, Remembers env V [(name, g)]
      ((Account.bingpg env name).bind fun g => (BinGPG.importKeydata env g keydata true).bind fun kh =>
        (Account.importLoop env name pe kh addrs).bind fun _ => (Account.bingpg env name).bind fun g =>
          (BinGPG.getPublicKeydata env g kh).bind fun kd =>
            Prog.pure ({ addrs, pe, keyhandle := kh, keydata := kd } : Account.ImportResult))
      ((BinGPG.importKeydata env g keydata true).bind fun kh =>
        (importLoopOnce env name g pe kh addrs).bind fun _ =>
          (BinGPG.getPublicKeydata env g kh).bind fun kd => Prog.pure { addrs, pe, keyhandle := kh, keydata := kd }) := by
    intro addrs
    refine .next (g := g) (by simp) (.common (BinGPG.importKeydata_ops hP.2.2.2 env g _ _) fun kh => ?_)
    refine remembers_loop env V (by simp) _ _ _ fun _ => ?_
    exact .next (g := g) (by simp) (.refl _ _)
  cases addr with
  | some a => exact rest _
  | none =>
    simp only [Prog.bind_assoc]
    refine .next (g := g) (by simp) (.common (BinGPG.listPublicKeyinfos_ops hP.2.2.2 env g _) fun _ => ?_)
    exact rest _

theorem remembers_badDefaults (ms) (g : BinGPG) :
    Remembers env V ms (BinGPG.badDefaults env g) (badDefaultsOnce env g) := by
  unfold BinGPG.badDefaults badDefaultsOnce BinGPG.versionAtLeast
  simp only [bind_eq, pure_eq, Prog.bind_assoc]
  refine Remembers.told _ _ _ fun info hv => ?_
  refine .anything _ fun ms b => ?_
  cases b with
  | false => exact .pure _
  | true =>
    simp only [if_true]
    rw [bind_attempt]
    refine .version g _ _ ?_
    rw [hv]
    exact .refl _ _

end Remembered

/-- C120: `Account.create` and `import_keydata_as_autocrypt` may look for gpg once, and gpg may be asked for its
version once when it is opened. -/
theorem C120_code {K : Type} {env : Env} {O : Oracle K} (hO : Settled env O) (w : World Store K) :
    (∀ name emailRegex kh gpgbin gpgmode,
      (exec O (createOnce env name emailRegex kh gpgbin gpgmode) w).1 =
        (exec O (Account.create env name emailRegex kh gpgbin gpgmode) w).1 ∧
      Fewer (exec O (Account.create env name emailRegex kh gpgbin gpgmode) w).2
        (exec O (createOnce env name emailRegex kh gpgbin gpgmode) w).2) ∧
    (∀ name addr keydata pe,
      (exec O (importOnce env name addr keydata pe) w).1 =
        (exec O (Account.importKeydataAsAutocrypt env name addr keydata pe) w).1 ∧
      Fewer (exec O (Account.importKeydataAsAutocrypt env name addr keydata pe) w).2
        (exec O (importOnce env name addr keydata pe) w).2) ∧
    (∀ g, (exec O (badDefaultsOnce env g) w).1 = (exec O (BinGPG.badDefaults env g) w).1 ∧
      Fewer (exec O (BinGPG.badDefaults env g) w).2 (exec O (badDefaultsOnce env g) w).2) :=
  ⟨fun _ _ _ _ _ => C120_remembered hO w (fun _ => rfl) (remembers_create ..),
    fun _ _ _ _ => C120_remembered hO w (fun _ => rfl) (remembers_import ..),
    fun _ => C120_remembered hO w (fun _ => rfl) (remembers_badDefaults ..)⟩

/-! ## a machine with files -/

namespace Remembered

/-- a machine on which `--version` tells 2.0.5, other runs of gpg give the answer of the concrete machine, and
files are listed in the state -/
def machine : Oracle (List Str) where
  step
    | .findExecutable n, s => (some (str!"/bin/" ++ n), s)
    | .pathExists p, s => (s.contains p, s)
    | .makedirs p, s => (.ok (), p :: s)
    | .writeFile p _, s => (.ok (), p :: s)
    | .rmtree, _ => ((), [])
    | .gpg argv none, s =>
      if argv.getLast? = some (str!"--version") then
        (.ok ⟨0, Concrete.env.utf8Encode (str!"gpg (GnuPG) 2.0.5\n"), []⟩, s)
      else (.ok ⟨0, [], []⟩, argv.flatten :: s)
    | .gpg argv _, s => (.ok ⟨0, [], []⟩, argv.flatten :: s)
    | .mkTemp, s => (.ok (str!"/tmp/x"), str!"/tmp/x" :: s)
    | .writeTemp _ _, s => (.ok (), s)
    | .rmTemp _, s => (.ok (), s)
    | .uuid, s => (str!"u", s)
    | .hookInstantiate _, s => (.ok (), s)
    | .hookIncomingGossip _ _ _, s => (.ok (), s)
    | .hookBeforeEnc _ _ _ m, s => (.ok m, s)
    | .sendmail _ _, s => (.ok 0, s)
    | .emit _, s => (.ok (), s)

theorem machine_settled : Settled Concrete.env machine where
  find _ _ _ := rfl
  find_env _ _ := rfl
  version argv s s' h := by simp only [machine]; rw [if_pos h, if_pos h]
  version_env argv s h := by simp only [machine]; rw [if_pos h]
  exists_env _ _ := rfl
  made p s _ := by simp only [machine]; simp; rfl
  written p c s _ := by simp only [machine]; simp; rfl
  stays p o s _ ho h := by
    replace h : s.contains p = true := h
    show ((machine.step o s).2).contains p = true
    cases o with
    | gpg argv i =>
      cases i with
      | none => simp only [machine]; split <;> simp_all
      | some i => simp only [machine]; simp_all
    | rmtree => simp [keepsFiles] at ho
    | _ => simp only [machine]; simp_all

/-- an account with its own keyring -/
def accountWith (gpgbin : Str) : OwnConfig :=
  { pe := .nopreference, name := str!"a", emailRegex := str!"x", gpgmode := .own, gpgbin := gpgbin }

/-- nothing but the account -/
def start (gpgbin : Str) : World Store (List Str) :=
  { store := [(ownHead (str!"a"), [.cfg (accountWith gpgbin)])],
    clock := fun n => n, tick := 0, env := [], trace := [] }

/-- gpg is opened twice and configured anew in between, by somebody who does not know that it is remembered -/
def twice (gpgbin : Str) : Prog (BinGPG × BinGPG) := do
  let g ← Account.bingpg Concrete.env (str!"a")
  Own.newConfig (str!"a") (accountWith gpgbin)
  let g' ← Account.bingpg Concrete.env (str!"a")
  return (g, g')

/-- the same, with one access -/
def stale (gpgbin : Str) : Prog (BinGPG × BinGPG) := do
  let g ← Account.bingpg Concrete.env (str!"a")
  Own.newConfig (str!"a") (accountWith gpgbin)
  return (g, g)

end Remembered

/-- opening gpg creates the directory and the configuration of the agent, and opening it again finds them -/
example :
    ((exec machine (Account.bingpg Concrete.env (str!"a")) (start (str!"gpg"))).1.toOption.map (·.path),
      (exec machine (Account.bingpg Concrete.env (str!"a")) (start (str!"gpg"))).2.env,
      (exec machine (Account.bingpg Concrete.env (str!"a")) (start (str!"gpg"))).2.trace.length,
      (exec machine ((Account.bingpg Concrete.env (str!"a")).bind fun _ =>
        Account.bingpg Concrete.env (str!"a")) (start (str!"gpg"))).2.trace.length) =
    (some (str!"/bin/gpg"), [str!"/d/gpg/a/gpg-agent.conf", str!"/d/gpg/a"], 7, 12) := by decide +kernel

/-- fewer operations -/
example :
    ((exec machine (BinGPG.badDefaults Concrete.env ⟨none, str!"g"⟩) (start (str!"gpg"))).2.trace.length,
      (exec machine (badDefaultsOnce Concrete.env ⟨none, str!"g"⟩) (start (str!"gpg"))).2.trace.length,
      (exec machine (badDefaultsOnce Concrete.env ⟨none, str!"g"⟩) (start (str!"gpg"))).1.toOption) =
    (2, 1, some true) := by decide +kernel

/-- the hypotheses are met -/
example (w : World Store (List Str)) (name : Str) (addr : Option Str) (keydata : Bytes) (pe : Str) :
    (exec machine (importOnce Concrete.env name addr keydata pe) w).1 =
      (exec machine (Account.importKeydataAsAutocrypt Concrete.env name addr keydata pe) w).1 :=
  ((C120_code machine_settled w).2.1 name addr keydata pe).1

/-- C120: what is remembered has to be forgotten if the account is configured anew: an account object which
was used before and is used after `mod_account` was called for its name with another gpg uses the old one.
(`bingpg` stays in the account object, account.py:271-283; `mod_account` makes a new object,
account.py:149.) -/
theorem C120_forgotten :
    Settled Concrete.env machine ∧
    (exec machine (twice (str!"gpg2")) (start (str!"gpg"))).1.toOption.map (fun x => (x.1.path, x.2.path)) =
      some (str!"/bin/gpg", str!"/bin/gpg2") ∧
    (exec machine (stale (str!"gpg2")) (start (str!"gpg"))).1.toOption.map (fun x => (x.1.path, x.2.path)) =
      some (str!"/bin/gpg", str!"/bin/gpg") :=
  ⟨machine_settled, by decide +kernel, by decide +kernel⟩

end Verif
