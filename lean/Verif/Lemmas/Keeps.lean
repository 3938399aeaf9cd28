import Verif.Lemmas.BuiltCmd
import Verif.Lemmas.Paths
import Verif.Props.Anyhow
import Verif.Props.GpgTasks
import Verif.Props.GpgOps
/-!
# What precedes each operation on gpg

A condition on operations which depends on everything that happened before in the same call.
-/
namespace Verif
open BinGPG
variable {α β : Type}

/-! ## Specification -/

/-- before, reading the log of account `n` gave a configuration `c` as the newest -/
def ConfThen (past : List Did) (n : Str) (c : OwnConfig) : Prop :=
  ∃ es, ReadAs past (ownHead n) es ∧ Newest (fun e => ∃ c, e = Entry.cfg c) es (.cfg c)

/-- the external operation was done before, with this answer -/
def SeenIn (past : List Did) (ev : Event) : Prop := (⟨.ext ev.op, ev.ret⟩ : Did) ∈ past

/-- the words for which gpg needs the secret key -/
def secretWords : List Str := [GpgTask.generate, .exportSecret, .encrypt, .decrypt].map (·.word)

/-- if gpg is told to do something for which it needs the secret key: the last thing that happened is a successful run of the same
program with the same home which reported its version, and the arguments contain the options for this version with which gpg doesn't
ask for a passphrase -/
def Unlocked (env : Env) (past : List Did) (argv : List Str) : Prop :=
  ∀ w ∈ secretWords, commandWord argv = some w → ∃ pre g args v np, argv = commandLine g args ∧
    past = pre ++ [Did.gpg (commandLine g [str!"--version"]) none (.ok v)] ∧ v.ret = 0 ∧ Unlocks env v np ∧ np <:+: args

/-- an external operation which, if it concerns gpg, is right for one of the accounts `N` by a configuration read before, and prepared
as it must be if the secret key is needed -/
def Proper (env : Env) (N : Str → Prop) (past : List Did) : Op → Prop
  | .ext (.gpg argv stdin) =>
    (∃ n c, N n ∧ ConfThen past n c ∧ RightGpg env n c.gpgbin c.gpgmode (SeenIn past) (.gpg argv stdin)) ∧ Unlocked env past argv
  | .ext (.makedirs p) => ∃ n c, N n ∧ ConfThen past n c ∧ RightGpg env n c.gpgbin c.gpgmode (SeenIn past) (.makedirs p)
  | .ext (.writeFile p s) => ∃ n c, N n ∧ ConfThen past n c ∧ RightGpg env n c.gpgbin c.gpgmode (SeenIn past) (.writeFile p s)
  | _ => True

/-- each operation is proper, given what happened before -/
def AllProper (env : Env) (N : Str → Prop) (past l : List Did) : Prop :=
  ∀ pre d post, l = pre ++ d :: post → Proper env N (past ++ pre) d.op

/-! ## Lemmas -/

/-- the program object for an account -/
structure Opened (env : Env) (N : Str → Prop) (past : List Did) (g : BinGPG) (n : Str) (c : OwnConfig) : Prop where
  name : N n
  conf : ConfThen past n c
  found : SeenIn past ⟨.findExecutable c.gpgbin, some g.path⟩
  home : g.home = match c.gpgmode with | .own => some (gpgHome env n) | .system => none
  ready : c.gpgmode = .own → HomeReady env n (SeenIn past)

/-- with the program objects `gs` at hand, whatever the program does is proper -/
def Minds (env : Env) (N : Str → Prop) (gs : List BinGPG) (p : Prog α) : Prop :=
  ∀ past, (∀ g ∈ gs, ∃ n c, Opened env N past g n c) → ∀ l r, p.Path l r → AllProper env N past l

variable {env : Env} {N : Str → Prop} {past : List Did} {gs : List BinGPG}

theorem ConfThen.more {l : List Did} {n : Str} {c : OwnConfig} (h : ConfThen past n c) : ConfThen (past ++ l) n c :=
  let ⟨es, h1, h2⟩ := h; ⟨es, h1.mono (by simp), h2⟩
theorem SeenIn.more {l : List Did} {ev : Event} (h : SeenIn past ev) : SeenIn (past ++ l) ev := by
  unfold SeenIn at *; simp [h]
theorem HomeReady.more {l : List Did} {n : Str} (h : HomeReady env n (SeenIn past)) : HomeReady env n (SeenIn (past ++ l)) :=
  h.imp (·.more) (·.more)
theorem Opened.more {l : List Did} {g : BinGPG} {n : Str} {c : OwnConfig} (h : Opened env N past g n c) : Opened env N (past ++ l) g n c :=
  ⟨h.name, h.conf.more, h.found.more, h.home, fun hm => (h.ready hm).more⟩

theorem AllProper.nil : AllProper env N past [] := fun pre d post h => by simp at h
theorem AllProper.append {l1 l2 : List Did} (h1 : AllProper env N past l1) (h2 : AllProper env N (past ++ l1) l2) :
    AllProper env N past (l1 ++ l2) := by
  intro pre d post he
  rcases List.append_eq_append_iff.mp he with ⟨x, h3, h4⟩ | ⟨x, h3, h4⟩
  · subst h3; have := h2 _ _ _ h4; simpa using this
  · cases x with
    | nil =>
      have := h2 [] d post (by simpa using h4.symm)
      simpa [h3] using this
    | cons y x => cases h4; exact h1 _ _ _ h3
theorem AllProper.single {d : Did} (h : Proper env N past d.op) : AllProper env N past [d] := by
  intro pre d' post he
  cases pre with
  | nil => cases he; simpa using h
  | cons y x => simp at he

namespace Minds

theorem bindWith {p : Prog α} {f : α → Prog β} (h1 : Minds env N gs p)
    (h2 : ∀ past, (∀ g ∈ gs, ∃ n c, Opened env N past g n c) → ∀ l a, p.Path l (.ok a) → ∀ l' r, (f a).Path l' r → AllProper env N (past ++ l) l') :
    Minds env N gs (p.bind f) := by
  intro past hg l r h
  rcases Prog.Path.bind.mp h with ⟨a, l1, l2, ha, hb, rfl⟩ | ⟨e, ha, rfl⟩
  · exact (h1 past hg _ _ ha).append (h2 past hg _ _ ha _ _ hb)
  · exact h1 past hg _ _ ha

theorem bind {p : Prog α} {f : α → Prog β} (h1 : Minds env N gs p) (h2 : ∀ a, Minds env N gs (f a)) : Minds env N gs (p.bind f) :=
  h1.bindWith fun _ hg _ a _ l' r h => h2 a _ (fun g hgg => let ⟨n, c, ho⟩ := hg g hgg; ⟨n, c, ho.more⟩) l' r h
theorem pure (a : α) : Minds env N gs (.pure a) := fun _ _ l r h => by rw [h.1]; exact .nil
theorem raise (e) : Minds env N gs (.raise e : Prog α) := fun _ _ l r h => by rw [h.1]; exact .nil
theorem op (o : Op) (k : o.Ret → Prog α) (ho : ∀ past, Proper env N past o) (hk : ∀ r, Minds env N gs (k r)) : Minds env N gs (.op o k) := by
  rintro past hg _ r ⟨a, l, rfl, h⟩
  exact AllProper.append (l1 := [⟨o, a⟩]) (.single (ho past)) (hk a _ (fun g hgg => let ⟨n, c, ho⟩ := hg g hgg; ⟨n, c, ho.more⟩) l r h)
theorem attempt {p : Prog α} (h : Minds env N gs p) : Minds env N gs p.attempt := fun past hg l r hp =>
  let ⟨_, hx, _⟩ := Prog.Path.attempt.mp hp; h past hg _ _ hx
theorem bindReturns {p : Prog α} {Q : α → Prop} {f : α → Prog β} (h1 : Minds env N gs p) (hq : p.Returns Q) (h2 : ∀ a, Q a → Minds env N gs (f a)) :
    Minds env N gs (p.bind f) :=
  h1.bindWith fun _ hg _ a ha l' r h => h2 a (ha.returns hq) _ (fun g hgg => let ⟨n, c, ho⟩ := hg g hgg; ⟨n, c, ho.more⟩) l' r h

theorem ofExcept (x : Except Exc α) : Minds env N gs (Prog.ofExcept x) := by cases x; exacts [raise _, pure _]
theorem assert (b : Bool) : Minds env N gs (Prog.assert b) := by cases b; exacts [raise _, pure _]
theorem void {p : Prog α} (h : Minds env N gs p) : Minds env N gs p.void := bind h fun _ => pure _
theorem now : Minds env N gs Prog.now := .op _ _ (fun _ => trivial) fun _ => .pure _
theorem chain (h) : Minds env N gs (Prog.chain h) := .op _ _ (fun _ => trivial) fun _ => ofExcept _
theorem append (h e) : Minds env N gs (Prog.append h e) := .op _ _ (fun _ => trivial) fun _ => ofExcept _
theorem heads : Minds env N gs Prog.heads := .op _ _ (fun _ => trivial) fun _ => ofExcept _
theorem removeIf (p) : Minds env N gs (Prog.removeIf p) := .op _ _ (fun _ => trivial) fun _ => ofExcept _
theorem findExecutable (a) : Minds env N gs (Prog.findExecutable a) := .op _ _ (fun _ => trivial) fun _ => .pure _
theorem pathExists (a) : Minds env N gs (Prog.pathExists a) := .op _ _ (fun _ => trivial) fun _ => .pure _
theorem uuid : Minds env N gs Prog.uuid := .op _ _ (fun _ => trivial) fun _ => .pure _
theorem hookInstantiate (a) : Minds env N gs (Prog.hookInstantiate a) := .op _ _ (fun _ => trivial) fun _ => ofExcept _
theorem hookIncomingGossip (a b d) : Minds env N gs (Prog.hookIncomingGossip a b d) := .op _ _ (fun _ => trivial) fun _ => ofExcept _
theorem hookBeforeEnc (a b d e) : Minds env N gs (Prog.hookBeforeEnc a b d e) := .op _ _ (fun _ => trivial) fun _ => ofExcept _
theorem sendmail (a b) : Minds env N gs (Prog.sendmail a b) := .op _ _ (fun _ => trivial) fun _ => ofExcept _
theorem emit (a) : Minds env N gs (Prog.emit a) := .op _ _ (fun _ => trivial) fun _ => ofExcept _
theorem rmtree : Minds env N gs Prog.rmtree := .op _ _ (fun _ => trivial) fun _ => .op _ _ (fun _ => trivial) fun _ => .pure _
theorem temp (d : Bytes) (b : Str → Prog α) (h : ∀ n, Minds env N gs (b n)) : Minds env N gs (BinGPG.withTempFile d b) := by
  unfold BinGPG.withTempFile Prog.finally_
  refine .bind (.op _ _ (fun _ => trivial) fun _ => .ofExcept _) fun n => .bind (.op _ _ (fun _ => trivial) fun _ => .ofExcept _) fun _ =>
    .bind (.attempt (h n)) fun r => .bind (.op _ _ (fun _ => trivial) fun _ => .ofExcept _) fun _ => ?_
  cases r
  exacts [raise _, pure _]

end Minds

theorem Opened.gpg {g : BinGPG} {n : Str} {c : OwnConfig} (h : Opened env N past g n c) {args : List Str} (stdin : Option Bytes)
    (h1 : args.head? ≠ some (str!"--homedir")) (h2 : Unlocked env past (g.argv args)) : Proper env N past (.ext (.gpg (g.argv args) stdin)) := by
  refine ⟨⟨n, c, h.name, h.conf, g.path, g.homedirflags, args, h.found, ?_, by simp [argv], h.ready⟩, h2⟩
  have hh := h.home
  cases hm : c.gpgmode <;> rw [hm] at hh <;> simp only at hh
  · simp only [HomeOptions, homedirflags, hh]
    exact ⟨trivial, h1⟩
  · simp [HomeOptions, homedirflags, hh, gpgHome]

/-- runs of gpg which don't need the secret key -/
theorem Minds.gpg {u : GpgTask} {g : BinGPG} {args : List Str} {stdin : Option Bytes} (hg : g ∈ gs) (hu : u.Args args stdin.isSome)
    (hs : u.word ∉ secretWords) (s d : Bool) : Minds env N gs (gpgOuterr env g args stdin s d) := by
  unfold gpgOuterr
  refine .bindWith (fun past hgs l r h => ?_) fun past _ l a _ l' r h => by rw [(Prog.Path.ofExcept.mp h).1]; exact .nil
  obtain ⟨n, c, ho⟩ := hgs g hg
  rw [Prog.Path.gpg h]
  refine .single (ho.gpg stdin ?_ ?_)
  · obtain ⟨a, r, rfl, ha⟩ := hu.first
    simpa using ha
  · intro w hw hc
    rw [GpgTask.Run.word ⟨g, args, argv_eq g args, hu⟩] at hc
    cases hc
    exact absurd hw hs

theorem gpgOuterr_path {g : BinGPG} {args : List Str} {stdin : Option Bytes} {s d : Bool} {l : List Did} {r : Except Exc (Bytes × Str)}
    (h : (gpgOuterr env g args stdin s d).Path l r) : ∃ x, l = [Did.gpg (commandLine g args) stdin x] ∧
      ∀ y, r = .ok y → ∃ out, x = .ok out ∧ checkResult env s d out = .ok y := by
  rcases Prog.Path.bind.mp h with ⟨a, l1, l2, ha, hb, rfl⟩ | ⟨e, ha, rfl⟩
  · obtain ⟨rfl, rfl⟩ := Prog.Path.ofExcept.mp hb
    rw [Prog.Path.gpg ha, argv_eq]
    exact ⟨_, rfl, fun y hy => ⟨a, rfl, hy⟩⟩
  · rw [Prog.Path.gpg ha, argv_eq]
    exact ⟨_, rfl, fun y hy => by cases hy⟩

theorem checkResult_ret {env : Env} {s d : Bool} {out : GpgOut} {y : Bytes × Str} (h : checkResult env s d out = .ok y) : out.ret = 0 ∧ y.1 = out.out := by
  unfold checkResult at h
  split at h; · cases h
  split at h; · cases h
  split at h; · cases h
  split at h; · cases h
  cases h
  rename_i h
  exact ⟨Decidable.byContradiction fun hn => h (.inl hn), rfl⟩

theorem nopassphrase_path {g : BinGPG} {l : List Did} {r : Except Exc (List Str)} (h : (nopassphrase env g).Path l r) :
    ∃ x, l = [Did.gpg (commandLine g [str!"--version"]) none x] ∧ ∀ np, r = .ok np → ∃ v, x = .ok v ∧ v.ret = 0 ∧ Unlocks env v np := by
  unfold nopassphrase versionAtLeast versionInfo gpgOutText at h
  simp only [bind_eq, pure_eq, Prog.bind_assoc] at h
  rcases Prog.Path.bind.mp h with ⟨a, l1, l2, ha, hb, rfl⟩ | ⟨e, ha, rfl⟩
  · obtain ⟨x, rfl, hx⟩ := gpgOuterr_path ha
    obtain ⟨out, rfl, hc⟩ := hx _ rfl
    rcases Prog.Path.bind.mp hb with ⟨t, l3, l4, h3, h4, rfl⟩ | ⟨e, h3, rfl⟩
    · obtain ⟨rfl, h3'⟩ := Prog.Path.ofExcept.mp h3
      rcases Prog.Path.bind.mp h4 with ⟨b, l5, l6, h5, h6, rfl⟩ | ⟨e, h5, rfl⟩
      · obtain ⟨rfl, h5'⟩ := Prog.Path.ofExcept.mp h5
        obtain ⟨rfl, h6'⟩ := h6
        refine ⟨_, rfl, fun np hnp => ⟨out, rfl, (checkResult_ret hc).1, t, b, ?_, h5'.symm, ?_⟩⟩
        · rw [← (checkResult_ret hc).2]; exact h3'.symm
        · exact (Except.ok.inj (h6'.symm.trans hnp)).symm
      · obtain ⟨rfl, -⟩ := Prog.Path.ofExcept.mp h5
        exact ⟨_, rfl, fun np hnp => by cases hnp⟩
    · obtain ⟨rfl, -⟩ := Prog.Path.ofExcept.mp h3
      exact ⟨_, rfl, fun np hnp => by cases hnp⟩
  · obtain ⟨x, rfl, -⟩ := gpgOuterr_path ha
    exact ⟨_, rfl, fun np hnp => by cases hnp⟩

theorem Unlocks.unasked {v : GpgOut} {np : List Str} (h : Unlocks env v np) : Unasked np := by
  obtain ⟨_, b, _, _, rfl⟩ := h
  cases b
  exacts [.inl rfl, .inr rfl]

theorem Opened.version {g : BinGPG} {n : Str} {c : OwnConfig} (h : Opened env N past g n c) :
    Proper env N past (.ext (.gpg (commandLine g [str!"--version"]) none)) := by
  rw [← argv_eq]
  refine h.gpg none (by decide) fun w hw hc => ?_
  rw [GpgTask.Run.word (u := .version) (stdin := none) ⟨g, _, argv_eq g _, rfl, rfl⟩] at hc
  cases hc
  exact absurd hw (by decide)

/-- runs of gpg which need the secret key -/
theorem Minds.secret {u : GpgTask} {g : BinGPG} {args : List Str → List Str} {stdin : Option Bytes} (hg : g ∈ gs)
    (hu : ∀ np, Unasked np → u.Args (args np) stdin.isSome ∧ np <:+: args np) (s d : Bool) :
    Minds env N gs ((nopassphrase env g).bind fun np => gpgOuterr env g (args np) stdin s d) := by
  refine .bindWith (fun past hgs l r h => ?_) fun past hgs l np hn l' r h => ?_
  · obtain ⟨x, rfl, -⟩ := nopassphrase_path h
    obtain ⟨n, c, ho⟩ := hgs g hg
    exact .single ho.version
  · obtain ⟨x, rfl, hx⟩ := nopassphrase_path hn
    obtain ⟨v, rfl, h0, hv⟩ := hx np rfl
    obtain ⟨x, rfl, -⟩ := gpgOuterr_path h
    obtain ⟨n, c, ho⟩ := hgs g hg
    obtain ⟨h1, h2⟩ := hu np hv.unasked
    refine .single ?_
    show Proper env N _ (.ext (.gpg (commandLine g (args np)) stdin))
    rw [← argv_eq g (args np)]
    refine ho.more.gpg stdin ?_ fun w hw hc => ⟨past, g, args np, v, np, argv_eq g _, rfl, h0, hv, h2⟩
    obtain ⟨a, r, he, ha⟩ := h1.first
    simpa [he] using ha

theorem config_path {n : Str} {l : List Did} {r : Except Exc OwnConfig} (h : (Own.config n).Path l r) :
    ∃ x, l = [Did.chain (ownHead n) x] ∧ ∀ c, r = .ok c → ConfThen l n c := by
  unfold Own.config at h
  simp only [bind_eq, pure_eq] at h
  rcases Prog.Path.bind.mp h with ⟨es, l1, l2, ha, hb, rfl⟩ | ⟨e, ha, rfl⟩
  · rw [Prog.Path.chain ha]
    split at hb
    · next c hc =>
      obtain ⟨rfl, hb'⟩ := hb
      refine ⟨_, rfl, fun c' hc' => ?_⟩
      have := Except.ok.inj (hb'.symm.trans hc')
      subst this
      exact ⟨es, by simp [ReadAs], latestConfig_iff.mp hc⟩
    · obtain ⟨rfl, hb'⟩ := hb
      exact ⟨_, rfl, fun c' hc' => by rw [hc'] at hb'; cases hb'⟩
  · rw [Prog.Path.chain ha]
    exact ⟨_, rfl, fun c hc => by cases hc⟩

theorem Minds.versionAtLeast {g : BinGPG} (hg : g ∈ gs) (v) : Minds env N gs (versionAtLeast env g v) := by
  unfold BinGPG.versionAtLeast versionInfo gpgOutText
  simp only [bind_eq]
  exact .bind (.bind (.gpg (u := .version) hg ⟨rfl, rfl⟩ (by decide) _ _) fun _ => .ofExcept _) fun _ => .ofExcept _

theorem badDefaults_keeps {g : BinGPG} (hg : g ∈ gs) : Minds env N gs (badDefaults env g) := by
  unfold badDefaults
  simp only [bind_eq, pure_eq]
  refine .bind (.versionAtLeast hg _) fun b => ?_
  split
  · exact .bind (.versionAtLeast hg _) fun _ => .pure _
  · exact .pure _

theorem pathExists_path {p : Str} {l : List Did} {r : Except Exc Bool} (h : (Prog.pathExists p).Path l r) : ∃ b, l = [⟨.ext (.pathExists p), b⟩] ∧ r = .ok b := by
  obtain ⟨b, _, rfl, rfl, rfl⟩ := h
  exact ⟨b, rfl, rfl⟩

theorem findExecutable_path {p : Str} {l : List Did} {r : Except Exc (Option Str)} (h : (Prog.findExecutable p).Path l r) :
    ∃ b, l = [⟨.ext (.findExecutable p), b⟩] ∧ r = .ok b := by
  obtain ⟨b, _, rfl, rfl, rfl⟩ := h
  exact ⟨b, rfl, rfl⟩

/-- the end of `_ensure_init`: the file in the home directory -/
theorem agent_proper {g : BinGPG} {n : Str} {c : OwnConfig} (ho : Opened env N past g n c) (hm : c.gpgmode = .own) {l : List Did} {r : Except Exc Unit}
    (h : ((badDefaults env g).bind fun b => if b = true then (Prog.pathExists (gpgHome env n ++ str!"/gpg-agent.conf")).bind fun e =>
      if (!e) = true then Prog.writeFile (gpgHome env n ++ str!"/gpg-agent.conf") (str!"allow-loopback-pinentry\n") else .pure ()
      else .pure ()).Path l r) : AllProper env N past l := by
  rcases Prog.Path.bind.mp h with ⟨b, l1, l2, ha, hb, rfl⟩ | ⟨e, ha, rfl⟩
  · have h1 : AllProper env N past l1 := badDefaults_keeps (gs := [g]) (by simp) past (fun g' hg' => by simp at hg'; subst hg'; exact ⟨n, c, ho⟩) _ _ ha
    refine h1.append ?_
    split at hb
    · rcases Prog.Path.bind.mp hb with ⟨e, l3, l4, h3, h4, rfl⟩ | ⟨e, h3, rfl⟩
      · obtain ⟨b', rfl, h3'⟩ := pathExists_path h3
        cases h3'
        refine .append (.single trivial) ?_
        cases e
        · obtain ⟨a, rfl, -⟩ := Prog.Path.single h4
          refine .single ⟨n, c, ho.name, ho.more.more.conf, hm, rfl, ?_⟩
          simp [SeenIn]
        · rw [h4.1]; exact .nil
      · obtain ⟨b', rfl, h3'⟩ := pathExists_path h3
        cases h3'
    · rw [hb.1]; exact .nil
  · exact badDefaults_keeps (gs := [g]) (by simp) past (fun g' hg' => by simp at hg'; subst hg'; exact ⟨n, c, ho⟩) _ _ ha

theorem ensureInit_proper {g : BinGPG} {n : Str} {c : OwnConfig} (hN : N n) (hc : ConfThen past n c)
    (hf : SeenIn past ⟨.findExecutable c.gpgbin, some g.path⟩)
    (hh : g.home = match c.gpgmode with | .own => some (gpgHome env n) | .system => none) {l : List Did} {r : Except Exc Unit}
    (h : (ensureInit env g).Path l r) : AllProper env N past l ∧ (r = .ok () → Opened env N (past ++ l) g n c) := by
  unfold ensureInit at h
  cases hm : c.gpgmode with
  | system =>
    rw [hm] at hh
    simp only at hh
    rw [hh] at h
    rw [h.1]
    exact ⟨.nil, fun _ => ⟨hN, hc.more, hf.more, by rw [hh, hm], fun hm' => by rw [hm] at hm'; cases hm'⟩⟩
  | own =>
    rw [hm] at hh
    simp only at hh
    rw [hh] at h
    simp only [bind_eq, pure_eq] at h
    rcases Prog.Path.bind.mp h with ⟨b, l1, l2, ha, hb, rfl⟩ | ⟨e, ha, rfl⟩
    · obtain ⟨b', rfl, hb'⟩ := pathExists_path ha
      cases hb'
      have hopen : ∀ l', HomeReady env n (SeenIn (past ++ l')) → Opened env N (past ++ l') g n c := fun l' hr =>
        ⟨hN, hc.more, hf.more, by rw [hh, hm], fun _ => hr⟩
      cases b with
      | true =>
        have hr : Opened env N (past ++ [⟨.ext (.pathExists (gpgHome env n)), true⟩]) g n c := hopen _ (.inl (by simp [SeenIn]))
        refine ⟨.append (.single trivial) (agent_proper hr hm hb), fun _ => ?_⟩
        have := hr.more (l := l2)
        simpa using this
      | false =>
        rcases Prog.Path.bind.mp hb with ⟨u, l3, l4, h3, h4, rfl⟩ | ⟨e, h3, rfl⟩
        · obtain ⟨x, rfl, hx⟩ := Prog.Path.single h3
          have hx' : x = Except.ok () := hx.symm
          subst hx'
          have hr : Opened env N (past ++ ([⟨.ext (.pathExists (gpgHome env n)), false⟩] ++ [⟨.ext (.makedirs (gpgHome env n)), Except.ok ()⟩])) g n c :=
            hopen _ (.inr (by simp [SeenIn]))
          refine ⟨.append (.single trivial) (.append (.single ⟨n, c, hN, hc.more, hm, rfl, by simp [SeenIn]⟩) (agent_proper (by simpa using hr) hm h4)), fun _ => ?_⟩
          have := hr.more (l := l4)
          simpa using this
        · obtain ⟨x, rfl, hx⟩ := Prog.Path.single h3
          exact ⟨.append (.single trivial) (.single ⟨n, c, hN, hc.more, hm, rfl, by simp [SeenIn]⟩), fun hr => by cases hr⟩
    · obtain ⟨b', rfl, hb'⟩ := pathExists_path ha
      cases hb'

theorem bingpg_proper {n : Str} (hN : N n) {l : List Did} {r : Except Exc BinGPG} (h : (Account.bingpg env n).Path l r) :
    AllProper env N past l ∧ ∀ g, r = .ok g → ∃ c, Opened env N (past ++ l) g n c := by
  unfold Account.bingpg at h
  simp only [bind_eq] at h
  rcases Prog.Path.bind.mp h with ⟨c, l1, l2, ha, hb, rfl⟩ | ⟨e, ha, rfl⟩
  · obtain ⟨x, rfl, hx⟩ := config_path ha
    have hc := hx c rfl
    have hc : ConfThen (past ++ [Did.chain (ownHead n) x]) n c := let ⟨es, h1, h2⟩ := hc; ⟨es, h1.mono (by simp), h2⟩
    have hp : AllProper env N past [Did.chain (ownHead n) x] := .single trivial
    split at hb
    · rw [hb.1]
      exact ⟨by simpa using hp, fun g hg => by rw [hb.2] at hg; cases hg⟩
    · unfold BinGPG.create at hb
      simp only [bind_eq, pure_eq] at hb
      rcases Prog.Path.bind.mp hb with ⟨f, l3, l4, h3, h4, rfl⟩ | ⟨e, h3, rfl⟩
      · obtain ⟨f', rfl, h3'⟩ := findExecutable_path h3
        cases h3'
        cases f with
        | none =>
          rw [h4.1]
          exact ⟨by rw [List.append_nil]; exact hp.append (.single trivial), fun g hg => by rw [h4.2] at hg; cases hg⟩
        | some p =>
          have hinit := fun l r => ensureInit_proper (env := env) (N := N) (g := ⟨match c.gpgmode with | .own => some (env.dir ++ str!"/gpg/" ++ n) | .system => none, p⟩)
            (past := past ++ [Did.chain (ownHead n) x] ++ [⟨.ext (.findExecutable c.gpgbin), some p⟩]) hN hc.more (by simp [SeenIn]) rfl (l := l) (r := r)
          rcases Prog.Path.bind.mp h4 with ⟨u, l5, l6, h5, h6, rfl⟩ | ⟨e, h5, rfl⟩
          · obtain ⟨rfl, hr⟩ := h6
            obtain ⟨h7, h8⟩ := hinit _ _ h5
            refine ⟨by rw [List.append_nil]; exact hp.append (.append (.single trivial) h7), fun g hg => ⟨c, ?_⟩⟩
            rw [hr] at hg
            cases hg
            have h8 := h8 rfl
            simp only [List.append_assoc, List.append_nil] at h8 ⊢
            exact h8
          · exact ⟨hp.append (.append (.single trivial) (hinit _ _ h5).1), fun g hg => by cases hg⟩
      · obtain ⟨f', rfl, h3'⟩ := findExecutable_path h3
        cases h3'
  · obtain ⟨x, rfl, hx⟩ := config_path ha
    exact ⟨.single trivial, fun g hg => by cases hg⟩

namespace Minds
theorem bingpg {n : Str} (hN : N n) : Minds env N gs (Account.bingpg env n) := fun _ _ _ _ h => (bingpg_proper hN h).1

theorem cons_opened {g : BinGPG} {l : List Did} (hg : ∀ g ∈ gs, ∃ n c, Opened env N past g n c) (h : ∃ n c, Opened env N (past ++ l) g n c) :
    ∀ g' ∈ g :: gs, ∃ n c, Opened env N (past ++ l) g' n c := by
  intro g' hg'
  rcases List.mem_cons.mp hg' with rfl | hg'
  · exact h
  · obtain ⟨n, c, ho⟩ := hg g' hg'
    exact ⟨n, c, ho.more⟩

/-- the program object of an account and what is done with it -/
theorem withGpg {n : Str} {f : BinGPG → Prog β} (hN : N n) (h : ∀ g, Minds env N (g :: gs) (f g)) : Minds env N gs ((Account.bingpg env n).bind f) :=
  (bingpg hN).bindWith fun _ hg _ g hp l' r hf => h g _ (cons_opened hg (let ⟨c, ho⟩ := (bingpg_proper hN hp).2 g rfl; ⟨n, c, ho⟩)) l' r hf

theorem withAttempt {n : Str} {f : Except Exc BinGPG → Prog β} (hN : N n) (h : ∀ g, Minds env N (g :: gs) (f (.ok g)))
    (h2 : ∀ e, Minds env N gs (f (.error e))) : Minds env N gs ((Account.bingpg env n).attempt.bind f) :=
  (bingpg hN).attempt.bindWith fun past hg l x hp l' r hf => by
    obtain ⟨x', hx, he⟩ := Prog.Path.attempt.mp hp
    cases he
    cases x with
    | ok g => exact h g _ (cons_opened hg (let ⟨c, ho⟩ := (bingpg_proper hN hx).2 g rfl; ⟨n, c, ho⟩)) l' r hf
    | error e => exact h2 e _ (fun g hgg => let ⟨n, c, ho⟩ := hg g hgg; ⟨n, c, ho.more⟩) l' r hf
end Minds

end Verif
