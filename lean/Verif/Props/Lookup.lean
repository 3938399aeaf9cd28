import Verif.Props.AccountChanges
/-!
# Finding the account for an address and for incoming mail (C49, C50)
-/
namespace Verif

variable {K : Type}

/-- every account something is stored about was created completely -/
def NoHalfCreated (w : World Store K) : Prop := ∀ n, w.log (ownHead n) ≠ [] → Configured w n

/-- the patterns of all accounts are valid regular expressions -/
def PatternsValid (env : Env) (w : World Store K) : Prop := ∀ n c, OwnConf w n c → ∀ s, ∃ b, env.reMatch c.emailRegex s = .ok b

/-- an account whose pattern matches the address -/
def Serves (env : Env) (w : World Store K) (a adr : Str) : Prop := Configured w a ∧ OwnAddress env w a adr

/-- the alphabetically first account whose pattern matches the address. The order is that of Python strings, by code
points: the lexicographic order of lists of characters. -/
def FirstAccount (env : Env) (w : World Store K) (adr a : Str) : Prop :=
  Serves env w a adr ∧ ∀ b, Serves env w b adr → a ≤ b

theorem strLe_iff (a b : Str) : Py.strLe a b = true ↔ a ≤ b := by
  induction a generalizing b with
  | nil => simp [Py.strLe]
  | cons x a ih =>
    cases b with
    | nil => simp [Py.strLe]
    | cons y b =>
      rw [List.cons_le_cons_iff, Py.strLe, ← ih]
      have hxy : x < y ↔ x.toNat < y.toNat := Iff.rfl
      have heq : x = y ↔ x.toNat = y.toNat := ⟨fun h => by rw [h], fun h => Char.ext (UInt32.toNat.inj h)⟩
      rw [hxy, heq]
      split
      · simp [*]
      · split
        · simp; omega
        · have : x.toNat = y.toNat := by omega
          simp [this]

/-- the same own states -/
def SameOwn (w v : World Store K) : Prop := ∀ n, v.log (ownHead n) = w.log (ownHead n)

theorem SameOwn.trans {w v u : World Store K} (h1 : SameOwn w v) (h2 : SameOwn v u) : SameOwn w u := fun n => (h2 n).trans (h1 n)

/-- opening a complete account and reading its settings -/
theorem open_conf {O : Oracle K} (hO : HooksOk O) {env : Env} {w v : World Store K} (hv : SameOwn w v) {n : Str} (hal : env.isalnum n = true)
    (hc : Configured w n) : ∃ v1, run Store.impl O (Manager.getAccount env n) v = (.ok n, v1) ∧ SameOwn w v1 ∧
      ∃ c, OwnConf w n c ∧ run Store.impl O (Own.config n) v1 = (.ok c, v1) := by
  have hc' : Configured v n := (Configured.of_log (hv n)).mpr hc
  rcases hg : run Store.impl O (Manager.getAccount env n) v with ⟨x, v1⟩
  obtain ⟨hst, -⟩ := getAccount_course hg
  have hx : x = .ok n := by
    have := (getAccount_result hO hal v).1 hc'
    simp only [exec] at this
    rw [hg] at this; exact this
  subst hx
  have hs : SameOwn w v1 := fun m => by
    rw [← hv m]; unfold World.log; rw [hst, get_initStore (ownHead_ne_managerHead m)]
  obtain ⟨c, hcf⟩ := hc.conf
  refine ⟨v1, rfl, hs, c, hcf, ?_⟩
  unfold Own.config
  simp only [bind_eq, pure_eq]
  rw [run_bind, run_chain]
  dsimp only
  have : v1.store.get (ownHead n) = w.log (ownHead n) := hs n
  rw [this, latestConfig_iff.mpr hcf]; rfl

/-- the loop over the accounts -/
theorem firstMatch_result {O : Oracle K} (hO : HooksOk O) {env : Env} {w : World Store K} (hre : PatternsValid env w) (adr : Str)
    (names : List Str) (hall : ∀ n ∈ names, env.isalnum n = true ∧ Configured w n) (v : World Store K) (hv : SameOwn w v) :
    ∃ o v', run Store.impl O (Manager.firstMatch env adr names) v = (.ok o, v') ∧
      (o = none → ∀ n ∈ names, ¬ OwnAddress env w n adr) ∧
      ∀ a, o = some a → ∃ pre post, names = pre ++ a :: post ∧ OwnAddress env w a adr ∧ ∀ n ∈ pre, ¬ OwnAddress env w n adr := by
  induction names generalizing v with
  | nil => exact ⟨none, v, rfl, (fun _ n hn => nomatch hn), fun a h => nomatch h⟩
  | cons n names ih =>
    obtain ⟨hal, hc⟩ := hall n (List.mem_cons_self ..)
    obtain ⟨v1, h1, hs, c, hcf, h2⟩ := open_conf hO hv hal hc
    obtain ⟨b, hb⟩ := hre n c hcf adr
    unfold Manager.firstMatch
    simp only [bind_eq, pure_eq]
    rw [run_bind, h1]
    dsimp only
    rw [run_bind, h2]
    dsimp only
    rw [run_bind, run_ofExcept, hb]
    dsimp only
    have huniq : ∀ c', OwnConf w n c' → c' = c := fun c' h' => by
      have e1 := latestConfig_iff.mpr h'
      rw [latestConfig_iff.mpr hcf] at e1
      exact (Option.some.inj e1).symm
    cases b with
    | true => exact ⟨some n, v1, rfl, (fun h => nomatch h), fun a h => by cases h; exact ⟨[], names, rfl, ⟨c, hcf, hb⟩, by simp⟩⟩
    | false =>
      have hno : ¬ OwnAddress env w n adr := by
        rintro ⟨c', h', hm⟩
        rw [huniq c' h', hb] at hm; cases hm
      obtain ⟨o, v', hr, h3, h4⟩ := ih (fun m hm => hall m (List.mem_cons_of_mem _ hm)) v1 hs
      refine ⟨o, v', by rw [if_neg (by simp)]; exact hr, ?_, ?_⟩
      · intro ho m hm
        rcases List.mem_cons.mp hm with rfl | hm
        · exact hno
        · exact h3 ho m hm
      · intro a ha
        obtain ⟨pre, post, he, hm, hpre⟩ := h4 a ha
        refine ⟨n :: pre, post, by rw [he]; rfl, hm, ?_⟩
        intro m hm'
        rcases List.mem_cons.mp hm' with rfl | hm'
        · exact hno
        · exact hpre m hm'

/-- what lookups need to know about a state; holds in all reachable states and in all states during a command -/
structure Sane (env : Env) (w : World Store K) : Prop where
  wf : w.store.Wf
  alnum : ∀ n, w.log (ownHead n) ≠ [] → env.isalnum n = true
  init : ∀ n, w.log (ownHead n) ≠ [] → Initialised w

/-- induction over a history, newest call last -/
theorem reachable_ind {O : Oracle K} {env : Env} {w0 : World Store K} {P : List ApiCall → World Store K → Prop} (h0 : P [] w0)
    (hs : ∀ calls c, P calls (runCalls Store.impl O env calls w0) → P (calls ++ [c]) (exec O (c.prog env) (runCalls Store.impl O env calls w0)).2)
    (calls : List ApiCall) : P calls (runCalls Store.impl O env calls w0) := by
  have key : ∀ l : List ApiCall, P l.reverse (runCalls Store.impl O env l.reverse w0) := by
    intro l
    induction l with
    | nil => exact h0
    | cons c l ih =>
      rw [List.reverse_cons, runCalls_append]
      exact hs _ c ih
  have := key calls.reverse
  rwa [List.reverse_reverse] at this

theorem initialised_initStore {w : World Store K} {s : Store} (h : w.store = initStore s) : Initialised w := by
  unfold Initialised World.log
  rw [h]
  unfold initStore
  split
  · exact ⟨str!"0.1", by rw [Store.get_push, if_pos rfl]; simp⟩
  · rename_i hv
    cases he : Mgr.version (s.get managerHead) with
    | none => rw [he] at hv; exact absurd rfl hv
    | some v =>
      refine ⟨v, ?_⟩
      unfold Mgr.version at he
      have := List.mem_of_mem_head? (Option.mem_def.mpr he)
      obtain ⟨e, h1, h2⟩ := List.mem_filterMap.mp this
      cases e <;> cases h2
      exact h1

/-- updates which keep the manager initialised -/
theorem act_initialised (O : Oracle K) (a : Act) (w : World Store K) (ha : a ≠ .wipe) (h : Initialised w) : Initialised (exec O a.prog w).2 := by
  obtain ⟨v, hv⟩ := h
  refine ⟨v, ?_⟩
  unfold World.log at hv ⊢
  rw [get_act]
  cases a with
  | msg m ad u => dsimp only; rw [if_neg (managerHead_ne_peerHead _ _)]; exact hv
  | gossip m ad u => dsimp only; rw [if_neg (managerHead_ne_peerHead _ _)]; exact hv
  | cfg m x => dsimp only; rw [if_neg (ownHead_ne_managerHead _).symm]; exact hv
  | keygen m x => dsimp only; rw [if_neg (ownHead_ne_managerHead _).symm]; exact hv
  | oob m x => dsimp only; split <;> simp [hv]
  | setVersion => dsimp only; split <;> simp [hv]
  | removeAccount m => dsimp only; rw [if_neg (by rw [matchAccount_managerHead]; simp)]; exact hv
  | wipe => exact absurd rfl ha

/-- updates which add nothing to the logs of accounts -/
theorem act_own (O : Oracle K) (a : Act) (w : World Store K) (hc : ∀ n c, a ≠ .cfg n c) (hk : ∀ n k, a ≠ .keygen n k) (n : Str)
    (h : (exec O a.prog w).2.log (ownHead n) ≠ []) : w.log (ownHead n) ≠ [] := by
  unfold World.log at h ⊢
  rw [get_act] at h
  cases a with
  | msg m ad u => dsimp only at h; rw [if_neg (ownHead_ne_peerHead _ _ _)] at h; exact h
  | gossip m ad u => dsimp only at h; rw [if_neg (ownHead_ne_peerHead _ _ _)] at h; exact h
  | cfg m x => exact absurd rfl (hc m x)
  | keygen m x => exact absurd rfl (hk m x)
  | oob m v => dsimp only at h; rw [if_neg (ownHead_ne_oobHead _ _)] at h; exact h
  | setVersion => dsimp only at h; rw [if_neg (fun h => ownHead_ne_managerHead n h.1)] at h; exact h
  | removeAccount m => dsimp only at h; split at h <;> simp_all
  | wipe => exact absurd rfl h

theorem Reachable.initialised {O : Oracle K} {env : Env} {w : World Store K} (hw : Reachable O env w) {n : Str}
    (h : w.log (ownHead n) ≠ []) : Initialised w := by
  obtain ⟨clock, k, hist, rfl⟩ := hw
  revert h
  refine runHistory_ind (P := fun w => w.log (ownHead n) ≠ [] → Initialised w) hist ?_ ?_ _ (fun h => absurd rfl h)
  · intro w w' h hi
    unfold Initialised World.log at *
    rw [h.1]; exact hi
  intro c _ i w ih
  have keeps : ∀ {β : Type} {p : Prog β} {A : Act → Prop} (j : Nat), Safe A p →
      (∀ a, A a → a ≠ .wipe ∧ (∀ n x, a ≠ .cfg n x) ∧ ∀ n x, a ≠ .keygen n x) →
      (runFor Store.impl O j p w).log (ownHead n) ≠ [] → Initialised (runFor Store.impl O j p w) := by
    intro β p A j hp hA hn
    have := hp.respects_killed (O := O)
      (R := fun w w' => (Initialised w → Initialised w') ∧ ∀ n, w'.log (ownHead n) ≠ [] → w.log (ownHead n) ≠ [])
      (fun _ _ _ h1 h2 => ⟨fun h => h2.1 (h1.1 h), fun n h => h1.2 n (h2.2 n h)⟩)
      (fun w w' hs _ _ _ => ⟨fun h => by unfold Initialised World.log at h ⊢; rw [hs]; exact h,
        fun n h => by unfold World.log at h ⊢; rw [hs] at h; exact h⟩)
      (fun a ha w => ⟨act_initialised O a w (hA a ha).1, act_own O a w (hA a ha).2.1 (hA a ha).2.2⟩) j w
    exact this.1 (ih (this.2 n hn))
  have opened : ∀ {β : Type} (m : Str) (chk : Bool) (f : Str → Prog β) (A : Act → Prop), (∀ a, A a → a ≠ .wipe) → (∀ m, Safe A (f m)) →
      (runFor Store.impl O i ((Manager.getAccount env m chk).bind f) w).log (ownHead n) ≠ [] →
      Initialised (runFor Store.impl O i ((Manager.getAccount env m chk).bind f) w) := by
    intro β m chk f A hA hf
    rcases Safe.runFor_bind Store.impl O i (Manager.getAccount env m chk) f w with he | ⟨a, w1, j, hg, he⟩
    · rw [he]
      exact keeps i (Manager.safe_getAccount env (A := fun a => a = .setVersion) rfl m chk) (by rintro a rfl; simp)
    · rw [he]
      intro _
      have hi := initialised_initStore (getAccount_course hg).1
      exact (hf a).respects_killed (O := O) (R := fun w w' => Initialised w → Initialised w') (fun _ _ _ h1 h2 h => h2 (h1 h))
        (fun w w' hs _ _ _ h => by unfold Initialised World.log at h ⊢; rw [hs]; exact h)
        (fun a ha w => act_initialised O a w (hA a ha)) j w1 hi
  cases c with
  | addAccount n r k b m =>
    show (runFor Store.impl O i (Prog.void (Manager.addAccount env n r k b m)) w).log _ ≠ [] → Initialised (runFor Store.impl O i (Prog.void (Manager.addAccount env n r k b m)) w)
    unfold Manager.addAccount Prog.void; simp only [bind_eq, pure_eq]
    rw [Prog.bind_assoc]
    refine opened n false _ (fun a => a ≠ .wipe) (fun _ h => h) fun x => Safe.void ?_
    refine .bind (.ro (Account.exists_ops permissive_readOnly x)) fun _ => ?_
    split
    · exact .raise _
    · exact .bind ((Account.safe_create env x _ _ _ _).mono fun a ha => by rintro rfl; exact ha.elim) fun _ => .pure _
  | modAccount n r k b p =>
    show (runFor Store.impl O i (Prog.void (Manager.modAccount env n r k b p)) w).log _ ≠ [] → Initialised (runFor Store.impl O i (Prog.void (Manager.modAccount env n r k b p)) w)
    unfold Manager.modAccount Prog.void; simp only [bind_eq, pure_eq]
    rw [Prog.bind_assoc]
    refine opened n true _ (fun a => a ≠ .wipe) (fun _ h => h) fun x => Safe.void ?_
    exact .bind ((Account.safe_modify x _ _ _ _).mono fun a ha => by rintro rfl; exact ha.elim) fun _ => .pure _
  | removeAll =>
    rcases (Safe.late_act .wipe).runFor (O := O) i w with hq | he
    · intro h
      unfold Initialised World.log at *
      change (runFor Store.impl O i Prog.rmtree w).store = _ ∧ _ at hq
      change (runFor Store.impl O i Prog.rmtree w).store.get _ ≠ _ at h
      change ∃ v, _ ∈ (runFor Store.impl O i Prog.rmtree w).store.get _
      rw [hq.1] at h ⊢
      exact ih h
    · intro h
      change (runFor Store.impl O i Prog.rmtree w) = _ at he
      change (runFor Store.impl O i Prog.rmtree w).log _ ≠ _ at h
      rw [he] at h
      exact absurd rfl h
  | _ =>
    refine keeps i (safe_call env _) ?_
    clear keeps opened ih
    intro a ha
    cases a <;> first
      | (refine ⟨?_, ?_, ?_⟩ <;> simp; done)
      | (exfalso; simp [ApiCall.acts, InitAct, Account.ImportAct] at ha; done)
      | (obtain ⟨_, _, ha | ⟨_, _, ha⟩⟩ := ha <;> exact False.elim ha)

theorem Reachable.sane {O : Oracle K} {env : Env} {w : World Store K} (hw : Reachable O env w) : Sane env w :=
  ⟨hw.wf, fun _ h => hw.own_alnum h, fun _ h => hw.initialised h⟩

/-- the names which the loops go through -/
theorem names_props (O : Oracle K) {env : Env} {w : World Store K} (hw : Sane env w) (hh : NoHalfCreated w) :
    ∃ names, run Store.impl O getAccountNames w = (.ok names, w) ∧ names.Pairwise (· ≤ ·) ∧
      (∀ n, n ∈ names ↔ Configured w n) ∧ ∀ n ∈ names, env.isalnum n = true ∧ Configured w n := by
  refine ⟨Py.sorted (stripPrefix (ownHead []) w.store.names), rfl, ?_, ?_⟩
  · exact (pairwise_sorted _).imp fun h => (strLe_iff _ _).mp h
  · have hm : ∀ n, n ∈ Py.sorted (stripPrefix (ownHead []) w.store.names) ↔ Configured w n := fun n =>
      (mem_listed (O := O) hw.wf (listed_eq O w) n).trans ⟨hh n, Configured.log_ne⟩
    exact ⟨hm, fun n hn => ⟨hw.alnum n ((hm n).mp hn).log_ne, (hm n).mp hn⟩⟩

/-- the first in a sorted list is the least -/
theorem firstAccount_of_split {env : Env} {w : World Store K} {names pre post : List Str} {a adr : Str}
    (hp : names.Pairwise (· ≤ ·)) (hm : ∀ n, n ∈ names ↔ Configured w n) (he : names = pre ++ a :: post) (ha : OwnAddress env w a adr)
    (hpre : ∀ n ∈ pre, ¬ OwnAddress env w n adr) : FirstAccount env w adr a := by
  refine ⟨⟨(hm a).mp (by rw [he]; simp), ha⟩, ?_⟩
  rintro b ⟨hb, hba⟩
  have hb' := (hm b).mpr hb
  rw [he] at hb' hp
  rcases List.mem_append.mp hb' with h | h
  · exact absurd hba (hpre b h)
  · rcases List.mem_cons.mp h with rfl | h
    · exact List.le_refl _
    · exact (List.pairwise_cons.mp (List.pairwise_append.mp hp).2.1).1 b h

theorem FirstAccount.unique {env : Env} {w : World Store K} {adr a b : Str} (ha : FirstAccount env w adr a) (hb : FirstAccount env w adr b) :
    a = b := List.le_antisymm (ha.2 b hb.1) (hb.2 a ha.1)

theorem lookup_result {O : Oracle K} (hO : HooksOk O) {env : Env} {w v : World Store K} (hv : SameOwn w v) (hw : Sane env w)
    (hn : run Store.impl O getAccountNames v = ((run Store.impl O getAccountNames w).1, v))
    (hh : NoHalfCreated w) (hre : PatternsValid env w) (adr : Str) (raising : Bool) :
    (∀ a, FirstAccount env w adr a → (run Store.impl O (Manager.getAccountFromEmailadr env adr raising) v).1 = .ok (some a)) ∧
    ((∀ a, ¬ Serves env w a adr) → (run Store.impl O (Manager.getAccountFromEmailadr env adr raising) v).1 =
      if raising then .error .accountNotFound else .ok none) := by
  obtain ⟨names, h1, hp, hm, hall⟩ := names_props O hw hh
  obtain ⟨o, v', h2, h3, h4⟩ := firstMatch_result hO hre adr names hall v hv
  unfold Manager.getAccountFromEmailadr
  simp only [bind_eq, pure_eq]
  rw [run_bind, hn, h1]
  dsimp only
  rw [run_bind, h2]
  dsimp only
  cases o with
  | none =>
    refine ⟨fun a ha => absurd ha.1.2 (h3 rfl a ((hm a).mpr ha.1.1)), fun _ => ?_⟩
    cases raising <;> rfl
  | some a =>
    obtain ⟨pre, post, he, ha, hpre⟩ := h4 a rfl
    have hf := firstAccount_of_split hp hm he ha hpre
    exact ⟨fun b hb => by rw [hb.unique hf]; rfl, fun hno => absurd hf.1 (hno a)⟩

/-- C49, what holds: looking up an account for an address gives the alphabetically first account whose pattern matches, if any;
otherwise None, or AccountNotFound if asked for.

Missing from the full statement: an account with an invalid pattern makes the lookup fail, see `C49_refuted`. -/
theorem C49_lookup_partial {O : Oracle K} (hO : HooksOk O) {env : Env} {w : World Store K} (hw : Reachable O env w)
    (hh : NoHalfCreated w) (hre : PatternsValid env w) (adr : Str) (raising : Bool) :
    (∀ a, FirstAccount env w adr a → (exec O (Manager.getAccountFromEmailadr env adr raising) w).1 = .ok (some a)) ∧
    ((∀ a, ¬ Serves env w a adr) → (exec O (Manager.getAccountFromEmailadr env adr raising) w).1 =
      if raising then .error .accountNotFound else .ok none) :=
  lookup_result hO (fun _ => rfl) hw.sane rfl hh hre adr raising

/-- if some account matches there is a first one, so that one of the cases of C49 applies -/
theorem C49_total {O : Oracle K} {env : Env} {w : World Store K} (hw : Reachable O env w) (adr : Str) :
    (∃ a, FirstAccount env w adr a) ∨ ∀ a, ¬ Serves env w a adr := by
  by_cases h : ∃ a, Serves env w a adr
  · left
    obtain ⟨a, ha⟩ := h
    have hmem : ∀ b, Serves env w b adr → b ∈ Py.sorted (stripPrefix (ownHead []) w.store.names) := fun b hb =>
      (mem_listed (O := O) hw.wf (listed_eq O w) b).mpr hb.1.log_ne
    obtain ⟨f, pre, post, he, hf, hpre⟩ := Newest.of_mem (P := fun b => Serves env w b adr) (hmem a ha) ha
    refine ⟨f, hf, fun b hb => ?_⟩
    have hb' := hmem b hb
    have hp := pairwise_sorted (stripPrefix (ownHead []) w.store.names)
    rw [he] at hb' hp
    rcases List.mem_append.mp hb' with h | h
    · exact absurd hb (hpre b h)
    · rcases List.mem_cons.mp h with rfl | h
      · exact List.le_refl _
      · exact (strLe_iff _ _).mp ((List.pairwise_cons.mp (List.pairwise_append.mp hp).2.1).1 b h)
  · right; exact fun a ha => h ⟨a, ha⟩

/-- two accounts, the first by name with a pattern of its own -/
def Concrete.two : List ApiCall := [Concrete.addB, .addAccount (str!"a") (some (str!"a@")) none (str!"gpg") (str!"own")]

/-! ### Lookups which succeed -/

/-- opening an account and reading its settings, if that works -/
theorem open_sound {O : Oracle K} {env : Env} {w v v1 : World Store K} (hv : SameOwn w v) {n a : Str}
    (h : run Store.impl O (Manager.getAccount env n) v = (.ok a, v1)) : a = n ∧ Configured w n ∧ SameOwn w v1 ∧
      stripPrefix (ownHead []) v1.store.names = stripPrefix (ownHead []) v.store.names ∧
      ∀ r v2, run Store.impl O (Own.config n) v1 = (r, v2) → v2 = v1 ∧ ∀ c, r = .ok c → OwnConf w n c := by
  obtain ⟨hst, hg⟩ := getAccount_course h
  have hs : SameOwn w v1 := fun m => by
    rw [← hv m]; unfold World.log; rw [hst, get_initStore (ownHead_ne_managerHead m)]
  have ha : a = n ∧ Configured v n := by
    generalize hr : (Except.ok a : Except Exc Str) = r at hg
    cases hg <;> cases hr
    rename_i _ hok _
    exact ⟨rfl, hok rfl⟩
  refine ⟨ha.1, (Configured.of_log (hv n)).mp ha.2, hs, by rw [hst, own_names_init], ?_⟩
  intro r v2 hc
  unfold Own.config at hc
  simp only [bind_eq, pure_eq] at hc
  rw [run_bind, run_chain] at hc
  dsimp only at hc
  have : v1.store.get (ownHead n) = w.log (ownHead n) := hs n
  rw [this] at hc
  cases hl : Own.latestConfig (w.log (ownHead n)) with
  | none => rw [hl] at hc; cases hc; exact ⟨rfl, fun _ h => nomatch h⟩
  | some c => rw [hl] at hc; cases hc; exact ⟨rfl, fun c' h => by cases h; exact latestConfig_iff.mp hl⟩

theorem firstMatch_sound {O : Oracle K} {env : Env} {w : World Store K} (adr : Str)
    (names : List Str) (v v' : World Store K) (hv : SameOwn w v) (o : Option Str)
    (h : run Store.impl O (Manager.firstMatch env adr names) v = (.ok o, v')) :
      (o = none → ∀ n ∈ names, ¬ OwnAddress env w n adr) ∧
      ∀ a, o = some a → Configured w a ∧
        ∃ pre post, names = pre ++ a :: post ∧ OwnAddress env w a adr ∧ ∀ n ∈ pre, ¬ OwnAddress env w n adr := by
  induction names generalizing v with
  | nil => cases h; exact ⟨(fun _ n hn => nomatch hn), fun a h => nomatch h⟩
  | cons n names ih =>
    unfold Manager.firstMatch at h
    simp only [bind_eq, pure_eq] at h
    rw [run_bind] at h
    rcases hg : run Store.impl O (Manager.getAccount env n) v with ⟨_ | a, v1⟩ <;> rw [hg] at h <;> dsimp only at h
    · cases h
    obtain ⟨rfl, hcf, hs, -, hcfg⟩ := open_sound hv hg
    rw [run_bind] at h
    rcases hc : run Store.impl O (Own.config a) v1 with ⟨_ | c, v2⟩ <;> rw [hc] at h <;> dsimp only at h
    · cases h
    obtain ⟨rfl, hcc⟩ := hcfg _ _ hc
    have hconf := hcc c rfl
    rw [run_bind, run_ofExcept] at h
    cases hb : env.reMatch c.emailRegex adr with
    | error e => rw [hb] at h; cases h
    | ok b =>
      rw [hb] at h; dsimp only at h
      cases b with
      | true => cases h; exact ⟨(fun h => nomatch h), fun a h => by cases h; exact ⟨hcf, [], names, rfl, ⟨c, hconf, hb⟩, by simp⟩⟩
      | false =>
        have hno : ¬ OwnAddress env w a adr := by
          rintro ⟨c', h', hm⟩
          rw [← hconf.unique h', hb] at hm; cases hm
        rw [if_neg (by simp)] at h
        obtain ⟨h3, h4⟩ := ih _ hs h
        refine ⟨?_, ?_⟩
        · intro ho m hm
          rcases List.mem_cons.mp hm with rfl | hm
          · exact hno
          · exact h3 ho m hm
        · intro b hb
          obtain ⟨hcb, pre, post, he, hm, hpre⟩ := h4 b hb
          refine ⟨hcb, a :: pre, post, by rw [he]; rfl, hm, ?_⟩
          intro m hm'
          rcases List.mem_cons.mp hm' with rfl | hm'
          · exact hno
          · exact hpre m hm'

/-- the first of the sorted names which matches is the first account -/
theorem firstAccount_of_sorted {env : Env} {w : World Store K} {names pre post : List Str} {a adr : Str}
    (hp : names.Pairwise (· ≤ ·)) (hm : ∀ n, n ∈ names ↔ w.log (ownHead n) ≠ []) (he : names = pre ++ a :: post) (hc : Configured w a)
    (ha : OwnAddress env w a adr) (hpre : ∀ n ∈ pre, ¬ OwnAddress env w n adr) : FirstAccount env w adr a := by
  refine ⟨⟨hc, ha⟩, ?_⟩
  rintro b ⟨hb, hba⟩
  have hb' := (hm b).mpr hb.log_ne
  rw [he] at hb' hp
  rcases List.mem_append.mp hb' with h | h
  · exact absurd hba (hpre b h)
  · rcases List.mem_cons.mp h with rfl | h
    · exact List.le_refl _
    · exact (List.pairwise_cons.mp (List.pairwise_append.mp hp).2.1).1 b h

theorem lookup_sound {O : Oracle K} {env : Env} {w v : World Store K} (hw : w.store.Wf) (hv : SameOwn w v)
    (hvn : stripPrefix (ownHead []) v.store.names = stripPrefix (ownHead []) w.store.names) {adr : Str} {raising : Bool} {o : Option Str}
    (h : (run Store.impl O (Manager.getAccountFromEmailadr env adr raising) v).1 = .ok o) :
    (∀ a, o = some a → FirstAccount env w adr a) ∧ (o = none → raising = false ∧ ∀ a, ¬ Serves env w a adr) := by
  unfold Manager.getAccountFromEmailadr at h
  simp only [bind_eq, pure_eq] at h
  rw [run_bind, show run Store.impl O getAccountNames v = (.ok (Py.sorted (stripPrefix (ownHead []) v.store.names)), v) from rfl, hvn] at h
  dsimp only at h
  rw [run_bind] at h
  rcases hf : run Store.impl O (Manager.firstMatch env adr (Py.sorted (stripPrefix (ownHead []) w.store.names))) v with ⟨_ | x, v1⟩ <;>
    rw [hf] at h <;> dsimp only at h
  · cases h
  obtain ⟨h1, h2⟩ := firstMatch_sound adr _ v v1 hv x hf
  have hm : ∀ n, n ∈ Py.sorted (stripPrefix (ownHead []) w.store.names) ↔ w.log (ownHead n) ≠ [] := fun n =>
    mem_listed (O := O) hw (listed_eq O w) n
  cases x with
  | none =>
    cases raising with
    | true => cases h
    | false => cases h; exact ⟨(fun _ h => nomatch h), fun _ => ⟨rfl, fun a ha => h1 rfl a ((hm a).mpr ha.1.log_ne) ha.2⟩⟩
  | some a =>
    cases h
    obtain ⟨hc, pre, post, he, ha, hpre⟩ := h2 a rfl
    exact ⟨fun _ h => by
      cases h
      exact firstAccount_of_sorted ((pairwise_sorted _).imp fun h => (strLe_iff _ _).mp h) hm he hc ha hpre, fun h => nomatch h⟩

/-- C49: in every reachable state, also with incomplete accounts, invalid patterns and failing plugins, an account which a lookup
gives is the alphabetically first one whose pattern matches, and if it gives none then no account matches and it was not asked
to raise -/
theorem C49_sound {O : Oracle K} {env : Env} {w : World Store K} (hw : Reachable O env w) (adr : Str) (raising : Bool) (o : Option Str)
    (h : (exec O (Manager.getAccountFromEmailadr env adr raising) w).1 = .ok o) :
    (∀ a, o = some a → FirstAccount env w adr a) ∧ (o = none → raising = false ∧ ∀ a, ¬ Serves env w a adr) :=
  lookup_sound hw.wf (fun _ => rfl) rfl h

theorem Concrete.reachable (calls : List ApiCall) : Reachable Concrete.oracle Concrete.env (Concrete.after calls) :=
  Concrete.after_reachable calls

theorem Concrete.two_names {n : Str} (h : (Concrete.after Concrete.two).log (ownHead n) ≠ []) : n = str!"a" ∨ n = str!"b" := by
  have h1 : Py.sorted (stripPrefix (ownHead []) (Concrete.after Concrete.two).store.names) = [str!"a", str!"b"] := by decide +kernel
  have := (mem_listed (O := Concrete.oracle) (Concrete.reachable _).wf (listed_eq _ _) n).mpr h
  rw [h1] at this
  simpa using this

theorem Concrete.two_conf {n : Str} {c : OwnConfig} (h : OwnConf (Concrete.after Concrete.two) n c) : c.emailRegex ≠ str!"(" := by
  have hne : (Concrete.after Concrete.two).log (ownHead n) ≠ [] := by intro h0; have := h.mem; rw [h0] at this; cases this
  have h1 := latestConfig_iff.mpr h
  rcases Concrete.two_names hne with rfl | rfl
  · rw [show Own.latestConfig ((Concrete.after Concrete.two).log (ownHead (str!"a"))) =
      some (newConf (str!"a") (some (str!"a@")) (str!"gpg") .own) by decide +kernel] at h1
    cases h1; decide
  · rw [show Own.latestConfig ((Concrete.after Concrete.two).log (ownHead (str!"b"))) =
      some (newConf (str!"b") none (str!"gpg") .own) by decide +kernel] at h1
    cases h1; decide

/-- the hypotheses of C49 hold for them -/
theorem Concrete.two_ok : NoHalfCreated (Concrete.after Concrete.two) ∧ PatternsValid Concrete.env (Concrete.after Concrete.two) := by
  constructor
  · intro n h
    rcases Concrete.two_names h with rfl | rfl
    · exact isConfigured_iff.mp (by decide +kernel)
    · exact isConfigured_iff.mp (by decide +kernel)
  · intro n c h s
    exact ⟨_, if_neg (Concrete.two_conf h)⟩

/-- both accounts match the first address, only "b" the second -/
example : (exec Concrete.oracle (Manager.getAccountFromEmailadr Concrete.env (str!"a@x.org") true) (Concrete.after Concrete.two)).1 =
      .ok (some (str!"a")) ∧
    (exec Concrete.oracle (Manager.getAccountFromEmailadr Concrete.env (str!"c@x.org") true) (Concrete.after Concrete.two)).1 =
      .ok (some (str!"b")) :=
  ⟨Except.eq_ok_of_toOption (by decide +kernel), Except.eq_ok_of_toOption (by decide +kernel)⟩

/-- C49 is false if a pattern is invalid: no account is found for an address which another account serves -/
theorem C49_refuted : ∃ calls, (exec Concrete.oracle (Manager.getAccountFromEmailadr Concrete.env (str!"c@x.org") true)
      (Concrete.after calls)).1 = .error .reError ∧
    Configured (Concrete.after calls) (str!"a") ∧ Serves Concrete.env (Concrete.after calls) (str!"b") (str!"c@x.org") := by
  refine ⟨[Concrete.addB, .addAccount (str!"a") (some (str!"(")) none (str!"gpg") (str!"own")], Except.eq_error_of_exc? (by decide +kernel),
    isConfigured_iff.mp (by decide +kernel), isConfigured_iff.mp (by decide +kernel), newConf (str!"b") none (str!"gpg") .own,
    latestConfig_iff.mp (by decide +kernel), rfl⟩

/-! ## C50 -/

/-- collecting the patterns -/
theorem patterns_result {O : Oracle K} (hO : HooksOk O) {env : Env} {w : World Store K}
    (names : List Str) (hall : ∀ n ∈ names, env.isalnum n = true ∧ Configured w n) (v : World Store K) (hv : SameOwn w v)
    (hvn : stripPrefix (ownHead []) v.store.names = stripPrefix (ownHead []) w.store.names) :
    ∃ l v', run Store.impl O (Manager.patterns env names) v = (.ok l, v') ∧ SameOwn w v' ∧
      stripPrefix (ownHead []) v'.store.names = stripPrefix (ownHead []) w.store.names ∧
      List.Forall₂ (fun n p => p.2 = n ∧ ∃ c, OwnConf w n c ∧ p.1 = c.emailRegex) names l := by
  induction names generalizing v with
  | nil => exact ⟨[], v, rfl, hv, hvn, .nil⟩
  | cons n names ih =>
    obtain ⟨hal, hc⟩ := hall n (List.mem_cons_self ..)
    obtain ⟨v1, h1, hs, c, hcf, h2⟩ := open_conf hO hv hal hc
    have hn1 : stripPrefix (ownHead []) v1.store.names = stripPrefix (ownHead []) w.store.names := by
      rw [(getAccount_course h1).1, own_names_init, hvn]
    obtain ⟨l, v', h3, h4, h5, h6⟩ := ih (fun m hm => hall m (List.mem_cons_of_mem _ hm)) v1 hs hn1
    refine ⟨(c.emailRegex, n) :: l, v', ?_, h4, h5, .cons ⟨rfl, c, hcf, rfl⟩ h6⟩
    unfold Manager.patterns
    simp only [bind_eq, pure_eq]
    rw [run_bind, h1]
    dsimp only
    rw [run_bind, h2]
    dsimp only
    rw [run_bind, h3]; rfl

theorem matchPatterns_result {env : Env} {w : World Store K} (hre : PatternsValid env w) (adr : Str) {names : List Str} {l : List (Str × Str)}
    (h : List.Forall₂ (fun n p => p.2 = n ∧ ∃ c, OwnConf w n c ∧ p.1 = c.emailRegex) names l) :
    ∃ o, Manager.matchPatterns env adr l = .ok o ∧ (o = none → ∀ n ∈ names, ¬ OwnAddress env w n adr) ∧
      ∀ a, o = some a → ∃ pre post, names = pre ++ a :: post ∧ OwnAddress env w a adr ∧ ∀ n ∈ pre, ¬ OwnAddress env w n adr := by
  induction h with
  | nil => exact ⟨none, rfl, (fun _ n hn => nomatch hn), fun a h => nomatch h⟩
  | @cons n p names l hp _ ih =>
    obtain ⟨r, m⟩ := p
    obtain ⟨rfl, c, hcf, hr⟩ := hp
    dsimp only at hr hcf ⊢
    subst hr
    obtain ⟨b, hb⟩ := hre m c hcf adr
    unfold Manager.matchPatterns
    rw [hb]
    cases b with
    | true => exact ⟨some m, rfl, (fun h => nomatch h), fun a h => by cases h; exact ⟨[], names, rfl, ⟨c, hcf, hb⟩, by simp⟩⟩
    | false =>
      have hno : ¬ OwnAddress env w m adr := by
        rintro ⟨c', h', hm⟩
        have e1 := latestConfig_iff.mpr h'
        rw [latestConfig_iff.mpr hcf] at e1
        rw [← Option.some.inj e1, hb] at hm; cases hm
      obtain ⟨o, h2, h3, h4⟩ := ih
      refine ⟨o, h2, ?_, ?_⟩
      · intro ho n' hm
        rcases List.mem_cons.mp hm with rfl | hm
        · exact hno
        · exact h3 ho n' hm
      · intro a ha
        obtain ⟨pre, post, he, hm, hpre⟩ := h4 a ha
        refine ⟨m :: pre, post, by rw [he]; rfl, hm, ?_⟩
        intro n' hm'
        rcases List.mem_cons.mp hm' with rfl | hm'
        · exact hno
        · exact hpre n' hm'

/-- some account serves one of the recipients -/
def Routed (env : Env) (w : World Store K) (m : Msg) : Prop := ∃ r ∈ recipients env m, ∃ a, Serves env w a (env.lower r)

/-- `a` is the account for the first recipient which any account serves -/
def RoutedTo (env : Env) (w : World Store K) (m : Msg) (a : Str) : Prop :=
  ∃ before r after, recipients env m = before ++ r :: after ∧ FirstAccount env w (env.lower r) a ∧
    ∀ r' ∈ before, ∀ b, ¬ Serves env w b (env.lower r')

/-- routing in a sane state -/
theorem routing_result {O : Oracle K} (hO : HooksOk O) {env : Env} {w : World Store K} (hw : Sane env w)
    (hh : NoHalfCreated w) (hre : PatternsValid env w) (m : Msg) {r : Except Exc (Option Str)}
    (h : (exec O (Manager.getMatchingAccount env m) w).1 = r) :
    (∀ a, RoutedTo env w m a → r = .ok (some a)) ∧
    (¬ Routed env w m → ∀ d, d = Mime.parseEmailAddr env (m.get (str!"Delivered-To")) →
      (d = [] → r = .error .valueError) ∧
      (d ≠ [] → (∀ a, FirstAccount env w d a → r = .ok (some a)) ∧ ((∀ a, ¬ Serves env w a d) → r = .error .accountNotFound))) := by
  obtain ⟨names, h1, hp, hm, hall⟩ := names_props O hw hh
  obtain ⟨l, v, h2, hs, hvn, hl⟩ := patterns_result hO names hall w (fun _ => rfl) rfl
  have hrec : Mime.getTargetEmailadr env m = recipients env m := rfl
  unfold Manager.getMatchingAccount exec at h
  simp only [bind_eq, pure_eq] at h
  rw [run_bind, h1] at h
  dsimp only at h
  rw [run_bind, h2] at h
  dsimp only at h
  rw [run_bind, run_ofExcept, hrec] at h
  have key : ∀ rs : List Str,
      (∃ before r after a, rs = before ++ r :: after ∧ Manager.matchAddrs env l rs = .ok (some a) ∧ FirstAccount env w (env.lower r) a ∧
        ∀ r' ∈ before, ∀ b, ¬ Serves env w b (env.lower r')) ∨
      (Manager.matchAddrs env l rs = .ok none ∧ ∀ r' ∈ rs, ∀ b, ¬ Serves env w b (env.lower r')) := by
    intro rs
    induction rs with
    | nil => exact Or.inr ⟨rfl, fun _ h => nomatch h⟩
    | cons x rs ih =>
      obtain ⟨o, h3, h4, h5⟩ := matchPatterns_result hre (env.lower x) hl
      unfold Manager.matchAddrs
      rw [h3]
      cases o with
      | some a =>
        obtain ⟨pre, post, he, ha, hpre⟩ := h5 a rfl
        exact Or.inl ⟨[], x, rs, a, rfl, rfl, firstAccount_of_split hp hm he ha hpre, by simp⟩
      | none =>
        have hno : ∀ b, ¬ Serves env w b (env.lower x) := fun b hb => h4 rfl b ((hm b).mpr hb.1) hb.2
        rcases ih with ⟨bf, r, af, a, e1, e2, e3, e4⟩ | ⟨e1, e2⟩
        · refine Or.inl ⟨x :: bf, r, af, a, by rw [e1]; rfl, e2, e3, ?_⟩
          intro r' hr'
          rcases List.mem_cons.mp hr' with rfl | hr'
          · exact hno
          · exact e4 r' hr'
        · refine Or.inr ⟨e1, ?_⟩
          intro r' hr'
          rcases List.mem_cons.mp hr' with rfl | hr'
          · exact hno
          · exact e2 r' hr'
  rcases key (recipients env m) with ⟨bf, x, af, a, e1, e2, e3, e4⟩ | ⟨e1, e2⟩
  · rw [e2] at h
    have hr : r = .ok (some a) := h.symm
    refine ⟨?_, fun hno => absurd ⟨x, by rw [e1]; simp, a, e3.1⟩ hno⟩
    rintro b ⟨bf', x', af', f1, f2, f3⟩
    rw [hr]
    rw [e1] at f1
    rcases List.append_eq_append_iff.mp f1 with ⟨c, g1, g2⟩ | ⟨c, g1, g2⟩
    · cases c with
      | nil => cases g2; rw [f2.unique e3]
      | cons y c => cases g2; exact absurd e3.1 (f3 x (by rw [g1]; simp) a)
    · cases c with
      | nil => cases g2; rw [f2.unique e3]
      | cons y c => cases g2; exact absurd f2.1 (e4 x' (by rw [g1]; simp) b)
  · rw [e1] at h
    dsimp only at h
    refine ⟨?_, fun _ d hd => ?_⟩
    · rintro a ⟨bf', x', af', f1, f2, f3⟩
      exact absurd f2.1 (e2 x' (by rw [f1]; simp) a)
    · unfold Mime.getDeliveredTo at h
      simp only [Option.getD_none, List.isEmpty_nil, Bool.not_true, Bool.and_false, Bool.false_eq_true, if_false, ← hd] at h
      constructor
      · intro h0
        rw [h0] at h
        exact h.symm
      · intro h0
        rw [if_neg (by simpa using h0), run_bind, run_ofExcept] at h
        dsimp only at h
        have := lookup_result hO hs hw (by
          show (Except.ok (Py.sorted (stripPrefix (ownHead []) v.store.names)), v) = _
          rw [hvn]; rfl) hh hre d true
        rw [h] at this
        exact this

/-! ### Routing which succeeds -/

theorem patterns_sound {O : Oracle K} {env : Env} {w : World Store K}
    (names : List Str) (v v' : World Store K) (hv : SameOwn w v)
    (hvn : stripPrefix (ownHead []) v.store.names = stripPrefix (ownHead []) w.store.names) (l : List (Str × Str))
    (h : run Store.impl O (Manager.patterns env names) v = (.ok l, v')) : SameOwn w v' ∧
      stripPrefix (ownHead []) v'.store.names = stripPrefix (ownHead []) w.store.names ∧
      List.Forall₂ (fun n p => Configured w n ∧ p.2 = n ∧ ∃ c, OwnConf w n c ∧ p.1 = c.emailRegex) names l := by
  induction names generalizing v l with
  | nil => cases h; exact ⟨hv, hvn, .nil⟩
  | cons n names ih =>
    unfold Manager.patterns at h
    simp only [bind_eq, pure_eq] at h
    rw [run_bind] at h
    rcases hg : run Store.impl O (Manager.getAccount env n) v with ⟨_ | a, v1⟩ <;> rw [hg] at h <;> dsimp only at h
    · cases h
    obtain ⟨rfl, hcf, hs, hn1, hcfg⟩ := open_sound hv hg
    rw [run_bind] at h
    rcases hc : run Store.impl O (Own.config a) v1 with ⟨_ | c, v2⟩ <;> rw [hc] at h <;> dsimp only at h
    · cases h
    obtain ⟨rfl, hcc⟩ := hcfg _ _ hc
    rw [run_bind] at h
    rcases hr : run Store.impl O (Manager.patterns env names) v2 with ⟨_ | l', v3⟩ <;> rw [hr] at h <;> dsimp only at h
    · cases h
    cases h
    obtain ⟨h4, h5, h6⟩ := ih v2 hs (hn1.trans hvn) l' hr
    exact ⟨h4, h5, .cons ⟨hcf, rfl, c, hcc c rfl, rfl⟩ h6⟩

theorem matchPatterns_sound {env : Env} {w : World Store K} (adr : Str) {names : List Str} {l : List (Str × Str)}
    (h : List.Forall₂ (fun n p => Configured w n ∧ p.2 = n ∧ ∃ c, OwnConf w n c ∧ p.1 = c.emailRegex) names l) (o : Option Str)
    (ho : Manager.matchPatterns env adr l = .ok o) :
      (o = none → ∀ n ∈ names, ¬ OwnAddress env w n adr) ∧
      ∀ a, o = some a → Configured w a ∧
        ∃ pre post, names = pre ++ a :: post ∧ OwnAddress env w a adr ∧ ∀ n ∈ pre, ¬ OwnAddress env w n adr := by
  induction h with
  | nil => cases ho; exact ⟨(fun _ n hn => nomatch hn), fun a h => nomatch h⟩
  | @cons n p names l hp _ ih =>
    obtain ⟨r, m⟩ := p
    obtain ⟨hconf, rfl, c, hcf, hr⟩ := hp
    dsimp only at hr hcf hconf ⊢
    subst hr
    unfold Manager.matchPatterns at ho
    cases hb : env.reMatch c.emailRegex adr with
    | error e => rw [hb] at ho; cases ho
    | ok b =>
      rw [hb] at ho
      cases b with
      | true => cases ho; exact ⟨(fun h => nomatch h), fun a h => by cases h; exact ⟨hconf, [], names, rfl, ⟨c, hcf, hb⟩, by simp⟩⟩
      | false =>
        have hno : ¬ OwnAddress env w m adr := by
          rintro ⟨c', h', hm⟩
          rw [← hcf.unique h', hb] at hm; cases hm
        obtain ⟨h3, h4⟩ := ih ho
        refine ⟨?_, ?_⟩
        · intro ho n' hm
          rcases List.mem_cons.mp hm with rfl | hm
          · exact hno
          · exact h3 ho n' hm
        · intro a ha
          obtain ⟨hca, pre, post, he, hm, hpre⟩ := h4 a ha
          refine ⟨hca, m :: pre, post, by rw [he]; rfl, hm, ?_⟩
          intro n' hm'
          rcases List.mem_cons.mp hm' with rfl | hm'
          · exact hno
          · exact hpre n' hm'

theorem matchAddrs_sound {env : Env} {w : World Store K} {names : List Str} {l : List (Str × Str)}
    (hp : names.Pairwise (· ≤ ·)) (hn : ∀ n, n ∈ names ↔ w.log (ownHead n) ≠ [])
    (h : List.Forall₂ (fun n p => Configured w n ∧ p.2 = n ∧ ∃ c, OwnConf w n c ∧ p.1 = c.emailRegex) names l) (rs : List Str) (o : Option Str)
    (ho : Manager.matchAddrs env l rs = .ok o) :
      (o = none → ∀ r ∈ rs, ∀ a, ¬ Serves env w a (env.lower r)) ∧
      ∀ a, o = some a → ∃ before r after, rs = before ++ r :: after ∧ FirstAccount env w (env.lower r) a ∧
        ∀ r' ∈ before, ∀ b, ¬ Serves env w b (env.lower r') := by
  induction rs with
  | nil => cases ho; exact ⟨(fun _ n hn => nomatch hn), fun a h => nomatch h⟩
  | cons r rs ih =>
    unfold Manager.matchAddrs at ho
    cases hm : Manager.matchPatterns env (env.lower r) l with
    | error e => rw [hm] at ho; cases ho
    | ok x =>
      rw [hm] at ho
      obtain ⟨h1, h2⟩ := matchPatterns_sound (env.lower r) h x hm
      cases x with
      | some a =>
        cases ho
        obtain ⟨hca, pre, post, he, ha, hpre⟩ := h2 a rfl
        exact ⟨(fun h => nomatch h), fun b hb => by
          cases hb
          exact ⟨[], r, rs, rfl, firstAccount_of_sorted hp hn he hca ha hpre, by simp⟩⟩
      | none =>
        have hno : ∀ a, ¬ Serves env w a (env.lower r) := fun a ha => h1 rfl a ((hn a).mpr ha.1.log_ne) ha.2
        obtain ⟨h3, h4⟩ := ih ho
        refine ⟨fun h0 r' hr' => ?_, fun a ha => ?_⟩
        · rcases List.mem_cons.mp hr' with rfl | hr'
          · exact hno
          · exact h3 h0 r' hr'
        · obtain ⟨before, r1, after, he, hf, hb⟩ := h4 a ha
          refine ⟨r :: before, r1, after, by rw [he]; rfl, hf, ?_⟩
          intro r' hr'
          rcases List.mem_cons.mp hr' with rfl | hr'
          · exact hno
          · exact hb r' hr'

theorem routing_sound {O : Oracle K} {env : Env} {w : World Store K} (hw : w.store.Wf) (m : Msg) {o : Option Str}
    (h : (exec O (Manager.getMatchingAccount env m) w).1 = .ok o) :
    ∃ a, o = some a ∧ (RoutedTo env w m a ∨
      (¬ Routed env w m ∧ FirstAccount env w (Mime.parseEmailAddr env (m.get (str!"Delivered-To"))) a ∧
        Mime.parseEmailAddr env (m.get (str!"Delivered-To")) ≠ [])) := by
  unfold Manager.getMatchingAccount exec at h
  simp only [bind_eq, pure_eq] at h
  rw [run_bind, show run Store.impl O getAccountNames w = (.ok (Py.sorted (stripPrefix (ownHead []) w.store.names)), w) from rfl] at h
  dsimp only at h
  have hm : ∀ n, n ∈ Py.sorted (stripPrefix (ownHead []) w.store.names) ↔ w.log (ownHead n) ≠ [] := fun n =>
    mem_listed (O := O) hw (listed_eq O w) n
  have hp : (Py.sorted (stripPrefix (ownHead []) w.store.names)).Pairwise (· ≤ ·) :=
    (pairwise_sorted _).imp fun h => (strLe_iff _ _).mp h
  rw [run_bind] at h
  rcases hl : run Store.impl O (Manager.patterns env (Py.sorted (stripPrefix (ownHead []) w.store.names))) w with ⟨_ | l, v⟩ <;>
    rw [hl] at h <;> dsimp only at h
  · cases h
  obtain ⟨hs, hvn, hf⟩ := patterns_sound _ w v (fun _ => rfl) rfl l hl
  rw [run_bind, run_ofExcept] at h
  cases hx : Manager.matchAddrs env l (Mime.getTargetEmailadr env m) with
  | error e => rw [hx] at h; cases h
  | ok x =>
    rw [hx] at h; dsimp only at h
    obtain ⟨h1, h2⟩ := matchAddrs_sound hp hm hf _ x hx
    cases x with
    | some a => cases h; exact ⟨a, rfl, .inl (h2 a rfl)⟩
    | none =>
      dsimp only at h
      have hno : ¬ Routed env w m := by
        rintro ⟨r, hr, a, ha⟩
        exact h1 rfl r hr a ha
      rw [run_bind, run_ofExcept] at h
      unfold Mime.getDeliveredTo at h
      simp only [Option.getD_none, List.isEmpty_nil, Bool.not_true, Bool.and_false, Bool.false_eq_true, if_false] at h
      by_cases h0 : Mime.parseEmailAddr env (m.get (str!"Delivered-To")) = []
      · rw [h0] at h; cases h
      · rw [if_neg (by simpa using h0)] at h
        dsimp only at h
        obtain ⟨h3, h4⟩ := lookup_sound hw hs hvn h
        cases o with
        | none => exact nomatch (h4 rfl).1
        | some a => exact ⟨a, rfl, .inr ⟨hno, h3 a rfl, h0⟩⟩

/-- C50: in every reachable state, also with incomplete accounts, invalid patterns and failing plugins, if incoming mail is
routed then to the account for the first recipient which any account serves, or if there is none to the account for Delivered-To -/
theorem C50_sound {O : Oracle K} {env : Env} {w : World Store K} (hw : Reachable O env w) (m : Msg) (o : Option Str)
    (h : (exec O (Manager.getMatchingAccount env m) w).1 = .ok o) :
    ∃ a, o = some a ∧ (RoutedTo env w m a ∨
      (¬ Routed env w m ∧ FirstAccount env w (address env (m.get (str!"Delivered-To"))) a ∧
        address env (m.get (str!"Delivered-To")) ≠ [])) :=
  routing_sound hw.wf m h

/-- C50, what holds: for incoming mail the account is the first match over recipients in header order and accounts in name
order. If no recipient matches, it is the one for the address in Delivered-To; without such an address the call raises
ValueError, and AccountNotFound if no account serves it.

Missing from the full statement: states with half-created accounts or invalid patterns, see `C50_refuted`. -/
theorem C50_routing_partial {O : Oracle K} (hO : HooksOk O) {env : Env} {w : World Store K} (hw : Reachable O env w)
    (hh : NoHalfCreated w) (hre : PatternsValid env w) (m : Msg) {r : Except Exc (Option Str)}
    (h : (exec O (Manager.getMatchingAccount env m) w).1 = r) :
    (∀ a, RoutedTo env w m a → r = .ok (some a)) ∧
    (¬ Routed env w m → ∀ d, d = address env (m.get (str!"Delivered-To")) →
      (d = [] → r = .error .valueError) ∧
      (d ≠ [] → (∀ a, FirstAccount env w d a → r = .ok (some a)) ∧ ((∀ a, ¬ Serves env w a d) → r = .error .accountNotFound))) :=
  routing_result hO hw.sane hh hre m h

/-- "a@x.org" in To goes to "a", "c@x.org" to "b"; without recipients Delivered-To decides -/
example : (exec Concrete.oracle (Manager.getMatchingAccount Concrete.env (Concrete.mail (str!"z@x.org") (str!"1") (str!"1") []))
      (Concrete.after Concrete.two)).1 = .ok (some (str!"a")) ∧
    (exec Concrete.oracle (Manager.getMatchingAccount Concrete.env (.mk [(str!"To", str!"c@x.org"), (str!"Cc", str!"a@x.org")] .none))
      (Concrete.after Concrete.two)).1 = .ok (some (str!"b")) ∧
    (exec Concrete.oracle (Manager.getMatchingAccount Concrete.env (.mk [(str!"Delivered-To", str!"a@x.org")] .none))
      (Concrete.after Concrete.two)).1 = .ok (some (str!"a")) :=
  ⟨Except.eq_ok_of_toOption (by decide +kernel), Except.eq_ok_of_toOption (by decide +kernel), Except.eq_ok_of_toOption (by decide +kernel)⟩

/-- C50 is false in a state with a half-created account: mail to an address which "b" serves is not routed -/
theorem C50_refuted : ∃ m, RoutedTo Concrete.env (Concrete.after [Concrete.addB, Concrete.addFails]) m (str!"b") ∧
    (exec Concrete.oracle (Manager.getMatchingAccount Concrete.env m) (Concrete.after [Concrete.addB, Concrete.addFails])).1 =
      .error .accountNotFound := by
  refine ⟨.mk [(str!"To", str!"c@x.org")] .none, ?_, Except.eq_error_of_exc? (by decide +kernel)⟩
  have hb : Configured (Concrete.after [Concrete.addB, Concrete.addFails]) (str!"b") := isConfigured_iff.mp (by decide +kernel)
  have ha : ¬ Configured (Concrete.after [Concrete.addB, Concrete.addFails]) (str!"a") := by
    rw [← isConfigured_iff]; decide +kernel
  refine ⟨[], str!"c@x.org", [], by decide +kernel, ⟨⟨hb, newConf (str!"b") none (str!"gpg") .own, latestConfig_iff.mp (by decide +kernel), rfl⟩, ?_⟩,
    by simp⟩
  rintro b ⟨hc, -⟩
  have h1 : Py.sorted (stripPrefix (ownHead []) (Concrete.after [Concrete.addB, Concrete.addFails]).store.names) = [str!"a", str!"b"] := by
    decide +kernel
  have := (mem_listed (O := Concrete.oracle) (Concrete.reachable _).wf (listed_eq _ _) b).mpr hc.log_ne
  rw [h1] at this
  rcases List.mem_cons.mp this with rfl | h
  · exact absurd hc ha
  · rw [List.mem_singleton.mp h]; exact List.le_refl _

end Verif
