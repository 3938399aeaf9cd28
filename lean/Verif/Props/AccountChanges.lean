import Verif.Props.Accounts
/-!
# Adding, changing and deleting accounts (C44 - C48)
-/
namespace Verif
open BinGPG

variable {σ K : Type}

/-- the plugins raise no exceptions when an account is opened -/
def HooksOk (O : Oracle K) : Prop := ∀ b k, (O.step (.hookInstantiate b) k).1 = .ok ()

/-- every event was answered by the environment -/
theorem run_answers {S : StoreImpl σ} {O : Oracle K} {α : Type} (p : Prog α) (w : World σ K) :
    Events (fun ev => ∃ o k, ev = ⟨o, (O.step o k).1⟩) w (run S O p w).2 := by
  induction p generalizing w with
  | pure a => exact .rfl'
  | raise e => exact .rfl'
  | op o k ih =>
    simp only [run]
    refine Events.trans ?_ (ih _ _)
    cases o with
    | ext o => exact ⟨[⟨o, (O.step o w.env).1⟩], rfl, fun ev hev => ⟨o, w.env, List.mem_singleton.mp hev⟩⟩
    | _ => exact .of_trace_eq rfl

theorem HooksOk.event {O : Oracle K} (hO : HooksOk O) {α : Type} {p : Prog α} {w w' : World Store K} {r : Except Exc α} {env : Env} {n : Str}
    {e : Exc} (h : exec O p w = (r, w')) (htr : w'.trace = Event.instantiate env n (.error e) :: w.trace) : False := by
  have := run_answers (S := Store.impl) (O := O) p w
  simp only [exec] at h
  rw [h] at this
  obtain ⟨o, k, hev⟩ := this.all (new := [_]) htr _ (List.mem_singleton.mpr rfl)
  unfold Event.instantiate at hev
  injection hev with h1 h2
  subst h1
  rw [hO] at h2
  cases h2

theorem Concrete.hooksOk : HooksOk Concrete.oracle := fun _ _ => rfl

/-- the names which `list_account_names` gives -/
def listed (O : Oracle K) (w : World Store K) : Except Exc (List Str) := (exec O getAccountNames w).1

/-- settings of an account are only stored under alphanumeric names -/
theorem Reachable.own_alnum {O : Oracle K} {env : Env} {w : World Store K} (hw : Reachable O env w) {n : Str}
    (h : w.log (ownHead n) ≠ []) : env.isalnum n = true := by
  have := reachable_inv (O := O) (env := env) (I := fun s => ∀ n, s.get (ownHead n) ≠ [] → env.isalnum n = true)
    (fun n h => absurd rfl h) ?_ hw
  · exact this n h
  · intro c a ha w hI n hne
    rw [get_act] at hne
    have hcfg : ∀ m x, a = .cfg m x → env.isalnum m = true := by
      rintro m x rfl
      cases c <;> simp_all [ApiCall.acts, InitAct, OwnAct, CfgAct, Account.IncomingAct, Account.HeaderAct,
        Account.GossipAct, Account.ImportAct]
    have hkey : ∀ m x, a = .keygen m x → env.isalnum m = true := by
      rintro m x rfl
      cases c <;> simp_all [ApiCall.acts, InitAct, OwnAct, CfgAct, Account.IncomingAct, Account.HeaderAct,
        Account.GossipAct, Account.ImportAct]
    cases a with
    | cfg m x =>
      by_cases he : ownHead n = ownHead m
      · rw [ownHead_inj.mp he]; exact hcfg m x rfl
      · dsimp only at hne; rw [if_neg he] at hne; exact hI n hne
    | keygen m x =>
      by_cases he : ownHead n = ownHead m
      · rw [ownHead_inj.mp he]; exact hkey m x rfl
      · dsimp only at hne; rw [if_neg he] at hne; exact hI n hne
    | msg m ad u => dsimp only at hne; rw [if_neg (ownHead_ne_peerHead _ _ _)] at hne; exact hI n hne
    | gossip m ad u => dsimp only at hne; rw [if_neg (ownHead_ne_peerHead _ _ _)] at hne; exact hI n hne
    | oob m v => dsimp only at hne; rw [if_neg (ownHead_ne_oobHead _ _)] at hne; exact hI n hne
    | setVersion =>
      dsimp only at hne
      rw [if_neg (fun h => ownHead_ne_managerHead n h.1)] at hne; exact hI n hne
    | removeAccount m =>
      dsimp only at hne
      split at hne
      · exact absurd rfl hne
      · exact hI n hne
    | wipe => exact absurd rfl hne

theorem Configured.log_ne {w : World Store K} {n : Str} (h : Configured w n) : w.log (ownHead n) ≠ [] := by
  obtain ⟨⟨c, hc⟩, _⟩ := h
  intro h0; rw [h0] at hc; cases hc

theorem Configured.of_log {w w' : World Store K} {n : Str} (h : w'.log (ownHead n) = w.log (ownHead n)) :
    Configured w' n ↔ Configured w n := by unfold Configured; rw [h]

theorem listed_eq (O : Oracle K) (w : World Store K) :
    listed O w = .ok (Py.sorted (stripPrefix (ownHead []) w.store.names)) := rfl

/-- an account is listed iff something is stored about it -/
theorem mem_listed {O : Oracle K} {w : World Store K} (hw : w.store.Wf) {l : List Str} (hl : listed O w = .ok l) (n : Str) :
    n ∈ l ↔ w.log (ownHead n) ≠ [] := by
  rw [listed_eq] at hl
  cases hl
  rw [mem_sorted, mem_stripPrefix, hw.2]; rfl

theorem initStore_wf {s : Store} (h : s.Wf) : (initStore s).Wf := by
  unfold initStore; split
  · exact h.push _ _
  · exact h

theorem own_names_init (s : Store) : stripPrefix (ownHead []) (initStore s).names = stripPrefix (ownHead []) s.names := by
  unfold initStore
  split
  · rw [Store.names_push]
    split
    · rfl
    · unfold stripPrefix
      rw [List.filter_append, show List.filter (Py.startsWith (ownHead [])) [managerHead] = [] by decide, List.append_nil]
  · rfl

theorem run_wf {O : Oracle K} {env : Env} {w : World Store K} (hw : Reachable O env w) (c : ApiCall) :
    (exec O (c.prog env) w).2.store.Wf := by
  have : Reachable O env (runCalls Store.impl O env [c] w) := hw.runCalls [c]
  exact this.wf

/-! ## C44 -/

/-- C44: adding an account under a name in use raises AccountExists, or an exception of a plugin. Nothing is changed, except
that the manager is initialised if it was not, and nothing happens outside except that plugins are told: no gpg command
runs. -/
theorem C44_exists {O : Oracle K} {env : Env} {w : World Store K} (hw : Reachable O env w) {n : Str} (hc : Configured w n)
    (regex kh : Option Str) (bin mode : Str) {w' : World Store K} {r : Except Exc Str}
    (h : exec O (Manager.addAccount env n regex kh bin mode) w = (r, w')) :
    (∃ ret : Except Exc Unit, w'.trace = Event.instantiate env n ret :: w.trace ∧
      (ret = .ok () → r = .error .accountExists) ∧ ∀ e, ret = .error e → r = .error e) ∧
    (∀ hd, hd ≠ managerHead → w'.log hd = w.log hd) ∧ (Initialised w → w'.store = w.store) ∧ listed O w' = listed O w := by
  have hal := hw.own_alnum hc.log_ne
  have hsame : w'.store = initStore w.store → (∀ hd, hd ≠ managerHead → w'.log hd = w.log hd) ∧
      (Initialised w → w'.store = w.store) ∧ listed O w' = listed O w := by
    intro hst
    refine ⟨fun hd hne => by unfold World.log; rw [hst, get_initStore hne], fun hi => by rw [hst, initStore_of_initialised hi], ?_⟩
    rw [listed_eq, listed_eq, hst]
    rw [own_names_init]
  cases addAccount_course h with
  | noOpen e hg hst =>
    refine ⟨?_, hsame hst⟩
    cases hg with
    | badName h1 _ => rw [hal] at h1; cases h1
    | notFound _ h1 => cases h1
    | plugin e _ _ htr => exact ⟨_, htr, (fun h => by cases h), fun e' he => by cases he; rfl⟩
  | exists_ _ _ htr hst => exact ⟨⟨_, htr, fun _ => rfl, fun e he => by cases he⟩, hsame hst⟩
  | badMode h1 => exact absurd hc h1
  | noKey _ _ h1 => exact absurd hc h1
  | added _ _ _ h1 => exact absurd hc h1

/-- an account is added twice -/
example : Configured (Concrete.after [Concrete.addA]) (str!"a") := isConfigured_iff.mp (by decide +kernel)

/-! ## C45 -/

/-- C45: after adding an account succeeds it exists and is listed, and has the requested settings and the key which gpg
reported; no account existed under that name before. Peers stored under the name before are kept, so there are none if
the name was fresh, and all that is stored about other accounts is unchanged. -/
theorem C45_added {O : Oracle K} {env : Env} {w : World Store K} (hw : Reachable O env w) {n n' : Str} (regex kh : Option Str)
    (bin mode : Str) {w' : World Store K} (h : exec O (Manager.addAccount env n regex kh bin mode) w = (.ok n', w')) :
    n' = n ∧ ¬ Configured w n ∧ Configured w' n ∧ (∀ l, listed O w' = .ok l → n ∈ l) ∧
    (∃ c, OwnConf w' n c ∧ c.name = n ∧ c.emailRegex = regex.getD (str!".*") ∧ c.gpgbin = bin ∧ c.gpgmode.toStr = mode ∧
      c.pe = .nopreference) ∧
    (∃ k, OwnKey w' n k ∧ ReportedKey env w w' kh k ∧
      RanGpg w w' (fun argv out => str!"--export-secret-key" ∈ argv ∧ argv.getLast? = some k ∧
        Newest (fun e => ∃ x, e = Entry.keygen x) (w'.log (ownHead n)) (.keygen ⟨some out.out, some k⟩))) ∧
    (∀ hd, hd ≠ managerHead → hd ≠ ownHead n → w'.log hd = w.log hd) := by
  have hwf : w'.store.Wf := by
    have := run_wf hw (.addAccount n regex kh bin mode)
    rw [show (exec O ((ApiCall.addAccount n regex kh bin mode).prog env) w).2 = w' by
      unfold ApiCall.prog Prog.void
      simp only [exec] at h ⊢
      rw [run_bind, h]; rfl] at this
    exact this
  cases addAccount_course h with
  | added md k kd hnot hal hmd hst hrep hexp =>
    have hlog : w'.log (ownHead n) = .keygen ⟨some kd, some k⟩ :: .cfg (newConf n regex bin md) :: w.log (ownHead n) := by
      unfold World.log
      rw [hst, Store.get_push_self, Store.get_push_self, get_initStore (ownHead_ne_managerHead n)]
    have hkey : Newest (fun e => ∃ x, e = Entry.keygen x) (w'.log (ownHead n)) (.keygen ⟨some kd, some k⟩) :=
      ⟨[], _, hlog, ⟨_, rfl⟩, by simp⟩
    refine ⟨rfl, hnot, ⟨⟨newConf n regex bin md, by rw [hlog]; simp⟩, _, hkey.mem⟩, ?_, ?_, ?_, ?_⟩
    · intro l hl
      rw [mem_listed hwf hl, hlog]; simp
    · exact ⟨newConf n regex bin md, ⟨[_], _, hlog, ⟨_, rfl⟩, by simp⟩, rfl, rfl, rfl, hmd, rfl⟩
    · refine ⟨k, ⟨_, hkey, rfl⟩, hrep, hexp.mono ?_⟩
      rintro argv out ⟨h1, h2, h3⟩
      exact ⟨h1, h2, by rw [h3]; exact hkey⟩
    · intro hd h1 h2
      unfold World.log
      rw [hst, Store.get_push_ne _ h2, Store.get_push_ne _ h2, get_initStore h1]

/-- an account with its own pattern is added with a new key, and one with an existing key -/
example : (exec Concrete.oracle (Manager.addAccount Concrete.env (str!"a") (some (str!"a@")) none (str!"gpg") (str!"own"))
      Concrete.world0).1 = .ok (str!"a") ∧
    (exec Concrete.oracle (Manager.addAccount Concrete.env (str!"b") none (some (str!"CCCC")) (str!"gpg") (str!"system"))
      (Concrete.after [Concrete.addA])).1 = .ok (str!"b") :=
  ⟨Except.eq_ok_of_toOption (by decide +kernel), Except.eq_ok_of_toOption (by decide +kernel)⟩

/-! ## C46 -/

/-- opening an account by name -/
theorem getAccount_result {O : Oracle K} (hO : HooksOk O) {env : Env} {n : Str} (hn : env.isalnum n = true) (w : World Store K) :
    (Configured w n → (exec O (Manager.getAccount env n) w).1 = .ok n) ∧
    (¬ Configured w n → (exec O (Manager.getAccount env n) w).1 = .error .accountNotFound) := by
  rcases hg : exec O (Manager.getAccount env n) w with ⟨r, w'⟩
  obtain ⟨-, hc⟩ := getAccount_course hg
  constructor
  · intro hconf
    cases hc with
    | badName h => rw [hn] at h; cases h
    | notFound _ _ h => exact absurd hconf h
    | opened => rfl
    | plugin e _ _ htr =>
      exact (hO.event hg htr).elim
  · intro hconf
    cases hc with
    | badName h => rw [hn] at h; cases h
    | notFound _ _ h => rfl
    | opened _ h => exact absurd (h rfl) hconf
    | plugin e _ h => exact absurd (h rfl) hconf

/-- an account which does not exist cannot be opened -/
theorem getAccount_unknown {O : Oracle K} {env : Env} {n : Str} (hn : env.isalnum n = true) {w : World Store K} (hc : ¬ Configured w n) :
    (exec O (Manager.getAccount env n) w).1 = .error .accountNotFound := by
  rcases hg : exec O (Manager.getAccount env n) w with ⟨r, w'⟩
  obtain ⟨-, hcourse⟩ := getAccount_course hg
  cases hcourse with
  | badName h => rw [hn] at h; cases h
  | notFound _ _ h => rfl
  | opened _ h => exact absurd (h rfl) hc
  | plugin e _ h => exact absurd (h rfl) hc

/-- two worlds which agree about all accounts except `n` -/
def SameOthers (n : Str) (w w' : World Store K) : Prop := ∀ hd, hd ≠ managerHead → hd ≠ ownHead n → w'.log hd = w.log hd

/-- C46, what holds: a failed creation changes nothing stored about other accounts, and opening them by name works as before.
If it did not fail for want of a key, nothing at all was stored.

Missing from the full statement: lookups by address and for incoming mail. They do fail afterwards, see `C46_refuted`. -/
theorem C46_failed_partial {O : Oracle K} (hO : HooksOk O) {env : Env} {w : World Store K} {n : Str} (regex kh : Option Str)
    (bin mode : Str) {w' : World Store K} {e : Exc} (h : exec O (Manager.addAccount env n regex kh bin mode) w = (.error e, w')) :
    SameOthers n w w' ∧
    (∀ n', n' ≠ n → (exec O (Manager.getAccount env n') w').1 = (exec O (Manager.getAccount env n') w).1) ∧
    ((mode ≠ str!"own" ∧ mode ≠ str!"system") ∨ env.isalnum n = false ∨ Configured w n → ∀ hd, hd ≠ managerHead → w'.log hd = w.log hd) := by
  have hinit : w'.store = initStore w.store → ∀ hd, hd ≠ managerHead → w'.log hd = w.log hd := fun hst hd hne => by
    unfold World.log; rw [hst, get_initStore hne]
  have hs : SameOthers n w w' := by
    intro hd h1 h2
    cases addAccount_course h with
    | noOpen _ _ hst => exact hinit hst hd h1
    | exists_ _ _ _ hst => exact hinit hst hd h1
    | badMode _ _ _ _ _ hst => exact hinit hst hd h1
    | noKey _ _ _ _ _ hst => unfold World.log; rw [hst, Store.get_push_ne _ h2, get_initStore h1]
  refine ⟨hs, ?_, ?_⟩
  · intro n' hne
    have hc : Configured w' n' ↔ Configured w n' :=
      Configured.of_log (hs _ (ownHead_ne_managerHead _) (fun hh => hne (ownHead_inj.mp hh)))
    cases hal : env.isalnum n' with
    | true =>
      by_cases hcf : Configured w n'
      · rw [(getAccount_result hO hal w).1 hcf, (getAccount_result hO hal w').1 (hc.mpr hcf)]
      · rw [(getAccount_result hO hal w).2 hcf, (getAccount_result hO hal w').2 (fun hh => hcf (hc.mp hh))]
    | false =>
      have : ∀ v : World Store K, (exec O (Manager.getAccount env n') v).1 = .error .assertionError := by
        intro v
        rcases hg : exec O (Manager.getAccount env n') v with ⟨r, v'⟩
        cases (getAccount_course hg).2 with
        | badName => rfl
        | notFound h => rw [hal] at h; cases h
        | plugin _ h => rw [hal] at h; cases h
        | opened h => rw [hal] at h; cases h
      rw [this, this]
  · intro hcase
    cases addAccount_course h with
    | noOpen _ _ hst => exact hinit hst
    | exists_ _ _ _ hst => exact hinit hst
    | badMode _ _ _ _ _ hst => exact hinit hst
    | noKey _ md hnot hal hmd _ =>
      exfalso
      rcases hcase with ⟨h1, h2⟩ | h1 | h1
      · cases md
        · exact h2 hmd.symm
        · exact h1 hmd.symm
      · rw [hal] at h1; cases h1
      · exact hnot h1

/-- adding an account "a" which fails because there is no gpg program named -/
def Concrete.addFails : ApiCall := .addAccount (str!"a") none none [] (str!"own")
/-- adding an account "b" -/
def Concrete.addB : ApiCall := .addAccount (str!"b") none none (str!"gpg") (str!"own")

/-- C46 is false: after a failed creation of the account "a", the account "b" is no longer found by address, nor for
incoming mail, though it was before -/
theorem C46_refuted :
    (exec Concrete.oracle (Concrete.addFails.prog Concrete.env) (Concrete.after [Concrete.addB])).1 = .error .attributeError ∧
    (∀ raising, (exec Concrete.oracle (Manager.getAccountFromEmailadr Concrete.env (str!"me@x.org") raising)
      (Concrete.after [Concrete.addB])).1 = .ok (some (str!"b")) ∧
     (exec Concrete.oracle (Manager.getAccountFromEmailadr Concrete.env (str!"me@x.org") raising)
      (Concrete.after [Concrete.addB, Concrete.addFails])).1 = .error .accountNotFound) ∧
    ∃ m, (exec Concrete.oracle (Manager.getMatchingAccount Concrete.env m) (Concrete.after [Concrete.addB])).1 = .ok (some (str!"b")) ∧
     (exec Concrete.oracle (Manager.getMatchingAccount Concrete.env m)
      (Concrete.after [Concrete.addB, Concrete.addFails])).1 = .error .accountNotFound := by
  refine ⟨Except.eq_error_of_exc? (by decide +kernel), ?_, Concrete.mail (str!"z@x.org") (str!"1") (str!"1") [], ?_⟩
  · intro raising
    cases raising
    · exact ⟨Except.eq_ok_of_toOption (by decide +kernel), Except.eq_error_of_exc? (by decide +kernel)⟩
    · exact ⟨Except.eq_ok_of_toOption (by decide +kernel), Except.eq_error_of_exc? (by decide +kernel)⟩
  · exact ⟨Except.eq_ok_of_toOption (by decide +kernel), Except.eq_error_of_exc? (by decide +kernel)⟩

/-! ## C47 -/

/-- the settings `c'` are `c` with the given values -/
structure Wanted (c : OwnConfig) (regex bin pe : Option Str) (c' : OwnConfig) : Prop where
  name : c'.name = c.name
  mode : c'.gpgmode = c.gpgmode
  regex : (∀ x, regex = some x → c'.emailRegex = x) ∧ (regex = none → c'.emailRegex = c.emailRegex)
  bin : (∀ x, bin = some x → c'.gpgbin = x) ∧ (bin = none → c'.gpgbin = c.gpgbin)
  pe : (∀ x, pe = some x → c'.pe.toStr = x) ∧ (pe = none → c'.pe = c.pe)

theorem ofStr_toStr {s : Str} {p : PE} (h : PE.ofStr? s = .ok p) : p.toStr = s := by
  unfold PE.ofStr? at h
  split at h
  · cases h; rename_i h; exact h.symm
  · split at h
    · cases h; rename_i h; exact h.symm
    · cases h

theorem evolve_wanted {c c' : OwnConfig} {regex bin pe : Option Str} (h : Own.evolve c ⟨regex, bin, pe⟩ = .ok c') :
    Wanted c regex bin pe c' := by
  cases pe with
  | none =>
    cases (h : Except.ok _ = Except.ok _)
    exact ⟨rfl, rfl, ⟨fun x h => by rw [h]; rfl, fun h => by rw [h]; rfl⟩, ⟨fun x h => by rw [h]; rfl, fun h => by rw [h]; rfl⟩,
      ⟨(fun x h => nomatch h), fun _ => rfl⟩⟩
  | some s =>
    cases hp : PE.ofStr? s with
    | error e => unfold Own.evolve at h; dsimp only at h; rw [hp] at h; cases h
    | ok p =>
      unfold Own.evolve at h
      dsimp only at h
      rw [hp] at h
      cases h
      exact ⟨rfl, rfl, ⟨fun x h => by rw [h]; rfl, fun h => by rw [h]; rfl⟩, ⟨fun x h => by rw [h]; rfl, fun h => by rw [h]; rfl⟩,
        ⟨fun x h => by cases h; exact ofStr_toStr hp, fun h => by cases h⟩⟩

/-- a preference which may be given -/
def ValidPref (pe : Option Str) : Prop := ∀ s, pe = some s → s = str!"nopreference" ∨ s = str!"mutual"

theorem evolve_total (c : OwnConfig) (regex bin pe : Option Str) :
    (ValidPref pe → ∃ c', Own.evolve c ⟨regex, bin, pe⟩ = .ok c') ∧ (¬ ValidPref pe → Own.evolve c ⟨regex, bin, pe⟩ = .error .valueError) := by
  unfold Own.evolve ValidPref
  dsimp only
  cases pe with
  | none => exact ⟨fun _ => ⟨_, rfl⟩, fun h => absurd (fun s hs => by cases hs) h⟩
  | some s =>
    dsimp only
    unfold PE.ofStr?
    by_cases h1 : s = str!"nopreference"
    · rw [if_pos h1]; exact ⟨fun _ => ⟨_, rfl⟩, fun h => absurd (fun x hx => by cases hx; exact Or.inl h1) h⟩
    · by_cases h2 : s = str!"mutual"
      · rw [if_neg h1, if_pos h2]; exact ⟨fun _ => ⟨_, rfl⟩, fun h => absurd (fun x hx => by cases hx; exact Or.inr h2) h⟩
      · rw [if_neg h1, if_neg h2]
        refine ⟨fun h => ?_, fun _ => rfl⟩
        rcases h s rfl with h | h
        · exact absurd h h1
        · exact absurd h h2

/-- C47 for an account which could be opened -/
theorem modAccount_opened {O : Oracle K} {env : Env} {w : World Store K} {n : Str}
    (hopen : (exec O (Manager.getAccount env n) w).1 = .ok n) {c : OwnConfig} (hconf : OwnConf w n c) (regex kh bin pe : Option Str)
    {w' : World Store K} {r : Except Exc (Bool × Str)} (h : exec O (Manager.modAccount env n regex kh bin pe) w = (r, w')) :
    (ValidPref pe → ∃ c', Wanted c regex bin pe c' ∧ OwnConf w' n c' ∧ r = .ok (decide (c' ≠ c), n)) ∧
    (¬ ValidPref pe → r = .error .valueError ∧ ∀ hd, hd ≠ managerHead → w'.log hd = w.log hd) ∧
    (∀ k, OwnKey w' n k ↔ OwnKey w n k) ∧ SameOthers n w w' := by
  unfold Manager.modAccount exec at h
  simp only [bind_eq, pure_eq] at h
  rw [run_bind] at h
  rcases hg : run Store.impl O (Manager.getAccount env n) w with ⟨x, w1⟩
  obtain ⟨hst, hcourse⟩ := getAccount_course hg
  have hx : x = .ok n := by
    have := hopen
    simp only [exec] at this
    rw [hg] at this; exact this
  subst hx
  rw [hg] at h
  dsimp only at h
  have hlog : ∀ hd, hd ≠ managerHead → w1.store.get hd = w.log hd := fun hd hne => by rw [hst, get_initStore hne]; rfl
  unfold Account.modify Own.changeConfig at h
  simp only [bind_eq, pure_eq] at h
  rw [run_bind, run_bind, run_chain] at h
  dsimp only at h
  rw [hlog _ (ownHead_ne_managerHead n), latestConfig_iff.mpr hconf] at h
  dsimp only at h
  rw [run_bind, run_ofExcept] at h
  by_cases hv : ValidPref pe
  · obtain ⟨c', hev⟩ := (evolve_total c regex bin pe).1 hv
    rw [hev] at h
    dsimp only at h
    refine ⟨fun _ => ⟨c', evolve_wanted hev, ?_⟩, fun hn => absurd hv hn, ?_⟩ <;> by_cases hcc : c' = c
    · rw [if_neg (by simpa using hcc)] at h
      cases h
      refine ⟨?_, by simp [hcc]⟩
      unfold OwnConf World.log
      rw [hlog _ (ownHead_ne_managerHead n), hcc]; exact hconf
    · rw [if_pos hcc, run_bind, run_append] at h
      cases h
      refine ⟨?_, by simp [hcc]⟩
      unfold OwnConf World.log
      dsimp only
      rw [Store.get_push_self]
      exact ⟨[], _, rfl, ⟨_, rfl⟩, by simp⟩
    · rw [if_neg (by simpa using hcc)] at h
      cases h
      refine ⟨fun k => ?_, fun hd h1 _ => hlog hd h1⟩
      unfold OwnKey World.log; rw [hlog _ (ownHead_ne_managerHead n)]; rfl
    · rw [if_pos hcc, run_bind, run_append] at h
      cases h
      refine ⟨fun k => ?_, fun hd h1 h2 => ?_⟩
      · unfold OwnKey
        simp only [← latestKeygen_iff]
        unfold World.log
        dsimp only
        rw [Store.get_push_self, hlog _ (ownHead_ne_managerHead n)]
        exact Iff.rfl
      · unfold World.log; dsimp only; rw [Store.get_push_ne _ h2]; exact hlog hd h1
  · rw [(evolve_total c regex bin pe).2 hv] at h
    cases h
    refine ⟨fun h => absurd h hv, fun _ => ⟨rfl, hlog⟩, fun k => ?_, fun hd h1 _ => hlog hd h1⟩
    unfold OwnKey World.log; rw [hlog _ (ownHead_ne_managerHead n)]; rfl

/-- C47, what holds: modifying an account sets the pattern, the gpg program and the preference to the values given and leaves
the others; it reports a change iff some setting differs; the own key stays, as does everything stored about its peers and
about other accounts. An invalid preference raises ValueError without any change.

Missing from the full statement: a key handle given is ignored, see `C47_refuted`. -/
theorem C47_modified_partial {O : Oracle K} (hO : HooksOk O) {env : Env} {w : World Store K} (hw : Reachable O env w) {n : Str}
    (hc : Configured w n) {c : OwnConfig} (hconf : OwnConf w n c) (regex kh bin pe : Option Str)
    {w' : World Store K} {r : Except Exc (Bool × Str)} (h : exec O (Manager.modAccount env n regex kh bin pe) w = (r, w')) :
    (ValidPref pe → ∃ c', Wanted c regex bin pe c' ∧ OwnConf w' n c' ∧ r = .ok (decide (c' ≠ c), n)) ∧
    (¬ ValidPref pe → r = .error .valueError ∧ ∀ hd, hd ≠ managerHead → w'.log hd = w.log hd) ∧
    (∀ k, OwnKey w' n k ↔ OwnKey w n k) ∧ SameOthers n w w' :=
  modAccount_opened ((getAccount_result hO (hw.own_alnum hc.log_ne) w).1 hc) hconf regex kh bin pe h

/-- a change, no change, and an invalid preference -/
example : (exec Concrete.oracle (Manager.modAccount Concrete.env (str!"a") (some (str!"a@")) none none (some (str!"mutual")))
      (Concrete.after [Concrete.addA])).1 = .ok (true, str!"a") ∧
    (exec Concrete.oracle (Manager.modAccount Concrete.env (str!"a") (some (str!".*")) none none none)
      (Concrete.after [Concrete.addA])).1 = .ok (false, str!"a") ∧
    (exec Concrete.oracle (Manager.modAccount Concrete.env (str!"a") none none none (some (str!"maybe")))
      (Concrete.after [Concrete.addA])).1 = .error .valueError :=
  ⟨Except.eq_ok_of_toOption (by decide +kernel), Except.eq_ok_of_toOption (by decide +kernel), Except.eq_error_of_exc? (by decide +kernel)⟩

/-- C47 is false for the key handle: asked to use the key CCCC, which gpg has, the call reports no change and the account keeps
its old key -/
theorem C47_refuted :
    (exec Concrete.oracle (Manager.modAccount Concrete.env (str!"a") none (some (str!"CCCC")) none none)
      (Concrete.after [Concrete.addA])).1 = .ok (false, str!"a") ∧
    (exec Concrete.oracle (BinGPG.getSecretKeyhandle Concrete.env ⟨none, str!"gpg"⟩ (str!"CCCC")) (Concrete.after [Concrete.addA])).1 =
      .ok (some (str!"CCCC")) ∧
    OwnKey (exec Concrete.oracle (Manager.modAccount Concrete.env (str!"a") none (some (str!"CCCC")) none none)
      (Concrete.after [Concrete.addA])).2 (str!"a") (str!"BBBBBBBBBBBBBBBB") := by
  refine ⟨Except.eq_ok_of_toOption (by decide +kernel), Except.eq_ok_of_toOption (by decide +kernel),
    ⟨some (Concrete.bs (str!"secret")), some (str!"BBBBBBBBBBBBBBBB")⟩, latestKeygen_iff.mp (by decide +kernel), rfl⟩

/-! ## C48 -/

/-- nothing is stored about the account, but for out-of-band verifications -/
def Gone (w : World Store K) (n : Str) : Prop := w.log (ownHead n) = [] ∧ ∀ a, w.log (peerHead n a) = []

/-- C48 for an account which could be opened -/
theorem delAccount_opened {O : Oracle K} {env : Env} {w : World Store K} (hw : Reachable O env w) {n : Str}
    (hc : Configured w n) (hopen : (exec O (Manager.getAccount env n) w).1 = .ok n) {w' : World Store K} {r : Except Exc Unit} (h : exec O (Manager.delAccount env n) w = (r, w')) :
    r = .ok () ∧ Gone w' n ∧ (∀ l, listed O w' = .ok l → n ∉ l) ∧
    (exec O (Manager.getAccount env n) w').1 = .error .accountNotFound ∧
    (∀ regex kh bin mode w'', exec O (Manager.addAccount env n regex kh bin mode) w' = (.ok n, w'') →
      (∃ k c, w''.log (ownHead n) = [.keygen k, .cfg c]) ∧ ∀ a, w''.log (peerHead n a) = []) ∧
    (∀ n', env.isalnum n' = true → n' ≠ n → w'.log (ownHead n') = w.log (ownHead n') ∧ w'.log (oobHead n') = w.log (oobHead n') ∧
      ∀ a, w'.log (peerHead n' a) = w.log (peerHead n' a)) := by
  have hal := hw.own_alnum hc.log_ne
  have hcol := colon_not_mem_of_isalnum hal
  have hw'wf : w'.store.Wf := by
    have := run_wf hw (.delAccount n)
    rw [show (exec O ((ApiCall.delAccount n).prog env) w).2 = w' from congrArg Prod.snd h] at this
    exact this
  unfold Manager.delAccount exec at h
  simp only [bind_eq] at h
  rw [run_bind] at h
  rcases hg : run Store.impl O (Manager.getAccount env n) w with ⟨x, w1⟩
  obtain ⟨hst, hcourse⟩ := getAccount_course hg
  have hx : x = .ok n := by
    have := hopen
    simp only [exec] at this
    rw [hg] at this; exact this
  subst hx
  rw [hg] at h
  dsimp only at h
  have hr : r = .ok () := (congrArg Prod.fst h).symm
  have hst' : w'.store = (initStore w.store).removeIf (matchAccount n) := by
    have h2 : _ = w' := congrArg Prod.snd h
    rw [← hst, ← h2]; rfl
  have hgone : Gone w' n := by
    constructor
    · unfold World.log; rw [hst', Store.get_removeIf, matchAccount_ownHead hcol]; simp
    · intro a; unfold World.log; rw [hst', Store.get_removeIf, matchAccount_peerHead hcol]; simp
  have hnc : ¬ Configured w' n := fun hh => hh.log_ne hgone.1
  refine ⟨hr, hgone, ?_, getAccount_unknown hal hnc, ?_, ?_⟩
  · intro l hl
    rw [mem_listed hw'wf hl, hgone.1]; simp
  · intro regex kh bin mode w'' hadd
    cases addAccount_course hadd with
    | added md k kd _ _ _ hst2 _ _ =>
      constructor
      · refine ⟨⟨some kd, some k⟩, newConf n regex bin md, ?_⟩
        unfold World.log
        rw [hst2, Store.get_push_self, Store.get_push_self, get_initStore (ownHead_ne_managerHead n)]
        exact congrArg _ (congrArg _ hgone.1)
      · intro a
        unfold World.log
        rw [hst2, Store.get_push_ne _ (ownHead_ne_peerHead n n a).symm, Store.get_push_ne _ (ownHead_ne_peerHead n n a).symm,
          get_initStore (managerHead_ne_peerHead n a).symm]
        exact hgone.2 a
  · intro n' hal' hne
    have hcol' := colon_not_mem_of_isalnum hal'
    refine ⟨?_, ?_, fun a => ?_⟩ <;> unfold World.log <;> rw [hst', Store.get_removeIf]
    · rw [matchAccount_ownHead hcol', get_initStore (ownHead_ne_managerHead n')]; simp [hne]
    · rw [matchAccount_oobHead, get_initStore (oobHead_ne_managerHead n')]; simp
    · rw [matchAccount_peerHead hcol', get_initStore (managerHead_ne_peerHead n' a).symm]; simp [hne]

/-- C48, what holds: after an account was deleted nothing is stored about it or its peers, it is not listed and cannot be opened,
and if an account of that name is added later it starts with the new settings and key alone, and without peers. All that is
stored about other accounts is unchanged.

Missing from the full statement: out-of-band verifications of the account, with their keys, are kept; see `C48_refuted`. -/
theorem C48_deleted_partial {O : Oracle K} (hO : HooksOk O) {env : Env} {w : World Store K} (hw : Reachable O env w) {n : Str}
    (hc : Configured w n) {w' : World Store K} {r : Except Exc Unit} (h : exec O (Manager.delAccount env n) w = (r, w')) :
    r = .ok () ∧ Gone w' n ∧ (∀ l, listed O w' = .ok l → n ∉ l) ∧
    (exec O (Manager.getAccount env n) w').1 = .error .accountNotFound ∧
    (∀ regex kh bin mode w'', exec O (Manager.addAccount env n regex kh bin mode) w' = (.ok n, w'') →
      (∃ k c, w''.log (ownHead n) = [.keygen k, .cfg c]) ∧ ∀ a, w''.log (peerHead n a) = []) ∧
    (∀ n', env.isalnum n' = true → n' ≠ n → w'.log (ownHead n') = w.log (ownHead n') ∧ w'.log (oobHead n') = w.log (oobHead n') ∧
      ∀ a, w'.log (peerHead n' a) = w.log (peerHead n' a)) :=
  delAccount_opened hw hc ((getAccount_result hO (hw.own_alnum hc.log_ne) w).1 hc) h

/-- two accounts with a peer; one of them gets deleted -/
example : Configured (Concrete.after [Concrete.addA, Concrete.addB,
      .importKey (str!"a") (some (str!"p@x.org")) [1, 2] (str!"mutual")]) (str!"a") ∧
    (Concrete.after [Concrete.addA, Concrete.addB, .importKey (str!"a") (some (str!"p@x.org")) [1, 2] (str!"mutual")]).log
      (peerHead (str!"a") (str!"p@x.org")) ≠ [] :=
  ⟨isConfigured_iff.mp (by decide +kernel), by decide +kernel⟩

/-- C48 is false for verifications: one made before the account was deleted is visible in a new account of that name -/
theorem C48_refuted : ∃ v : Verification, (exec Concrete.oracle (OOB.getVerification (str!"a") (str!"p@x.org"))
    (Concrete.after [Concrete.addA, .verifyPeer (str!"a") (str!"p@x.org") [7], .delAccount (str!"a"), Concrete.addA])).1 = .ok (some v) ∧
    (exec Concrete.oracle (Manager.getAccount Concrete.env (str!"a"))
      (Concrete.after [Concrete.addA, .verifyPeer (str!"a") (str!"p@x.org") [7], .delAccount (str!"a")])).1 = .error .accountNotFound :=
  ⟨⟨str!"p@x.org", [7], .peer⟩, Except.eq_ok_of_toOption (by decide +kernel), Except.eq_error_of_exc? (by decide +kernel)⟩

end Verif
