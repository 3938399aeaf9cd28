import Verif.Props.Others
import Verif.Props.Incoming
/-!
# C129: when something is done does not matter

Two runs start in the same state, but with different clocks. Apart from imports of keys and scans of directories, the clock makes a difference only
for mail whose date is later than what it shows.
-/
namespace Verif
open BinGPG
variable {α β K : Type}

/-! ## Specification -/

/-- two states which are the same but for the clock; of the mails in `ms`, none gets another date by that: a date later than the clock shows is
replaced by what it shows -/
structure OtherClock (e : Env) (ms : List Msg) (w w' : World Store K) : Prop where
  store : w.store = w'.store
  tick : w.tick = w'.tick
  env : w.env = w'.env
  trace : w.trace = w'.trace
  dates : ∀ i, w.tick ≤ i → ∀ m ∈ ms, ∀ d, DateOf e m d → min d (w.clock i) = min d (w'.clock i)

/-- what a program gives and all it does is the same with such clocks -/
def AnyClock (env : Env) (ms : List Msg) (p : Prog α) : Prop :=
  ∀ (K : Type) (O : Oracle K) (w w' : World Store K), OtherClock env ms w w' →
    (exec O p w).1 = (exec O p w').1 ∧ OtherClock env ms (exec O p w).2 (exec O p w').2

/-- the mail which a call processes -/
def ApiCall.mail : ApiCall → List Msg
  | .processIncoming _ m _ _ => [m]
  | _ => []

/-- calls which record the time at which they are made -/
def ApiCall.stamps : ApiCall → Prop
  | .importKey .. => True
  | _ => False

/-- the mail which a command processes -/
def Cmd.Command.mail : Cmd.Command → List Msg
  | .processIncoming _ _ _ m | .botReply _ _ _ m => [m]
  | _ => []

/-- commands which record the time or compare it with the age of files -/
def Cmd.Command.stamps : Cmd.Command → Prop
  | .importPublicKey .. | .scandir .. => True
  | _ => False

/-! ## Programs -/

/-- equivalent readings of the clock lead to the same continuation -/
def Anytime (E : Time → Time → Prop) : Prog α → Prop
  | .pure _ => True
  | .raise _ => True
  | .op .now k => (∀ t t', E t t' → k t = k t') ∧ ∀ r, Anytime E (k r)
  | .op _ k => ∀ r, Anytime E (k r)

/-- everything but the clock -/
abbrev Scope.timeless : Scope := ⟨fun _ => True, False, True⟩
theorem Scope.sees (n : Str) : Sees .timeless n := ⟨trivial, trivial, trivial⟩

namespace Anytime
variable {E : Time → Time → Prop}
theorem inner {o : Op} {k : o.Ret → Prog α} (h : Anytime E (.op o k)) (r : o.Ret) : Anytime E (k r) := by
  cases o
  case now => exact h.2 r
  all_goals exact h r
theorem bind {p : Prog α} {f : α → Prog β} (h : Anytime E p) (hf : ∀ a, Anytime E (f a)) : Anytime E (p.bind f) := by
  induction p with
  | pure a => exact hf a
  | raise e => trivial
  | op o k ih =>
    have h' := fun r => ih r (h.inner r)
    cases o
    case now => exact ⟨fun t t' ht => congrArg (fun q : Prog α => q.bind f) (h.1 t t' ht), h'⟩
    all_goals exact h'
theorem tryCatch {p : Prog α} {f : Exc → Prog α} (h : Anytime E p) (hf : ∀ e, Anytime E (f e)) : Anytime E (p.tryCatch f) := by
  induction p with
  | pure a => trivial
  | raise e => exact hf e
  | op o k ih =>
    have h' := fun r => ih r (h.inner r)
    cases o
    case now => exact ⟨fun t t' ht => congrArg (fun q : Prog α => q.tryCatch f) (h.1 t t' ht), h'⟩
    all_goals exact h'
theorem attempt {p : Prog α} (h : Anytime E p) : Anytime E p.attempt := tryCatch (bind h fun _ => trivial) fun _ => trivial
theorem of_looks {p : Prog α} (h : Looks .timeless p) : Anytime E p := by
  induction p with
  | pure a => trivial
  | raise e => trivial
  | op o k ih =>
    have h' := fun r => ih r (h.2 r)
    cases o
    case now => exact h.1.elim
    all_goals exact h'
end Anytime

/-- readings which don't change the dates of some mails -/
def LikeDates (env : Env) (ms : List Msg) (t t' : Time) : Prop := ∀ m ∈ ms, ∀ d, DateOf env m d → min d t = min d t'

theorem OtherClock.first {env : Env} {ms : List Msg} {o : Op} {k : o.Ret → Prog α} (h : Anytime (LikeDates env ms) (.op o k)) {O : Oracle K}
    {w w' : World Store K} (hw : OtherClock env ms w w') :
    k (step Store.impl O o w).1 = k (step Store.impl O o w').1 ∧ OtherClock env ms (step Store.impl O o w).2 (step Store.impl O o w').2 := by
  obtain ⟨s, c, t, e, tr⟩ := w
  obtain ⟨s', c', t', e', tr'⟩ := w'
  obtain ⟨h1, h2, h3, h4, hd⟩ := hw
  simp only at h1 h2 h3 h4 hd
  subst h1 h2 h3 h4
  cases o with
  | now => exact ⟨h.1 _ _ (hd t (Nat.le_refl _)), rfl, rfl, rfl, rfl, fun i hi => hd i (Nat.le_of_succ_le hi)⟩
  | append x y => exact ⟨rfl, rfl, rfl, rfl, rfl, fun i hi => hd i (Nat.le_of_succ_le hi)⟩
  | _ => exact ⟨rfl, rfl, rfl, rfl, rfl, hd⟩

theorem Anytime.clock {env : Env} {ms : List Msg} {p : Prog α} (h : Anytime (LikeDates env ms) p) : AnyClock env ms p := fun K O w w' hw => by
  induction p generalizing w w' with
  | pure a => exact ⟨rfl, hw⟩
  | raise e => exact ⟨rfl, hw⟩
  | op o k ih =>
    obtain ⟨h1, h2⟩ := hw.first h (O := O)
    show (exec O (k (step Store.impl O o w).1) _).1 = (exec O (k (step Store.impl O o w').1) _).1 ∧
      OtherClock env ms (exec O (k (step Store.impl O o w).1) _).2 (exec O (k (step Store.impl O o w').1) _).2
    rw [← h1]
    exact ih _ (h.inner _) _ _ h2

theorem Anytime.killed {env : Env} {ms : List Msg} {p : Prog α} (h : Anytime (LikeDates env ms) p) {O : Oracle K} {w w' : World Store K}
    (hw : OtherClock env ms w w') (i : Nat) : OtherClock env ms (runFor Store.impl O i p w) (runFor Store.impl O i p w') := by
  induction p generalizing w w' i with
  | pure a => cases i <;> exact hw
  | raise e => cases i <;> exact hw
  | op o k ih =>
    cases i with
    | zero => exact hw
    | succ i =>
      obtain ⟨h1, h2⟩ := hw.first h (O := O)
      show OtherClock env ms (runFor Store.impl O i (k (step Store.impl O o w).1) _) (runFor Store.impl O i (k (step Store.impl O o w').1) _)
      rw [← h1]
      exact ih _ (h.inner _) h2 i

/-! ## Calls -/

theorem anytime_incoming (env : Env) (ms : List Msg) (n : Str) (m : Msg) (hm : m ∈ ms) (i d : Bool) :
    Anytime (LikeDates env ms) (Account.processIncoming env n m i d) := by
  rw [Account.processIncoming_clock]
  cases hd : parseDateToFloat env (m.get (str!"Date")) with
  | error e => exact trivial
  | ok x =>
    refine ⟨fun t t' ht => ?_, fun t => .of_looks (Account.looks_incomingRest env (Scope.sees n) m i d _ trivial fun _ _ _ _ _ => trivial)⟩
    show Account.incomingRest env n m i d (min x t) = Account.incomingRest env n m i d (min x t')
    rw [ht m hm x (parseDateToFloat_ok.mp hd)]

section
variable (env : Env)
namespace Manager
theorem timeless_getAccount (n x) : Looks .timeless (getAccount env n x) := looks_getAccount env (Scope.sees n) x
theorem timeless_firstMatch (a l) : Looks .timeless (firstMatch env a l) := by
  induction l with
  | nil => exact .pure _
  | cons n l ih =>
    unfold firstMatch; simp only [bind_eq, pure_eq]; looks [timeless_getAccount, Own.looks_config]; exact Scope.sees _
theorem timeless_getAccountFromEmailadr (a r) : Looks .timeless (getAccountFromEmailadr env a r) := by
  unfold getAccountFromEmailadr; simp only [bind_eq, pure_eq]; looks [looks_getAccountNames, timeless_firstMatch]; trivial
theorem timeless_patterns (l) : Looks .timeless (patterns env l) := by
  induction l with
  | nil => exact .pure _
  | cons n l ih =>
    unfold patterns; simp only [bind_eq, pure_eq]; looks [timeless_getAccount, Own.looks_config]; exact Scope.sees _
theorem timeless_getMatchingAccount (m) : Looks .timeless (getMatchingAccount env m) := by
  unfold getMatchingAccount; simp only [bind_eq, pure_eq]; looks [looks_getAccountNames, timeless_patterns, timeless_getAccountFromEmailadr]; trivial
theorem timeless_remove : Looks .timeless Manager.remove := by
  unfold Manager.remove Prog.rmtree; exact .op trivial fun _ => .op trivial fun _ => .pure _
end Manager

theorem timeless_outgoing (n m) : Looks .timeless (Account.processOutgoing env n m) :=
  Account.looks_processOutgoing env (Scope.sees n) m (fun _ _ => trivial) fun _ _ => trivial
theorem timeless_recommendation (n a r f) : Looks .timeless (Account.recommendation env n a r f) :=
  Account.looks_recommendation env (Scope.sees n) a r f fun _ _ => trivial
theorem timeless_encryptMime (n m a) : Looks .timeless (Account.encryptMime env n m a) :=
  Account.looks_encryptMime env (Scope.sees n) m a fun _ _ => trivial
end

theorem anytime_call (env : Env) (ms : List Msg) (c : ApiCall) (hm : ∀ m ∈ c.mail, m ∈ ms) (hs : ¬ c.stamps) : Anytime (LikeDates env ms) (c.prog env) := by
  have h := Scope.sees
  cases c
  case init => exact .of_looks (by apply Manager.looks_init; exact h [])
  case getAccount => exact .of_looks (.void (Manager.looks_getAccount env (h _) _))
  case addAccount => exact .of_looks (.void (Manager.looks_addAccount env (h _) _ _ _ _))
  case modAccount => exact .of_looks (.void (Manager.looks_modAccount env (h _) _ _ _ _))
  case delAccount => exact .of_looks (Manager.looks_delAccount env (h _))
  case listAccountNames => exact .of_looks (.void (looks_getAccountNames trivial))
  case accountFromEmailadr => exact .of_looks (.void (Manager.timeless_getAccountFromEmailadr env _ _))
  case matchingAccount => exact .of_looks (.void (Manager.timeless_getMatchingAccount env _))
  case removeAll => exact .of_looks Manager.timeless_remove
  case peernames => exact .of_looks (looks_onAccount (looks_getPeernameList trivial _))
  case recommendation => exact .of_looks (looks_onAccount (timeless_recommendation env _ _ _ _))
  case makeAcHeader => exact .of_looks (looks_onAccount (Account.looks_makeAcHeader env (h _) _))
  case exportPublicKey => exact .of_looks (looks_onAccount (Account.looks_exportPublicKey env (h _) _))
  case exportSecretKey => exact .of_looks (looks_onAccount (Account.looks_exportSecretKey env (h _)))
  case processIncoming =>
    exact .bind (.of_looks (.assert _)) fun _ => .bind (anytime_incoming env ms _ _ (hm _ List.mem_cons_self) _ _) fun _ => trivial
  case processOutgoing => exact .of_looks (looks_onAccount (timeless_outgoing env _ _))
  case encryptMime => exact .of_looks (looks_onAccount (timeless_encryptMime env _ _ _))
  case decryptMime => exact .of_looks (looks_onAccount (Account.looks_decryptMime env (h _) _))
  case importKey => exact absurd trivial hs
  case peerMsg => exact .of_looks (looks_onAccount (Peer.looks_updateFromMsg trivial _))
  case peerGossip => exact .of_looks (looks_onAccount (Peer.looks_updateFromGossip trivial _))
  case verifySelf => exact .of_looks (looks_onAccount (by apply Looks.append))
  case verifyPeer => exact .of_looks (looks_onAccount (by apply Looks.append))
  case getVerification => exact .of_looks (looks_onAccount (OOB.looks_getVerification (h _) _))

/-! ## Commands -/

namespace Cmd
variable (ce : CmdEnv) (be : BotEnv) (env : Env)
theorem timeless_sayPeers (n l) : Looks .timeless (sayPeers ce env n l) := by
  induction l with
  | nil => exact .pure _
  | cons f fs ih => unfold sayPeers; simp only [bind_eq]; looks [looks_say]; trivial
theorem timeless_statusAccount (n v) : Looks .timeless (statusAccount ce env n v) := by
  have h := Scope.sees n
  unfold statusAccount; simp only [bind_eq, pure_eq]
  looks [looks_say, looks_kecho, Own.looks_config, Account.looks_bingpg, Account.looks_ownKeyhandle, BinGPG.looks_listPublicKeyinfos, looks_sayUids,
    looks_getPeernameList, timeless_sayPeers]
  trivial
theorem timeless_statusAll (v l) : Looks .timeless (statusAll ce env v l) := by
  induction l with
  | nil => exact .pure _
  | cons f fs ih => unfold statusAll; simp only [bind_eq]; looks [looks_say, Manager.timeless_getAccount, timeless_statusAccount]
theorem timeless_status (v) : Looks .timeless (status ce env v) := by
  unfold status; simp only [bind_eq]; looks [looks_say, looks_getAccountNames, timeless_statusAll]; trivial
theorem timeless_accountFor (a) : Looks .timeless (accountFor env a) := by
  unfold accountFor; simp only [bind_eq, pure_eq]; looks [Manager.timeless_getAccountFromEmailadr]
theorem timeless_processOutgoing (m) : Looks .timeless (Cmd.processOutgoing env m) := by
  unfold Cmd.processOutgoing; simp only [bind_eq, pure_eq]; looks [Manager.timeless_getAccountFromEmailadr, timeless_outgoing]
theorem timeless_sendmail (a m) : Looks .timeless (Cmd.sendmail ce env a m) := by
  unfold Cmd.sendmail; simp only [bind_eq, pure_eq]; looks [timeless_processOutgoing, looks_say]
theorem timeless_managerExists : Looks .timeless managerExists := by
  unfold managerExists; simp only [bind_eq, pure_eq]; looks
theorem timeless_destroyAll (y) : Looks .timeless (Cmd.destroyAll y) := by
  unfold Cmd.destroyAll; simp only [bind_eq, pure_eq]; looks [timeless_managerExists, Manager.timeless_remove]
theorem timeless_deliver (s m) : Looks .timeless (Bot.deliver env s m) := by
  unfold Bot.deliver; simp only [bind_eq]; looks
theorem timeless_makeReply (v a d f b m) : Looks .timeless (Bot.makeReply env be v a d f b m) := by
  have h := Scope.sees a
  unfold Bot.makeReply; simp only [bind_eq, pure_eq]; looks [Account.looks_makeAcHeader, timeless_encryptMime]
theorem timeless_answer (v s d a m r) : Looks .timeless (Bot.answer env be v s d a m r) := by
  have h := Scope.sees a
  unfold Bot.answer Bot.keysOf Bot.recFor Bot.replyNoFrom Report.processed; simp only [bind_eq, pure_eq]
  looks [Account.looks_makeAcHeader, timeless_makeReply, timeless_deliver, Account.looks_ownKeyhandle, Account.looks_decryptMime, timeless_recommendation]
  all_goals trivial
theorem anytime_bot (ms) (v s f) (m) (hm : m ∈ ms) : Anytime (LikeDates env ms) (Bot.reply env be v s f m) := by
  unfold Bot.reply; simp only [bind_eq]
  refine .bind (.of_looks (.ofExcept _)) fun d => .bind (.of_looks (Manager.timeless_getAccountFromEmailadr env _ _)) fun o => ?_
  cases o with
  | none => trivial
  | some a =>
    refine .bind (anytime_incoming env ms a m hm _ _) fun r => ?_
    cases r with
    | none => trivial
    | some r => exact .of_looks (timeless_answer be env _ _ _ _ _ _)
theorem anytime_processIncoming (ms) (n r d m) (hm : m ∈ ms) : Anytime (LikeDates env ms) (Cmd.processIncoming env n r d m) := by
  unfold Cmd.processIncoming; simp only [bind_eq, pure_eq]
  refine .bind (.of_looks (by looks [Manager.timeless_getMatchingAccount, Manager.timeless_getAccount])) fun a =>
    .bind (anytime_incoming env ms a m hm _ _) fun r => ?_
  cases r with
  | none => trivial
  | some r => exact .of_looks (.bind (.chain trivial) fun _ => by looks)

theorem anytime_body (ms) (c : Command) (hm : ∀ m ∈ c.mail, m ∈ ms) (hs : ¬ c.stamps) : Anytime (LikeDates env ms) (c.body ce be env) := by
  have h := Scope.sees
  cases c
  case status n v =>
    cases n with
    | none => exact .of_looks (.bind (timeless_status ce env v) fun _ => .pure _)
    | some n => exact .of_looks (.bind (Manager.timeless_getAccount env _ _) fun _ => .bind (timeless_statusAccount ce env _ v) fun _ => .pure _)
  case addAccount =>
    exact .of_looks (.bind (Manager.looks_addAccount env (h _) _ _ _ _) fun _ => .bind (looks_say _) fun _ => .bind (timeless_statusAccount ce env _ _) fun _ => .pure _)
  case modAccount =>
    exact .of_looks (.bind (Manager.looks_modAccount env (h _) _ _ _ _) fun _ => .bind (looks_say _) fun _ => .bind (timeless_statusAccount ce env _ _) fun _ => .pure _)
  case delAccount =>
    exact .of_looks (.bind (Manager.looks_delAccount env (h _)) fun _ => .bind (looks_say _) fun _ => .bind (timeless_status ce env _) fun _ => .pure _)
  case findAccount => exact .of_looks (.bind (timeless_accountFor env _) fun _ => .bind (looks_say _) fun _ => .pure _)
  case processIncoming =>
    refine .bind (anytime_processIncoming env ms _ _ _ _ (hm _ List.mem_cons_self)) fun r => .of_looks (.bind ?_ fun _ => .pure _)
    cases r with
    | known => exact looks_say _
    | found a p => exact .bind (.chain trivial) fun _ => looks_say _
    | noHeader a => exact looks_say _
  case scandir => exact absurd trivial hs
  case importPublicKey => exact absurd trivial hs
  case peerstate => exact .of_looks (.bind (Manager.timeless_getAccount env _ _) fun _ => .bind (looks_peerstate ce env _ trivial) fun _ => .pure _)
  case recommend => exact .of_looks (.bind (Manager.timeless_getAccount env _ _) fun _ => .bind (timeless_recommendation env _ _ _ _) fun _ => .bind (looks_say _) fun _ => .pure _)
  case processOutgoing => exact .of_looks (.bind (timeless_processOutgoing env _) fun _ => .bind (.emit _) fun _ => .pure _)
  case sendmail => exact .of_looks (timeless_sendmail ce env _ _)
  case makeHeader =>
    exact .of_looks (.bind (timeless_accountFor env _) fun _ => .bind (Account.looks_makeAcHeader env (h _) _) fun _ => .bind (looks_say _) fun _ => .pure _)
  case exportPublicKey => exact .of_looks (.bind (Manager.timeless_getAccount env _ _) fun _ => .bind (Account.looks_exportPublicKey env (h _) _) fun _ => .bind (.emit _) fun _ => .pure _)
  case exportSecretKey => exact .of_looks (.bind (Manager.timeless_getAccount env _ _) fun _ => .bind (Account.looks_exportSecretKey env (h _)) fun _ => .bind (.emit _) fun _ => .pure _)
  case botReply => exact .bind (anytime_bot be env ms _ _ _ _ (hm _ List.mem_cons_self)) fun _ => trivial
  case destroyAll =>
    refine .of_looks ?_
    unfold Command.body; simp only [bind_eq, pure_eq]
    looks [looks_say, timeless_managerExists, timeless_destroyAll]

theorem anytime_command (ms) (c : Command) (hm : ∀ m ∈ c.mail, m ∈ ms) (hs : ¬ c.stamps) : Anytime (LikeDates env ms) (c.prog ce be env) := by
  unfold Command.prog; simp only [bind_eq, pure_eq]
  refine .bind (.attempt (anytime_body ce be env ms c hm hs)) fun r => .of_looks ?_
  cases r with
  | ok r => exact .pure _
  | error e => looks [looks_say]
end Cmd

/-! ## Theorems -/

/-- **C129, calls.** With another clock a call does the same, unless it is the import of a key or mail gets another date by that. -/
theorem C129_calls (env : Env) (c : ApiCall) (hs : ¬ c.stamps) : AnyClock env c.mail (c.prog env) := (anytime_call env _ c (fun _ h => h) hs).clock

/-- **C129, commands.** The same for commands, apart from imports of keys and scans of directories. -/
theorem C129_commands (ce : CmdEnv) (be : BotEnv) (env : Env) (c : Cmd.Command) (hs : ¬ c.stamps) : AnyClock env c.mail (c.prog ce be env) :=
  (Cmd.anytime_command ce be env _ c (fun _ h => h) hs).clock

/-- **C129, results.** The same for what calls return. -/
theorem C129_results (env : Env) (n : Str) :
    (∀ m i d, AnyClock env [m] (Account.processIncoming env n m i d)) ∧ (∀ m, AnyClock env [] (Account.processOutgoing env n m)) ∧
    (∀ m l, AnyClock env [] (Account.encryptMime env n m l)) ∧ (∀ m, AnyClock env [] (Account.decryptMime env n m)) ∧
    (∀ l r f, AnyClock env [] (Account.recommendation env n l r f)) ∧ (∀ a, AnyClock env [] (Account.makeAcHeader env n a)) ∧
    (∀ k, AnyClock env [] (Account.exportPublicKey env n k)) ∧ AnyClock env [] (Account.exportSecretKey env n) ∧
    (∀ a, AnyClock env [] (OOB.getVerification n a)) ∧ AnyClock env [] (getPeernameList n) ∧ AnyClock env [] getAccountNames ∧
    (∀ a r, AnyClock env [] (Manager.getAccountFromEmailadr env a r)) ∧ (∀ m, AnyClock env [] (Manager.getMatchingAccount env m)) :=
  have h := Scope.sees n
  have go : ∀ {α : Type} {p : Prog α}, Looks .timeless p → AnyClock env [] p := fun h => (Anytime.of_looks h).clock
  ⟨fun m i d => (anytime_incoming env [m] n m List.mem_cons_self i d).clock, fun _ => go (timeless_outgoing env n _),
   fun _ _ => go (timeless_encryptMime env n _ _), fun _ => go (Account.looks_decryptMime env h _), fun _ _ _ => go (timeless_recommendation env n _ _ _),
   fun _ => go (Account.looks_makeAcHeader env h _), fun _ => go (Account.looks_exportPublicKey env h _), go (Account.looks_exportSecretKey env h),
   fun _ => go (OOB.looks_getVerification h _), go (looks_getPeernameList trivial n), go (looks_getAccountNames trivial),
   fun _ _ => go (Manager.timeless_getAccountFromEmailadr env _ _), fun _ => go (Manager.timeless_getMatchingAccount env _)⟩

/-- the mail in what happens -/
def Happening.mail : Happening K → List Msg
  | .call c | .killed c _ => c.mail
  | .command _ _ c | .commandKilled _ _ c _ => c.mail
  | .outside _ => []

/-- it records the time -/
def Happening.stamps : Happening K → Prop
  | .call c | .killed c _ => c.stamps
  | .command _ _ c | .commandKilled _ _ c _ => c.stamps
  | .outside _ => False

/-- **C129, histories.** Calls and commands, interrupted or not, leave the same state. -/
theorem C129_history (O : Oracle K) (env : Env) (ms : List Msg) (hist : List (Happening K)) (hm : ∀ h ∈ hist, ∀ m ∈ h.mail, m ∈ ms)
    (hs : ∀ h ∈ hist, ¬ h.stamps) {w w' : World Store K} (hw : OtherClock env ms w w') :
    OtherClock env ms (runHistory Store.impl O env hist w) (runHistory Store.impl O env hist w') := by
  induction hist generalizing w w' with
  | nil => exact hw
  | cons h hist ih =>
    refine ih (fun x hx => hm x (List.mem_cons_of_mem _ hx)) (fun x hx => hs x (List.mem_cons_of_mem _ hx)) ?_
    have h0 := hm h List.mem_cons_self
    have h1 := hs h List.mem_cons_self
    cases h with
    | call c => exact ((anytime_call env ms c h0 h1).clock K O _ _ hw).2
    | killed c i => exact (anytime_call env ms c h0 h1).killed hw i
    | command ce be c => exact ((Cmd.anytime_command ce be env ms c h0 h1).clock K O _ _ hw).2
    | commandKilled ce be c i => exact (Cmd.anytime_command ce be env ms c h0 h1).killed hw i
    | outside k => exact ⟨hw.store, hw.tick, rfl, hw.trace, hw.dates⟩

/-- **C129, mail of the past.** If none of the mail is dated later than the clocks show, the state at the end is the same: it doesn't matter when mail is
fetched. -/
theorem C129_past (O : Oracle K) (env : Env) (hist : List (Happening K)) (hs : ∀ h ∈ hist, ¬ h.stamps) (s : Store) (c c' : Nat → Time) (k : K)
    (hd : ∀ h ∈ hist, ∀ m ∈ h.mail, ∀ d, DateOf env m d → ∀ i, d ≤ c i ∧ d ≤ c' i) :
    (runHistory Store.impl O env hist ⟨s, c, 0, k, []⟩).store = (runHistory Store.impl O env hist ⟨s, c', 0, k, []⟩).store ∧
    (runHistory Store.impl O env hist ⟨s, c, 0, k, []⟩).trace = (runHistory Store.impl O env hist ⟨s, c', 0, k, []⟩).trace := by
  have := C129_history O env (hist.flatMap (·.mail)) hist (fun h hh m hm => List.mem_flatMap.mpr ⟨h, hh, hm⟩) hs
    (w := ⟨s, c, 0, k, []⟩) (w' := ⟨s, c', 0, k, []⟩) ⟨rfl, rfl, rfl, rfl, fun i _ m hm d hmd => by
      obtain ⟨h, hh, hm⟩ := List.mem_flatMap.mp hm
      obtain ⟨h1, h2⟩ := hd h hh m hm d hmd i
      rw [Int.min_eq_left h1, Int.min_eq_left h2]⟩
  exact ⟨this.store, this.trace⟩

/-! ## Examples -/
open Concrete

/-- a state with a clock that is far ahead -/
def Concrete.ahead : World Store Unit := { after [addA] with clock := fun i => sec (5000 + 7 * i) }

/-- a mail which both clocks leave its date -/
theorem Concrete.ahead_alike : OtherClock env [mail bob (str!"1") (str!"100") [7]] (after [addA]) ahead := by
  refine ⟨rfl, rfl, rfl, rfl, fun i _ m hm d hd => ?_⟩
  cases List.mem_singleton.mp hm
  have h : d = sec 100 := by
    rw [← parseDateToFloat_ok] at hd
    exact (Except.ok.inj (hd.symm.trans (show _ = Except.ok (sec 100) by rfl)))
  subst h
  show min (sec 100) (sec (1000 + i)) = min (sec 100) (sec (5000 + 7 * i))
  have h1 : sec 100 ≤ sec (1000 + i) := by unfold sec; omega
  have h2 : sec 100 ≤ sec (5000 + 7 * i) := by unfold sec; omega
  rw [Int.min_eq_left h1, Int.min_eq_left h2]

/-- it is recorded alike -/
example : (exec oracle ((recv bob (str!"1") (str!"100") [7]).prog env) (after [addA])).2.store =
    (exec oracle ((recv bob (str!"1") (str!"100") [7]).prog env) ahead).2.store :=
  (C129_calls env (recv bob (str!"1") (str!"100") [7]) (by exact id) Unit oracle _ _ ahead_alike).2.store

/-- mail dated later than the clocks show isn't -/
example : bobs (exec oracle ((recv bob (str!"1") (str!"9000") [7]).prog env) (after [addA])).2 ≠
    bobs (exec oracle ((recv bob (str!"1") (str!"9000") [7]).prog env) ahead).2 := by decide +kernel

/-- nor is the import of a key -/
example : bobs (exec oracle ((ApiCall.importKey (str!"a") (some bob) [1, 2] (str!"mutual")).prog env) (after [addA])).2 ≠
    bobs (exec oracle ((ApiCall.importKey (str!"a") (some bob) [1, 2] (str!"mutual")).prog env) ahead).2 := by decide +kernel

end Verif
