import Verif.Lemmas.SafeCalls
/-!
# Commands are composed of API calls

A command does nothing to the store but make API calls. What calls preserve, also interrupted ones, is preserved by commands and by
histories.
-/
namespace Verif
open Mime Rec

/-! ## operations of functions for commands -/

theorem say_ops {P : Op → Prop} (h : ∀ s, P (.ext (.emit (.line s)))) (s : Str) : (Cmd.say s).AllOps P := .emit (h s)

theorem sayUids_ops {P : Op → Prop} (h : ∀ s, P (.ext (.emit (.line s)))) (l : List Str) : (Cmd.sayUids l).AllOps P := by
  induction l with
  | nil => trivial
  | cons u l ih => exact .bind (say_ops h _) fun _ => ih

theorem sayPeers_ops {P : Op → Prop} (hP : Permissive P) (h : ∀ s, P (.ext (.emit (.line s)))) (ce : CmdEnv) (env : Env) (a : Str) (l : List Str) :
    (Cmd.sayPeers ce env a l).AllOps P := by
  induction l with
  | nil => trivial
  | cons u l ih =>
    refine .bind (.chain (hP.2.1 _)) fun es => ?_
    split
    · exact ih
    · exact .bind (.ofExcept _) fun _ => .bind (say_ops h _) fun _ => ih

theorem statusAccount_ops {P : Op → Prop} (hP : Permissive P) (h : ∀ s, P (.ext (.emit (.line s)))) (ce : CmdEnv) (env : Env) (n : Str) (v : Bool) :
    (Cmd.statusAccount ce env n v).AllOps P := by
  have h0 := say_ops h
  have h1 := Account.bingpg_ops hP env n
  have h2 := Account.config_ops hP n
  have h3 := Account.ownKeyhandle_ops hP n
  have h4 := fun g k => BinGPG.listPublicKeyinfos_ops hP.2.2.2 env g k
  have h5 := sayPeers_ops hP h ce env n
  have h6 := sayUids_ops h
  unfold Cmd.statusAccount getPeernameList Cmd.kecho
  simp only [bind_eq, pure_eq]
  refine .bind h2 fun c => .bind (h0 _) fun _ => .bind (h0 _) fun _ => .bind ?_ fun _ => .bind ?_ fun _ => .bind (h0 _) fun _ => .bind h1 fun g =>
    .bind h3 fun kh => .bind (h4 _ _) fun infos => .bind (h0 _) fun _ => .bind (h6 _) fun _ => ?_
  · split
    · exact .bind h1 fun g => h0 _
    · exact h0 _
  · split
    · exact h0 _
    · exact .bind (.findExecutable (hP.2.2.2 _ rfl)) fun _ => h0 _
  · split
    · refine .bind (.bind (.heads hP.2.2.1) fun _ => trivial) fun peers => ?_
      split
      · exact h0 _
      · exact .bind (h0 _) fun _ => h5 _
    · trivial

theorem makeReply_ops {P : Op → Prop} (hP : Permissive P) (env : Env) (be : BotEnv) (v : BotValues) (a d f : Str) (b : Bool) (m : Msg) :
    (Bot.makeReply env be v a d f b m).AllOps P := by
  unfold Bot.makeReply; simp only [bind_eq, pure_eq]
  refine .bind (.ofExcept _) fun _ => .bind (Account.makeAcHeader_ops hP env a _) fun _ => ?_
  split
  · exact .bind (Account.encryptMime_ops hP env a _ _) fun _ => .bind (.ofExcept _) fun _ => .bind (.assert _) fun _ => trivial
  · trivial

theorem replyNoFrom_ops {P : Op → Prop} (hP : Permissive P) (env : Env) (be : BotEnv) (a d : Str) (m : Msg) :
    (Bot.replyNoFrom env be a d m).AllOps P := by
  unfold Bot.replyNoFrom; simp only [bind_eq]
  exact .bind (.ofExcept _) fun _ => .bind (Account.makeAcHeader_ops hP env a _) fun _ => trivial

theorem keysOf_ops {P : Op → Prop} (hP : Permissive P) (env : Env) (a : Str) (m : Msg) : (Bot.keysOf env a m).AllOps P := by
  unfold Bot.keysOf; simp only [bind_eq, pure_eq]
  split
  · exact .bind (Account.decryptMime_ops hP env a m) fun _ => trivial
  · trivial

theorem recFor_ops {P : Op → Prop} (hP : Permissive P) (env : Env) (a : Str) (m : Msg) : (Bot.recFor env a m).AllOps P := by
  unfold Bot.recFor; simp only [bind_eq, pure_eq]
  split
  · trivial
  · exact .bind (Account.recommendation_ops hP env a _ _ _) fun _ => trivial

theorem processed_ops {P : Op → Prop} (hP : Permissive P) (env : Env) (re : ReportEnv) (m : Msg) (r : Account.IncomingResult) :
    (Report.processed env re m r).AllOps P := by
  unfold Report.processed; simp only [bind_eq, pure_eq]
  split
  · trivial
  · refine .bind (.attempt (.chain (hP.2.1 _))) fun x => ?_
    cases x <;> trivial

theorem answer_ops {P : Op → Prop} (hP : Permissive P) (env : Env) (be : BotEnv) (v : BotStamp) (smtp : Option Str)
    (d a : Str) (m : Msg) (res : Account.IncomingResult) (he1 : ∀ x, P (.ext (.emit (.mail x)))) (he2 : ∀ s, P (.ext (.emit (.line s))))
    (he3 : ∀ h p x, P (.ext (.emit (.smtp h p (x.get (str!"From")) (getTargetEmailadr env x) x)))) :
    (Bot.answer env be v smtp d a m res).AllOps P := by
  have h1 : ∀ x, (Bot.deliver env smtp x).AllOps P := by
    intro x
    unfold Bot.deliver; simp only [bind_eq]
    split
    · exact .emit (he1 _)
    · split
      · exact .bind (.ofExcept _) fun p => .bind (.emit (he3 _ _ _)) fun _ => .emit (he2 _)
      · trivial
  unfold Bot.answer; simp only [bind_eq, pure_eq]
  refine .bind (processed_ops hP env be.rep m res) fun _ => .bind (keysOf_ops hP env a m) fun _ => .bind (Account.ownKeyhandle_ops hP a) fun _ =>
    .bind (recFor_ops hP env a m) fun r => ?_
  split
  · trivial
  · split
    · trivial
    · split
      · exact replyNoFrom_ops hP env be a d m
      · exact .bind (makeReply_ops hP env be _ a d _ _ m) fun _ => h1 _

/-! ## results of lookups -/

theorem getAccount_alnum (env : Env) (n : Str) (b : Bool) : (Manager.getAccount env n b).Returns fun a => a = n ∧ env.isalnum n = true := by
  unfold Manager.getAccount Manager.account; simp only [bind_eq, pure_eq]
  refine .bind (.trivially _) fun _ _ => ?_
  rw [Prog.assert_bind]
  split
  · next hn =>
    refine .bind (.trivially _) fun ok _ => ?_
    split
    · exact .bind (.trivially _) fun _ _ => ⟨rfl, hn⟩
    · trivial
  · trivial

theorem firstMatch_alnum (env : Env) (addr : Str) (l : List Str) :
    (Manager.firstMatch env addr l).Returns fun r => ∀ a, r = some a → env.isalnum a = true := by
  induction l with
  | nil => exact fun a h => by cases h
  | cons n l ih =>
    unfold Manager.firstMatch; simp only [bind_eq, pure_eq]
    refine .bind (getAccount_alnum env n true) fun a ha => .bind (.trivially _) fun c _ => .bind (.trivially _) fun b _ => ?_
    split
    · exact fun x hx => by cases hx; exact ha.1 ▸ ha.2
    · exact ih

theorem fromEmailadr_alnum (env : Env) (addr : Str) (b : Bool) :
    (Manager.getAccountFromEmailadr env addr b).Returns fun r => ∀ a, r = some a → env.isalnum a = true := by
  unfold Manager.getAccountFromEmailadr; simp only [bind_eq, pure_eq]
  refine .bind (.trivially _) fun l _ => .bind (firstMatch_alnum env addr l) fun r hr => ?_
  split
  · exact hr
  · split
    · trivial
    · exact fun a h => by cases h

theorem patterns_alnum (env : Env) (l : List Str) : (Manager.patterns env l).Returns fun ps => ∀ x ∈ ps, env.isalnum x.2 = true := by
  induction l with
  | nil => exact fun a h => by cases h
  | cons n l ih =>
    unfold Manager.patterns; simp only [bind_eq, pure_eq]
    refine .bind (getAccount_alnum env n true) fun a ha => .bind (.trivially _) fun c _ => .bind ih fun ps hps => ?_
    intro x hx
    rcases List.mem_cons.mp hx with rfl | hx
    · exact ha.1 ▸ ha.2
    · exact hps x hx

theorem matchPatterns_mem {env : Env} {addr a : Str} {l : List (Str × Str)} (h : Manager.matchPatterns env addr l = .ok (some a)) :
    ∃ x ∈ l, x.2 = a := by
  induction l with
  | nil => cases h
  | cons x l ih =>
    obtain ⟨r, b⟩ := x
    unfold Manager.matchPatterns at h
    split at h
    · cases h
    · cases h; exact ⟨_, List.mem_cons_self, rfl⟩
    · obtain ⟨y, hy, he⟩ := ih h
      exact ⟨y, List.mem_cons_of_mem _ hy, he⟩

theorem matchAddrs_mem {env : Env} {a : Str} {l : List (Str × Str)} {as : List Str} (h : Manager.matchAddrs env l as = .ok (some a)) :
    ∃ x ∈ l, x.2 = a := by
  induction as with
  | nil => cases h
  | cons x as ih =>
    unfold Manager.matchAddrs at h
    split at h
    · cases h
    · next h1 => cases h; exact matchPatterns_mem h1
    · exact ih h

theorem matchingAccount_alnum (env : Env) (m : Msg) :
    (Manager.getMatchingAccount env m).Returns fun r => ∀ a, r = some a → env.isalnum a = true := by
  unfold Manager.getMatchingAccount; simp only [bind_eq, pure_eq]
  refine .bind (.trivially _) fun l _ => .bind (patterns_alnum env l) fun ps hps => .bind .ofExcept fun r hr => ?_
  split
  · intro a ha
    cases ha
    obtain ⟨x, hx, he⟩ := matchAddrs_mem hr
    exact he ▸ hps x hx
  · exact .bind (.trivially _) fun d _ => fromEmailadr_alnum env d true

theorem returns_attempt {α : Type} {Q : α → Prop} {R : Except Exc α → Prop} {p : Prog α} (hp : p.Returns Q) (h : ∀ a, Q a → R (.ok a))
    (he : ∀ e, R (.error e)) : p.attempt.Returns R := by
  have key : ∀ p : Prog α, p.Returns Q → ((p.bind fun a => .pure (Except.ok a)).tryCatch
      fun e => .pure (Except.error e : Except Exc α)).Returns R := by
    intro p
    induction p with
    | pure a => exact h a
    | raise e => exact fun _ => he e
    | op o k ih => exact fun hk r => ih r (hk r)
  exact key p hp

theorem void_unit (p : Prog Unit) : p.void = p := by
  unfold Prog.void
  induction p with
  | pure a => rfl
  | raise e => rfl
  | op o k ih => simp only [Prog.bind]; congr 1; funext r; exact ih r

/-! ## programs composed of API calls -/

/-- programs composed of calls in `M` and of operations which do not change the store -/
inductive Composed (env : Env) (M : ApiCall → Prop) : {α : Type} → Prog α → Prop
  | ro {α : Type} {p : Prog α} (h : p.AllOps Op.readOnly) : Composed env M p
  | call {α : Type} {p : Prog α} (c : ApiCall) (hc : M c) (h : p.void = c.prog env) : Composed env M p
  | bindQ {α β : Type} {p : Prog α} {f : α → Prog β} (Q : α → Prop) (hp : Composed env M p) (hq : p.Returns Q)
      (hf : ∀ a, Q a → Composed env M (f a)) : Composed env M (p.bind f)
  | attempt {α : Type} {p : Prog α} (hp : Composed env M p) : Composed env M p.attempt

theorem runFor_void {σ K : Type} (S : StoreImpl σ) (O : Oracle K) {α : Type} (p : Prog α) (n : Nat) (w : World σ K) :
    runFor S O n p.void w = runFor S O n p w := by
  induction p generalizing n w with
  | pure a => cases n <;> rfl
  | raise e => cases n <;> rfl
  | op o k ih =>
    cases n with
    | zero => rfl
    | succ n => exact ih (step S O o w).1 n (step S O o w).2

theorem runFor_run {σ K : Type} (S : StoreImpl σ) (O : Oracle K) {α : Type} (p : Prog α) (w : World σ K) :
    ∃ n, runFor S O n p w = (run S O p w).2 := by
  induction p generalizing w with
  | pure a => exact ⟨0, rfl⟩
  | raise e => exact ⟨0, rfl⟩
  | op o k ih =>
    obtain ⟨n, h⟩ := ih (step S O o w).1 (step S O o w).2
    exact ⟨n + 1, h⟩

namespace Composed
variable {env : Env} {M : ApiCall → Prop} {α β : Type}

theorem pure (a : α) : Composed env M (.pure a) := .ro trivial
theorem raise (e : Exc) : Composed env M (.raise e : Prog α) := .ro trivial

theorem bind {p : Prog α} {f : α → Prog β} (hp : Composed env M p) (hf : ∀ a, Composed env M (f a)) : Composed env M (p.bind f) :=
  .bindQ (fun _ => True) hp (.trivially p) fun a _ => hf a

theorem mono {M' : ApiCall → Prop} {p : Prog α} (h : ∀ c, M c → M' c) (hp : Composed env M p) : Composed env M' p := by
  induction hp with
  | ro h => exact .ro h
  | call c hc he => exact .call c (h c hc) he
  | bindQ Q _ hq _ ih1 ih2 => exact .bindQ Q ih1 hq ih2
  | attempt _ ih => exact .attempt ih

/-- what is kept by reads and by the calls, wherever these are interrupted, is kept by the program, wherever it is interrupted -/
theorem killed {K : Type} {O : Oracle K} {P : World Store K → Prop} (hq : ∀ w w', Safe.Quiet w w' → P w → P w')
    (hc : ∀ c, M c → ∀ n w, P w → P (runFor Store.impl O n (c.prog env) w)) {p : Prog α} (hp : Composed env M p) :
    ∀ n w, P w → P (runFor Store.impl O n p w) := by
  induction hp with
  | ro h => exact fun n w => hq _ _ (Safe.runFor_ro h n w)
  | call c hm he => intro n w hw; rw [← runFor_void, he]; exact hc c hm n w hw
  | bindQ Q hp hr _ ih1 ih2 =>
    intro n w hw
    rcases Safe.runFor_bind Store.impl O n _ _ w with he | ⟨a, w1, m, h1, he⟩
    · rw [he]; exact ih1 n w hw
    · rw [he]
      obtain ⟨j, hj⟩ := runFor_run Store.impl O _ w
      have := ih1 j w hw
      rw [hj, h1] at this
      exact ih2 a (hr.of_run h1) m w1 this
  | attempt _ ih => intro n w hw; rw [Safe.runFor_attempt]; exact ih n w hw

end Composed

theorem onAccount_alnum {α : Type} {env : Env} {n : Str} (hn : env.isalnum n = true) (p : Prog α) : onAccount env n p = p.void := by
  unfold onAccount Manager.account
  rw [Prog.assert_bind, if_pos hn]

section
variable {M : ApiCall → Prop} (hM : ∀ c : ApiCall, c.isLookup → M c) (ce : CmdEnv) (be : BotEnv) (env : Env)
include hM

theorem composed_getAccount (n : Str) : Composed env M (Manager.getAccount env n) := .call (.getAccount n true) (hM _ trivial) rfl

theorem composed_fromEmailadr (a : Str) (b : Bool) : Composed env M (Manager.getAccountFromEmailadr env a b) :=
  .call (.accountFromEmailadr a b) (hM _ trivial) rfl

theorem composed_matching (m : Msg) : Composed env M (Manager.getMatchingAccount env m) := .call (.matchingAccount m) (hM _ trivial) rfl

omit hM in
theorem composed_say (s : Str) : Composed env M (Cmd.say s) := .ro (say_ops (fun _ => trivial) s)

omit hM in
theorem composed_statusAccount (n : Str) (v : Bool) : Composed env M (Cmd.statusAccount ce env n v) :=
  .ro (statusAccount_ops permissive_readOnly (fun _ => trivial) ce env n v)

theorem composed_statusAll (v : Bool) (l : List Str) : Composed env M (Cmd.statusAll ce env v l) := by
  induction l with
  | nil => exact .pure _
  | cons n ns ih =>
    exact .bind (composed_getAccount hM env n) fun _ => .bind (composed_statusAccount ce env _ v) fun _ => .bind (composed_say env _) fun _ => ih

theorem composed_status (v : Bool) : Composed env M (Cmd.status ce env v) := by
  unfold Cmd.status
  refine .bind (composed_say env _) fun _ => .bind (.ro (by unfold getAccountNames; exact .bind (.heads trivial) fun _ => trivial)) fun names => ?_
  split
  · exact composed_say env _
  · exact composed_statusAll hM ce env v _

theorem composed_accountFor (addr : Str) : Composed env M (Cmd.accountFor env addr) := by
  unfold Cmd.accountFor
  refine .bind (composed_fromEmailadr hM env _ _) fun x => ?_
  split
  · exact .pure _
  · exact .raise _

theorem composed_outgoing (m : Msg) : Composed env M (Cmd.processOutgoing env m) := by
  unfold Cmd.processOutgoing
  simp only [bind_eq, pure_eq]
  split
  · refine .bind (composed_fromEmailadr hM env _ _) fun x => ?_
    split
    · exact .raise _
    · exact .pure _
  · refine .bind (composed_fromEmailadr hM env _ _) fun x => ?_
    split
    · exact .raise _
    · exact .bind (.ro (Account.processOutgoing_ops permissive_readOnly env _ _)) fun _ => .pure _

omit hM in
theorem composed_processIncoming {n : Str} (hn : env.isalnum n = true) (m : Msg) (i nd : Bool) (h : M (.processIncoming n m i nd)) :
    Composed env M (Account.processIncoming env n m i nd) := .call _ h (onAccount_alnum hn _).symm

theorem composed_incoming (acc : Option Str) (reparse nd : Bool) (m : Msg)
    (h : ∀ n, (∀ a, acc = some a → n = a) → M (.processIncoming n m (!reparse) nd)) : Composed env M (Cmd.processIncoming env acc reparse nd m) := by
  unfold Cmd.processIncoming
  simp only [bind_eq, pure_eq]
  refine .bindQ (fun n => env.isalnum n = true ∧ ∀ a, acc = some a → n = a) ?_ ?_ fun n hn => ?_
  · split
    · refine .bind (composed_matching hM env m) fun r => ?_
      split
      · exact .pure _
      · exact .raise _
    · exact composed_getAccount hM env _
  · split
    · refine .bind (matchingAccount_alnum env m) fun r hr => ?_
      split
      · exact ⟨hr _ rfl, fun a ha => by cases ha⟩
      · trivial
    · exact (getAccount_alnum env _ true).mono fun a ha => ⟨ha.1 ▸ ha.2, fun b hb => by cases hb; exact ha.1⟩
  · refine .bind (composed_processIncoming env hn.1 m _ _ (h n hn.2)) fun r => ?_
    split
    · exact .pure _
    · refine .bind (.ro (.chain trivial)) fun es => ?_
      split <;> exact .pure _

theorem composed_scanFile (reparse : Bool) (now : Time) (f : Cmd.MailFile) (h : ∀ n, M (.processIncoming n f.msg (!reparse) false)) :
    Composed env M (Cmd.scanFile env reparse now f) := by
  unfold Cmd.scanFile Cmd.scanRoutable effectiveDate
  simp only [bind_eq, pure_eq]
  split
  · exact .pure _
  split
  · exact .pure _
  refine .bind (.ro (.ofExcept _)) fun d => .bind (.ro (.bind (.now trivial) fun _ => by trivial)) fun d => ?_
  split
  · exact .pure _
  refine .bindQ (fun r => ∀ a, r = .ok (some a) → env.isalnum a = true) (.attempt (composed_matching hM env _)) ?_ fun r hr => ?_
  · exact returns_attempt (matchingAccount_alnum env f.msg) (fun a ha b hb => ha b (by cases hb; rfl))
      fun e b hb => by cases hb
  · split
    · split
      · exact .pure _
      · exact .raise _
    · exact .raise _
    · next a =>
      refine .bind (.attempt (composed_processIncoming env (hr a rfl) f.msg _ _ (h a))) fun r => ?_
      split
      · split
        · exact .pure _
        · exact .raise _
      · exact .pure _
      · split
        · exact .pure _
        · exact .bind (.ro (.chain trivial)) fun es => .pure _

theorem composed_scanFiles (reparse : Bool) (now : Time) (i : Nat) (fs : List Cmd.MailFile)
    (h : ∀ n, ∀ f ∈ fs, M (.processIncoming n f.msg (!reparse) false)) : Composed env M (Cmd.scanFiles ce env reparse now i fs) := by
  induction fs generalizing i with
  | nil => exact .pure _
  | cons f fs ih =>
    unfold Cmd.scanFiles
    simp only [bind_eq, pure_eq]
    refine .bind (composed_scanFile hM env reparse now f fun n => h n f List.mem_cons_self) fun r =>
      .bind ?_ fun _ => .bind (ih _ fun n g hg => h n g (List.mem_cons_of_mem _ hg)) fun _ => .pure _
    unfold Cmd.sayOpt
    split
    · exact composed_say env _
    · exact .pure _

theorem composed_reply (v : BotStamp) (smtp fallback : Option Str) (m : Msg) (h : ∀ n, M (.processIncoming n m false false)) :
    Composed env M (Bot.reply env be v smtp fallback m) := by
  unfold Bot.reply
  simp only [bind_eq]
  refine .bind (.ro (.ofExcept _)) fun d => .bindQ _ (composed_fromEmailadr hM env d false) (fromEmailadr_alnum env d false) fun r hr => ?_
  split
  · exact .raise _
  · next a =>
    refine .bind (composed_processIncoming env (hr a rfl) m _ _ (h a)) fun o => ?_
    cases o with
    | none => exact .raise _
    | some res => exact .ro (answer_ops permissive_readOnly env be v smtp d a m res (fun _ => trivial) (fun _ => trivial) fun _ _ _ => trivial)

end

theorem composed_body (ce : CmdEnv) (be : BotEnv) (env : Env) (cmd : Cmd.Command) : Composed env cmd.makes (cmd.body ce be env) := by
  have hM : ∀ c : ApiCall, c.isLookup → cmd.makes c := fun c hc => Or.inl hc
  have mk : ∀ c : ApiCall, cmd.changes c → cmd.makes c := fun c hc => Or.inr hc
  have say := fun s => composed_say (M := cmd.makes) env s
  cases cmd with
  | status a v =>
    cases a with
    | none => exact .bind (composed_status hM ce env v) fun _ => .pure _
    | some n => exact .bind (composed_getAccount hM env n) fun _ => .bind (composed_statusAccount ce env _ v) fun _ => .pure _
  | addAccount n sys key bin regex =>
    exact .bind (.call (.addAccount n regex key bin (if sys then str!"system" else str!"own")) (mk _ rfl) rfl) fun _ =>
      .bind (say _) fun _ => .bind (composed_statusAccount ce env _ _) fun _ => .pure _
  | modAccount n key bin regex pe =>
    exact .bind (.call (.modAccount n regex key (some (bin.getD (str!"gpg"))) pe) (mk _ rfl) rfl) fun _ =>
      .bind (say _) fun _ => .bind (composed_statusAccount ce env _ _) fun _ => .pure _
  | delAccount n =>
    refine .bind (.call (.delAccount n) (mk _ rfl) (void_unit _)) fun _ => .bind (say _) fun _ => .bind (composed_status hM ce env true) fun _ => .pure _
  | findAccount a => exact .bind (composed_accountFor hM env a) fun _ => .bind (say _) fun _ => .pure _
  | processIncoming acc reparse nd m =>
    refine .bind (composed_incoming hM env acc reparse nd m fun n hn => mk _ ?_) fun r => .bind ?_ fun _ => .pure _
    · cases acc with
      | none => exact ⟨n, rfl⟩
      | some a => cases hn a rfl; rfl
    · unfold Cmd.sayReport
      split
      · exact say _
      · exact .bind (.ro (.chain trivial)) fun _ => say _
      · exact say _
  | scandir reparse files =>
    refine .bind (.bind (.ro (.now trivial)) fun now => composed_scanFiles hM ce env reparse now 0 files fun n f hf => mk _ ⟨n, f, hf, rfl⟩) fun _ => .pure _
  | importPublicKey n kd pe email =>
    refine .bindQ _ (composed_getAccount hM env n) (getAccount_alnum env n true) fun a ha => ?_
    obtain ⟨rfl, hn⟩ := ha
    refine .bind (.call (.importKey a email kd pe.toStr) (mk _ rfl) (onAccount_alnum hn _).symm) fun r => .bind (say _) fun _ => .bind ?_ fun _ => .pure _
    generalize r.addrs = l
    induction l with
    | nil => exact .pure _
    | cons x l ih => exact .bind (say _) fun _ => ih
  | peerstate n a =>
    refine .bind (composed_getAccount hM env n) fun _ => .bind ?_ fun _ => .pure _
    unfold Cmd.peerstate
    exact .bind (.ro (.chain trivial)) fun _ => .bind (say _) fun _ => .bind (say _) fun _ => .bind (say _) fun _ =>
      .bind (say _) fun _ => .bind (.ro (.ofExcept _)) fun _ => .bind (say _) fun _ => .bind (say _) fun _ =>
      .bind (.ro (.ofExcept _)) fun _ => .bind (say _) fun _ => say _
  | recommend n l =>
    exact .bind (composed_getAccount hM env n) fun _ => .bind (.ro (Account.recommendation_ops permissive_readOnly env _ _ _ _)) fun _ =>
      .bind (say _) fun _ => .pure _
  | processOutgoing m => exact .bind (composed_outgoing hM env m) fun _ => .bind (.ro (.emit trivial)) fun _ => .pure _
  | sendmail args m =>
    show Composed env _ (Cmd.sendmail ce env args m)
    unfold Cmd.sendmail
    refine .bind (.ro (.assert _)) fun _ => .bind (composed_outgoing hM env m) fun _ => .bind (.ro (.findExecutable trivial)) fun _ =>
      .bind (.ro (.sendmail trivial)) fun _ => ?_
    split
    · exact .bind (say _) fun _ => .pure _
    · exact .pure _
  | makeHeader a v =>
    exact .bind (composed_accountFor hM env a) fun _ => .bind (.ro (Account.makeAcHeader_ops permissive_readOnly env _ _)) fun _ =>
      .bind (say _) fun _ => .pure _
  | exportPublicKey n k =>
    exact .bind (composed_getAccount hM env n) fun _ => .bind (.ro (Account.exportPublicKey_ops permissive_readOnly env _ _)) fun _ =>
      .bind (.ro (.emit trivial)) fun _ => .pure _
  | exportSecretKey n =>
    exact .bind (composed_getAccount hM env n) fun _ => .bind (.ro (Account.exportSecretKey_ops permissive_readOnly env _)) fun _ =>
      .bind (.ro (.emit trivial)) fun _ => .pure _
  | botReply v smtp fallback m => exact .bind (composed_reply hM be env v smtp fallback m fun n => mk _ ⟨n, rfl⟩) fun _ => .pure _
  | destroyAll y =>
    cases y with
    | false => exact .bind (say _) fun _ => .pure _
    | true =>
      have hex : Composed env (Cmd.Command.destroyAll true).makes Cmd.managerExists := .ro (.bind (.chain trivial) fun _ => trivial)
      have hrm : Composed env (Cmd.Command.destroyAll true).makes Manager.remove := .call .removeAll (mk _ rfl) rfl
      have hlast : Composed env (Cmd.Command.destroyAll true).makes (Cmd.destroyAll true) := by
        show Composed env _ (Cmd.managerExists.bind fun b => if b then Manager.remove.bind fun _ => .pure (0 : Int) else .pure 0)
        refine .bind hex fun b => ?_
        split
        · exact .bind hrm fun _ => .pure _
        · exact .pure _
      show Composed env _ (Cmd.managerExists.bind fun b => if b then (Cmd.say _).bind fun _ => Cmd.destroyAll true else Cmd.destroyAll true)
      refine .bind hex fun b => ?_
      split
      · exact .bind (say _) fun _ => hlast
      · exact hlast

/-- a command is composed of the API calls which it makes and of operations which do not change the store -/
theorem composed_command (ce : CmdEnv) (be : BotEnv) (env : Env) (cmd : Cmd.Command) : Composed env cmd.makes (cmd.prog ce be env) := by
  unfold Cmd.Command.prog
  refine .bind (.attempt (composed_body ce be env cmd)) fun x => ?_
  split
  · exact .pure _
  · split
    · exact .bind (composed_say env _) fun _ => .pure _
    · exact .raise _

/-! ## histories -/

/-- what is kept by reads, by changes of the environment and by calls, wherever these are interrupted, is kept by all that happens -/
theorem Happening.after_ind {K : Type} {O : Oracle K} {env : Env} {P : World Store K → Prop} (h : Happening K)
    (hq : ∀ w w', Safe.Quiet w w' → P w → P w')
    (hc : ∀ c, h.makes c → ∀ n w, P w → P (runFor Store.impl O n (c.prog env) w)) (w : World Store K) (hw : P w) :
    P (h.after Store.impl O env w) := by
  cases h with
  | call c =>
    obtain ⟨n, he⟩ := runFor_run Store.impl O (c.prog env) w
    show P (run Store.impl O (c.prog env) w).2
    rw [← he]; exact hc c rfl n w hw
  | killed c n => exact hc c rfl n w hw
  | command ce be cmd =>
    obtain ⟨n, he⟩ := runFor_run Store.impl O (cmd.prog ce be env) w
    show P (run Store.impl O (cmd.prog ce be env) w).2
    rw [← he]; exact (composed_command ce be env cmd).killed hq hc n w hw
  | commandKilled ce be cmd n => exact (composed_command ce be env cmd).killed hq hc n w hw
  | outside k => exact hq w { w with env := k } ⟨rfl, rfl, Nat.le_refl _, [], rfl⟩ hw

theorem mem_callsMade {K : Type} {c : ApiCall} {hist : List (Happening K)} : c ∈ callsMade hist ↔ ∃ h ∈ hist, h.makes c := Iff.rfl

theorem mem_callsMade_cons {K : Type} {c : ApiCall} {h : Happening K} {hs : List (Happening K)} :
    c ∈ callsMade (h :: hs) ↔ h.makes c ∨ c ∈ callsMade hs := by
  simp [mem_callsMade]

theorem mem_callsMade_calls {K : Type} {c : ApiCall} {calls : List ApiCall} :
    c ∈ callsMade (calls.map (Happening.call (K := K))) ↔ c ∈ calls := by
  induction calls with
  | nil => simp [mem_callsMade]
  | cons x cs ih => rw [List.map_cons, mem_callsMade_cons, ih, List.mem_cons]; rfl

/-- induction on what happened -/
theorem runHistory_ind {K : Type} {O : Oracle K} {env : Env} {P : World Store K → Prop} (hist : List (Happening K))
    (hq : ∀ w w', Safe.Quiet w w' → P w → P w')
    (hc : ∀ c ∈ callsMade hist, ∀ n w, P w → P (runFor Store.impl O n (c.prog env) w)) (w : World Store K) (hw : P w) :
    P (runHistory Store.impl O env hist w) := by
  induction hist generalizing w with
  | nil => exact hw
  | cons h hs ih =>
    exact ih (fun c hm => hc c (mem_callsMade_cons.mpr (Or.inr hm))) _
      (h.after_ind hq (fun c hm => hc c (mem_callsMade_cons.mpr (Or.inl hm))) w hw)

theorem runHistory_respects {K : Type} {O : Oracle K} {env : Env} {R : World Store K → World Store K → Prop}
    (htrans : ∀ a b c, R a b → R b c → R a c)
    (hro : ∀ w w' : World Store K, w'.store = w.store → w'.clock = w.clock → w.tick ≤ w'.tick →
      (∃ l, w'.trace = l ++ w.trace) → R w w')
    (hist : List (Happening K))
    (hact : ∀ c ∈ callsMade hist, ∀ a, c.acts env a → ∀ w, R w (exec O a.prog w).2) :
    ∀ w, R w (runHistory Store.impl O env hist w) := fun w =>
  runHistory_ind (P := R w) hist (fun _ _ ⟨h1, h2, h3, h4⟩ h => htrans _ _ _ h (hro _ _ h1 h2 h3 h4))
    (fun c hc n w1 h => htrans _ _ _ h ((safe_call env c).respects_killed htrans hro (hact c hc) n w1)) w
    (hro _ _ rfl rfl (Nat.le_refl _) ⟨[], rfl⟩)

theorem runHistory_append {σ K : Type} {S : StoreImpl σ} {O : Oracle K} {env : Env} (l1 l2 : List (Happening K)) (w : World σ K) :
    runHistory S O env (l1 ++ l2) w = runHistory S O env l2 (runHistory S O env l1 w) := by
  induction l1 generalizing w with
  | nil => rfl
  | cons c l1 ih => exact ih _

theorem runHistory_calls {σ K : Type} {S : StoreImpl σ} {O : Oracle K} {env : Env} (calls : List ApiCall) (w : World σ K) :
    runHistory S O env (calls.map .call) w = runCalls S O env calls w := by
  induction calls generalizing w with
  | nil => rfl
  | cons c l1 ih => exact ih _

end Verif
