import Verif.Props.Failures
import Verif.Props.CrashCalls
import Verif.Lemmas.BuiltCmd
import Verif.Lemmas.Composed
import Verif.Props.Commands
import Verif.Props.Bot
/-!
# Failures and interruption of commands: C58, C78 and C97 for the command line
-/
namespace Verif

variable {σ K : Type}

/-! ## Specification -/

/-- a search for a program which finds none is no failure of a command: `status` prints `None`, and `sendmail` has a default -/
def CommandFailed (F : (o : ExtOp) → o.Ret → Prop) (o : ExtOp) (r : o.Ret) : Prop := F o r ∧ ∀ n, o ≠ .findExecutable n

/-! ## Commands heed failures -/

theorem Prog.Heeds.weaken {S S' : (o : ExtOp) → o.Ret → Prop} {G : Exc → Prop} {α : Type} {p : Prog α} (h : p.Heeds S G)
    (hS : ∀ o r, S' o r → S o r) : p.Heeds S' G := by
  induction p with
  | pure a => trivial
  | raise e => trivial
  | op o k ih =>
    refine .mk_op (fun r => ih r (h.cont r)) fun x e r hr => ?_
    cases e
    exact (h r).2 (hS _ _ hr)

theorem FailedBadly.failed {o : ExtOp} {r : o.Ret} (h : FailedBadly o r) : Failed o r := by
  unfold FailedBadly at h
  split at h
  · unfold Failed
    dsimp only at h ⊢
    split
    · trivial
    · rename_i out; rw [show out.ret = 130 from h]; decide
  · exact h.imp fun _ h => h.1
  · exact h.imp fun _ h => h.1
  · exact h

/-- failures which commands notice: all those named, or only the bad ones -/
structure Noticed (F : (o : ExtOp) → o.Ret → Prop) : Prop where
  sub : ∀ o r, F o r → Failed o r
  emit : ∀ s r, F (.emit s) r → ∃ e, r = .error e
  sendmail : ∀ s t r, F (.sendmail s t) r → ∃ e, r = .error e
  nofind : ∀ n r, ¬ F (.findExecutable n) r

theorem Noticed.failed : Noticed (CommandFailed Failed) := ⟨fun _ _ h => h.1, fun _ _ h => h.1, fun _ _ _ h => h.1, fun n _ h => h.2 n rfl⟩
theorem Noticed.badly : Noticed (CommandFailed FailedBadly) :=
  ⟨fun _ _ h => h.1.failed, fun _ _ h => h.1, fun _ _ _ h => h.1, fun n _ h => h.2 n rfl⟩

namespace Cmd
open Prog
variable {F : (o : ExtOp) → o.Ret → Prop} (N : Noticed F) (ce : CmdEnv) (be : BotEnv) (env : Env)

local notation "Hd" p => Heeds F (fun _ => True) p

include N

theorem heeds_emit (s) : Hd (Prog.emit s) := by
  intro r
  refine ⟨.ofExcept _, fun h => ?_⟩
  obtain ⟨e, rfl⟩ := N.emit _ r h
  trivial

theorem heeds_say (s) : Hd (say s) := heeds_emit N _
theorem heeds_kecho (s t) : Hd (kecho s t) := heeds_emit N _

theorem heeds_find (n) : Hd (Prog.findExecutable n) := fun _ => ⟨trivial, fun h => (N.nofind _ _ h).elim⟩

theorem heeds_of {α : Type} {p : Prog α} (h : p.Heeds Failed fun _ => True) : Hd p := h.weaken N.sub

theorem heeds_getAccount (n b) : Hd (Manager.getAccount env n b) := heeds_of N (Verif.heeds_getAccount env n b)

theorem heeds_processOutgoing (m) : Hd (Cmd.processOutgoing env m) := by
  have h1 := fun a b => heeds_of N (heeds_fromEmailadr env a b)
  have h2 := fun a => heeds_of N (Account.heeds_processOutgoing (env := env) a m)
  unfold Cmd.processOutgoing; simp only [bind_eq, pure_eq]
  heeds <;> first | exact h1 _ _ | exact h2 _

theorem heeds_accountFor (a) : Hd (accountFor env a) := by
  have h1 := fun a b => heeds_of N (heeds_fromEmailadr env a b)
  unfold accountFor; simp only [bind_eq, pure_eq]
  heeds
  exact h1 _ _

theorem heeds_peerstate (a b) : Hd (peerstate ce env a b) := by
  have h1 := heeds_say N
  unfold peerstate; simp only [bind_eq]
  heeds <;> exact h1 _

theorem heeds_sayUids (l) : Hd (sayUids l) := by
  induction l with
  | nil => trivial
  | cons a l ih => exact .bind (heeds_kecho N _ _) fun _ => ih

theorem heeds_sayAddrs (l) : Hd (sayAddrs l) := by
  induction l with
  | nil => trivial
  | cons a l ih => exact .bind (heeds_say N _) fun _ => ih

theorem heeds_sayPeers (a l) : Hd (sayPeers ce env a l) := by
  have h1 := heeds_say N
  induction l with
  | nil => trivial
  | cons b l ih =>
    unfold sayPeers; simp only [bind_eq]
    heeds
    exact h1 _

theorem heeds_statusAccount (a v) : Hd (statusAccount ce env a v) := by
  have R := Reported.all env
  have h1 := heeds_say N
  have h2 := heeds_kecho N
  have h3 := heeds_find N
  have h4 := heeds_of N (Account.heeds_bingpg R a)
  have h5 := fun g k => heeds_of N (BinGPG.heeds_listPublicKeyinfos R g k)
  have h6 := heeds_sayUids N
  have h7 := heeds_sayPeers N ce env
  have h8 := Account.heeds_config (S := F) (G := fun _ => True) a
  have h9 := Account.heeds_ownKeyhandle (S := F) (G := fun _ => True) a
  unfold statusAccount getPeernameList; simp only [bind_eq, pure_eq]
  heeds <;> first | exact h1 _ | exact h2 _ _ | exact h3 _ | exact h5 _ _ | exact h6 _ | exact h7 _ _

theorem heeds_statusAll (v l) : Hd (statusAll ce env v l) := by
  have h1 := heeds_say N
  have h2 := heeds_statusAccount N ce env
  have h3 := heeds_getAccount N env
  induction l with
  | nil => trivial
  | cons b l ih =>
    unfold statusAll; simp only [bind_eq]
    heeds <;> first | exact h1 _ | exact h2 _ _ | exact h3 _ _

theorem heeds_status (v) : Hd (status ce env v) := by
  have h1 := heeds_say N
  have h2 := heeds_statusAll N ce env
  unfold status getAccountNames; simp only [bind_eq, pure_eq]
  heeds <;> first | exact h1 _ | exact h2 _ _

theorem heeds_sendmail (a m) : Hd (Cmd.sendmail ce env a m) := by
  have h1 := heeds_say N
  have h2 := heeds_processOutgoing N env
  have h3 := heeds_find N
  have h4 : ∀ a r, Hd (Prog.sendmail a r) := by
    intro a m r
    refine ⟨.ofExcept _, fun h => ?_⟩
    obtain ⟨e, rfl⟩ := N.sendmail _ _ r h
    trivial
  unfold Cmd.sendmail; simp only [bind_eq, pure_eq]
  heeds <;> first | exact h1 _ | exact h2 _ | exact h3 _ | exact h4 _ _

omit N
theorem heeds_managerExists : Hd managerExists := by
  unfold managerExists; simp only [bind_eq, pure_eq]; heeds

theorem heeds_destroyAll (hrm : ∀ r, ¬ F .rmtree r) (y) : Hd (destroyAll y) := by
  have h1 := heeds_managerExists (F := F)
  have h2 : Hd Manager.remove := fun r => ⟨fun _ => trivial, fun h => (hrm r h).elim⟩
  unfold destroyAll; simp only [bind_eq, pure_eq]; heeds

include N

theorem heeds_sayReport (m r) : Hd (sayReport m r) := by
  have h1 := heeds_say N
  unfold sayReport; simp only [bind_eq]
  heeds <;> exact h1 _

theorem heeds_body (hrm : ∀ r, ¬ F .rmtree r) (cmd : Command)
    (h1 : ∀ n i d m, cmd ≠ .processIncoming n i d m) (h2 : ∀ i l, cmd ≠ .scandir i l) (h3 : ∀ v s f m, cmd ≠ .botReply v s f m) :
    Hd (cmd.body ce be env) := by
  have R := Reported.all env
  have say := heeds_say N
  have em := heeds_emit N
  have stA := heeds_statusAccount N ce env
  have st := heeds_status N ce env
  have acc := heeds_getAccount N env
  have accf := heeds_accountFor N env
  cases cmd
  case status n v =>
    cases n
    · exact .bind (st _) fun _ => trivial
    · exact .bind (acc _ _) fun _ => .bind (stA _ _) fun _ => trivial
  case addAccount n sys key bin regex =>
    have h : Hd (Cmd.addAccount env n sys key bin regex) := by
      refine heeds_of N ?_
      have h1 := Verif.heeds_getAccount env
      have h2 := Account.heeds_create (env := env)
      unfold Cmd.addAccount Manager.addAccount Account.exists_; simp only [bind_eq, pure_eq]
      heeds <;> first | exact h1 _ _ | exact h2 _ _ _ _ _
    exact .bind h fun _ => .bind (say _) fun _ => .bind (stA _ _) fun _ => trivial
  case modAccount n key bin regex pe =>
    have h : Hd (Cmd.modAccount env n key bin regex pe) := by
      unfold Cmd.modAccount Manager.modAccount Account.modify Own.changeConfig; simp only [bind_eq, pure_eq]
      heeds
      exact acc _ _
    exact .bind h fun _ => .bind (say _) fun _ => .bind (stA _ _) fun _ => trivial
  case delAccount n =>
    have h : Hd (Manager.delAccount env n) := by
      unfold Manager.delAccount removeAccount; simp only [bind_eq]
      exact .bind (acc _ _) fun _ => fun r => .ofExcept r
    exact .bind h fun _ => .bind (say _) fun _ => .bind (st _) fun _ => trivial
  case findAccount a => exact .bind (accf _) fun _ => .bind (say _) fun _ => trivial
  case processIncoming n i d m => exact absurd rfl (h1 n i d m)
  case scandir i l => exact absurd rfl (h2 i l)
  case importPublicKey n kd pe email =>
    exact .bind (acc _ _) fun _ => .bind (heeds_of N (Account.heeds_import R _ _ _ _)) fun _ => .bind (say _) fun _ =>
      .bind (heeds_sayAddrs N _) fun _ => trivial
  case peerstate n a => exact .bind (acc _ _) fun _ => .bind (heeds_peerstate N ce env _ _) fun _ => trivial
  case recommend n as => exact .bind (acc _ _) fun _ => .bind (Account.heeds_recommendation _ _ _ _) fun _ => .bind (say _) fun _ => trivial
  case processOutgoing m => exact .bind (heeds_processOutgoing N env _) fun _ => .bind (em _) fun _ => trivial
  case sendmail a m => exact heeds_sendmail N ce env _ _
  case makeHeader a v =>
    exact .bind (accf _) fun _ => .bind (heeds_of N (Account.heeds_makeAcHeader R _ _)) fun _ => .bind (say _) fun _ => trivial
  case exportPublicKey n k =>
    exact .bind (acc _ _) fun _ => .bind (heeds_of N (Account.heeds_exportPublicKey R _ _)) fun _ => .bind (em _) fun _ => trivial
  case exportSecretKey n =>
    exact .bind (acc _ _) fun _ => .bind (heeds_of N (Account.heeds_exportSecretKey R _)) fun _ => .bind (em _) fun _ => trivial
  case botReply v s f m => exact absurd rfl (h3 v s f m)
  case destroyAll y =>
    have d := heeds_destroyAll (F := F) hrm y
    have ex := heeds_managerExists (F := F)
    unfold Command.body; simp only [bind_eq]
    heeds <;> exact say _

theorem heeds_incomingBody (hin : ∀ a m i d, Hd (Account.processIncoming env a m i d)) (n i d m) :
    Hd ((Command.processIncoming n i d m).body ce be env) := by
  have acc := heeds_getAccount N env
  have mt := heeds_of N (heeds_matching env m)
  have rp := heeds_sayReport N
  unfold Command.body Cmd.processIncoming; simp only [bind_eq, pure_eq]
  heeds <;> first | exact acc _ _ | exact hin _ _ _ _ | exact rp _ _

theorem heeds_botBody (hin : ∀ a m i d, Hd (Account.processIncoming env a m i d)) (v s f m) :
    Hd ((Command.botReply v s f m).body ce be env) := by
  have R := Reported.all env
  have acc := fun a b => heeds_of N (heeds_fromEmailadr env a b)
  have em := heeds_emit N
  have hk : ∀ a, Hd (Bot.keysOf env a m) := by
    intro a
    unfold Bot.keysOf; simp only [bind_eq, pure_eq]
    split
    · exact .bind (heeds_of N (Account.heeds_decryptMime R a m)) fun _ => trivial
    · trivial
  have hp : ∀ x, Hd (Report.processed env be.rep m x) := by
    intro x
    unfold Report.processed; simp only [bind_eq, pure_eq]
    split
    · trivial
    · refine .attempt (G := fun _ => False) (.chain _) (fun y => ?_) fun _ h => h.elim
      cases y <;> trivial
  have hr : ∀ a, Hd (Bot.recFor env a m) := by
    intro a
    unfold Bot.recFor; simp only [bind_eq, pure_eq]
    split
    · trivial
    · exact .bind (Account.heeds_recommendation _ _ _ _) fun _ => trivial
  have hac := fun a b => heeds_of N (Account.heeds_makeAcHeader R a b)
  have hen := fun a b c => heeds_of N (Account.heeds_encryptMime (env := env) a b c)
  have hkh := fun a => Account.heeds_ownKeyhandle (S := F) (G := fun _ => True) a
  unfold Command.body Bot.reply Bot.answer Bot.replyNoFrom Bot.makeReply Bot.deliver; simp only [bind_eq, pure_eq]
  heeds <;> first | exact acc _ _ | exact em _ | exact hin _ _ _ _ | exact hk _ | exact hp _ | exact hr _ | exact hac _ _ | exact hen _ _ _ | exact hkh _

omit N

/-- a command which exits with 0 has run its body to the end -/
theorem body_of_zero {O : Oracle K} {w w' : World Store K} {cmd : Command} (h : exec O (cmd.prog ce be env) w = (.ok 0, w')) :
    exec O (cmd.body ce be env) w = (.ok 0, w') := by
  unfold Command.prog at h
  simp only [bind_eq, pure_eq] at h
  unfold exec at h ⊢
  rw [run_bind, run_attempt] at h
  rcases hb : run Store.impl O (cmd.body ce be env) w with ⟨r, w1⟩
  rw [hb] at h
  cases r with
  | ok r => exact h
  | error e =>
    dsimp only at h
    split at h
    · obtain ⟨_, _, -, h⟩ := run_bind_ok.mp h
      cases h
    · cases h

end Cmd

/-- C78 for the command line: if a command other than `process-incoming`, `scandir-incoming` and `bot-reply` exits with 0 then gpg never
failed, every file could be written and removed, no plugin raised, and everything was printed or handed over. -/
theorem C78_commands (O : Oracle K) (ce : CmdEnv) (be : BotEnv) (env : Env) (w w' : World Store K) (cmd : Cmd.Command)
    (h1 : ∀ n i d m, cmd ≠ .processIncoming n i d m) (h2 : ∀ i l, cmd ≠ .scandir i l) (h3 : ∀ v s f m, cmd ≠ .botReply v s f m)
    (h : exec O (cmd.prog ce be env) w = (.ok 0, w')) : Events (fun ev => ¬ CommandFailed Failed ev.op ev.ret) w w' := by
  obtain ⟨new, g1, g2⟩ := (Cmd.heeds_body .failed ce be env (fun r hr => hr.1) cmd h1 h2 h3).run (O := O) w
  rw [Cmd.body_of_zero ce be env h] at g1 g2
  refine ⟨new, g1, ?_⟩
  rcases g2 with g2 | ⟨e, he, _⟩
  · exact g2
  · cases he

/-- C78 for `process-incoming` and `bot-reply`: only the failure of a gpg command, other than an interrupt, may have been taken for a
failed key import. -/
theorem C78_incoming_commands (O : Oracle K) (ce : CmdEnv) (be : BotEnv) (env : Env) (w w' : World Store K) (cmd : Cmd.Command)
    (h1 : (∃ n i d m, cmd = .processIncoming n i d m) ∨ ∃ v s f m, cmd = .botReply v s f m)
    (h : exec O (cmd.prog ce be env) w = (.ok 0, w')) : Events (fun ev => ¬ CommandFailed FailedBadly ev.op ev.ret) w w' := by
  have hin : ∀ a m i d, (Account.processIncoming env a m i d).Heeds (CommandFailed FailedBadly) fun _ => True :=
    fun a m i d => (Account.heeds_processIncoming (env := env) a m i d).weaken fun _ _ h => h.1
  have hh : (cmd.body ce be env).Heeds (CommandFailed FailedBadly) fun _ => True := by
    rcases h1 with ⟨n, i, d, m, rfl⟩ | ⟨v, s, f, m, rfl⟩
    · exact Cmd.heeds_incomingBody .badly ce be env hin n i d m
    · exact Cmd.heeds_botBody .badly ce be env hin v s f m
  obtain ⟨new, g1, g2⟩ := hh.run (O := O) w
  rw [Cmd.body_of_zero ce be env h] at g1 g2
  refine ⟨new, g1, ?_⟩
  rcases g2 with g2 | ⟨e, he, _⟩
  · exact g2
  · cases he

/-- C58 for the command line: whenever a command ends, normally or with an exception, each temporary file it made has been removed,
unless writing the file failed.
Missing: if the file was made but could not be written, it is left (`C58_refuted`). -/
theorem C58_commands_partial {S : StoreImpl σ} {O : Oracle K} (ce : CmdEnv) (be : BotEnv) (env : Env) (cmd : Cmd.Command) (w : World σ K) :
    ∃ new, (run S O (cmd.prog ce be env) w).2.trace = new ++ w.trace ∧
      ∀ later earlier name, new = later ++ ⟨.mkTemp, (.ok name : Except Exc Str)⟩ :: earlier →
        (∃ r : Except Exc Unit, (⟨.rmTemp name, r⟩ : Event) ∈ later) ∨
        ∃ l d e, later = l ++ [⟨.writeTemp name d, (.error e : Except Exc Unit)⟩] := (Cmd.built_command ce be env cmd).tidy S O w

/-! ## Interruption -/

theorem Composed.notWipe {env : Env} {M : ApiCall → Prop} {α : Type} {p : Prog α} (hp : Composed env M p) (hM : ∀ c, M c → c ≠ .removeAll) :
    p.AllOps Op.notWipe := by
  induction hp with
  | ro h => exact h.mono fun o ho => by cases o <;> trivial
  | @call α p c hc h =>
    have := call_notWipe env c (hM c hc)
    rw [← h] at this
    clear * - this
    induction p with
    | pure a => trivial
    | raise e => trivial
    | op o k ih => exact ⟨this.1, fun r => ih r (this.2 r)⟩
  | bindQ Q _ hq _ ih1 ih2 =>
    rename_i p f _ _
    clear * - hq ih1 ih2
    induction p with
    | pure a => exact ih2 a hq
    | raise e => trivial
    | op o k ih => exact ⟨ih1.1, fun r => ih r (hq r) (ih1.2 r)⟩
  | attempt _ ih => exact ih.attempt

theorem command_notWipe (ce : CmdEnv) (be : BotEnv) (env : Env) (cmd : Cmd.Command) (hcmd : cmd ≠ .destroyAll true) :
    (cmd.prog ce be env).AllOps Op.notWipe := by
  refine (composed_command ce be env cmd).notWipe fun c hc hr => ?_
  subst hr
  rcases hc with hc | hc
  · exact hc
  · cases cmd
    case destroyAll y => cases y <;> simp_all [Cmd.Command.changes]
    case processIncoming n _ _ _ => cases n <;> simp [Cmd.Command.changes] at hc
    all_goals simp [Cmd.Command.changes] at hc

variable {c : Codec}

/-- C97 for the command line, the part that holds: if the process dies at any point of a command, between or within file operations, then
the next process reads what was stored after some of the operations of the command, or the heads file is torn, or a block file is torn
which existed before, or the command was `destroy-all` and some files are removed: then it reads the newest parts of the logs, or none.
Missing, and false (`C97_refuted_commands`): the other cases do not occur. -/
theorem C97_commands_partial (hl : c.Lawful) (O : Oracle K) (ce : CmdEnv) (be : BotEnv) (env : Env) (cmd : Cmd.Command)
    {w : World Disk K} {v : World Store K} (hw : SameWorld c w v)
    (hnc : (run (Disk.impl c) O (cmd.prog ce be env) w).2.store.collided = false) {d' : Disk}
    (hcrash : (cmd.prog ce be env).Crash c O w d') :
    (∃ n, ReadsAs c d' (runFor Store.impl O n (cmd.prog ce be env) v).store) ∨ TornHeads c d' ∨
    (∃ n, TornBlock (runFor (Disk.impl c) O n (cmd.prog ce be env) w).store d') ∨
    cmd = .destroyAll true ∧ ∃ n s, (s = [] ∨ NewestParts (runFor Store.impl O n (cmd.prog ce be env) v).store s) ∧ ReadsAs c d' s := by
  rcases prog_crash hl O _ hw hnc hcrash with ⟨n, h⟩ | h | h | ⟨hn, n, ps, h1, h2⟩
  · exact Or.inl ⟨n, h.readsAs hl⟩
  · exact Or.inr (Or.inl h)
  · exact Or.inr (Or.inr (Or.inl h))
  · refine Or.inr (Or.inr (Or.inr ⟨Classical.byContradiction fun hc => hn (command_notWipe ce be env cmd hc), n, ?_⟩))
    subst h1
    obtain ⟨s', k1, k2⟩ := h2.remains hl (removing_left _ ps)
    exact ⟨s', k2.symm.imp (·.1) (·.1), remains_heads k1, remains_chain hl k1⟩

/-- C97 is false of every command which changes what is stored, in every state. -/
theorem C97_refuted_commands (hl : c.Lawful) (ht : c.RejectsTruncated) (hne : ∀ hs, c.dumpDict hs ≠ []) (O : Oracle K) (ce : CmdEnv)
    (be : BotEnv) (env : Env) (cmd : Cmd.Command) (hcmd : cmd ≠ .destroyAll true) {w : World Disk K} {v : World Store K}
    (hw : SameWorld c w v) (hnc : (run (Disk.impl c) O (cmd.prog ce be env) w).2.store.collided = false)
    (hch : (run Store.impl O (cmd.prog ce be env) v).2.store ≠ v.store) :
    ∃ d', (cmd.prog ce be env).Crash c O w d' ∧ ∀ name, ∃ e, (Disk.impl c).chain d' name = .error e :=
  prog_torn hl ht hne O _ (command_notWipe ce be env cmd hcmd) hw hnc hch

section examples
open Concrete

/-- commands which run gpg and exit with 0: `add-account`, `process-outgoing`, `process-incoming` and the bot -/
example : (cmd [] (.addAccount (str!"a") false none (str!"gpg") none)).1.toOption = some 0 ∧
    (cmd [] (.addAccount (str!"a") false none (str!"gpg") none)).2.trace.length > 10 ∧
    (cmd [addA] (.processOutgoing toBob)).1.toOption = some 0 ∧
    (cmd [addA] (.processIncoming none false false (mail bob (str!"1") (str!"100") [7]))).1.toOption = some 0 ∧
    (exec oracle ((Cmd.Command.botReply botValues none none (botMail bob (str!"bot@x.org") [])).prog cmdEnv botEnv env) recWorld).1.toOption =
      some 0 := by
  decide +kernel

/-- if gpg is interrupted then the command does not exit with 0 -/
example : (exec interrupting ((Cmd.Command.addAccount (str!"a") false none (str!"gpg") none).prog cmdEnv botEnv env) world0).1.toOption = none := by
  decide +kernel

/-- a command in whose run a temporary file is made, and the key generation fails -/
example : (exec noKeygen ((Cmd.Command.addAccount (str!"a") false none (str!"gpg") none).prog cmdEnv botEnv env) world0).1.toOption = none ∧
    (exec noKeygen ((Cmd.Command.addAccount (str!"a") false none (str!"gpg") none).prog cmdEnv botEnv env) world0).2.trace.any
      (fun e => match e.op with | .writeTemp _ _ => true | _ => false) = true := by
  decide +kernel

/-- a command on files, without collision, which changes the store; it may be interrupted after any number of operations -/
example : (run (Disk.impl codec) oracle ((Cmd.Command.addAccount (str!"a") false none (str!"gpg") none).prog cmdEnv botEnv env)
      disk0).2.store.collided = false ∧
    ((run Store.impl oracle ((Cmd.Command.addAccount (str!"a") false none (str!"gpg") none).prog cmdEnv botEnv env)
      world0).2.store).get (ownHead (str!"a")) ≠ world0.store.get (ownHead (str!"a")) := by
  decide +kernel

example (n : Nat) : ((Cmd.Command.addAccount (str!"a") false none (str!"gpg") none).prog cmdEnv botEnv env).Crash codec oracle disk0
    (runFor (Disk.impl codec) oracle n ((Cmd.Command.addAccount (str!"a") false none (str!"gpg") none).prog cmdEnv botEnv env) disk0).store :=
  crash_runFor ..

end examples

end Verif
