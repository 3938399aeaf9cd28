import Verif.Model.Commands
import Verif.Props.Cmdline
import Verif.Props.Bot
/-!
# Commands: C74, C83

What commands store, print and send.
-/
namespace Verif
open Mime

variable {K : Type}

/-! ## What was printed and sent -/

/-- what was written for the user so far, oldest first -/
def World.printed (w : World Store K) : List Output :=
  (w.trace.filterMap fun ev => match ev.op with
    | .emit o => some o
    | _ => none).reverse

/-- the calls of the program sendmail so far, with arguments and input, oldest first -/
def World.piped (w : World Store K) : List (List Str × Msg) :=
  (w.trace.filterMap fun ev => match ev.op with
    | .sendmail argv m => some (argv, m)
    | _ => none).reverse

theorem silent_printed {O : Oracle K} {α : Type} {p : Prog α} (hp : p.AllOps Op.silent) {w w' : World Store K} {r : Except Exc α}
    (h : run Store.impl O p w = (r, w')) : w'.printed = w.printed ∧ w'.piped = w.piped := by
  obtain ⟨new, hn, hq⟩ := run_events (S := Store.impl) (O := O) hp w
  rw [h] at hn
  simp only at hn
  have h1 : new.filterMap (fun ev => match ev.op with | .emit o => some o | _ => none) = [] := by
    rw [List.filterMap_eq_nil_iff]
    intro ev hev
    have := hq ev hev
    rcases ev with ⟨op, ret⟩
    cases op <;> first | rfl | exact this.elim
  have h2 : new.filterMap (fun ev => match ev.op with | .sendmail argv m => some (argv, m) | _ => none) = [] := by
    rw [List.filterMap_eq_nil_iff]
    intro ev hev
    have := hq ev hev
    rcases ev with ⟨op, ret⟩
    cases op <;> first | rfl | exact this.elim
  unfold World.printed World.piped
  rw [hn, List.filterMap_append, List.filterMap_append, h1, h2]
  exact ⟨rfl, rfl⟩

theorem run_emit (O : Oracle K) (o : Output) (w : World Store K) :
    ∃ r w', run Store.impl O (Prog.emit o) w = (r, w') ∧ w'.store = w.store ∧ w'.printed = w.printed ++ [o] ∧ w'.piped = w.piped ∧
      w'.trace = ⟨.emit o, r⟩ :: w.trace := by
  refine ⟨(O.step (.emit o) w.env).1, { w with env := (O.step (.emit o) w.env).2, trace := ⟨.emit o, (O.step (.emit o) w.env).1⟩ :: w.trace }, ?_, rfl,
    by simp [World.printed], by simp [World.piped], rfl⟩
  exact run_ofExcept Store.impl O (O.step (.emit o) w.env).1 _

theorem emit_ran {O : Oracle K} {o : Output} {w w' : World Store K} {r : Except Exc Unit} (h : run Store.impl O (Prog.emit o) w = (r, w')) :
    w'.store = w.store ∧ w'.printed = w.printed ++ [o] ∧ w'.piped = w.piped ∧ w'.trace = ⟨.emit o, r⟩ :: w.trace := by
  obtain ⟨r', w1, h1, h2⟩ := run_emit O o w
  rw [h1] at h
  cases h
  exact h2

/-- how a command ends -/
theorem command_cases {O : Oracle K} {ce : CmdEnv} {be : BotEnv} {env : Env} {c : Cmd.Command} {w w' : World Store K} {r : Except Exc Int}
    (h : exec O (c.prog ce be env) w = (r, w')) :
    (∃ st, exec O (c.body ce be env) w = (.ok st, w') ∧ r = .ok st) ∨
    (∃ e w1 x, exec O (c.body ce be env) w = (.error e, w1) ∧ (Cmd.isAccountExc e = true ∨ e = .clickError) ∧
      run Store.impl O (Prog.emit (.line (ce.excText e))) w1 = (x, w') ∧ r = x.map fun _ => 1) ∨
    (∃ e, exec O (c.body ce be env) w = (.error e, w') ∧ Cmd.isAccountExc e = false ∧ e ≠ .clickError ∧ r = .error e) := by
  unfold Cmd.Command.prog at h
  simp only [exec, bind_eq, pure_eq] at h ⊢
  rw [run_bind, run_attempt] at h
  dsimp only at h
  rcases h1 : run Store.impl O (c.body ce be env) w with ⟨e | st, w1⟩
  · rw [h1] at h
    dsimp only at h
    by_cases he : (Cmd.isAccountExc e || e == .clickError) = true
    · rw [if_pos he, run_bind] at h
      refine .inr (.inl ⟨e, w1, ?_⟩)
      rcases h2 : run Store.impl O (Cmd.say (ce.excText e)) w1 with ⟨e' | u, w2⟩
      · rw [h2] at h; cases h
        exact ⟨_, rfl, by simpa using he, h2, rfl⟩
      · rw [h2] at h; cases h
        exact ⟨_, rfl, by simpa using he, h2, rfl⟩
    · rw [if_neg he] at h
      cases h
      simp only [Bool.or_eq_true, not_or, Bool.not_eq_true] at he
      exact .inr (.inr ⟨e, rfl, he.1, by simpa using he.2, rfl⟩)
  · rw [h1] at h
    cases h
    exact .inl ⟨st, rfl, rfl⟩

/-! ## C74 -/

/-- the commands which only show, export or send -/
def Cmd.Command.shows : Cmd.Command → Prop
  | .status .. | .findAccount _ | .peerstate .. | .recommend .. | .processOutgoing _ | .sendmail .. | .makeHeader .. | .exportPublicKey .. |
    .exportSecretKey _ | .destroyAll false => True
  | _ => False

theorem safe_cmdProcessOutgoing (env : Env) (m : Msg) : Safe InitAct (Cmd.processOutgoing env m) := by
  unfold Cmd.processOutgoing
  simp only [bind_eq, pure_eq]
  split
  · refine .bind (Manager.safe_getAccountFromEmailadr env trivial _ _) fun x => ?_
    split
    · exact .raise _
    · exact .pure _
  · refine .bind (Manager.safe_getAccountFromEmailadr env trivial _ _) fun x => ?_
    split
    · exact .raise _
    · exact .bind (.ro (Account.processOutgoing_ops permissive_readOnly env _ _)) fun _ => .pure _

theorem safe_say (s : Str) : Safe InitAct (Cmd.say s) := .ro (say_ops (fun _ => trivial) s)

theorem safe_statusAccount (ce : CmdEnv) (env : Env) (n : Str) (v : Bool) : Safe InitAct (Cmd.statusAccount ce env n v) :=
  .ro (statusAccount_ops permissive_readOnly (fun _ => trivial) ce env n v)

theorem safe_statusAll (ce : CmdEnv) (env : Env) (v : Bool) (l : List Str) : Safe InitAct (Cmd.statusAll ce env v l) := by
  induction l with
  | nil => exact .pure _
  | cons n ns ih =>
    exact .bind (Manager.safe_getAccount env trivial n _) fun _ => .bind (safe_statusAccount ce env _ v) fun _ => .bind (safe_say _) fun _ => ih

theorem safe_status (ce : CmdEnv) (env : Env) (v : Bool) : Safe InitAct (Cmd.status ce env v) := by
  unfold Cmd.status
  refine .bind (safe_say _) fun _ => .bind (.ro (by unfold getAccountNames; exact .bind (.heads trivial) fun _ => trivial)) fun names => ?_
  split
  · exact safe_say _
  · exact safe_statusAll ce env v _

theorem safe_accountFor (env : Env) (addr : Str) : Safe InitAct (Cmd.accountFor env addr) := by
  unfold Cmd.accountFor
  refine .bind (Manager.safe_getAccountFromEmailadr env trivial _ _) fun x => ?_
  split
  · exact .pure _
  · exact .raise _

theorem safe_body (ce : CmdEnv) (be : BotEnv) (env : Env) (c : Cmd.Command) (hc : c.shows) : Safe InitAct (c.body ce be env) := by
  cases c with
  | status a v =>
    cases a with
    | none => exact .bind (safe_status ce env v) fun _ => .pure _
    | some n => exact .bind (Manager.safe_getAccount env trivial n _) fun _ => .bind (safe_statusAccount ce env _ v) fun _ => .pure _
  | findAccount a => exact .bind (safe_accountFor env a) fun _ => .bind (safe_say _) fun _ => .pure _
  | makeHeader a v =>
    exact .bind (safe_accountFor env a) fun _ => .bind (.ro (Account.makeAcHeader_ops permissive_readOnly env _ _)) fun _ =>
      .bind (safe_say _) fun _ => .pure _
  | recommend n l =>
    exact .bind (Manager.safe_getAccount env trivial n true) fun _ => .bind (.ro (Account.recommendation_ops permissive_readOnly env _ _ _ _)) fun _ =>
      .bind (safe_say _) fun _ => .pure _
  | peerstate n a =>
    refine .bind (Manager.safe_getAccount env trivial n true) fun _ => .bind ?_ fun _ => .pure _
    unfold Cmd.peerstate
    exact .bind (.ro (.chain trivial)) fun _ => .bind (safe_say _) fun _ => .bind (safe_say _) fun _ => .bind (safe_say _) fun _ =>
      .bind (safe_say _) fun _ => .bind (.ro (.ofExcept _)) fun _ => .bind (safe_say _) fun _ => .bind (safe_say _) fun _ =>
      .bind (.ro (.ofExcept _)) fun _ => .bind (safe_say _) fun _ => safe_say _
  | processOutgoing m => exact .bind (safe_cmdProcessOutgoing env m) fun _ => .bind (.ro (.emit trivial)) fun _ => .pure _
  | sendmail args m =>
    show Safe InitAct (Cmd.sendmail ce env args m)
    unfold Cmd.sendmail
    refine .bind (.ro (.assert _)) fun _ => .bind (safe_cmdProcessOutgoing env m) fun _ => .bind (.ro (.findExecutable trivial)) fun _ =>
      .bind (.ro (.sendmail trivial)) fun _ => ?_
    split
    · exact .bind (safe_say _) fun _ => .pure _
    · exact .pure _
  | exportPublicKey n k =>
    exact .bind (Manager.safe_getAccount env trivial n true) fun _ => .bind (.ro (Account.exportPublicKey_ops permissive_readOnly env _ _)) fun _ =>
      .bind (.ro (.emit trivial)) fun _ => .pure _
  | exportSecretKey n =>
    exact .bind (Manager.safe_getAccount env trivial n true) fun _ => .bind (.ro (Account.exportSecretKey_ops permissive_readOnly env _)) fun _ =>
      .bind (.ro (.emit trivial)) fun _ => .pure _
  | destroyAll y =>
    cases y with
    | true => exact hc.elim
    | false => exact .bind (safe_say _) fun _ => .pure _
  | _ => exact hc.elim

theorem safe_command (ce : CmdEnv) (be : BotEnv) (env : Env) (c : Cmd.Command) (hc : c.shows) : Safe InitAct (c.prog ce be env) := by
  unfold Cmd.Command.prog
  refine .bind (.attempt (safe_body ce be env c hc)) fun x => ?_
  split
  · exact .pure _
  · split
    · exact .bind (safe_say _) fun _ => .pure _
    · exact .raise _

/-- C74: the commands which show, look up, export or send change nothing stored, also if they fail, once the directory is
initialised. Before, the only change is that it gets initialised. -/
theorem C74_commands (O : Oracle K) (ce : CmdEnv) (be : BotEnv) (env : Env) (w : World Store K) (c : Cmd.Command) (hc : c.shows) :
    (Initialised w → (exec O (c.prog ce be env) w).2.store = w.store) ∧
    ∀ h, h ≠ managerHead → (exec O (c.prog ce be env) w).2.log h = w.log h :=
  safe_init_effect (safe_command ce be env c hc) w

/-! ## C83 -/

/-- `x` is what leaves for the message `m`, in the course between `w` and `w'`: the message itself if an account bounces it, and otherwise
what the first account which matches From made of it -/
def Outbound (O : Oracle K) (env : Env) (w w' : World Store K) (m x : Msg) : Prop :=
  (∃ rf a, m.get (str!"Resent-From") = some rf ∧ rf ≠ [] ∧ FirstAccount env w (address env (some rf)) a ∧ x = m) ∨
  ((∀ rf, m.get (str!"Resent-From") = some rf → rf = []) ∧ ∃ a w1 w2 res, FirstAccount env w (address env (m.get (str!"From"))) a ∧
    w1.store = w.store ∧ w.trace <:+ w1.trace ∧ w2.trace <:+ w'.trace ∧
    exec O (Account.processOutgoing env a m) w1 = (.ok res, w2) ∧ x = res.msg)

theorem cmdOutgoing_course {O : Oracle K} {env : Env} {m : Msg} {w w' : World Store K} (hw : Reachable O env w) {r : Except Exc Msg}
    (h : run Store.impl O (Cmd.processOutgoing env m) w = (r, w')) :
    w'.store = w.store ∧ w'.printed = w.printed ∧ w'.piped = w.piped ∧ ∀ x, r = .ok x → Outbound O env w w' m x := by
  have hlook : ∀ {d : Str} {o : Except Exc (Option Str)} {w1 : World Store K},
      run Store.impl O (Manager.getAccountFromEmailadr env d false) w = (o, w1) →
      w1.store = w.store ∧ w1.printed = w.printed ∧ w1.piped = w.piped ∧ w.trace <:+ w1.trace ∧ ∀ a, o = .ok (some a) → FirstAccount env w d a := by
    intro d o w1 h1
    have hst := lookup_store (O := O) hw.sane d false
    have hso := C49_sound hw d false
    simp only [exec, h1] at hst hso
    obtain ⟨hp1, hp2⟩ := silent_printed (lookup_silent env d false) h1
    exact ⟨hst, hp1, hp2, trace_le h1, fun a ha => (hso _ ha).1 a rfl⟩
  unfold Cmd.processOutgoing at h
  simp only [bind_eq, pure_eq] at h
  by_cases hrf : ((m.get (str!"Resent-From")).getD []).isEmpty = true
  · rw [hrf, Bool.not_true, if_neg (by simp), run_bind] at h
    have hnone : ∀ rf, m.get (str!"Resent-From") = some rf → rf = [] := by
      intro rf he
      rw [he] at hrf
      simpa using hrf
    rcases h1 : run Store.impl O (Manager.getAccountFromEmailadr env (parseEmailAddr env (m.get (str!"From"))) false) w with ⟨e | o, w1⟩
    · rw [h1] at h; cases h
      obtain ⟨h2, h3, h4, -, -⟩ := hlook h1
      exact ⟨h2, h3, h4, fun x hx => by cases hx⟩
    · rw [h1] at h
      obtain ⟨h2, h3, h4, h5, h6⟩ := hlook h1
      cases o with
      | none => cases h; exact ⟨h2, h3, h4, fun x hx => by cases hx⟩
      | some a =>
        dsimp only at h
        rw [run_bind] at h
        rcases h7 : run Store.impl O (Account.processOutgoing env a m) w1 with ⟨e | res, w2⟩
        · rw [h7] at h; cases h
          have hs := (run_ro (O := O) (Account.processOutgoing_ops permissive_readOnly env a m) w1).1
          obtain ⟨hp1, hp2⟩ := silent_printed (Account.processOutgoing_ops permissive_silent env a m) h7
          rw [exec, h7] at hs
          exact ⟨hs.trans h2, hp1.trans h3, hp2.trans h4, fun x hx => by cases hx⟩
        · rw [h7] at h; cases h
          have hs := (run_ro (O := O) (Account.processOutgoing_ops permissive_readOnly env a m) w1).1
          obtain ⟨hp1, hp2⟩ := silent_printed (Account.processOutgoing_ops permissive_silent env a m) h7
          rw [exec, h7] at hs
          refine ⟨hs.trans h2, hp1.trans h3, hp2.trans h4, fun x hx => ?_⟩
          cases hx
          exact .inr ⟨hnone, a, w1, _, res, h6 a rfl, h2, h5, List.suffix_refl _, h7, rfl⟩
  · rw [Bool.not_eq_true] at hrf
    rw [hrf, Bool.not_false, if_pos rfl, run_bind] at h
    rcases hr : m.get (str!"Resent-From") with _ | rf
    · rw [hr] at hrf; cases hrf
    rw [hr] at hrf
    have hne : rf ≠ [] := by simpa using hrf
    rw [hr, Option.getD_some] at h
    rcases h1 : run Store.impl O (Manager.getAccountFromEmailadr env (parseEmailAddr env (some rf)) false) w with ⟨e | o, w1⟩
    · rw [h1] at h; cases h
      obtain ⟨h2, h3, h4, -, -⟩ := hlook h1
      exact ⟨h2, h3, h4, fun x hx => by cases hx⟩
    · rw [h1] at h
      obtain ⟨h2, h3, h4, h5, h6⟩ := hlook h1
      cases o with
      | none => cases h; exact ⟨h2, h3, h4, fun x hx => by cases hx⟩
      | some a =>
        cases h
        refine ⟨h2, h3, h4, fun x hx => ?_⟩
        cases hx
        exact .inl ⟨rf, a, hr, hne, h6 a rfl, rfl⟩

theorem Outbound.later {O : Oracle K} {env : Env} {w w' w'' : World Store K} {m x : Msg} (h : Outbound O env w w' m x) (hl : w'.trace <:+ w''.trace) :
    Outbound O env w w'' m x := by
  rcases h with h | ⟨hn, a, w1, w2, res, h1, h2, h3, h4, h5⟩
  · exact .inl h
  · exact .inr ⟨hn, a, w1, w2, res, h1, h2, h3, h4.trans hl, h5⟩

/-- an exception which the command reports is only followed by its text -/
theorem excText_ran {O : Oracle K} {s : Str} {w1 w' : World Store K} {x : Except Exc Unit}
    (h : run Store.impl O (Prog.emit (.line s)) w1 = (x, w')) : w'.store = w1.store ∧ w'.printed = w1.printed ++ [.line s] ∧ w'.piped = w1.piped :=
  ⟨(emit_ran h).1, (emit_ran h).2.1, (emit_ran h).2.2.1⟩

/-- C83: process-outgoing changes nothing stored and prints at most one message, which is what the account made of the given one. It prints one
if it exits with 0. -/
theorem C83_process_outgoing {O : Oracle K} {ce : CmdEnv} {be : BotEnv} {env : Env} {m : Msg} {w w' : World Store K} (hw : Reachable O env w)
    {r : Except Exc Int} (h : exec O ((Cmd.Command.processOutgoing m).prog ce be env) w = (r, w')) :
    w'.store = w.store ∧ w'.piped = w.piped ∧
    ((∃ x, Outbound O env w w' m x ∧ (w'.printed = w.printed ++ [.mail x] ∨ ∃ s, w'.printed = w.printed ++ [.mail x, .line s] ∧ r ≠ .ok 0)) ∨
      r ≠ .ok 0 ∧ (w'.printed = w.printed ∨ ∃ s, w'.printed = w.printed ++ [.line s])) := by
  have body : ∀ {r1 : Except Exc Int} {w1 : World Store K}, exec O ((Cmd.Command.processOutgoing m).body ce be env) w = (r1, w1) →
      w1.store = w.store ∧ w1.piped = w.piped ∧ ((∃ x, Outbound O env w w1 m x ∧ w1.printed = w.printed ++ [.mail x]) ∨
        (∃ e, r1 = .error e) ∧ w1.printed = w.printed) := by
    intro r1 w1 h1
    simp only [exec, Cmd.Command.body, bind_eq, pure_eq] at h1
    rw [run_bind] at h1
    rcases h2 : run Store.impl O (Cmd.processOutgoing env m) w with ⟨e | x, w2⟩
    · rw [h2] at h1; cases h1
      obtain ⟨c1, c2, c3, -⟩ := cmdOutgoing_course hw h2
      exact ⟨c1, c3, .inr ⟨⟨_, rfl⟩, c2⟩⟩
    · rw [h2] at h1
      obtain ⟨c1, c2, c3, c4⟩ := cmdOutgoing_course hw h2
      dsimp only at h1
      rw [run_bind] at h1
      obtain ⟨x1, w3, h3, e1, e2, e3, e4⟩ := run_emit O (.mail x) w2
      have : w1 = w3 := by
        rw [h3] at h1
        rcases x1 with e | u <;> cases h1 <;> rfl
      subst this
      exact ⟨e1.trans c1, e3.trans c3, .inl ⟨x, (c4 x rfl).later (by rw [e4]; exact List.suffix_cons _ _), by rw [e2, c2]⟩⟩
  rcases command_cases h with ⟨st, h1, rfl⟩ | ⟨e, w1, x, h1, -, h2, rfl⟩ | ⟨e, h1, -, -, rfl⟩
  · obtain ⟨b1, b2, b3⟩ := body h1
    refine ⟨b1, b2, ?_⟩
    rcases b3 with ⟨x, b3, b4⟩ | ⟨⟨e, b3⟩, -⟩
    · exact .inl ⟨x, b3, .inl b4⟩
    · cases b3
  · obtain ⟨b1, b2, b3⟩ := body h1
    obtain ⟨c1, c2, c3⟩ := excText_ran h2
    refine ⟨c1.trans b1, c3.trans b2, ?_⟩
    have hne : (x.map fun _ => (1 : Int)) ≠ .ok 0 := by cases x <;> simp [Except.map]
    rcases b3 with ⟨y, b3, b4⟩ | ⟨-, b4⟩
    · exact .inl ⟨y, b3.later (trace_le h2), .inr ⟨_, by rw [c2, b4, List.append_assoc]; rfl, hne⟩⟩
    · exact .inr ⟨hne, .inr ⟨_, by rw [c2, b4]⟩⟩
  · obtain ⟨b1, b2, b3⟩ := body h1
    refine ⟨b1, b2, ?_⟩
    rcases b3 with ⟨x, b3, b4⟩ | ⟨-, b4⟩
    · exact .inl ⟨x, b3, .inl b4⟩
    · exact .inr ⟨by simp, .inl b4⟩

theorem sendmail_ran {O : Oracle K} {argv : List Str} {m : Msg} {w w' : World Store K} {r : Except Exc Int}
    (h : run Store.impl O (Prog.sendmail argv m) w = (r, w')) : w'.store = w.store ∧ w'.trace = ⟨.sendmail argv m, r⟩ :: w.trace := by
  have h1 : run Store.impl O (Prog.sendmail argv m) w = ((O.step (.sendmail argv m) w.env).1,
      { w with env := (O.step (.sendmail argv m) w.env).2, trace := (⟨.sendmail argv m, (O.step (.sendmail argv m) w.env).1⟩ : Event) :: w.trace }) :=
    run_ofExcept Store.impl O (O.step (.sendmail argv m) w.env).1 _
  rw [h1] at h
  cases h
  exact ⟨rfl, rfl⟩

/-- the event is neither a message for the user nor one for the program sendmail -/
def Mute (ev : Event) : Prop := (∀ x, ev.op ≠ .emit (.mail x)) ∧ ∀ argv x, ev.op ≠ .sendmail argv x

theorem Mute.effect {w w' : World Store K} (h : Events Mute w w') :
    w'.piped = w.piped ∧ ∀ x, .mail x ∈ w'.printed → .mail x ∈ w.printed := by
  obtain ⟨new, hn, hq⟩ := h
  constructor
  · have h2 : new.filterMap (fun ev => match ev.op with | .sendmail argv m => some (argv, m) | _ => none) = [] := by
      rw [List.filterMap_eq_nil_iff]
      intro ev hev
      have := (hq ev hev).2
      rcases ev with ⟨op, ret⟩
      cases op <;> first | rfl | exact absurd rfl (this _ _)
    unfold World.piped
    rw [hn, List.filterMap_append, h2]
    rfl
  · intro x hx
    unfold World.printed at hx ⊢
    rw [hn, List.filterMap_append, List.reverse_append, List.mem_append] at hx
    rcases hx with hx | hx
    · exact hx
    · rw [List.mem_reverse, List.mem_filterMap] at hx
      obtain ⟨ev, hev, he⟩ := hx
      have := (hq ev hev).1 x
      rcases ev with ⟨op, ret⟩
      cases op <;> simp at he
      subst he
      exact absurd rfl this

theorem silent_mute {O : Oracle K} {α : Type} {p : Prog α} (hp : p.AllOps Op.silent) {w w' : World Store K} {r : Except Exc α}
    (h : run Store.impl O p w = (r, w')) : Events Mute w w' := by
  have := run_events (S := Store.impl) (O := O) hp w
  rw [h] at this
  refine this.mono fun ev hev => ?_
  rcases ev with ⟨op, ret⟩
  cases op <;> first | exact hev.elim | exact ⟨(fun _ h => by cases h), (fun _ _ h => by cases h)⟩

theorem line_mute {O : Oracle K} {s : Str} {w w' : World Store K} {r : Except Exc Unit} (h : run Store.impl O (Prog.emit (.line s)) w = (r, w')) :
    Events Mute w w' := by
  obtain ⟨-, -, -, ht⟩ := emit_ran h
  exact ⟨[_], ht, fun ev hev => by simp at hev; subst hev; exact ⟨(fun _ h => by cases h), (fun _ _ h => by cases h)⟩⟩

theorem cmdOutgoing_silent (env : Env) (m : Msg) : (Cmd.processOutgoing env m).AllOps Op.silent := by
  unfold Cmd.processOutgoing
  simp only [bind_eq, pure_eq]
  split
  · refine .bind (lookup_silent env _ _) fun x => ?_
    split <;> trivial
  · refine .bind (lookup_silent env _ _) fun x => ?_
    split
    · trivial
    · exact .bind (Account.processOutgoing_ops permissive_silent env _ _) fun _ => trivial

/-- text could not be printed -/
def PrintFailed (w w' : World Store K) : Prop := ∃ new s e, w'.trace = new ++ w.trace ∧ (⟨.emit (.line s), .error e⟩ : Event) ∈ new

/-- `p` is the program found, or /usr/sbin/sendmail if there is none -/
def MailProgram (found : Option Str) (p : Str) : Prop := found = some p ∧ p ≠ [] ∨ (∀ q, found = some q → q = []) ∧ p = str!"/usr/sbin/sendmail"

/-- the program sendmail, as found in the path, was run with these arguments and this input, and nothing else was sent -/
def RanMailer (w w' : World Store K) (argv : List Str) (x : Msg) (ret : Except Exc Int) : Prop :=
  ∃ pre post, w'.trace = post ++ (⟨.sendmail argv x, ret⟩ : Event) :: (pre ++ w.trace) ∧ (∀ ev ∈ pre, Mute ev) ∧ (∀ ev ∈ post, Mute ev) ∧
    ∃ found p args, (⟨.findExecutable (str!"sendmail"), found⟩ : Event) ∈ pre ∧ MailProgram found p ∧ argv = p :: args

theorem RanMailer.effect {w w' : World Store K} {argv : List Str} {x : Msg} {ret : Except Exc Int} (h : RanMailer w w' argv x ret) :
    w'.piped = w.piped ++ [(argv, x)] ∧ ∀ x, .mail x ∈ w'.printed → .mail x ∈ w.printed := by
  obtain ⟨pre, post, ht, h1, h2, -⟩ := h
  have e1 : Events Mute w { w with trace := pre ++ w.trace } := ⟨pre, rfl, h1⟩
  have e2 : Events Mute { w with trace := (⟨.sendmail argv x, ret⟩ : Event) :: (pre ++ w.trace) } w' := ⟨post, ht, h2⟩
  obtain ⟨a1, a2⟩ := Mute.effect e1
  obtain ⟨b1, b2⟩ := Mute.effect e2
  refine ⟨?_, fun y hy => a2 y ?_⟩
  · rw [b1, ← a1]
    simp [World.piped]
  · have := b2 y hy
    simpa [World.printed] using this

theorem RanMailer.later {w w' w'' : World Store K} {argv : List Str} {x : Msg} {ret : Except Exc Int} (h : RanMailer w w' argv x ret)
    (hl : Events Mute w' w'') : RanMailer w w'' argv x ret := by
  obtain ⟨pre, post, ht, h1, h2, h3⟩ := h
  obtain ⟨new, hn, hq⟩ := hl
  refine ⟨pre, new ++ post, by rw [hn, ht, List.append_assoc], h1, fun ev hev => ?_, h3⟩
  rcases List.mem_append.mp hev with h | h
  · exact hq ev h
  · exact h2 ev h

theorem PrintFailed.later {w w' w'' : World Store K} (h : PrintFailed w w') (hl : w'.trace <:+ w''.trace) : PrintFailed w w'' := by
  obtain ⟨new, s, e, hn, hm⟩ := h
  obtain ⟨q, hq⟩ := hl
  exact ⟨q ++ new, s, e, by rw [← hq, hn, List.append_assoc], List.mem_append_right _ hm⟩

theorem mailProgram (exe : Option Str) : MailProgram exe (Cmd.sendmailPath exe) := by
  cases exe with
  | none => exact .inr ⟨(fun q hq => by cases hq), rfl⟩
  | some q =>
    cases q with
    | nil => exact .inr ⟨(fun q hq => by cases hq; rfl), rfl⟩
    | cons c q => exact .inl ⟨rfl, List.cons_ne_nil _ _⟩

/-- the course of `sendmail` before errors are reported -/
theorem sendmail_course {O : Oracle K} {ce : CmdEnv} {be : BotEnv} {env : Env} {m : Msg} {args : List Str} {w w' : World Store K}
    (hw : Reachable O env w) {r : Except Exc Int} (h : exec O ((Cmd.Command.sendmail args m).body ce be env) w = (r, w')) :
    w'.store = w.store ∧ (Events Mute w w' ∧ (∃ e, r = .error e) ∨
      ∃ exe x ret, RanMailer w w' (exe :: args) x ret ∧ Outbound O env w w' m x ∧ (r = ret ∨ (∃ st, ret = .ok st ∧ st ≠ 0) ∧ (∃ e, r = .error e) ∧ PrintFailed w w')) := by
  simp only [exec, Cmd.Command.body, Cmd.sendmail, bind_eq, pure_eq] at h
  rw [run_bind] at h
  rcases h0 : run Store.impl O (Prog.assert (!args.isEmpty)) w with ⟨e | u, w0⟩
  · rw [h0] at h
    cases h
    exact ⟨by rw [← ro_store (.assert _) h0], .inl ⟨silent_mute (.assert _) h0, _, rfl⟩⟩
  rw [h0] at h
  have hw0 : w0 = w := by
    cases ha : (!args.isEmpty) <;> rw [ha] at h0 <;> cases h0
    rfl
  subst hw0
  dsimp only at h
  rw [run_bind] at h
  rcases h1 : run Store.impl O (Cmd.processOutgoing env m) w0 with ⟨e | x, w1⟩
  · rw [h1] at h; cases h
    obtain ⟨c1, -⟩ := cmdOutgoing_course hw h1
    exact ⟨c1, .inl ⟨silent_mute (cmdOutgoing_silent env m) h1, _, rfl⟩⟩
  rw [h1] at h
  obtain ⟨c1, -, -, c4⟩ := cmdOutgoing_course hw h1
  have m1 := silent_mute (cmdOutgoing_silent env m) h1
  dsimp only at h
  rw [run_bind] at h
  have hf : (Prog.findExecutable (str!"sendmail")).AllOps Op.silent := .findExecutable trivial
  have hf' : (Prog.findExecutable (str!"sendmail")).AllOps Op.readOnly := .findExecutable trivial
  rcases h2 : run Store.impl O (Prog.findExecutable (str!"sendmail")) w1 with ⟨e | exe, w2⟩
  · rw [h2] at h; cases h
    exact ⟨(ro_store hf' h2).trans c1, .inl ⟨m1.trans (silent_mute hf h2), _, rfl⟩⟩
  rw [h2] at h
  have m2 := m1.trans (silent_mute hf h2)
  have s2 := (ro_store hf' h2).trans c1
  dsimp only at h
  rw [run_bind] at h
  rcases h3 : run Store.impl O (Prog.sendmail (Cmd.sendmailPath exe :: args) x) w2 with ⟨ret, w3⟩
  obtain ⟨s3, t3⟩ := sendmail_ran h3
  have ob : Outbound O env w0 w3 m x := (c4 x rfl).later ((trace_le h2).trans (by rw [t3]; exact List.suffix_cons _ _))
  have rm : RanMailer w0 w3 (Cmd.sendmailPath exe :: args) x ret := by
    have t2 : w2.trace = (⟨.findExecutable (str!"sendmail"), exe⟩ : Event) :: w1.trace := by cases h2; rfl
    obtain ⟨pre, hp, hq⟩ := m1
    refine ⟨(⟨.findExecutable (str!"sendmail"), exe⟩ : Event) :: pre, [], by rw [t3, t2, hp]; rfl, ?_, by simp, exe, _, args,
      List.mem_cons_self .., mailProgram exe, rfl⟩
    intro ev hev
    rcases List.mem_cons.mp hev with rfl | hev
    · exact ⟨(fun _ h => by cases h), (fun _ _ h => by cases h)⟩
    · exact hq ev hev
  rw [h3] at h
  cases ret with
  | error e =>
    cases h
    exact ⟨s3.trans s2, .inr ⟨_, x, _, rm, ob, .inl rfl⟩⟩
  | ok st =>
    dsimp only at h
    by_cases hst : st = 0
    · rw [if_neg (by simpa using hst)] at h
      cases h
      exact ⟨s3.trans s2, .inr ⟨_, x, _, rm, ob, .inl (by rw [hst])⟩⟩
    · rw [if_pos hst, run_bind] at h
      rcases h4 : run Store.impl O (Cmd.say (str!"sendmail return " ++ ce.intRepr st ++ str!" exitcode, path: " ++ Cmd.sendmailPath exe)) w3 with ⟨e | u, w4⟩
      · rw [h4] at h; cases h
        obtain ⟨e1, -, -, e4⟩ := emit_ran h4
        refine ⟨(e1.trans s3).trans s2, .inr ⟨_, x, _, rm.later (line_mute h4), ob.later (trace_le h4), .inr ⟨⟨st, rfl, hst⟩, ⟨_, rfl⟩, ?_⟩⟩⟩
        obtain ⟨q, hq⟩ := (trace_le (p := (Prog.sendmail (Cmd.sendmailPath exe :: args) x)) h3)
        obtain ⟨pre, hp, -⟩ := m2
        exact ⟨_ :: (q ++ pre), _, _, by rw [e4, ← hq, hp]; simp; rfl, List.mem_cons_self ..⟩
      · rw [h4] at h; cases h
        obtain ⟨e1, -, -, e4⟩ := emit_ran h4
        exact ⟨(e1.trans s3).trans s2, .inr ⟨_, x, _, rm.later (line_mute h4), ob.later (trace_le h4), .inl rfl⟩⟩

/-- C83: sendmail passes at most one message to the program sendmail of the path, or /usr/sbin/sendmail, which is what the account made of the given one, with all arguments, and prints
no message. It exits with 0 exactly if the program was run and ended with 0, and otherwise with the status of the program, unless text about that
could not be printed. -/
theorem C83_sendmail {O : Oracle K} {ce : CmdEnv} {be : BotEnv} {env : Env} {m : Msg} {args : List Str} {w w' : World Store K}
    (hw : Reachable O env w) {r : Except Exc Int} (h : exec O ((Cmd.Command.sendmail args m).prog ce be env) w = (r, w')) :
    w'.store = w.store ∧ (∀ x, .mail x ∈ w'.printed → .mail x ∈ w.printed) ∧
    (w'.piped = w.piped ∧ r ≠ .ok 0 ∨
      ∃ exe x ret, w'.piped = w.piped ++ [(exe :: args, x)] ∧ Outbound O env w w' m x ∧ RanMailer w w' (exe :: args) x ret ∧
        (r = .ok 0 ↔ ret = .ok 0) ∧ ∀ st, ret = .ok st → r = .ok st ∨ PrintFailed w w') := by
  rcases command_cases h with ⟨st, h1, rfl⟩ | ⟨e, w1, x, h1, -, h2, rfl⟩ | ⟨e, h1, -, -, rfl⟩
  · obtain ⟨b1, ⟨-, e, b3⟩ | ⟨exe, x, ret, b2, b3, b4⟩⟩ := sendmail_course hw h1
    · cases b3
    · refine ⟨b1, b2.effect.2, .inr ⟨exe, x, ret, b2.effect.1, b3, b2, ?_⟩⟩
      rcases b4 with rfl | ⟨-, ⟨e, b5⟩, -⟩
      · exact ⟨Iff.rfl, fun _ h => .inl h⟩
      · cases b5
  · obtain ⟨c1, c2, c3⟩ := excText_ran h2
    have hne : (x.map fun _ => (1 : Int)) ≠ .ok 0 := by cases x <;> simp [Except.map]
    obtain ⟨b1, ⟨b2, -⟩ | ⟨exe, y, ret, b2, b3, b4⟩⟩ := sendmail_course hw h1
    · have b5 := Mute.effect (b2.trans (line_mute h2))
      exact ⟨c1.trans b1, b5.2, .inl ⟨b5.1, hne⟩⟩
    · have b5 := b2.later (line_mute h2)
      refine ⟨c1.trans b1, b5.effect.2, .inr ⟨exe, y, ret, b5.effect.1, b3.later (trace_le h2), b5, ?_⟩⟩
      rcases b4 with rfl | ⟨⟨st, rfl, hst⟩, -, b6⟩
      · exact ⟨⟨fun h => absurd h hne, fun h => by cases h⟩, fun _ h => by cases h⟩
      · exact ⟨⟨fun h => absurd h hne, fun h => by cases h; exact absurd rfl hst⟩, fun _ _ => .inr (b6.later (trace_le h2))⟩
  · obtain ⟨b1, ⟨b2, -⟩ | ⟨exe, x, ret, b2, b3, b4⟩⟩ := sendmail_course hw h1
    · exact ⟨b1, (Mute.effect b2).2, .inl ⟨(Mute.effect b2).1, by simp⟩⟩
    · refine ⟨b1, b2.effect.2, .inr ⟨exe, x, ret, b2.effect.1, b3, b2, ?_⟩⟩
      rcases b4 with rfl | ⟨⟨st, rfl, hst⟩, -, b6⟩
      · exact ⟨Iff.rfl, fun _ h => .inl h⟩
      · exact ⟨⟨(fun h => by cases h), (fun h => by cases h; exact absurd rfl hst)⟩, fun _ _ => .inr b6⟩

/-! ## Examples -/

namespace Concrete

/-- an environment in which the program sendmail ends with 75 -/
def busy : Oracle Unit where
  step o k := match o with
    | .sendmail _ _ => (.ok 75, k)
    | o => oracle.step o k

/-- a command after some calls -/
def cmd (calls : List ApiCall) (c : Cmd.Command) : Except Exc Int × World Store Unit := exec oracle (c.prog cmdEnv botEnv env) (after calls)

/-- a message which is sent -/
def toBob : Msg := .mk [(str!"From", str!"a@x.org"), (str!"To", bob)] (.text (str!"hi"))

/-- a message which is bounced -/
def bounce : Msg := .mk [(str!"From", bob), (str!"Resent-From", str!"a@x.org")] (.text (str!"hi"))

/-- the lines among some output -/
def lines (l : List Output) : List Str := l.filterMap fun o => match o with
  | .line s => some s
  | _ => none

/-- the messages among some output -/
def mails (l : List Output) : List Msg := l.filterMap fun o => match o with
  | .mail s => some s
  | _ => none

end Concrete

open Concrete in
/-- C74: the header for the account is shown; the directory was initialised before -/
example : Initialised (after [addA]) ∧ (Cmd.Command.makeHeader (str!"a@x.org") false).shows ∧
    (cmd [addA] (.makeHeader (str!"a@x.org") false)).1.toOption = some 0 ∧
    (cmd [addA] (.status none true)).1.toOption = some 0 :=
  ⟨⟨str!"0.1", by decide +kernel⟩, trivial, by decide +kernel, by decide +kernel⟩

open Concrete in
/-- C83: a message gets a header and is printed; a bounced one is printed as it is; one from a stranger is not printed -/
example : ((cmd [addA] (.processOutgoing toBob)).1.toOption = some 0 ∧
      (mails (cmd [addA] (.processOutgoing toBob)).2.printed).map (fun x => (x.get (str!"To"), (x.get (str!"Autocrypt")).isSome)) = [(some bob, true)]) ∧
    (mails (cmd [addA] (.processOutgoing bounce)).2.printed).map (fun x => (x.get (str!"From"), (x.get (str!"Autocrypt")).isSome)) = [(some bob, false)] ∧
    ((cmd [] (.processOutgoing toBob)).1.toOption = some 1 ∧ (cmd [] (.processOutgoing toBob)).2.printed.length = 1) :=
  ⟨⟨by decide +kernel, by decide +kernel⟩, by decide +kernel, by decide +kernel, by decide +kernel⟩

open Concrete in
/-- C83: sendmail is called with the arguments; its status is the exit status -/
example : ((cmd [addA] (.sendmail [str!"-oi", bob] toBob)).1.toOption = some 0 ∧
      (cmd [addA] (.sendmail [str!"-oi", bob] toBob)).2.piped.map (fun x => (x.1, (x.2.get (str!"Autocrypt")).isSome)) =
        [([str!"/usr/bin/sendmail", str!"-oi", bob], true)]) ∧
    (exec busy ((Cmd.Command.sendmail [str!"-oi", bob] toBob).prog cmdEnv botEnv env) (after [addA])).1.toOption = some 75 :=
  ⟨⟨by decide +kernel, by decide +kernel⟩, by decide +kernel⟩

open Concrete in
/-- a history of commands: an account is added, a message of Bob is processed, and the processing of a second one is interrupted, with `n = 16` after the
key was recorded and before anything is printed about it -/
def commandHistory (n : Nat) : List (Happening Unit) :=
  let incoming (id date : Str) (k : Bytes) := Cmd.Command.processIncoming none false false (mail bob id date k)
  [.command cmdEnv botEnv (.addAccount (str!"a") false none (str!"gpg") (some (str!"a@x.org"))),
    .command cmdEnv botEnv (incoming (str!"1") (str!"100") [7]), .commandKilled cmdEnv botEnv (incoming (str!"2") (str!"200") [8]) n]

open Concrete in
/-- commands in a history store what the calls store -/
example : bobs (runHistory Store.impl oracle env (commandHistory 100) world0) =
      bobs (after [addA, recv bob (str!"1") (str!"100") [7], recv bob (str!"2") (str!"200") [8]]) ∧
    (bobs (runHistory Store.impl oracle env (commandHistory 5) world0)).length = 1 ∧
    (bobs (runHistory Store.impl oracle env (commandHistory 16) world0)).length = 2 ∧
    (runHistory Store.impl oracle env (commandHistory 16) world0).printed.length <
      (runHistory Store.impl oracle env (commandHistory 100) world0).printed.length := by decide +kernel

end Verif
