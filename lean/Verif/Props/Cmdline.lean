import Verif.Model.Cmdline
import Verif.Props.AccountHistory
import Verif.Props.Accounts
import Verif.Props.Incoming
/-!
# The command line: C67 – C70, C73
-/
namespace Verif

variable {K : Type}

/-! ## Operations and effects of lookups -/

/-- operations which run no program but plugins -/
def Op.lookup : Op → Prop
  | .ext (.hookInstantiate _) => True
  | .ext _ => False
  | _ => True

namespace Manager

theorem getAccount_lookup (env : Env) (n : Str) (c : Bool) : (getAccount env n c).AllOps Op.lookup := by
  unfold getAccount account ensureInit init Mgr.setVersion Account.exists_
  simp only [bind_eq, pure_eq]
  refine .bind (.bind (.chain trivial) fun _ => ?_) fun _ => .bind (.assert _) fun _ => .bind ?_ fun _ => ?_
  · split
    · trivial
    · refine .bind (.chain trivial) fun _ => .bind (.assert _) fun _ => .bind (.chain trivial) fun _ => ?_
      exact .bind (.assert _) fun _ => .append trivial
  · split
    · exact .bind (.chain trivial) fun _ => trivial
    · trivial
  · split
    · exact .bind (.hookInstantiate trivial) fun _ => trivial
    · trivial

theorem config_lookup (n : Str) : (Own.config n).AllOps Op.lookup := by
  unfold Own.config; simp only [bind_eq, pure_eq]
  refine .bind (.chain trivial) fun _ => ?_
  split <;> trivial

theorem firstMatch_lookup (env : Env) (a : Str) (l : List Str) : (firstMatch env a l).AllOps Op.lookup := by
  induction l with
  | nil => exact trivial
  | cons x l ih =>
    unfold firstMatch; simp only [bind_eq, pure_eq]
    refine .bind (getAccount_lookup env x true) fun _ => .bind (config_lookup _) fun _ => .bind (.ofExcept _) fun _ => ?_
    split
    · exact trivial
    · exact ih

theorem getAccountFromEmailadr_lookup (env : Env) (a : Str) (r : Bool) : (getAccountFromEmailadr env a r).AllOps Op.lookup := by
  unfold getAccountFromEmailadr getAccountNames; simp only [bind_eq, pure_eq]
  refine .bind (.bind (.heads trivial) fun _ => trivial) fun _ => .bind (firstMatch_lookup env a _) fun _ => ?_
  split
  · trivial
  · split <;> trivial

end Manager

/-- programs which can only initialise the manager change nothing else -/
theorem safe_init_effect {O : Oracle K} {α : Type} {p : Prog α} (hp : Safe InitAct p) (w : World Store K) :
    (Initialised w → (exec O p w).2.store = w.store) ∧ (∀ h, h ≠ managerHead → (exec O p w).2.log h = w.log h) := by
  have hinit : ∀ a, InitAct a → a = .setVersion := by
    intro a ha
    cases a <;> first | rfl | exact ha.elim
  constructor
  · refine hp.respects (R := fun w w' => Initialised w → w'.store = w.store) ?_ (fun _ _ h _ _ _ _ => h) ?_ w
    · intro a b c h1 h2 hi
      have := h1 hi
      rw [h2 (by unfold Initialised World.log at hi ⊢; rw [this]; exact hi), this]
    · intro a ha w hi
      rw [hinit a ha]
      exact setVersion_initialised O w hi
  · intro h hne
    refine hp.respects (R := fun w w' => w'.log h = w.log h) (fun _ _ _ h1 h2 => h2.trans h1)
      (fun _ _ h _ _ _ => by unfold World.log; rw [h]) ?_ w
    intro a ha w
    rw [hinit a ha]
    exact setVersion_other O w h hne

/-- without accounts the names are empty -/
theorem no_names {env : Env} {w : World Store K} (hw : Sane env w) (h : ¬ Initialised w) (O : Oracle K) :
    Py.sorted (stripPrefix (ownHead []) w.store.names) = [] := by
  refine List.eq_nil_iff_forall_not_mem.mpr fun n hn => ?_
  exact h (hw.init n ((mem_listed (O := O) hw.wf (listed_eq O w) n).mp hn))

/-- looking up an account for an address changes nothing -/
theorem lookup_store {O : Oracle K} {env : Env} {w : World Store K} (hw : Sane env w) (adr : Str) (raising : Bool) :
    (exec O (Manager.getAccountFromEmailadr env adr raising) w).2.store = w.store := by
  by_cases h : Initialised w
  · exact (safe_init_effect (Manager.safe_getAccountFromEmailadr env trivial adr raising) w).1 h
  · unfold Manager.getAccountFromEmailadr exec
    simp only [bind_eq, pure_eq]
    rw [run_bind, show run Store.impl O getAccountNames w = (.ok (Py.sorted (stripPrefix (ownHead []) w.store.names)), w) from rfl,
      no_names hw h O]
    cases raising <;> rfl

/-- looking up the account for incoming mail changes nothing -/
theorem routing_store {O : Oracle K} {env : Env} {w : World Store K} (hw : Sane env w) (m : Msg) :
    (exec O (Manager.getMatchingAccount env m) w).2.store = w.store := by
  by_cases h : Initialised w
  · exact (safe_init_effect (Manager.safe_getMatchingAccount env trivial m) w).1 h
  · unfold Manager.getMatchingAccount exec
    simp only [bind_eq, pure_eq]
    rw [run_bind, show run Store.impl O getAccountNames w = (.ok (Py.sorted (stripPrefix (ownHead []) w.store.names)), w) from rfl,
      no_names hw h O]
    dsimp only
    rw [run_bind, show run Store.impl O (Manager.patterns env []) w = (.ok [], w) from rfl]
    dsimp only
    have hm : ∀ l, Manager.matchAddrs env [] l = .ok none := by
      intro l
      induction l with
      | nil => rfl
      | cons x l ih => exact ih
    rw [run_bind, run_ofExcept, hm]
    dsimp only
    rw [run_bind, run_ofExcept]
    cases Mime.getDeliveredTo env m none with
    | error e => rfl
    | ok d => exact lookup_store hw d true

/-! ## C67 -/

/-- no gpg command -/
def Event.noGpg (ev : Event) : Prop := ∀ argv stdin, ev.op ≠ .gpg argv stdin

/-- C67: a bounced message is returned as it is or not at all, and no gpg command runs -/
theorem C67_unmodified (O : Oracle K) (env : Env) (w : World Store K) (m : Msg) (rf : Str) (hrf : m.get (str!"Resent-From") = some rf)
    (hne : rf ≠ []) (r : Except Exc Msg) (w' : World Store K) (h : exec O (Cmd.processOutgoing env m) w = (r, w')) :
    (∀ x, r = .ok x → x = m) ∧ Events Event.noGpg w w' := by
  unfold Cmd.processOutgoing at h
  simp only [bind_eq, pure_eq, hrf, Option.getD_some] at h
  rw [if_pos (by simpa using hne)] at h
  have hops : ((Manager.getAccountFromEmailadr env (Mime.parseEmailAddr env (some rf)) false).bind fun x =>
      match x with
      | none => Prog.raise .clickError
      | some _ => Prog.pure m).AllOps Op.lookup := by
    refine .bind (Manager.getAccountFromEmailadr_lookup env _ false) fun x => ?_
    cases x <;> trivial
  constructor
  · rintro x rfl
    simp only [exec, run_bind] at h
    rcases hl : run Store.impl O (Manager.getAccountFromEmailadr env (Mime.parseEmailAddr env (some rf)) false) w with ⟨_ | _ | a, w1⟩ <;>
      rw [hl] at h <;> cases h
    rfl
  · have := run_events (S := Store.impl) (O := O) hops w
    have h' : (exec O _ w).2 = w' := congrArg Prod.snd h
    rw [← h']
    refine Events.mono ?_ this
    intro ev hev
    intro a i he
    rw [he] at hev
    exact hev

/-- C67: in every reachable state, stored state stays, and the message is only returned if a managed account matches its Resent-From
address -/
theorem C67_matching {O : Oracle K} {env : Env} {w : World Store K} (hw : Reachable O env w) (m : Msg) (rf : Str)
    (hrf : m.get (str!"Resent-From") = some rf) (hne : rf ≠ []) (r : Except Exc Msg) (w' : World Store K)
    (h : exec O (Cmd.processOutgoing env m) w = (r, w')) :
    w'.store = w.store ∧ ((∀ a, ¬ Serves env w a (address env (some rf))) → ∃ e, r = .error e) := by
  spec_mail
  unfold Cmd.processOutgoing at h
  simp only [bind_eq, pure_eq, hrf, Option.getD_some] at h
  rw [if_pos (by simpa using hne)] at h
  simp only [exec, run_bind] at h
  have hst := lookup_store (O := O) hw.sane (Mime.parseEmailAddr env (some rf)) false
  have hso := C49_sound hw (Mime.parseEmailAddr env (some rf)) false
  simp only [exec] at hst hso
  rcases hl : run Store.impl O (Manager.getAccountFromEmailadr env (Mime.parseEmailAddr env (some rf)) false) w with ⟨_ | _ | a, w1⟩ <;>
    rw [hl] at h hst hso <;> cases h
  · exact ⟨hst, fun _ => ⟨_, rfl⟩⟩
  · exact ⟨hst, fun _ => ⟨_, rfl⟩⟩
  · exact ⟨hst, fun hno => absurd ((hso (some a) rfl).1 a rfl).1 (hno a)⟩

/-- C67, what holds: with complete accounts, valid patterns and plugins which do not raise, a bounced message is returned unmodified
if an account matches its Resent-From address, and otherwise the command fails.

Missing from the full statement: an account whose creation failed makes the command fail although an account matches, see
`C67_refuted`. -/
theorem C67_bounced_partial {O : Oracle K} (hO : HooksOk O) {env : Env} {w : World Store K} (hw : Reachable O env w)
    (hh : NoHalfCreated w) (hre : PatternsValid env w) (m : Msg) (rf : Str)
    (hrf : m.get (str!"Resent-From") = some rf) (hne : rf ≠ []) :
    ((∃ a, Serves env w a (address env (some rf))) → (exec O (Cmd.processOutgoing env m) w).1 = .ok m) ∧
    ((∀ a, ¬ Serves env w a (address env (some rf))) → (exec O (Cmd.processOutgoing env m) w).1 = .error .clickError) := by
  spec_mail
  have h1 := C49_lookup_partial hO hw hh hre (Mime.parseEmailAddr env (some rf)) false
  have h2 : (exec O (Cmd.processOutgoing env m) w).1 =
      match (exec O (Manager.getAccountFromEmailadr env (Mime.parseEmailAddr env (some rf)) false) w).1 with
      | .ok (some _) => .ok m
      | .ok none => .error .clickError
      | .error e => .error e := by
    unfold Cmd.processOutgoing
    simp only [bind_eq, pure_eq, hrf, Option.getD_some]
    rw [if_pos (by simpa using hne)]
    simp only [exec, run_bind]
    rcases run Store.impl O (Manager.getAccountFromEmailadr env (Mime.parseEmailAddr env (some rf)) false) w with ⟨_ | _ | a, w1⟩ <;> rfl
  constructor
  · rintro ⟨a, ha⟩
    rcases C49_total hw (Mime.parseEmailAddr env (some rf)) with ⟨f, hf⟩ | hno
    · rw [h2, h1.1 f hf]
    · exact absurd ha (hno a)
  · intro hno
    rw [h2, h1.2 hno]; rfl

/-- a bounced message -/
def Concrete.bounced (rf : Str) : Msg := .mk [(str!"From", str!"z@x.org"), (str!"Resent-From", rf)] (.text (str!"hi"))

open Concrete in
/-- a bounced message of an account and one of a stranger -/
example : (bounced (str!"a@x.org")).get (str!"Resent-From") = some (str!"a@x.org") ∧
    ((exec oracle (Cmd.processOutgoing env (bounced (str!"a@x.org"))) (after two)).1.toOption.map Msg.headers) =
      some (bounced (str!"a@x.org")).headers ∧
    (exec oracle (Cmd.processOutgoing env (bounced (str!"q@x.org"))) (after [.addAccount (str!"a") (some (str!"a@")) none (str!"gpg") (str!"own")])).1 =
      .error .clickError :=
  ⟨by decide, by decide +kernel, Except.eq_error_of_exc? (by decide +kernel)⟩

/-- C67 is false: after an account could not be created, a message bounced by the account "b" is refused -/
theorem C67_refuted : Serves Concrete.env (Concrete.after [Concrete.addB, Concrete.addFails]) (str!"b") (str!"c@x.org") ∧
    (exec Concrete.oracle (Cmd.processOutgoing Concrete.env (Concrete.bounced (str!"c@x.org")))
      (Concrete.after [Concrete.addB, Concrete.addFails])).1 = .error .accountNotFound :=
  ⟨⟨isConfigured_iff.mp (by decide +kernel), newConf (str!"b") none (str!"gpg") .own, latestConfig_iff.mp (by decide +kernel), rfl⟩,
    Except.eq_error_of_exc? (by decide +kernel)⟩

/-! ## C68 -/

/-- at most 90 days old -/
def Recent (now d : Time) : Prop := now - d ≤ sec 7776000

theorem isTooOld_false {now d : Time} : Cmd.isTooOld now d = false ↔ Recent now d := by
  unfold Cmd.isTooOld Cmd.maxAge Recent
  rw [show (90 * 24 * 60 * 60 : Int) = 7776000 by decide, decide_eq_false_iff_not, Int.not_lt]

/-- the account for an incoming message: that of the first recipient which any account serves, or if there is none that of
Delivered-To -/
def AccountFor (env : Env) (w : World Store K) (m : Msg) (a : Str) : Prop :=
  RoutedTo env w m a ∨ (¬ Routed env w m ∧ FirstAccount env w (address env (m.get (str!"Delivered-To"))) a ∧
    address env (m.get (str!"Delivered-To")) ≠ [])

/-- the message is recorded for its sender -/
def Recorded (env : Env) (w : World Store K) (a : Str) (m : Msg) : Prop :=
  ∃ e, .msg e ∈ w.log (peerHead a (senderAddr env m)) ∧ e.msgId = mailId m

/-- a file which a scan may process: it and its message are recent, the message has an id, `a` is the account for it, and it is
not recorded unless recorded messages are wanted too -/
structure Due (env : Env) (reparse : Bool) (now : Time) (f : Cmd.MailFile) (w : World Store K) (a : Str) : Prop where
  file : Recent now f.mtime
  id : (f.msg.get (str!"Message-Id")).isSome
  date : ∃ d, DateOf env f.msg d ∧ Recent now (min d (w.clock w.tick))
  account : AccountFor env w f.msg a
  new : reparse = true ∨ ¬ Recorded env w a f.msg

/-- results for files which were not skipped -/
def Cmd.ScanResult.processed : Cmd.ScanResult → Prop
  | .undecryptable | .found .. | .error .. => True
  | _ => False

/-- the account named in a result -/
def Cmd.ScanResult.account? : Cmd.ScanResult → Option Str
  | .known a | .found a .. | .error a _ => some a
  | _ => none

/-- what happens to a file: if it is not skipped, or if anything stored changes, also when the command then stops with an
exception, then it was due, and only the peers of the account for it change -/
def FileSpec (env : Env) (reparse : Bool) (now : Time) (f : Cmd.MailFile) (w : World Store K) (r : Except Exc Cmd.ScanResult)
    (w' : World Store K) : Prop :=
  (w'.store ≠ w.store ∨ ∃ x, r = .ok x ∧ x.processed) →
    ∃ a, Due env reparse now f w a ∧ (∀ x b, r = .ok x → x.account? = some b → b = a) ∧
      ∀ h, (∀ p, h ≠ peerHead a p) → w'.log h = w.log h

theorem incoming_frame {O : Oracle K} {env : Env} {n : Str} {m : Msg} {i nd : Bool} (w : World Store K) (h : Str) (hh : ∀ p, h ≠ peerHead n p) :
    (exec O (Account.processIncoming env n m i nd) w).2.log h = w.log h := by
  simp only [exec, Account.run_processIncoming]
  cases hd : parseDateToFloat env (m.get (str!"Date")) with
  | error e => rfl
  | ok d =>
    dsimp only
    refine ((Account.safe_incomingRest env n m i nd (min d (w.clock w.tick))).respects (O := O) (R := fun w w' => w'.log h = w.log h)
      (fun _ _ _ h1 h2 => h2.trans h1) (fun _ _ h _ _ _ => by unfold World.log; rw [h]) ?_ { w with tick := w.tick + 1 })
    intro a ha w
    unfold World.log
    rw [get_act]
    rcases ha with ha | ⟨_, _, ha⟩
    · cases a <;> simp only [Account.HeaderAct] at ha
      dsimp only; rw [ha.1, if_neg (hh _)]
    · cases a <;> simp only [Account.GossipAct] at ha
      dsimp only; rw [ha.1, if_neg (hh _)]

/-- C68 for one file -/
theorem C68_file {O : Oracle K} {env : Env} {w : World Store K} (hw : Sane env w) (reparse : Bool) (now : Time) (f : Cmd.MailFile)
    {r : Except Exc Cmd.ScanResult} {w' : World Store K} (h : exec O (Cmd.scanFile env reparse now f) w = (r, w')) :
    FileSpec env reparse now f w r w' := by
  have skip : ∀ {x : Cmd.ScanResult} {v : World Store K}, v.store = w.store → ¬ x.processed → (r, w') = (.ok x, v) →
      FileSpec env reparse now f w r w' := by
    rintro x v hs hx he
    cases he
    rintro (hc | ⟨y, hy, hp⟩)
    · exact absurd hs hc
    · cases hy; exact absurd hp hx
  have err : ∀ {e : Exc} {v : World Store K}, v.store = w.store → (r, w') = (.error e, v) → FileSpec env reparse now f w r w' := by
    rintro x v hs he
    cases he
    rintro (hc | ⟨y, hy, hp⟩)
    · exact absurd hs hc
    · cases hy
  unfold Cmd.scanFile at h
  cases hold : Cmd.isTooOld now f.mtime with
  | true =>
    rw [hold, if_pos rfl] at h
    exact skip (x := .oldFile) rfl (fun h => h) h.symm
  | false =>
    rw [hold, if_neg (by simp)] at h
    cases hid : (f.msg.get (str!"message-id")).isNone with
    | true =>
      rw [hid, if_pos rfl] at h
      exact skip (x := .noId) rfl (fun h => h) h.symm
    | false =>
      rw [hid, if_neg (by simp)] at h
      simp only [bind_eq, pure_eq] at h
      simp only [exec] at h
      rw [run_bind, run_ofExcept] at h
      cases hd : parseDateToFloat env (f.msg.get (str!"Date")) with
      | error e => rw [hd] at h; exact err rfl h.symm
      | ok d =>
        rw [hd] at h
        dsimp only at h
        unfold effectiveDate at h
        simp only [bind_eq, pure_eq] at h
        rw [run_bind, run_bind, run_now] at h
        dsimp only [run] at h
        cases hold2 : Cmd.isTooOld now (min d (w.clock w.tick)) with
        | true =>
          rw [hold2, if_pos rfl] at h
          exact skip (x := .oldDate) (v := { w with tick := w.tick + 1 }) rfl (fun h => h) h.symm
        | false =>
          rw [hold2, if_neg (by simp)] at h
          unfold Cmd.scanRoutable at h
          simp only [bind_eq, pure_eq] at h
          rw [run_bind, run_attempt] at h
          have hw1 : Sane env { w with tick := w.tick + 1 } := ⟨hw.wf, hw.alnum, hw.init⟩
          have hst2 := routing_store (O := O) hw1 f.msg
          have hro := fun o => routing_sound (O := O) (env := env) hw1.wf f.msg (o := o)
          simp only [exec] at hst2 hro
          rcases hm : run Store.impl O (Manager.getMatchingAccount env f.msg) { w with tick := w.tick + 1 } with ⟨e | o, w2⟩ <;>
            rw [hm] at h hst2 hro <;> dsimp only at h hst2
          · split at h
            · exact skip (x := .unroutable e) hst2 (fun h => h) h.symm
            · exact err hst2 h.symm
          obtain ⟨a, rfl, hfor⟩ := hro o rfl
          dsimp only at h
          rw [run_bind, run_attempt] at h
          have hlog2 : ∀ hd, w2.log hd = w.log hd := fun hd => by unfold World.log; rw [hst2]
          have hfr := incoming_frame (O := O) (env := env) (n := a) (m := f.msg) (i := !reparse) (nd := false) w2
          have hcases : ∀ r2 w3, run Store.impl O (Account.processIncoming env a f.msg (!reparse) false) w2 = (r2, w3) →
              (r2 = .ok none → w3.store = w2.store) ∧ (w3.store ≠ w2.store ∨ (∃ x, r2 = .ok (some x)) ∨ r2 = .error .invocationFailure →
                reparse = true ∨ ¬ Recorded env w a f.msg) := by
            intro r2 w3 hr2
            have hr2' := hr2
            rw [Account.run_processIncoming] at hr2
            constructor
            · rintro rfl
              cases hd2 : parseDateToFloat env (f.msg.get (str!"Date")) with
              | error e => rw [hd2] at hr2; cases hr2
              | ok d2 =>
                rw [hd2] at hr2
                dsimp only at hr2
                rcases Account.incomingRest_cases O env a f.msg (!reparse) false (min d2 (w2.clock w2.tick)) { w2 with tick := w2.tick + 1 } with hc | ⟨rh, w4, _, ⟨r5, w5, hc, _, _, hne, _⟩ | ⟨r5, w5, dr, w6, rg, w7, pah, hc, _, _, _, _, _, _, _, hne, _⟩⟩ <;>
                  simp only [exec] at hc <;> rw [hc] at hr2 <;> cases hr2
                · rfl
                · exact absurd rfl hne
                · exact absurd rfl hne
            · intro hh
              cases reparse with
              | true => exact .inl rfl
              | false =>
                refine .inr fun hrec => ?_
                have hk : ∃ e, .msg e ∈ w2.log (peerHead a (senderAddr env f.msg)) ∧ e.msgId = mailId f.msg := by
                  rw [hlog2]; exact hrec
                obtain ⟨h1, _, _, h2⟩ := C16_known_message_skipped_partial O env w2 a f.msg false hk r2 w3 hr2'
                have h3 := h2 d (parseDateToFloat_ok.mp hd)
                rcases hh with hh | ⟨x, hx⟩ | hx
                · exact hh h1
                · rw [h3] at hx; cases hx
                · rw [h3] at hx; cases hx
          rcases hp : run Store.impl O (Account.processIncoming env a f.msg (!reparse) false) w2 with ⟨e | x, w3⟩ <;>
            simp only [exec, hp] at h hfr <;> obtain ⟨hnone, hnew⟩ := hcases _ _ hp
          all_goals
            have hdue : (reparse = true ∨ ¬ Recorded env w a f.msg) → Due env reparse now f w a := fun hn =>
              ⟨isTooOld_false.mp hold, (by rw [Option.isSome_iff_ne_none]; intro h0; rw [show f.msg.get (str!"Message-Id") = f.msg.get (str!"message-id") from rfl] at h0; rw [h0] at hid; cases hid), ⟨d, parseDateToFloat_ok.mp hd, isTooOld_false.mp hold2⟩, hfor, hn⟩
            have hframe : ∀ hd, (∀ p, hd ≠ peerHead a p) → w3.log hd = w.log hd := fun hd hne => (hfr hd hne).trans (hlog2 hd)
          · split at h
            · rename_i hinv
              cases h
              intro _
              exact ⟨a, hdue (hnew (.inr (.inr (by rw [hinv])))), (fun x b hx hb => by cases hx; cases hb), hframe⟩
            · cases h
              rintro (hc | ⟨y, hy, _⟩)
              · exact ⟨a, hdue (hnew (.inl (fun hs => hc (hs.trans hst2)))), (fun x b hx hb => by cases hx), hframe⟩
              · cases hy
          · cases x with
            | none => exact skip (x := .known a) ((hnone rfl).trans hst2) (fun h => h) h.symm
            | some x =>
              have hd' := hdue (hnew (.inr (.inl ⟨x, rfl⟩)))
              dsimp only at h
              split at h
              · cases h
                intro _
                exact ⟨a, hd', (fun x b hx hb => by cases hx; cases hb; rfl), hframe⟩
              · rw [run_bind, run_chain] at h
                cases h
                intro _
                exact ⟨a, hd', (fun x b hx hb => by cases hx; cases hb; rfl), hframe⟩

/-- updates made by processing incoming mail and by opening accounts -/
def ScanAct : Act → Prop
  | .setVersion | .msg .. | .gossip .. => True
  | _ => False

theorem safe_scan_incoming (env : Env) (n : Str) (m : Msg) (i nd : Bool) : Safe ScanAct (Account.processIncoming env n m i nd) := by
  unfold Account.processIncoming effectiveDate
  simp only [bind_eq, pure_eq]
  refine .bind (.ro (.ofExcept _)) fun d => .bind (.bind (.ro (.now trivial)) fun _ => .pure _) fun t => ?_
  refine Safe.mono (A := Account.IncomingAct env n m t) ?_ (Account.safe_incomingRest env n m i nd t)
  rintro a (ha | ⟨_, _, ha⟩) <;> cases a <;> first | exact trivial | exact ha.elim

theorem safe_scanFile (env : Env) (reparse : Bool) (now : Time) (f : Cmd.MailFile) : Safe ScanAct (Cmd.scanFile env reparse now f) := by
  unfold Cmd.scanFile Cmd.scanRoutable effectiveDate
  simp only [bind_eq, pure_eq]
  split
  · exact .pure _
  split
  · exact .pure _
  refine .bind (.ro (.ofExcept _)) fun d => .bind (.bind (.ro (.now trivial)) fun _ => .pure _) fun t => ?_
  split
  · exact .pure _
  refine .bind (.attempt (Manager.safe_getMatchingAccount env trivial f.msg)) fun x => ?_
  split
  · split
    · exact .pure _
    · exact .raise _
  · exact .raise _
  · refine .bind (.attempt (safe_scan_incoming env _ _ _ _)) fun x => ?_
    split
    · split
      · exact .pure _
      · exact .raise _
    · exact .pure _
    · split
      · exact .pure _
      · exact .bind (.ro (.chain trivial)) fun _ => .pure _

/-- sane states stay sane -/
theorem Sane.scan {O : Oracle K} {env : Env} {α : Type} {p : Prog α} (hp : Safe ScanAct p) {w : World Store K} (hw : Sane env w) :
    Sane env (exec O p w).2 := by
  refine hp.respects (O := O) (R := fun w w' => Sane env w → Sane env w') (fun _ _ _ h1 h2 h => h2 (h1 h))
    (fun w w' hs _ _ _ h => ?_) (fun a ha w h => ?_) w hw
  · have hl : ∀ hd, w'.log hd = w.log hd := fun hd => by unfold World.log; rw [hs]
    exact ⟨by rw [hs]; exact h.wf, fun n hn => h.alnum n (by rw [← hl]; exact hn), fun n hn => by
      obtain ⟨v, hv⟩ := h.init n (by rw [← hl]; exact hn)
      exact ⟨v, by rw [hl]; exact hv⟩⟩
  · have hown := act_own O a w (by rintro n c rfl; exact ha) (by rintro n c rfl; exact ha)
    exact ⟨h.wf.act a, fun n hn => h.alnum n (hown n hn), fun n hn => act_initialised O a w (by rintro rfl; exact ha) (h.init n (hown n hn))⟩

/-- a scan: every file reached satisfies `P`, starting in the world left by the files before; an exception ends the scan -/
inductive Scans (P : Cmd.MailFile → World Store K → Except Exc Cmd.ScanResult → World Store K → Prop) :
    World Store K → List Cmd.MailFile → Except Exc (List Cmd.ScanResult) → World Store K → Prop
  | done (w) : Scans P w [] (.ok []) w
  | stop {w w1 f fs e} : P f w (.error e) w1 → Scans P w (f :: fs) (.error e) w1
  | next {w w1 w' f fs r rs} : P f w (.ok r) w1 → Scans P w1 fs (.ok rs) w' → Scans P w (f :: fs) (.ok (r :: rs)) w'
  | later {w w1 w' f fs r e} : P f w (.ok r) w1 → Scans P w1 fs (.error e) w' → Scans P w (f :: fs) (.error e) w'

theorem Scans.mono {P Q : Cmd.MailFile → World Store K → Except Exc Cmd.ScanResult → World Store K → Prop}
    (h : ∀ f w r w', P f w r w' → Q f w r w') {w : World Store K} {fs r w'} (hs : Scans P w fs r w') : Scans Q w fs r w' := by
  induction hs with
  | done => exact .done _
  | stop h1 => exact .stop (h _ _ _ _ h1)
  | next h1 _ ih => exact .next (h _ _ _ _ h1) ih
  | later h1 _ ih => exact .later (h _ _ _ _ h1) ih

/-- printing changes nothing about a file -/
theorem FileSpec.printed {env : Env} {reparse : Bool} {now : Time} {f : Cmd.MailFile} {w w1 w2 : World Store K} {x : Cmd.ScanResult}
    (h : FileSpec env reparse now f w (.ok x) w1) (hs : w2.store = w1.store) (r : Except Exc Cmd.ScanResult) (hr : ∀ y, r = .ok y → y = x) :
    FileSpec env reparse now f w r w2 := by
  intro hh
  obtain ⟨a, h1, h2, h3⟩ := h (hh.imp (fun h => hs ▸ h) fun ⟨y, h4, h5⟩ => ⟨x, rfl, hr y h4 ▸ h5⟩)
  exact ⟨a, h1, fun y b hy hb => h2 x b rfl (hr y hy ▸ hb), fun hd hne => by rw [← h3 hd hne]; unfold World.log; rw [hs]⟩

theorem sayLine_store {O : Oracle K} {l : Option Str} {w w' : World Store K} {r : Except Exc Unit}
    (h : run Store.impl O (Cmd.sayOpt l) w = (r, w')) : w'.store = w.store ∧ w'.clock = w.clock := by
  cases l with
  | none => cases h; exact ⟨rfl, rfl⟩
  | some l =>
    have h1 := run_ro (O := O) (p := Cmd.say l) (.emit trivial) w
    have h2 := (run_clock (S := Store.impl) (O := O) (Cmd.say l) w).1
    rw [exec] at h1
    rw [show Cmd.sayOpt (some l) = Cmd.say l from rfl] at h
    rw [h] at h1 h2
    exact ⟨h1.1, h2⟩

theorem scanFiles_scans {O : Oracle K} {ce : CmdEnv} {env : Env} (reparse : Bool) (now : Time) (i : Nat) (files : List Cmd.MailFile) {w : World Store K}
    (hw : Sane env w) {r : Except Exc (List Cmd.ScanResult)} {w' : World Store K}
    (h : exec O (Cmd.scanFiles ce env reparse now i files) w = (r, w')) :
    Scans (fun f w r w' => FileSpec env reparse now f w r w' ∧ w'.clock = w.clock) w files r w' := by
  induction files generalizing i w r w' with
  | nil => cases h; exact .done _
  | cons f fs ih =>
    unfold Cmd.scanFiles at h
    simp only [bind_eq, pure_eq, exec] at h
    rw [run_bind] at h
    have hs := Sane.scan (O := O) (safe_scanFile env reparse now f) hw
    have hcl := (run_clock (S := Store.impl) (O := O) (Cmd.scanFile env reparse now f) w).1
    rcases h1 : run Store.impl O (Cmd.scanFile env reparse now f) w with ⟨e | x, w1⟩ <;> simp only [exec, h1] at hs h hcl <;>
      have hf := C68_file hw reparse now f h1
    · cases h; exact .stop ⟨hf, hcl⟩
    · rw [run_bind] at h
      rcases h3 : run Store.impl O (Cmd.sayOpt (Cmd.scanLine ce env i f x)) w1 with ⟨e | u, w3⟩ <;>
        rw [h3] at h <;> obtain ⟨hs3, hc3⟩ := sayLine_store h3
      · cases h
        exact .stop ⟨hf.printed hs3 _ (fun y hy => by cases hy), hc3.trans hcl⟩
      have hsane : Sane env w3 := by
        have hl : ∀ hd, w3.log hd = w1.log hd := fun hd => by unfold World.log; rw [hs3]
        exact ⟨by rw [hs3]; exact hs.wf, fun n hn => hs.alnum n (by rw [← hl]; exact hn), fun n hn => by
          obtain ⟨v, hv⟩ := hs.init n (by rw [← hl]; exact hn)
          exact ⟨v, by rw [hl]; exact hv⟩⟩
      dsimp only at h
      rw [run_bind] at h
      rcases h2 : run Store.impl O (Cmd.scanFiles ce env reparse now (i + 1) fs) w3 with ⟨e | xs, w2⟩ <;> rw [h2] at h <;> cases h
      · exact .later ⟨hf.printed hs3 (.ok x) (fun y hy => by cases hy; rfl), hc3.trans hcl⟩ (ih _ hsane h2)
      · exact .next ⟨hf.printed hs3 (.ok x) (fun y hy => by cases hy; rfl), hc3.trans hcl⟩ (ih _ hsane h2)

/-- C68: a scan of a directory, starting in any reachable state, processes its files one after the other, and every file which is
not skipped, or which changes anything stored, is recent, has an id, has an account and is new or asked for again. -/
theorem C68_scan {O : Oracle K} {ce : CmdEnv} {env : Env} {w : World Store K} (hw : Reachable O env w) (reparse : Bool) (files : List Cmd.MailFile)
    {r : Except Exc (List Cmd.ScanResult)} {w' : World Store K} (h : exec O (Cmd.scandir ce env reparse files) w = (r, w')) :
    Scans (FileSpec env reparse (w.clock w.tick)) { w with tick := w.tick + 1 } files r w' := by
  have h' : exec O (Cmd.scanFiles ce env reparse (w.clock w.tick) 0 files) { w with tick := w.tick + 1 } = (r, w') := h
  exact (scanFiles_scans reparse (w.clock w.tick) 0 files (w := { w with tick := w.tick + 1 }) ⟨hw.sane.wf, hw.sane.alnum, hw.sane.init⟩
    h').mono fun _ _ _ _ h => h.1

theorem Due.of_store {env : Env} {reparse : Bool} {now : Time} {f : Cmd.MailFile} {w v : World Store K} {a : Str}
    (hs : v.store = w.store) (hc : v.clock = w.clock) (h : Due env reparse now f v a) : Due env reparse now f { w with tick := v.tick } a := by
  obtain ⟨s, c, t, k, tr⟩ := v
  dsimp only at hs hc
  subst hs hc
  exact ⟨h.file, h.id, h.date, h.account, h.new⟩

/-- C68: if no file of the directory is due then nothing stored changes and all files are skipped -/
theorem C68_nothing_due {O : Oracle K} {ce : CmdEnv} {env : Env} {w : World Store K} (hw : Reachable O env w) (reparse : Bool) (files : List Cmd.MailFile)
    (hf : ∀ f ∈ files, ∀ i a, ¬ Due env reparse (w.clock w.tick) f { w with tick := i } a)
    {r : Except Exc (List Cmd.ScanResult)} {w' : World Store K} (h : exec O (Cmd.scandir ce env reparse files) w = (r, w')) :
    w'.store = w.store ∧ ∀ rs, r = .ok rs → ∀ x ∈ rs, ¬ x.processed := by
  have h' : exec O (Cmd.scanFiles ce env reparse (w.clock w.tick) 0 files) { w with tick := w.tick + 1 } = (r, w') := h
  have hs := scanFiles_scans reparse (w.clock w.tick) 0 files (w := { w with tick := w.tick + 1 }) ⟨hw.sane.wf, hw.sane.alnum, hw.sane.init⟩ h'
  clear h h'
  have key : ∀ {f : Cmd.MailFile} {v : World Store K} {x : Except Exc Cmd.ScanResult} {v' : World Store K}, f ∈ files → v.store = w.store → v.clock = w.clock → FileSpec env reparse (w.clock w.tick) f v x v' →
      v'.store = w.store ∧ ∀ y, x = .ok y → ¬ y.processed := by
    intro f v x v' hm hst hcl hsp
    have hno : ¬ (v'.store ≠ v.store ∨ ∃ y, x = .ok y ∧ y.processed) := fun hh => by
      obtain ⟨a, hd, _⟩ := hsp hh
      exact hf f hm v.tick a (hd.of_store hst hcl)
    refine ⟨Classical.byContradiction fun hne => hno (.inl fun he => hne (he.trans hst)), fun y hy hp => hno (.inr ⟨y, hy, hp⟩)⟩
  generalize hv : ({ w with tick := w.tick + 1 } : World Store K) = v at hs
  have h1 : v.store = w.store := by rw [← hv]
  have h2 : v.clock = w.clock := by rw [← hv]
  clear hv hf
  induction hs with
  | done => exact ⟨h1, fun rs hrs x hx => by cases hrs; cases hx⟩
  | stop hp => exact ⟨(key (List.mem_cons_self ..) h1 h2 hp.1).1, fun rs hrs => by cases hrs⟩
  | next hp _ ih =>
    obtain ⟨k1, k2⟩ := key (List.mem_cons_self ..) h1 h2 hp.1
    obtain ⟨k3, k4⟩ := ih (fun hm => key (List.mem_cons_of_mem _ hm)) k1 (hp.2.trans h2)
    refine ⟨k3, fun rs hrs x hx => ?_⟩
    cases hrs
    rcases List.mem_cons.mp hx with rfl | hx
    · exact k2 _ rfl
    · exact k4 _ rfl x hx
  | later hp _ ih =>
    obtain ⟨k1, k2⟩ := key (List.mem_cons_self ..) h1 h2 hp.1
    obtain ⟨k3, k4⟩ := ih (fun hm => key (List.mem_cons_of_mem _ hm)) k1 (hp.2.trans h2)
    exact ⟨k3, fun rs hrs => by cases hrs⟩

open Concrete in
/-- a directory with an old file, a message without id, a new message and the same again; the clock is at 10000000 -/
example : ((exec oracle (Cmd.scandir cmdEnv env false
      [⟨str!"1", 0, mail bob (str!"1") (str!"9999999") [7]⟩, ⟨str!"2", sec 9999999, .mk [(str!"From", bob), (str!"To", str!"a@x.org")] (.text [])⟩,
       ⟨str!"3", sec 9999999, mail bob (str!"1") (str!"9999999") [7]⟩, ⟨str!"4", sec 9999999, mail bob (str!"1") (str!"9999999") [7]⟩])
      { after [addA] with clock := fun _ => sec 10000000 }).1.toOption) =
    some [.oldFile, .noId, .found (str!"a") bob (str!"AAAAAAAAAAAA07") true, .known (str!"a")] := by decide +kernel

/-! ## C69 -/

theorem processIncoming_returns (env : Env) (n : Str) (m : Msg) (i nd : Bool) : (Account.processIncoming env n m i nd).Returns
    fun o => ∀ x, o = some x → x.peer = peerHead n (senderAddr env m) ∧ x.account = n := by
  unfold Account.processIncoming
  simp only [bind_eq, pure_eq]
  refine .bind (.trivially _) fun _ _ => .bind (.trivially _) fun _ _ => .bind (.trivially _) fun _ _ => ?_
  split
  · exact fun x h => nomatch h
  · refine .bind (.trivially _) fun _ _ => .bind (.trivially _) fun _ _ => .bind (.trivially _) fun _ _ => ?_
    intro x h; cases h; exact ⟨rfl, rfl⟩

/-- C69, what holds: if 'found' is reported then a key from an Autocrypt header is recorded for the sender, unless the newest
message recorded has the date 0, or there is none.

Missing from the full statement: messages without a usable Date, see `C69_refuted`. -/
theorem C69_found_partial (O : Oracle K) (env : Env) (w : World Store K) (account : Option Str) (reparse noDecrypt : Bool) (m : Msg)
    (a p : Str) (w' : World Store K) (h : exec O (Cmd.processIncoming env account reparse noDecrypt m) w = (.ok (.found a p), w')) :
    p = peerHead a (senderAddr env m) ∧
    ((∃ e, .msg e ∈ w'.log p ∧ e.keydata ≠ []) ∨
     ∀ e, Newest Entry.IsMsg (w'.log p) (.msg e) → e.date = 0) := by
  unfold Cmd.processIncoming at h
  simp only [bind_eq, pure_eq, exec] at h
  obtain ⟨a', w1, -, h⟩ := run_bind_ok.mp h
  obtain ⟨o, w2, h2, h⟩ := run_bind_ok.mp h
  cases o with
  | none => cases h
  | some x =>
    have hx := (processIncoming_returns env a' m (!reparse) noDecrypt).of_run h2 x rfl
    dsimp only at h
    rw [run_bind, run_chain] at h
    dsimp only at h
    split at h
    · rename_i heq
      cases h
      refine ⟨by rw [hx.1, hx.2], ?_⟩
      cases hac : Peer.latestAc (w'.store.get x.peer) with
      | some e =>
        obtain ⟨newer, older, hl, ⟨e', he, hk⟩, -⟩ := latestAc_iff.mp hac
        refine .inl ⟨e, ?_, ?_⟩
        · show Entry.msg e ∈ w'.store.get x.peer
          rw [hl]; simp
        · cases he; exact hk
      | none =>
        refine .inr fun e he => ?_
        have := latestMsg_iff.mpr he
        unfold Peer.acTimestamp Peer.lastSeen at heq
        rw [hac, show Peer.latestMsg (w'.store.get x.peer) = some e from this] at heq
        exact heq.symm
    · cases h

/-- C69 is false: a first message without Date and without key is reported as found -/
theorem C69_refuted : ∃ m : Msg, m.get (str!"Autocrypt") = none ∧
    (exec Concrete.oracle (Cmd.processIncoming Concrete.env none false false m) (Concrete.after [Concrete.addA])).1.toOption =
      some (.found (str!"a") (peerHead (str!"a") Concrete.bob)) ∧
    (exec Concrete.oracle (Cmd.processIncoming Concrete.env none false false m) (Concrete.after [Concrete.addA])).2.log
      (peerHead (str!"a") Concrete.bob) = [] :=
  ⟨.mk [(str!"From", Concrete.bob), (str!"To", str!"a@x.org"), (str!"Message-Id", str!"1")] (.text []), by decide, by decide +kernel,
    by decide +kernel⟩

/-! ## C70 -/

/-- C70: without confirmation nothing happens at all -/
theorem C70_unconfirmed (O : Oracle K) (w : World Store K) : exec O (Cmd.destroyAll false) w = (.ok 1, w) := rfl

/-- C70, what holds: with confirmation, in a reachable state, there is no account and no setting afterwards. If there was any before,
or just an initialised directory, then nothing at all is stored.

Missing from the full statement: peers stored in a directory which isn't initialised remain, see `C70_refuted`. -/
theorem C70_destroyed_partial {O : Oracle K} {env : Env} {w : World Store K} (hw : Reachable O env w) {r : Except Exc Int} {w' : World Store K}
    (h : exec O (Cmd.destroyAll true) w = (r, w')) :
    r = .ok 0 ∧ ¬ Initialised w' ∧ (∀ n, w'.log (ownHead n) = [] ∧ ¬ Configured w' n) ∧ listed O w' = .ok [] ∧
    ((Initialised w ∨ ∃ n, w.log (ownHead n) ≠ []) → w'.store = []) := by
  have hver : (Mgr.version (w.store.get managerHead)).isSome = true ↔ Initialised w := by
    constructor
    · intro hv
      obtain ⟨v, hv⟩ := Option.isSome_iff_exists.mp hv
      unfold Mgr.version at hv
      obtain ⟨e, h1, h2⟩ := List.mem_filterMap.mp (List.mem_of_mem_head? (Option.mem_def.mpr hv))
      cases e <;> cases h2
      exact ⟨v, h1⟩
    · rintro ⟨v, hv⟩
      rw [← Option.not_isNone, show (Mgr.version (w.store.get managerHead)).isNone = false from version_isSome hv]; rfl
  have hcase : (Initialised w ∧ r = .ok 0 ∧ w'.store = []) ∨ (¬ Initialised w ∧ r = .ok 0 ∧ w'.store = w.store) := by
    unfold Cmd.destroyAll Cmd.managerExists at h
    simp only [bind_eq, pure_eq, exec, Bool.not_true, Bool.false_eq_true, if_false] at h
    rw [run_bind, run_bind, run_chain] at h
    dsimp only [run] at h
    cases hv : (Mgr.version (w.store.get managerHead)).isSome with
    | true =>
      rw [hv] at h
      cases h
      exact .inl ⟨hver.mp hv, rfl, rfl⟩
    | false =>
      rw [hv] at h
      cases h
      exact .inr ⟨(fun hi => by rw [hver.mpr hi] at hv; cases hv), rfl, rfl⟩
  have hlogs : ∀ n, w'.log (ownHead n) = [] := by
    intro n
    rcases hcase with ⟨_, _, hs⟩ | ⟨hi, _, hs⟩
    · unfold World.log; rw [hs]; rfl
    · refine Classical.byContradiction fun hne => hi (hw.sane.init n ?_)
      unfold World.log at hne ⊢; rw [hs] at hne; exact hne
  have hwf : w'.store.Wf := by
    rcases hcase with ⟨_, _, hs⟩ | ⟨hi, _, hs⟩
    · rw [hs]; exact .nil
    · rw [hs]; exact hw.wf
  refine ⟨hcase.elim (·.2.1) (·.2.1), ?_, fun n => ⟨hlogs n, fun hc => hc.log_ne (hlogs n)⟩, ?_, ?_⟩
  · rintro ⟨v, hv⟩
    rcases hcase with ⟨_, _, hs⟩ | ⟨hi, _, hs⟩
    · unfold World.log at hv; rw [hs] at hv; cases hv
    · exact hi ⟨v, by unfold World.log at hv ⊢; rw [hs] at hv; exact hv⟩
  · have hl := listed_eq O w'
    rw [hl, List.eq_nil_iff_forall_not_mem.mpr fun n hn => ((mem_listed hwf hl n).mp hn) (hlogs n)]
  · rintro (hi | ⟨n, hn⟩)
    · exact hcase.elim (·.2.2) (fun hh => absurd hi hh.1)
    · exact hcase.elim (·.2.2) (fun hh => absurd (hw.sane.init n hn) hh.1)

/-- C70: after everything was destroyed accounts can be added again: with any valid name and mode the settings are recorded, and the
account exists if gpg provides the key. -/
theorem C70_again {O : Oracle K} (hO : HooksOk O) {env : Env} {w : World Store K} (hw : Reachable O env w) {r : Except Exc Int}
    {w' : World Store K} (h : exec O (Cmd.destroyAll true) w = (r, w')) {n mode : Str} (hn : env.isalnum n = true)
    (hm : mode = str!"own" ∨ mode = str!"system") (regex kh : Option Str) (bin : Str) {r' : Except Exc Str} {w'' : World Store K}
    (h' : exec O (Manager.addAccount env n regex kh bin mode) w' = (r', w'')) :
    (∃ c, OwnConf w'' n c ∧ c.name = n ∧ c.gpgmode.toStr = mode) ∧
      (r' = .ok n ∧ Configured w'' n ∨ (∃ e, r' = .error e) ∧ ¬ Configured w'' n) := by
  have hnot : ¬ Configured w' n := ((C70_destroyed_partial hw h).2.2.1 n).2
  have h0 : w'.log (ownHead n) = [] := ((C70_destroyed_partial hw h).2.2.1 n).1
  have hpre : ∀ s : Store, s = initStore w'.store → s.get (ownHead n) = [] := by
    rintro s rfl; rw [get_initStore (ownHead_ne_managerHead n)]; exact h0
  cases addAccount_course h' with
  | noOpen e hg hst =>
    cases hg with
    | badName h1 _ => rw [hn] at h1; cases h1
    | notFound _ h1 => cases h1
    | plugin e _ _ htr => exact (hO.event h' htr).elim
  | exists_ hc => exact absurd hc hnot
  | badMode _ _ h1 h2 => exact absurd hm (by simp [h1, h2])
  | noKey e md _ _ hmd hst =>
    have hlog : w''.log (ownHead n) = [.cfg (newConf n regex bin md)] := by
      unfold World.log; rw [hst, Store.get_push_self, hpre _ rfl]
    refine ⟨⟨newConf n regex bin md, ⟨[], _, hlog, ⟨_, rfl⟩, by simp⟩, rfl, hmd⟩, .inr ⟨⟨e, rfl⟩, ?_⟩⟩
    rintro ⟨_, k, hk⟩
    rw [hlog] at hk; simp at hk
  | added md k kd _ _ hmd hst =>
    have hlog : w''.log (ownHead n) = [.keygen ⟨some kd, some k⟩, .cfg (newConf n regex bin md)] := by
      unfold World.log; rw [hst, Store.get_push_self, Store.get_push_self, hpre _ rfl]
    exact ⟨⟨newConf n regex bin md, ⟨[_], _, hlog, ⟨_, rfl⟩, by simp⟩, rfl, hmd⟩, .inl ⟨rfl, ⟨newConf n regex bin md, by rw [hlog]; simp⟩, ⟨some kd, some k⟩, by rw [hlog]; simp⟩⟩

open Concrete in
/-- The full C70 fails: mail processed with an account object in a directory which isn't initialised leaves a peer, which destroy-all
does not remove. -/
theorem C70_refuted : ∃ (w w' : World Store Unit) (r : Except Exc Int), Reachable oracle env w ∧
    exec oracle (Cmd.destroyAll true) w = (r, w') ∧ w'.log (peerHead (str!"a") bob) ≠ [] :=
  ⟨after [addA, .removeAll, recv bob (str!"1") (str!"100") []], _, _, after_reachable _, rfl, by decide +kernel⟩

open Concrete in
/-- everything can be destroyed and an account added again -/
example : Initialised (after [addA, recv bob (str!"1") (str!"100") [7]]) ∧
    (after [addA, recv bob (str!"1") (str!"100") [7]]).log (peerHead (str!"a") bob) ≠ [] ∧
    (exec oracle (Cmd.destroyAll true) (after [addA, recv bob (str!"1") (str!"100") [7]])).1.toOption = some 0 ∧
    (exec oracle (addA.prog env) (exec oracle (Cmd.destroyAll true) (after [addA, recv bob (str!"1") (str!"100") [7]])).2).1.toOption = some () :=
  ⟨⟨str!"0.1", by decide +kernel⟩, by decide +kernel, by decide +kernel, by decide +kernel⟩

/-! ## C73 -/

/-- C73, what holds: the command `mod-account` with the option `--gpgbin` sets the settings given and leaves the others, except
that it ignores `--use-key`, as C47.

Missing from the full statement: without the option the program is reset to "gpg", see `C73_refuted`. -/
theorem C73_modified_partial {O : Oracle K} (hO : HooksOk O) {env : Env} {w : World Store K} (hw : Reachable O env w) {n : Str}
    (hc : Configured w n) {c : OwnConfig} (hconf : OwnConf w n c) (regex kh pe : Option Str) (hpe : ValidPref pe) (bin : Option Str)
    {w' : World Store K} {r : Except Exc (Bool × Str)} (h : exec O (Cmd.modAccount env n kh bin regex pe) w = (r, w')) :
    ∃ c', Wanted c regex (some (bin.getD (str!"gpg"))) pe c' ∧ OwnConf w' n c' ∧ r = .ok (decide (c' ≠ c), n) ∧
      ((∃ b, bin = some b) ∨ c.gpgbin = str!"gpg" → Wanted c regex bin pe c') ∧ SameOthers n w w' := by
  obtain ⟨h1, -, -, h2⟩ := C47_modified_partial hO hw hc hconf regex kh (some (bin.getD (str!"gpg"))) pe h
  obtain ⟨c', hw', hc', hr⟩ := h1 hpe
  refine ⟨c', hw', hc', hr, ?_, h2⟩
  intro hb
  cases bin with
  | some b => exact hw'
  | none =>
    rcases hb with ⟨b, hb⟩ | hb
    · cases hb
    · exact { hw' with bin := ⟨(by intro x hx; cases hx), fun _ => by rw [hb]; exact hw'.bin.1 _ rfl⟩ }

/-- C73 is false: changing only the preference of an account which uses "gpg2" makes it use "gpg" -/
theorem C73_refuted : ∃ calls, (exec Concrete.oracle (Cmd.modAccount Concrete.env (str!"a") none none none (some (str!"mutual")))
      (Concrete.after calls)).1.toOption = some (true, str!"a") ∧
    (∃ c, OwnConf (Concrete.after calls) (str!"a") c ∧ c.gpgbin = str!"gpg2") ∧
    ∃ c, OwnConf (exec Concrete.oracle (Cmd.modAccount Concrete.env (str!"a") none none none (some (str!"mutual"))) (Concrete.after calls)).2
      (str!"a") c ∧ c.gpgbin = str!"gpg" :=
  ⟨[.addAccount (str!"a") none none (str!"gpg2") (str!"own")], by decide +kernel,
    ⟨newConf (str!"a") none (str!"gpg2") .own, latestConfig_iff.mp (by decide +kernel), rfl⟩,
    ⟨{ newConf (str!"a") none (str!"gpg") .own with pe := .mutual }, latestConfig_iff.mp (by decide +kernel), rfl⟩⟩

open Concrete in
/-- C69: a message with a key is reported as found -/
example : (exec oracle (Cmd.processIncoming env none false false (mail bob (str!"1") (str!"100") [7])) (after [addA])).1.toOption =
    some (.found (str!"a") (peerHead (str!"a") bob)) := by decide +kernel

end Verif
