import Verif.Lemmas.BuiltCmd
import Verif.Props.GpgTasks
/-!
# Two runs which differ in secret keys only

Relations between two environments, two states and two programs. `Same p` says that `p` does the same in both runs.
-/
namespace Verif
open BinGPG
variable {α β K : Type}

/-! ## Specification -/

/-- the entry without the secret key which is recorded when a key is made or adopted -/
def Entry.hide : Entry → Entry
  | .keygen k => .keygen { k with keydata := none }
  | e => e

/-- the same logs, apart from recorded secret keys -/
def LogsLike (es es' : List Entry) : Prop := es.map Entry.hide = es'.map Entry.hide

/-- the same stores, apart from recorded secret keys -/
def StoresLike (s s' : Store) : Prop := s.map (fun c => (c.1, c.2.map Entry.hide)) = s'.map (fun c => (c.1, c.2.map Entry.hide))

/-- the same answers, or: gpg was told to write a secret key and wrote other ones, with the same exit status and messages -/
def GpgLike (argv : List Str) (r r' : Except Exc GpgOut) : Prop :=
  r = r' ∨ (commandWord argv = some (str!"--export-secret-key") ∧
    ∃ ret err out out', r = .ok { ret, out, err } ∧ r' = .ok { ret, out := out', err })

/-- what the two runs may get as answers to the same operation -/
def AnswersLike : (o : Op) → o.Ret → o.Ret → Prop
  | .chain _, r, r' => ∃ es es', r = .ok es ∧ r' = .ok es' ∧ LogsLike es es'
  | .ext (.gpg argv _), r, r' => GpgLike argv r r'
  | _, r, r' => r = r'

/-- environments which behave in the same way, apart from the secret keys which gpg writes when told to do so -/
def OraclesLike (O O' : Oracle K) : Prop :=
  ∀ (o : ExtOp) k, (O.step o k).2 = (O'.step o k).2 ∧ AnswersLike (.ext o) (O.step o k).1 (O'.step o k).1

/-- the same operations with answers which are the same apart from secret keys -/
def EventsLike (a b : Event) : Prop := ∃ op r r', a = ⟨op, r⟩ ∧ b = ⟨op, r'⟩ ∧ AnswersLike (.ext op) r r'

/-- states which are the same apart from secret keys -/
structure WorldsLike (w w' : World Store K) : Prop where
  store : StoresLike w.store w'.store
  clock : w.clock = w'.clock
  tick : w.tick = w'.tick
  env : w.env = w'.env
  trace : List.Forall₂ EventsLike w.trace w'.trace

/-- the external operations of a run: everything that is written, sent, passed to plugins and to gpg -/
def World.ops {σ : Type} (w : World σ K) : List ExtOp := w.trace.map (·.op)

/-! ## Programs -/

/-- two programs which do the same unless they read or get secret keys, with results in a relation -/
inductive Like (R : α → α → Prop) : Prog α → Prog α → Prop
  | pure {a a' : α} : R a a' → Like R (.pure a) (.pure a')
  | raise (e : Exc) : Like R (.raise e) (.raise e)
  | op {o : Op} {k k' : o.Ret → Prog α} : (∀ r r', AnswersLike o r r' → Like R (k r) (k' r')) → Like R (.op o k) (.op o k')
  | keygen {h : Str} {x x' : KeygenEntry} {k k' : Except Exc Unit → Prog α} : x.keyhandle = x'.keyhandle → (∀ r, Like R (k r) (k' r)) →
      Like R (.op (.append h (.keygen x)) k) (.op (.append h (.keygen x')) k')

/-- the program does the same in two runs -/
def Same (p : Prog α) : Prop := Like Eq p p

namespace Like
theorem bind {R : α → α → Prop} {Q : β → β → Prop} {p p' : Prog α} {f f' : α → Prog β} (h : Like R p p')
    (hf : ∀ a a', R a a' → Like Q (f a) (f' a')) : Like Q (p.bind f) (p'.bind f') := by
  induction h with
  | pure h => exact hf _ _ h
  | raise e => exact .raise e
  | op _ ih => exact .op fun r r' h => ih r r' h
  | keygen h _ ih => exact .keygen h fun r => ih r

theorem tryCatch {R : α → α → Prop} {p p' : Prog α} {f f' : Exc → Prog α} (h : Like R p p') (hf : ∀ e, Like R (f e) (f' e)) :
    Like R (p.tryCatch f) (p'.tryCatch f') := by
  induction h with
  | pure h => exact .pure h
  | raise e => exact hf e
  | op _ ih => exact .op fun r r' h => ih r r' h
  | keygen h _ ih => exact .keygen h fun r => ih r

theorem attempt {R : α → α → Prop} {p p' : Prog α} (h : Like R p p') :
    Like (fun x x' => (∃ a a', x = .ok a ∧ x' = .ok a' ∧ R a a') ∨ ∃ e, x = .error e ∧ x' = .error e) p.attempt p'.attempt :=
  tryCatch (bind h fun a a' ha => .pure (.inl ⟨a, a', rfl, rfl, ha⟩)) fun e => .pure (.inr ⟨e, rfl, rfl⟩)

theorem ofExcept {R : α → α → Prop} (hR : ∀ a, R a a) (x : Except Exc α) : Like R (Prog.ofExcept x) (Prog.ofExcept x) := by
  cases x
  exacts [.raise _, .pure (hR _)]

theorem mono {R Q : α → α → Prop} {p p' : Prog α} (h : Like R p p') (hq : ∀ a a', R a a' → Q a a') : Like Q p p' := by
  induction h with
  | pure h => exact .pure (hq _ _ h)
  | raise e => exact .raise e
  | op _ ih => exact .op fun r r' h => ih r r' h
  | keygen h _ ih => exact .keygen h fun r => ih r

theorem chain (h : Str) : Like LogsLike (Prog.chain h) (Prog.chain h) :=
  .op fun r r' hr => by
    obtain ⟨es, es', rfl, rfl, h⟩ := hr
    exact .pure h
end Like

/-- operations to which both runs get the same answer -/
def Op.open_ : Op → Prop
  | .chain _ | .ext (.gpg _ _) => False
  | _ => True

theorem AnswersLike.eq {o : Op} (h : o.open_) {r r' : o.Ret} (hr : AnswersLike o r r') : r = r' := by
  cases o with
  | chain => exact h.elim
  | ext x =>
    cases x
    case gpg => exact h.elim
    all_goals exact hr
  | _ => exact hr

namespace Same
theorem pure (a : α) : Same (.pure a) := Like.pure rfl
theorem raise (e : Exc) : Same (.raise e : Prog α) := Like.raise e
theorem op {o : Op} {k : o.Ret → Prog α} (h : o.open_) (hk : ∀ r, Same (k r)) : Same (.op o k) :=
  Like.op fun r r' hr => by rw [hr.eq h]; exact hk r'
theorem bind {p : Prog α} {f : α → Prog β} (h : Same p) (hf : ∀ a, Same (f a)) : Same (p.bind f) :=
  Like.bind h fun a a' ha => by rw [ha]; exact hf a'
theorem attempt {p : Prog α} (h : Same p) : Same p.attempt :=
  (Like.attempt h).mono fun _ _ hx => by
    rcases hx with ⟨a, a', rfl, rfl, rfl⟩ | ⟨e, rfl, rfl⟩ <;> rfl
theorem ofExcept (x : Except Exc α) : Same (Prog.ofExcept x) := Like.ofExcept (fun _ => rfl) x
theorem assert (b : Bool) : Same (Prog.assert b) := by cases b <;> constructor; rfl
theorem void {p : Prog α} (h : Same p) : Same p.void := bind h fun _ => pure _
theorem now : Same Prog.now := op trivial fun _ => pure _
theorem append (h e) : Same (Prog.append h e) := op trivial fun _ => ofExcept _
theorem heads : Same Prog.heads := op trivial fun _ => ofExcept _
theorem removeIf (p) : Same (Prog.removeIf p) := op trivial fun _ => ofExcept _
theorem findExecutable (a) : Same (Prog.findExecutable a) := op trivial fun _ => pure _
theorem pathExists (a) : Same (Prog.pathExists a) := op trivial fun _ => pure _
theorem makedirs (a) : Same (Prog.makedirs a) := op trivial fun _ => ofExcept _
theorem writeFile (a b) : Same (Prog.writeFile a b) := op trivial fun _ => ofExcept _
theorem mkTemp : Same Prog.mkTemp := op trivial fun _ => ofExcept _
theorem writeTemp (a b) : Same (Prog.writeTemp a b) := op trivial fun _ => ofExcept _
theorem rmTemp (a) : Same (Prog.rmTemp a) := op trivial fun _ => ofExcept _
theorem uuid : Same Prog.uuid := op trivial fun _ => pure _
theorem hookInstantiate (a) : Same (Prog.hookInstantiate a) := op trivial fun _ => ofExcept _
theorem hookIncomingGossip (a b d) : Same (Prog.hookIncomingGossip a b d) := op trivial fun _ => ofExcept _
theorem hookBeforeEnc (a b d e) : Same (Prog.hookBeforeEnc a b d e) := op trivial fun _ => ofExcept _
theorem sendmail (a b) : Same (Prog.sendmail a b) := op trivial fun _ => ofExcept _
theorem emit (a) : Same (Prog.emit a) := op trivial fun _ => ofExcept _
theorem rmtree : Same Prog.rmtree := op trivial fun _ => op trivial fun _ => pure _

theorem temp {d : Bytes} {b : Str → Prog α} (h : ∀ n, Same (b n)) : Same (withTempFile d b) := by
  unfold withTempFile Prog.finally_
  simp only [bind_eq]
  refine bind mkTemp fun n => bind (writeTemp _ _) fun _ => bind (h n).attempt fun r => bind (rmTemp _) fun _ => ?_
  cases r
  exacts [raise _, pure _]

/-- gpg is told to do something else than writing a secret key -/
theorem gpg {env : Env} {u : GpgTask} {g : BinGPG} {args : List Str} {i : Option Bytes} (hu : u.Args args i.isSome)
    (hs : u ≠ .exportSecret) (s d : Bool) : Same (gpgOuterr env g args i s d) := by
  unfold gpgOuterr
  simp only [bind_eq]
  refine bind (Like.op fun r r' hr => ?_) fun _ => ofExcept _
  rcases hr with hr | ⟨hr, _⟩
  · rw [hr]
    exact ofExcept _
  · rw [argv_eq, GpgTask.Run.word (u := u) (stdin := i) ⟨g, args, rfl, hu⟩] at hr
    cases u <;> first | exact absurd rfl hs | exact absurd hr (by decide)

/-- a log is read by something which doesn't look at secret keys -/
theorem chainBind {h : Str} {f : List Entry → Prog α} (hb : ∀ es, f (es.map Entry.hide) = f es) (hf : ∀ es, Same (f es)) :
    Same ((Prog.chain h).bind f) :=
  Like.bind (Like.chain h) fun es es' hes => by
    have : f es = f es' := by rw [← hb es, ← hb es', hes]
    rw [this]
    exact hf es'
end Same

/-- gpg writes a secret key: the program goes on in both runs, or fails in both in the same way -/
theorem Like.gpgAny {env : Env} {g : BinGPG} {args : List Str} {i : Option Bytes} (s : Bool) :
    Like (fun x x' => x.2 = x'.2) (gpgOuterr env g args i s false) (gpgOuterr env g args i s false) := by
  unfold gpgOuterr
  simp only [bind_eq]
  refine Like.op fun r r' hr => ?_
  rcases hr with hr | ⟨_, ret, err, out, out', rfl, rfl⟩
  · rw [hr]
    cases r' with
    | error e => exact .raise e
    | ok x => exact Like.ofExcept (R := fun x x' : Bytes × Str => x.2 = x'.2) (fun _ => rfl) (checkResult env s false x)
  · show Like _ (Prog.ofExcept (checkResult env s false _)) (Prog.ofExcept (checkResult env s false _))
    unfold checkResult
    by_cases h : ret = 130
    · simp only [h, if_true]
      exact .raise _
    · simp only [h, if_false, Bool.false_eq_true]
      cases env.utf8Decode err with
      | error e => exact .raise _
      | ok t =>
        simp only
        split
        · exact .raise _
        · exact .pure rfl

/-! ## What looks at logs -/

theorem filterMap_hide {γ : Type} (f : Entry → Option γ) (hf : ∀ e, f e.hide = f e) (es : List Entry) :
    (es.map Entry.hide).filterMap f = es.filterMap f := by
  rw [List.filterMap_map]
  congr 1
  funext e
  exact hf e

namespace Peer
variable (es : List Entry)
theorem msgs_hide : msgs (es.map Entry.hide) = msgs es := filterMap_hide _ (fun e => by cases e <;> rfl) es
theorem gossips_hide : gossips (es.map Entry.hide) = gossips es := filterMap_hide _ (fun e => by cases e <;> rfl) es
theorem latestAc_hide : latestAc (es.map Entry.hide) = latestAc es := by unfold latestAc; rw [msgs_hide]
theorem latestGossip_hide : latestGossip (es.map Entry.hide) = latestGossip es := by unfold latestGossip; rw [gossips_hide]
theorem latestMsg_hide : latestMsg (es.map Entry.hide) = latestMsg es := by unfold latestMsg; rw [msgs_hide]
theorem lastSeen_hide : lastSeen (es.map Entry.hide) = lastSeen es := by unfold lastSeen; rw [latestMsg_hide]
theorem acTimestamp_hide : acTimestamp (es.map Entry.hide) = acTimestamp es := by unfold acTimestamp; rw [latestAc_hide]
theorem hasDirectKey_hide : hasDirectKey (es.map Entry.hide) = hasDirectKey es := by unfold hasDirectKey; rw [latestAc_hide]
theorem entryForEncryption_hide : entryForEncryption (es.map Entry.hide) = entryForEncryption es := by
  unfold entryForEncryption; rw [latestAc_hide, latestGossip_hide]
theorem publicKeyhandle_hide : publicKeyhandle (es.map Entry.hide) = publicKeyhandle es := by unfold publicKeyhandle; rw [entryForEncryption_hide]
theorem publicKeydata_hide : publicKeydata (es.map Entry.hide) = publicKeydata es := by unfold publicKeydata; rw [entryForEncryption_hide]
theorem preferEncrypt_hide : preferEncrypt (es.map Entry.hide) = preferEncrypt es := by unfold preferEncrypt; rw [entryForEncryption_hide]
theorem hasMessage_hide (i) : hasMessage (es.map Entry.hide) i = hasMessage es i := by unfold hasMessage getMessageEntry; rw [msgs_hide]
theorem updateEntry_hide (u) : updateEntry (es.map Entry.hide) u = updateEntry es u := by
  unfold updateEntry isRecorded getMessageEntry; rw [acTimestamp_hide, lastSeen_hide, msgs_hide]
theorem gossipEntry_hide (u) : gossipEntry (es.map Entry.hide) u = gossipEntry es u := by
  unfold gossipEntry isRecordedGossip getGossipEntry; rw [acTimestamp_hide, gossips_hide]
end Peer

namespace Own
variable (es : List Entry)
theorem latestConfig_hide : latestConfig (es.map Entry.hide) = latestConfig es := by
  unfold latestConfig; rw [filterMap_hide _ (fun e => by cases e <;> rfl)]
theorem keygens_hide : (es.map Entry.hide).filterMap Entry.keygen? = (es.filterMap Entry.keygen?).map fun k => { k with keydata := none } := by
  induction es with
  | nil => rfl
  | cons e es ih =>
    cases e
    case keygen k => exact congrArg (List.cons _) ih
    all_goals exact ih
theorem latestKeygen_hide : latestKeygen (es.map Entry.hide) = (latestKeygen es).map fun k => { k with keydata := none } := by
  unfold latestKeygen; rw [keygens_hide, List.head?_map]
theorem isConfigured_hide : isConfigured (es.map Entry.hide) = isConfigured es := by
  unfold isConfigured; rw [latestConfig_hide, latestKeygen_hide, Option.isSome_map]
end Own

theorem OOB.lookup_hide (es : List Entry) (a) : OOB.lookup (es.map Entry.hide) a = OOB.lookup es a := by
  unfold OOB.lookup; rw [filterMap_hide _ (fun e => by cases e <;> rfl)]
theorem Mgr.version_hide (es : List Entry) : Mgr.version (es.map Entry.hide) = Mgr.version es := by
  unfold Mgr.version; rw [filterMap_hide _ (fun e => by cases e <;> rfl)]

/-! ## Runs -/

namespace StoresLike
theorem push_hide (s : Store) (h : Str) (e : Entry) :
    (s.push h e).map (fun c => (c.1, c.2.map Entry.hide)) = Store.push (s.map fun c => (c.1, c.2.map Entry.hide)) h e.hide := by
  induction s with
  | nil => rfl
  | cons c s ih =>
    obtain ⟨n, l⟩ := c
    by_cases hn : n = h
    · simp [Store.push, hn]
    · simpa [Store.push, hn] using ih
theorem get_hide (s : Store) (h : Str) : (s.get h).map Entry.hide = Store.get (s.map fun c => (c.1, c.2.map Entry.hide)) h := by
  induction s with
  | nil => rfl
  | cons c s ih =>
    obtain ⟨n, l⟩ := c
    by_cases hn : n = h
    · simp [Store.get, hn]
    · simpa [Store.get, hn] using ih
theorem names_hide (s : Store) : s.names = Store.names (s.map fun c => (c.1, c.2.map Entry.hide)) := by
  simp [Store.names]
theorem removeIf_hide (s : Store) (p : Str → Bool) :
    (s.removeIf p).map (fun c => (c.1, c.2.map Entry.hide)) = Store.removeIf (s.map fun c => (c.1, c.2.map Entry.hide)) p := by
  simp [Store.removeIf, List.filter_map, Function.comp_def]
end StoresLike

/-- one operation -/
theorem step_like {O O' : Oracle K} (hO : OraclesLike O O') {w w' : World Store K} (hw : WorldsLike w w') (o : Op) :
    AnswersLike o (step Store.impl O o w).1 (step Store.impl O' o w').1 ∧
      WorldsLike (step Store.impl O o w).2 (step Store.impl O' o w').2 := by
  obtain ⟨hs, hc, ht, he, htr⟩ := hw
  cases o with
  | now => exact ⟨by show w.clock w.tick = w'.clock w'.tick; rw [hc, ht], hs, hc, congrArg (· + 1) ht, he, htr⟩
  | chain h =>
    refine ⟨⟨_, _, rfl, rfl, ?_⟩, hs, hc, ht, he, htr⟩
    show _ = _
    rw [StoresLike.get_hide, StoresLike.get_hide, hs]
  | append h e =>
    refine ⟨rfl, ?_, hc, congrArg (· + 1) ht, he, htr⟩
    show _ = _
    exact (StoresLike.push_hide _ _ _).trans ((congrArg (fun s => Store.push s h e.hide) hs).trans (StoresLike.push_hide _ _ _).symm)
  | heads =>
    refine ⟨?_, hs, hc, ht, he, htr⟩
    show Except.ok w.store.names = Except.ok w'.store.names
    rw [StoresLike.names_hide, StoresLike.names_hide w'.store, hs]
  | removeIf p =>
    refine ⟨rfl, ?_, hc, ht, he, htr⟩
    exact (StoresLike.removeIf_hide _ _).trans ((congrArg (fun s => Store.removeIf s p) hs).trans (StoresLike.removeIf_hide _ _).symm)
  | wipe => exact ⟨rfl, rfl, hc, ht, he, htr⟩
  | ext x =>
    obtain ⟨h1, h2⟩ := hO x w.env
    rw [he] at h1 h2
    refine ⟨?_, hs, hc, ht, ?_, .cons ⟨x, _, _, rfl, rfl, ?_⟩ htr⟩
    · show AnswersLike (.ext x) (O.step x w.env).1 (O'.step x w'.env).1
      rw [he]; exact h2
    · show (O.step x w.env).2 = (O'.step x w'.env).2
      rw [he]; exact h1
    · show AnswersLike (.ext x) (O.step x w.env).1 (O'.step x w'.env).1
      rw [he]; exact h2

/-- recording different secret keys -/
theorem step_keygen {O O' : Oracle K} {w w' : World Store K} (hw : WorldsLike w w') (h : Str) {x x' : KeygenEntry}
    (hx : x.keyhandle = x'.keyhandle) :
    WorldsLike (step Store.impl O (.append h (.keygen x)) w).2 (step Store.impl O' (.append h (.keygen x')) w').2 := by
  obtain ⟨hs, hc, ht, he, htr⟩ := hw
  refine ⟨?_, hc, congrArg (· + 1) ht, he, htr⟩
  have : (Entry.keygen x).hide = (Entry.keygen x').hide := by simp [Entry.hide, hx]
  show _ = _
  exact (StoresLike.push_hide _ _ _).trans ((by rw [this]; exact congrArg (fun s => Store.push s h _) hs : Store.push _ h _ = Store.push _ h _).trans
    (StoresLike.push_hide _ _ _).symm)

/-- results of two runs -/
def ResultsLike (R : α → α → Prop) (x x' : Except Exc α) : Prop :=
  (∃ a a', x = .ok a ∧ x' = .ok a' ∧ R a a') ∨ ∃ e, x = .error e ∧ x' = .error e

theorem Like.run {O O' : Oracle K} (hO : OraclesLike O O') {R : α → α → Prop} {p p' : Prog α} (h : Like R p p') {w w' : World Store K}
    (hw : WorldsLike w w') :
    ResultsLike R (exec O p w).1 (exec O' p' w').1 ∧ WorldsLike (exec O p w).2 (exec O' p' w').2 := by
  induction h generalizing w w' with
  | pure h => exact ⟨.inl ⟨_, _, rfl, rfl, h⟩, hw⟩
  | raise e => exact ⟨.inr ⟨e, rfl, rfl⟩, hw⟩
  | @op o k k' _ ih =>
    obtain ⟨h1, h2⟩ := step_like hO hw o
    exact ih _ _ h1 h2
  | @keygen h x x' k k' hx _ ih => exact ih _ (step_keygen hw h hx)

theorem Like.runFor {O O' : Oracle K} (hO : OraclesLike O O') {R : α → α → Prop} {p p' : Prog α} (h : Like R p p') {w w' : World Store K}
    (hw : WorldsLike w w') (n : Nat) : WorldsLike (runFor Store.impl O n p w) (runFor Store.impl O' n p' w') := by
  induction h generalizing w w' n with
  | pure h => cases n <;> exact hw
  | raise e => cases n <;> exact hw
  | @op o k k' _ ih =>
    cases n with
    | zero => exact hw
    | succ n =>
      obtain ⟨h1, h2⟩ := step_like hO hw o
      exact ih _ _ h1 h2 n
  | @keygen h x x' k k' hx _ ih =>
    cases n with
    | zero => exact hw
    | succ n => exact ih _ (step_keygen hw h hx) n

end Verif
