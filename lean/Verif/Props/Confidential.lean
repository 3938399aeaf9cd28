import Verif.Props.Relevant
import Verif.Props.OutgoingCourse
import Verif.Props.Encrypt
import Verif.Props.Commands
import Verif.Props.OutgoingExamples
/-!
# The content of mail which is sent encrypted (C117)

Two messages which differ only in their content are processed alike: nothing of the content can be seen but by gpg and the plugins.
-/
namespace Verif
open Mime

variable {σ K : Type}

/-! ## Specification -/

/-- the messages have the same fields in the same order, apart from Content-Type, MIME-Version and Content-Transfer-Encoding. The bodies
may be different. -/
def SameOutside (m m' : Msg) : Prop := m.headers.filter (fun h => OuterName h.1) = m'.headers.filter (fun h => OuterName h.1)

/-- mail which leaves the program: both times the same, or both times not encrypted -/
def Alike (m m' : Msg) : Prop := m = m' ∨ (PlainMail m ∧ PlainMail m' ∧ SameOutside m m')

/-- both times the same exception, or none -/
inductive SameOutcome {α : Type} : Except Exc α → Except Exc α → Prop
  | error (e : Exc) : SameOutcome (.error e) (.error e)
  | ok (x x' : α) : SameOutcome (.ok x) (.ok x')

/-- the environment does not tell contents apart: the answers of gpg to a command which encrypts are the same for all data, plugins may
change the content but do nothing else that depends on it, and whoever gets the mail behaves alike -/
structure ContentBlind (O : Oracle K) : Prop where
  gpg : ∀ argv d d' s, str!"--encrypt" ∈ argv →
    (O.step (.gpg argv (some d)) s : Except Exc GpgOut × K) = (O.step (.gpg argv (some d')) s : Except Exc GpgOut × K)
  plugins : ∀ a k r p p' s, SameOutcome (α := Msg) (O.step (.hookBeforeEnc a k r p) s).1 (O.step (.hookBeforeEnc a k r p') s).1 ∧
    (O.step (.hookBeforeEnc a k r p) s).2 = (O.step (.hookBeforeEnc a k r p') s).2
  printed : ∀ x x' s, Alike x x' →
    (O.step (.emit (.mail x)) s : Except Exc Unit × K) = (O.step (.emit (.mail x')) s : Except Exc Unit × K)
  sent : ∀ argv x x' s, Alike x x' →
    (O.step (.sendmail argv x) s : Except Exc Int × K) = (O.step (.sendmail argv x') s : Except Exc Int × K)

/-- the same events, apart from the data which gpg encrypts, the content which plugins get and the content of mail which isn't encrypted -/
inductive VeiledEvents : List Event → List Event → Prop
  | nil : VeiledEvents [] []
  | same (e : Event) {l l' : List Event} : VeiledEvents l l' → VeiledEvents (e :: l) (e :: l')
  | gpg (argv : List Str) (d d' : Bytes) (r : Except Exc GpgOut) {l l' : List Event} : str!"--encrypt" ∈ argv → VeiledEvents l l' →
      VeiledEvents (⟨.gpg argv (some d), r⟩ :: l) (⟨.gpg argv (some d'), r⟩ :: l')
  | plugins (a k : Str) (r2k : List (Str × Bytes)) (p p' : Msg) (r r' : Except Exc Msg) {l l' : List Event} : SameOutcome r r' → VeiledEvents l l' →
      VeiledEvents (⟨.hookBeforeEnc a k r2k p, r⟩ :: l) (⟨.hookBeforeEnc a k r2k p', r'⟩ :: l')
  | printed (x x' : Msg) (r : Except Exc Unit) {l l' : List Event} : Alike x x' → VeiledEvents l l' →
      VeiledEvents (⟨.emit (.mail x), r⟩ :: l) (⟨.emit (.mail x'), r⟩ :: l')
  | sent (argv : List Str) (x x' : Msg) (r : Except Exc Int) {l l' : List Event} : Alike x x' → VeiledEvents l l' →
      VeiledEvents (⟨.sendmail argv x, r⟩ :: l) (⟨.sendmail argv x', r⟩ :: l')

/-- the same state, apart from this -/
structure VeiledWorlds (w w' : World σ K) : Prop where
  store : w.store = w'.store
  clock : w.clock = w'.clock
  tick : w.tick = w'.tick
  env : w.env = w'.env
  trace : VeiledEvents w.trace w'.trace

/-- the same exception, or results which are related -/
inductive OutcomesBy {α β : Type} (R : α → β → Prop) : Except Exc α → Except Exc β → Prop
  | error (e : Exc) : OutcomesBy R (.error e) (.error e)
  | ok {a : α} {b : β} : R a b → OutcomesBy R (.ok a) (.ok b)

/-- results of `process_outgoing` which differ at most in the content of mail which is not encrypted -/
def AlikeResults (r r' : Account.OutgoingResult) : Prop :=
  Alike r.msg r'.msg ∧ r.account = r'.account ∧ r.addr = r'.addr ∧ r.added = r'.added ∧ r.had = r'.had

/-! ## Programs -/

theorem VeiledEvents.refl : ∀ l, VeiledEvents l l
  | [] => .nil
  | e :: l => .same e (refl l)

theorem VeiledWorlds.refl (w : World σ K) : VeiledWorlds w w := ⟨rfl, rfl, rfl, rfl, .refl _⟩

/-- programs which differ only in what is veiled -/
inductive Veiled {α β : Type} (R : α → β → Prop) : Prog α → Prog β → Prop
  | pure {a : α} {b : β} : R a b → Veiled R (.pure a) (.pure b)
  | raise (e : Exc) : Veiled R (.raise e) (.raise e)
  | op (o : Op) {k : o.Ret → Prog α} {k' : o.Ret → Prog β} : (∀ r, Veiled R (k r) (k' r)) → Veiled R (.op o k) (.op o k')
  | gpg (argv : List Str) (d d' : Bytes) {k : Except Exc GpgOut → Prog α} {k' : Except Exc GpgOut → Prog β} : str!"--encrypt" ∈ argv →
      (∀ r, Veiled R (k r) (k' r)) → Veiled R (.op (.ext (.gpg argv (some d))) k) (.op (.ext (.gpg argv (some d'))) k')
  | plugins (a h : Str) (r2k : List (Str × Bytes)) (p p' : Msg) {k : Except Exc Msg → Prog α} {k' : Except Exc Msg → Prog β} :
      (∀ r r', SameOutcome r r' → Veiled R (k r) (k' r')) →
      Veiled R (.op (.ext (.hookBeforeEnc a h r2k p)) k) (.op (.ext (.hookBeforeEnc a h r2k p')) k')
  | printed (x x' : Msg) {k : Except Exc Unit → Prog α} {k' : Except Exc Unit → Prog β} : Alike x x' → (∀ r, Veiled R (k r) (k' r)) →
      Veiled R (.op (.ext (.emit (.mail x))) k) (.op (.ext (.emit (.mail x'))) k')
  | sent (argv : List Str) (x x' : Msg) {k : Except Exc Int → Prog α} {k' : Except Exc Int → Prog β} : Alike x x' → (∀ r, Veiled R (k r) (k' r)) →
      Veiled R (.op (.ext (.sendmail argv x)) k) (.op (.ext (.sendmail argv x')) k')

theorem Veiled.refl {α : Type} {R : α → α → Prop} (hR : ∀ a, R a a) (p : Prog α) : Veiled R p p := by
  induction p with
  | pure a => exact .pure (hR a)
  | raise e => exact .raise e
  | op o k ih => exact .op o ih

theorem Veiled.bind {α β γ δ : Type} {R : α → β → Prop} {Q : γ → δ → Prop} {p : Prog α} {p' : Prog β} {f : α → Prog γ} {f' : β → Prog δ}
    (hp : Veiled R p p') (hf : ∀ a b, R a b → Veiled Q (f a) (f' b)) : Veiled Q (p.bind f) (p'.bind f') := by
  induction hp with
  | pure h => exact hf _ _ h
  | raise e => exact .raise e
  | op o _ ih => exact .op o ih
  | gpg argv d d' h _ ih => exact .gpg argv d d' h ih
  | plugins a h r2k x x' _ ih => exact .plugins a h r2k x x' ih
  | printed x x' h _ ih => exact .printed x x' h ih
  | sent argv x x' h _ ih => exact .sent argv x x' h ih

/-- sequencing after a common beginning -/
theorem Veiled.after {α γ δ : Type} {Q : γ → δ → Prop} (p : Prog α) {f : α → Prog γ} {f' : α → Prog δ}
    (hf : ∀ a, Veiled Q (f a) (f' a)) : Veiled Q (p.bind f) (p.bind f') :=
  .bind (.refl (R := Eq) (fun _ => rfl) p) fun a b h => by rw [← h]; exact hf a

theorem Veiled.attempt {α β : Type} {R : α → β → Prop} {p : Prog α} {p' : Prog β} (hp : Veiled R p p') :
    Veiled (OutcomesBy R) p.attempt p'.attempt := by
  induction hp with
  | pure h => exact .pure (.ok h)
  | raise e => exact .pure (.error e)
  | op o _ ih => exact .op o ih
  | gpg argv d d' h _ ih => exact .gpg argv d d' h ih
  | plugins a h r2k x x' _ ih => exact .plugins a h r2k x x' ih
  | printed x x' h _ ih => exact .printed x x' h ih
  | sent argv x x' h _ ih => exact .sent argv x x' h ih

theorem veiled_run {S : StoreImpl σ} {O : Oracle K} (hO : ContentBlind O) {α β : Type} {R : α → β → Prop} {p : Prog α} {p' : Prog β}
    (hp : Veiled R p p') {w w' : World σ K} (hw : VeiledWorlds w w') :
    OutcomesBy R (run S O p w).1 (run S O p' w').1 ∧ VeiledWorlds (run S O p w).2 (run S O p' w').2 := by
  induction hp generalizing w w' with
  | pure h => exact ⟨.ok h, hw⟩
  | raise e => exact ⟨.error e, hw⟩
  | op o _ ih =>
    have hs : (step S O o w).1 = (step S O o w').1 ∧ VeiledWorlds (step S O o w).2 (step S O o w').2 := by
      obtain ⟨s, c, t, e, tr⟩ := w
      obtain ⟨s', c', t', e', tr'⟩ := w'
      obtain ⟨h1, h2, h3, h4, h5⟩ := hw
      dsimp only at h1 h2 h3 h4 h5
      subst h1; subst h2; subst h3; subst h4
      cases o with
      | ext o => exact ⟨rfl, ⟨rfl, rfl, rfl, rfl, .same _ h5⟩⟩
      | _ => exact ⟨rfl, ⟨rfl, rfl, rfl, rfl, h5⟩⟩
    rw [run, run, hs.1]
    exact ih _ hs.2
  | @gpg argv d d' k k' h _ ih =>
    obtain ⟨s, c, t, e, tr⟩ := w
    obtain ⟨s', c', t', e', tr'⟩ := w'
    obtain ⟨h1, h2, h3, h4, h5⟩ := hw
    dsimp only at h1 h2 h3 h4 h5
    subst h1; subst h2; subst h3; subst h4
    have key : ∀ x y : Except Exc GpgOut × K, x = y →
        OutcomesBy R (run S O (k x.1) ⟨s, c, t, x.2, ⟨.gpg argv (some d), x.1⟩ :: tr⟩).1
          (run S O (k' y.1) ⟨s, c, t, y.2, ⟨.gpg argv (some d'), y.1⟩ :: tr'⟩).1 ∧
        VeiledWorlds (run S O (k x.1) ⟨s, c, t, x.2, ⟨.gpg argv (some d), x.1⟩ :: tr⟩).2
          (run S O (k' y.1) ⟨s, c, t, y.2, ⟨.gpg argv (some d'), y.1⟩ :: tr'⟩).2 := by
      rintro x _ rfl
      exact ih _ ⟨rfl, rfl, rfl, rfl, .gpg argv d d' _ h h5⟩
    exact key _ _ (hO.gpg argv d d' e h)
  | @plugins a h r2k p p' k k' _ ih =>
    obtain ⟨s, c, t, e, tr⟩ := w
    obtain ⟨s', c', t', e', tr'⟩ := w'
    obtain ⟨h1, h2, h3, h4, h5⟩ := hw
    dsimp only at h1 h2 h3 h4 h5
    subst h1; subst h2; subst h3; subst h4
    have key : ∀ x y : Except Exc Msg × K, SameOutcome x.1 y.1 → x.2 = y.2 →
        OutcomesBy R (run S O (k x.1) ⟨s, c, t, x.2, ⟨.hookBeforeEnc a h r2k p, x.1⟩ :: tr⟩).1
          (run S O (k' y.1) ⟨s, c, t, y.2, ⟨.hookBeforeEnc a h r2k p', y.1⟩ :: tr'⟩).1 ∧
        VeiledWorlds (run S O (k x.1) ⟨s, c, t, x.2, ⟨.hookBeforeEnc a h r2k p, x.1⟩ :: tr⟩).2
          (run S O (k' y.1) ⟨s, c, t, y.2, ⟨.hookBeforeEnc a h r2k p', y.1⟩ :: tr'⟩).2 := by
      intro x y g1 g2
      exact ih _ _ g1 ⟨rfl, rfl, rfl, g2, .plugins a h r2k p p' _ _ g1 h5⟩
    exact key _ _ (hO.plugins a h r2k p p' e).1 (hO.plugins a h r2k p p' e).2
  | @printed m m' k k' h _ ih =>
    obtain ⟨s, c, t, e, tr⟩ := w
    obtain ⟨s', c', t', e', tr'⟩ := w'
    obtain ⟨h1, h2, h3, h4, h5⟩ := hw
    dsimp only at h1 h2 h3 h4 h5
    subst h1; subst h2; subst h3; subst h4
    have key : ∀ x y : Except Exc Unit × K, x = y →
        OutcomesBy R (run S O (k x.1) ⟨s, c, t, x.2, ⟨.emit (.mail m), x.1⟩ :: tr⟩).1
          (run S O (k' y.1) ⟨s, c, t, y.2, ⟨.emit (.mail m'), y.1⟩ :: tr'⟩).1 ∧
        VeiledWorlds (run S O (k x.1) ⟨s, c, t, x.2, ⟨.emit (.mail m), x.1⟩ :: tr⟩).2
          (run S O (k' y.1) ⟨s, c, t, y.2, ⟨.emit (.mail m'), y.1⟩ :: tr'⟩).2 := by
      rintro x _ rfl
      exact ih _ ⟨rfl, rfl, rfl, rfl, .printed m m' _ h h5⟩
    exact key _ _ (hO.printed m m' e h)
  | @sent argv m m' k k' h _ ih =>
    obtain ⟨s, c, t, e, tr⟩ := w
    obtain ⟨s', c', t', e', tr'⟩ := w'
    obtain ⟨h1, h2, h3, h4, h5⟩ := hw
    dsimp only at h1 h2 h3 h4 h5
    subst h1; subst h2; subst h3; subst h4
    have key : ∀ x y : Except Exc Int × K, x = y →
        OutcomesBy R (run S O (k x.1) ⟨s, c, t, x.2, ⟨.sendmail argv m, x.1⟩ :: tr⟩).1
          (run S O (k' y.1) ⟨s, c, t, y.2, ⟨.sendmail argv m', y.1⟩ :: tr'⟩).1 ∧
        VeiledWorlds (run S O (k x.1) ⟨s, c, t, x.2, ⟨.sendmail argv m, x.1⟩ :: tr⟩).2
          (run S O (k' y.1) ⟨s, c, t, y.2, ⟨.sendmail argv m', y.1⟩ :: tr'⟩).2 := by
      rintro x _ rfl
      exact ih _ ⟨rfl, rfl, rfl, rfl, .sent argv m m' _ h h5⟩
    exact key _ _ (hO.sent argv m m' e h)

/-! ## Messages -/

theorem getAll_outer (m : Msg) {x : Str} (hx : OuterName x) :
    m.getAll x = ((m.headers.filter fun h => OuterName h.1).filter fun h => Msg.nameEq h.1 x).map (·.2) := by
  unfold Msg.getAll
  rw [List.filter_filter]
  congr 1
  apply List.filter_congr
  intro h _
  by_cases hn : Msg.nameEq h.1 x = true
  · have he : Py.lower h.1 = Py.lower x := by simpa [Msg.nameEq] using hn
    have : OuterName h.1 := by unfold OuterName at hx ⊢; rw [he]; exact hx
    simp [hn, this]
  · simp [hn]

theorem SameOutside.getAll {m m' : Msg} (h : SameOutside m m') {x : Str} (hx : OuterName x) : m.getAll x = m'.getAll x := by
  rw [getAll_outer m hx, getAll_outer m' hx, show _ = _ from h]

theorem SameOutside.get {m m' : Msg} (h : SameOutside m m') {x : Str} (hx : OuterName x) : m.get x = m'.get x := get_same (h.getAll hx)

theorem SameOutside.has {m m' : Msg} (h : SameOutside m m') {x : Str} (hx : OuterName x) : m.has x = m'.has x := by
  have : ∀ m : Msg, m.has x = !(m.getAll x).isEmpty := fun m => by
    unfold Msg.has Msg.getAll
    cases hb : (m.headers.any fun h => Msg.nameEq h.1 x) with
    | false =>
      have : m.headers.filter (fun h => Msg.nameEq h.1 x) = [] :=
        List.filter_eq_nil_iff.mpr fun a ha => List.any_eq_false.mp hb a ha
      rw [this]; rfl
    | true =>
      obtain ⟨a, ha, hn⟩ := List.any_eq_true.mp hb
      have : a ∈ m.headers.filter (fun h => Msg.nameEq h.1 x) := List.mem_filter.mpr ⟨ha, hn⟩
      cases hf : m.headers.filter (fun h => Msg.nameEq h.1 x) with
      | nil => rw [hf] at this; cases this
      | cons y l => rfl
  rw [this, this, h.getAll hx]

theorem SameOutside.del {m m' : Msg} (h : SameOutside m m') (x : Str) : SameOutside (m.del x) (m'.del x) := by
  have : ∀ m : Msg, (m.del x).headers.filter (fun h => OuterName h.1) =
      (m.headers.filter (fun h => OuterName h.1)).filter fun h => !Msg.nameEq h.1 x := fun m => by
    simp only [Msg.del, Msg.headers, List.filter_filter]
    apply List.filter_congr
    intro a _
    rw [Bool.and_comm]
  unfold SameOutside
  rw [this, this, show _ = _ from h]

theorem SameOutside.add {m m' : Msg} (h : SameOutside m m') (x v : Str) : SameOutside (m.add x v) (m'.add x v) := by
  unfold SameOutside at h ⊢
  simp only [Msg.add, Msg.headers, List.filter_append] at h ⊢
  rw [h]

theorem PlainMail.congr {m m' : Msg} (h : PlainMail m) (h1 : m'.getAll (str!"content-type") = m.getAll (str!"content-type"))
    (h2 : m'.payload = m.payload) : PlainMail m' := by
  rw [plainMail_iff] at h ⊢
  rw [isEncrypted_congr h1 h2, h]

theorem PlainMail.del {m : Msg} (h : PlainMail m) {x : Str} (hx : OuterName x) : PlainMail (m.del x) :=
  h.congr (getAll_del m hx.1) rfl

theorem PlainMail.add {m : Msg} (h : PlainMail m) {x : Str} (hx : OuterName x) (v : Str) : PlainMail (m.add x v) :=
  h.congr (by rw [getAll_add, if_neg (show Py.lower x ≠ Py.lower (str!"content-type") from hx.1), List.append_nil]) rfl

/-! ## The functions -/

theorem veiled_encLoop (env : Env) (n : Str) (as : List Str) : ∀ acc acc' : Account.EncAcc, acc.keyhandles = acc'.keyhandles →
    acc.recipient2keydata = acc'.recipient2keydata →
    Veiled (fun a b : Account.EncAcc => a.keyhandles = b.keyhandles ∧ a.recipient2keydata = b.recipient2keydata)
      (Account.encLoop env n acc as) (Account.encLoop env n acc' as) := by
  induction as with
  | nil => exact fun acc acc' h1 h2 => .pure ⟨h1, h2⟩
  | cons a as ih =>
    intro acc acc' h1 h2
    unfold Account.encLoop
    simp only [bind_eq]
    refine .after _ fun es => ?_
    split
    · refine .after _ fun c => .after _ fun mine => ?_
      split
      · refine .after _ fun own => ih _ _ ?_ h2
        show acc.keyhandles ++ _ = acc'.keyhandles ++ _
        rw [h1]
      · exact .raise _
    · refine .after _ fun v => ih _ _ ?_ ?_
      · show acc.keyhandles ++ _ = acc'.keyhandles ++ _
        rw [h1]
      · show dictSet acc.recipient2keydata _ _ = dictSet acc'.recipient2keydata _ _
        rw [h2]

theorem veiled_encrypt (env : Env) (g : BinGPG) (d d' : Bytes) (rs : List Str) (key : Str) (t : Bool) :
    Veiled Eq (BinGPG.encrypt env g d rs key t) (BinGPG.encrypt env g d' rs key t) := by
  unfold BinGPG.encrypt BinGPG.gpgOuterr
  simp only [bind_eq, pure_eq]
  refine .after _ fun np => .bind (R := Eq) (.gpg _ _ _ ?_ fun r => ?_) fun a b h => by rw [h]; exact .pure rfl
  · rw [argv_eq]
    simp [commandLine, BinGPG.encryptOpts]
  · exact .refl (fun _ => rfl) _

section
variable {env : Env} (hflat : ∀ p, ∃ b, env.msg2bytes p = .ok b) {m m' : Msg} (h : SameOutside m m')
include hflat h

theorem veiled_encryptMime (n : Str) (as : List Str) :
    Veiled (fun a b : Account.EncryptResult => a.encMsg = b.encMsg) (Account.encryptMime env n m as) (Account.encryptMime env n m' as) := by
  unfold Account.encryptMime
  simp only [bind_eq, pure_eq]
  rw [h.get (x := str!"From") (by decide)]
  refine .after _ fun _ => .bind (veiled_encLoop env n _ _ _ rfl rfl) fun acc acc' ha => .after _ fun own => ?_
  rw [ha.1, ha.2]
  refine .bind (R := fun _ _ => True) (.plugins _ _ _ _ _ fun r r' hr => ?_) fun p p' _ => ?_
  · cases hr with
    | error e => exact .raise e
    | ok x x' => exact .pure trivial
  · obtain ⟨b, hb⟩ := hflat p
    obtain ⟨b', hb'⟩ := hflat p'
    rw [hb, hb']
    refine .after _ fun g => .after _ fun own' => .bind (veiled_encrypt env g _ _ _ _ _) fun e e' he => .pure ?_
    subst he
    show Account.encMessage m e = Account.encMessage m' e
    unfold Account.encMessage transferNonContentHeaders
    rw [nonContentHeaders_eq, nonContentHeaders_eq, show _ = _ from h]

variable (hp : PlainMail m) (hp' : PlainMail m')
include hp hp'

theorem veiled_outgoingBody (n : Str) (enc : Option Str) : Veiled Alike (Account.outgoingBody env n m enc) (Account.outgoingBody env n m' enc) := by
  have hA : Alike m m' := .inr ⟨hp, hp', h⟩
  unfold Account.outgoingBody getTargetEmailadr
  simp only [bind_eq, pure_eq]
  rw [plainMail_iff.mp hp, plainMail_iff.mp hp', h.getAll (x := str!"From") (by decide), h.getAll (x := str!"to") (by decide),
    h.getAll (x := str!"cc") (by decide)]
  refine .after _ fun b => ?_
  split
  · exact .pure hA
  · split
    · refine .after _ fun rec_ => ?_
      split
      · split
        · exact .bind (veiled_encryptMime hflat h n _) fun a b hab => .pure (.inl hab)
        · split
          · exact .raise _
          · exact .pure hA
      · exact .pure hA
    · exact .raise _

theorem veiled_outgoing (n : Str) : Veiled AlikeResults (Account.processOutgoing env n m) (Account.processOutgoing env n m') := by
  have hE : OuterName (str!"ENCRYPT") := by decide
  have hA : OuterName (str!"Autocrypt") := by decide
  have h1 := h.del (str!"ENCRYPT")
  have e1 : Account.encHeader m = Account.encHeader m' := by unfold Account.encHeader; rw [h.get hE]
  unfold Account.processOutgoing
  simp only [bind_eq, pure_eq]
  rw [e1, h1.get (x := str!"From") (by decide), h1.has hA]
  refine .after _ fun enc => .bind (R := fun a b : Msg × Option Str => SameOutside a.1 b.1 ∧ PlainMail a.1 ∧ PlainMail b.1 ∧ a.2 = b.2) ?_
    fun a b hab => .bind (veiled_outgoingBody hflat hab.1 hab.2.1 hab.2.2.1 n enc) fun x y hxy => .pure ⟨hxy, rfl, rfl, hab.2.2.2, ?_⟩
  · split
    · exact .pure ⟨h1, hp.del hE, hp'.del hE, rfl⟩
    · exact .after _ fun v => .pure ⟨h1.add _ v, (hp.del hE).add hA v, (hp'.del hE).add hA v, rfl⟩
  · show x.get _ = y.get _
    rcases hxy with rfl | hxy
    · rfl
    · exact hxy.2.2.get hA

theorem veiled_cmdOutgoing : Veiled Alike (Cmd.processOutgoing env m) (Cmd.processOutgoing env m') := by
  unfold Cmd.processOutgoing
  simp only [bind_eq, pure_eq]
  rw [h.get (x := str!"Resent-From") (by decide), h.get (x := str!"From") (by decide)]
  split
  · refine .after _ fun a => ?_
    cases a with
    | none => exact .raise _
    | some a => exact .pure (.inr ⟨hp, hp', h⟩)
  · refine .after _ fun a => ?_
    cases a with
    | none => exact .raise _
    | some a => exact .bind (veiled_outgoing hflat h hp hp' a) fun x y hxy => .pure hxy.1

end

theorem veiled_command (ce : CmdEnv) (be : BotEnv) {env : Env} {cmd cmd' : Cmd.Command}
    (hc : Veiled Eq (cmd.body ce be env) (cmd'.body ce be env)) : Veiled Eq (cmd.prog ce be env) (cmd'.prog ce be env) := by
  unfold Cmd.Command.prog
  simp only [bind_eq, pure_eq]
  refine .bind hc.attempt fun a b hab => ?_
  cases hab with
  | error e => exact .refl (fun _ => rfl) _
  | ok hab => rw [hab]; exact .pure rfl

theorem OutcomesBy.eq {α : Type} {a b : Except Exc α} (h : OutcomesBy Eq a b) : a = b := by
  cases h with
  | error e => rfl
  | ok h => rw [h]

/-! ## The property -/

/-- C117: the content of a message matters for nothing that can be seen from outside, if it is encrypted. For two messages which aren't
encrypted yet, and which are different only in their content, `process_outgoing` raises the same exception, or encrypts both or none; it
leaves the same state and runs the same commands with the same arguments. Only the data for gpg to encrypt and the content which plugins get
are different, and the mail which isn't encrypted. -/
theorem C117_outgoing (S : StoreImpl σ) {O : Oracle K} (hO : ContentBlind O) {env : Env} (hflat : ∀ p, ∃ b, env.msg2bytes p = .ok b)
    (n : Str) {m m' : Msg} (h : SameOutside m m') (hp : PlainMail m) (hp' : PlainMail m') (w : World σ K) :
    OutcomesBy AlikeResults (run S O (Account.processOutgoing env n m) w).1 (run S O (Account.processOutgoing env n m') w).1 ∧
    VeiledWorlds (run S O (Account.processOutgoing env n m) w).2 (run S O (Account.processOutgoing env n m') w).2 :=
  veiled_run hO (veiled_outgoing hflat h hp hp' n) (.refl w)

/-- C117: so if the mail is encrypted, then the mail which leaves is the same -/
theorem C117_encrypted (S : StoreImpl σ) {O : Oracle K} (hO : ContentBlind O) {env : Env} (hflat : ∀ p, ∃ b, env.msg2bytes p = .ok b)
    (n : Str) {m m' : Msg} (h : SameOutside m m') (hp : PlainMail m) (hp' : PlainMail m') {w w1 : World σ K} {res : Account.OutgoingResult}
    (hr : run S O (Account.processOutgoing env n m) w = (.ok res, w1)) (he : PgpMime res.msg) :
    ∃ w1', run S O (Account.processOutgoing env n m') w = (.ok res, w1') ∧ VeiledWorlds w1 w1' := by
  obtain ⟨h1, h2⟩ := C117_outgoing S hO hflat n h hp hp' w
  rw [hr] at h1 h2
  rcases hr' : run S O (Account.processOutgoing env n m') w with ⟨x, w1'⟩
  rw [hr'] at h1 h2
  dsimp only at h1 h2
  cases h1 with
  | @ok _ res' h1 =>
    refine ⟨w1', ?_, h2⟩
    obtain ⟨hm | hm, e1, e2, e3, e4⟩ := h1
    · obtain ⟨a, b, c, d, e⟩ := res
      obtain ⟨a', b', c', d', e'⟩ := res'
      dsimp only at hm e1 e2 e3 e4
      rw [hm, e1, e2, e3, e4]
    · exact absurd he hm.1.1

/-- C117 for the command line: `process-outgoing` and `sendmail` end alike, print the same, and pass the same mail on if it is encrypted -/
theorem C117_commands (S : StoreImpl σ) {O : Oracle K} (hO : ContentBlind O) (ce : CmdEnv) (be : BotEnv) {env : Env}
    (hflat : ∀ p, ∃ b, env.msg2bytes p = .ok b) {m m' : Msg} (h : SameOutside m m') (hp : PlainMail m) (hp' : PlainMail m')
    (cmd cmd' : Cmd.Command) (hc : (cmd = .processOutgoing m ∧ cmd' = .processOutgoing m') ∨ ∃ args, cmd = .sendmail args m ∧ cmd' = .sendmail args m')
    (w : World σ K) :
    (run S O (cmd.prog ce be env) w).1 = (run S O (cmd'.prog ce be env) w).1 ∧
    VeiledWorlds (run S O (cmd.prog ce be env) w).2 (run S O (cmd'.prog ce be env) w).2 := by
  have hb : Veiled Eq (cmd.body ce be env) (cmd'.body ce be env) := by
    rcases hc with ⟨rfl, rfl⟩ | ⟨args, rfl, rfl⟩
    · unfold Cmd.Command.body
      simp only [bind_eq, pure_eq]
      exact .bind (veiled_cmdOutgoing hflat h hp hp') fun x y hxy => .bind (R := Eq) (.printed x y hxy fun r => .refl (fun _ => rfl) _)
        fun _ _ _ => .pure rfl
    · unfold Cmd.Command.body Cmd.sendmail
      simp only [bind_eq, pure_eq]
      refine .after _ fun _ => .bind (veiled_cmdOutgoing hflat h hp hp') fun x y hxy => .after _ fun exe =>
        .bind (R := Eq) (.sent _ x y hxy fun r => .refl (fun _ => rfl) _) fun a b hab => ?_
      rw [hab]
      exact .refl (fun _ => rfl) _
  obtain ⟨h1, h2⟩ := veiled_run (S := S) hO (veiled_command ce be hb) (.refl w)
  exact ⟨h1.eq, h2⟩

namespace Concrete

/-- a gpg whose encrypted data do not depend on what is encrypted -/
def sealing : Oracle Unit where
  step o k := match o with
    | .gpg a i => (.ok (if str!"--encrypt" ∈ a then ⟨0, bs (str!"sealed"), []⟩ else gpg a i), k)
    | o => oracle.step o k

theorem sealing_blind : ContentBlind sealing where
  gpg argv d d' s h := by
    show ((.ok (if str!"--encrypt" ∈ argv then _ else _) : Except Exc GpgOut), s) = ((.ok (if str!"--encrypt" ∈ argv then _ else _) : Except Exc GpgOut), s)
    rw [if_pos h, if_pos h]
  plugins a k r p p' s := ⟨.ok p p', rfl⟩
  printed x x' s _ := rfl
  sent argv x x' s _ := rfl

/-- the letter with another content -/
def secretLetter (e : Str) : Msg :=
  .mk ([(str!"From", str!"Me <A@x.org>"), (str!"Content-Type", str!"text/html"), (str!"To", str!"bob@x.org, x <carol@x.org>"),
    (str!"Subject", str!"s"), (str!"MIME-Version", str!"1.0")] ++ if e.isEmpty then [] else [(str!"Encrypt", e)]) (.text (str!"<b>we attack</b>"))

/-- the data which gpg was told to encrypt -/
def encrypted (w : World Store Unit) : List Bytes :=
  w.trace.filterMap fun e => match e.op with | .gpg a (some d) => if str!"--encrypt" ∈ a then some d else none | _ => none

/-- the hypotheses hold for these messages; with "yes" both are encrypted and the mails are the same, though gpg gets different data; with "no"
the mails go out as they are -/
example : (∀ e, SameOutside (letter e) (secretLetter e)) ∧ (∀ p, ∃ b, env.msg2bytes p = .ok b) ∧
    PlainMail (letter (str!"yes")) ∧ PlainMail (secretLetter (str!"yes")) ∧
    ((run Store.impl sealing (Account.processOutgoing env (str!"a") (letter (str!"yes"))) recWorld).1.toOption.map fun r => r.msg.contentType) =
      some (str!"multipart/encrypted") ∧
    ((run Store.impl sealing (Account.processOutgoing env (str!"a") (letter (str!"yes"))) recWorld).1.toOption.map fun r => flat r.msg) =
      ((run Store.impl sealing (Account.processOutgoing env (str!"a") (secretLetter (str!"yes"))) recWorld).1.toOption.map fun r => flat r.msg) ∧
    encrypted (run Store.impl sealing (Account.processOutgoing env (str!"a") (letter (str!"yes"))) recWorld).2 ≠
      encrypted (run Store.impl sealing (Account.processOutgoing env (str!"a") (secretLetter (str!"yes"))) recWorld).2 ∧
    ((run Store.impl sealing (Account.processOutgoing env (str!"a") (secretLetter (str!"no"))) recWorld).1.toOption.map fun r => r.msg.contentType) =
      some (str!"text/html") := by
  refine ⟨fun e => ?_, fun p => ⟨_, rfl⟩, ?_, ?_, by decide +kernel, by decide +kernel, by decide +kernel, by decide +kernel⟩
  · unfold SameOutside letter secretLetter
    cases e with
    | nil => decide
    | cons c e =>
      simp only [Msg.headers, List.isEmpty_cons, Bool.false_eq_true, if_false, List.filter_append]
      congr 1
  · rw [plainMail_iff]; exact Except.eq_ok_of_toOption (by decide +kernel)
  · rw [plainMail_iff]; exact Except.eq_ok_of_toOption (by decide +kernel)

/-- `sendmail` with both messages -/
example : (run Store.impl sealing ((Cmd.Command.sendmail [str!"-t"] (secretLetter (str!"yes"))).prog cmdEnv botEnv env) recWorld).1.toOption = some 0 := by
  decide +kernel

end Concrete

end Verif
