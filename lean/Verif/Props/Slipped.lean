import Verif.Props.OtherFields
import Verif.Props.BotReply
import Verif.Props.Executable
/-!
# No field can be slipped into mail (C147)

A field of a message may go on over several lines if each further line begins with a blank or a tab. If a value had a line break without one, its
next line would be read as another field, or as the begin of the body. muacrypt puts values into fields which it made from addresses in the
message (account.py:459, 508, mime.py:52-62, bot.py:112-118).
-/
namespace Verif
open Mime

variable {σ K : Type}

/-! ## Specification -/

/-- a blank or a tab -/
def Blank (c : Char) : Prop := c = ' ' ∨ c = '\t'

/-- each line but the first begins with a blank or a tab: after a line feed, and after a carriage return without line feed, comes one -/
def Folded (s : Str) : Prop :=
  (∀ pre post, s = pre ++ '\n' :: post → ∃ c t, post = c :: t ∧ Blank c) ∧
  ∀ pre post, s = pre ++ '\r' :: post → ∃ c t, post = c :: t ∧ (c = '\n' ∨ Blank c)

/-- all fields of a message are such -/
def Msg.Folded (m : Msg) : Prop := ∀ f ∈ m.headers, Verif.Folded f.2

/-- python's functions which take addresses out of fields break no lines which were not broken before -/
structure KeepsLines (env : Env) : Prop where
  one : ∀ x, (∀ y, x = some y → Folded y) → Folded (parseEmailAddr env x)
  all : ∀ l, (∀ y ∈ l, Folded y) → ∀ a ∈ env.getaddresses l, Folded a

/-- the same for those which the bot uses -/
structure KeepsLinesBot (be : BotEnv) : Prop where
  all : ∀ l, (∀ y ∈ l, Folded y) → ∀ x ∈ be.getaddressesFull l, Folded x.1 ∧ Folded x.2
  format : ∀ x s, Folded x.1 → Folded x.2 → be.formataddr x = .ok s → Folded s
  order : SetOrder be

/-! ## texts -/

theorem Folded.of_none {s : Str} (h : ∀ c ∈ s, c ≠ '\n' ∧ c ≠ '\r') : Folded s :=
  ⟨fun pre post e => absurd rfl (h '\n' (by rw [e]; simp)).1, fun pre post e => absurd rfl (h '\r' (by rw [e]; simp)).2⟩

theorem Folded.append {a b : Str} (ha : Folded a) (hb : Folded b) : Folded (a ++ b) := by
  have key : ∀ (x : Char) (P : Char → Prop), (∀ pre post, a = pre ++ x :: post → ∃ c t, post = c :: t ∧ P c) →
      (∀ pre post, b = pre ++ x :: post → ∃ c t, post = c :: t ∧ P c) → ∀ pre post, a ++ b = pre ++ x :: post → ∃ c t, post = c :: t ∧ P c := by
    intro x P h1 h2 pre post e
    rcases List.append_eq_append_iff.mp e with ⟨u, rfl, hu⟩ | ⟨u, hu, e2⟩
    · exact h2 _ _ hu
    · cases u with
      | nil => exact h2 [] post e2.symm
      | cons y u =>
        obtain ⟨rfl, rfl⟩ := List.cons.inj e2
        obtain ⟨c, t, rfl, hc⟩ := h1 _ _ hu
        exact ⟨c, t ++ b, rfl, hc⟩
  exact ⟨key _ _ ha.1 hb.1, key _ _ ha.2 hb.2⟩

/-- a line break before a text which begins with a blank -/
theorem Folded.newline {a : Str} {c : Char} {b : Str} (ha : Folded a) (hc : Blank c) (hb : Folded (c :: b)) : Folded (a ++ '\n' :: c :: b) := by
  refine ha.append ⟨fun pre post e => ?_, fun pre post e => ?_⟩
  · cases pre with
    | nil => obtain ⟨-, rfl⟩ := List.cons.inj e; exact ⟨c, b, rfl, hc⟩
    | cons y pre => exact hb.1 _ _ (List.cons.inj e).2
  · cases pre with
    | nil => exact absurd (List.cons.inj e).1 (by decide)
    | cons y pre => exact hb.2 _ _ (List.cons.inj e).2

theorem Folded.join {sep : Str} (hs : Folded sep) {l : List Str} (hl : ∀ x ∈ l, Folded x) : Folded (Py.join sep l) := by
  induction l with
  | nil => exact .of_none (by simp [Py.join])
  | cons a l ih =>
    cases l with
    | nil => exact hl a (by simp)
    | cons b l => exact ((hl a (by simp)).append hs).append (ih fun x hx => hl x (List.mem_cons_of_mem _ hx))

theorem folded_key (k : Bytes) (hk : k ≠ []) {v : Str} (h : indentedSplit (Py.b64encode k) = .ok v) :
    ∃ b, v = ' ' :: b ∧ Folded v := by
  have hp := Py.b64encode_plain k
  have hne : Py.b64encode k ≠ [] := by
    intro e
    have := Py.b64decode_b64encode k
    rw [e] at this
    exact hk (by simpa [Py.b64decode, Py.a2bLoop] using this.symm)
  obtain ⟨v', h1, -, h3⟩ := C26_folding (Py.b64encode k) (fun c hc => (hp c hc).2.1) hne
  rw [h] at h1; cases h1
  refine ⟨v.tail, ?_, fun pre post e => ?_, fun pre post e => ?_⟩
  · obtain ⟨p, hp1, hp2⟩ : ∃ p r, Py.split '\n' v = p :: r := by
      cases hs : Py.split '\n' v with
      | nil => exact absurd hs (Py.split_ne_nil _ _)
      | cons p r => exact ⟨p, r, rfl⟩
    obtain ⟨-, t, rfl, -⟩ := h3 p (by rw [hp2]; simp)
    have := join_split '\n' v
    rw [hp2] at this
    rw [← this]
    cases hp1 <;> rfl
  · obtain ⟨p, r, hp2⟩ : ∃ p r, Py.split '\n' post = p :: r := by
      cases hs : Py.split '\n' post with
      | nil => exact absurd hs (Py.split_ne_nil _ _)
      | cons p r => exact ⟨p, r, rfl⟩
    obtain ⟨-, t, rfl, -⟩ := h3 p (by rw [e, Py.split_append, hp2]; simp)
    have := join_split '\n' post
    rw [hp2] at this
    rw [← this]
    cases r with
    | nil => exact ⟨' ', ' ' :: t, rfl, .inl rfl⟩
    | cons q r => exact ⟨' ', _, rfl, .inl rfl⟩
  · exfalso
    have hcr : '\r' ∈ v := by rw [e]; simp
    rw [← join_split '\n' v] at hcr
    have key : ∀ l : List Str, '\r' ∈ Py.join ['\n'] l → ∃ p ∈ l, '\r' ∈ p := by
      intro l
      induction l with
      | nil => simp [Py.join]
      | cons a l ih =>
        cases l with
        | nil => intro h; exact ⟨a, by simp, h⟩
        | cons b l =>
          intro h
          simp only [Py.join, List.mem_append, List.mem_singleton] at h
          rcases h with (h | h) | h
          · exact ⟨a, by simp, h⟩
          · exact absurd h (by decide)
          · obtain ⟨p, h1, h2⟩ := ih h; exact ⟨p, List.mem_cons_of_mem _ h1, h2⟩
    obtain ⟨p, hp1, hp2⟩ := key _ hcr
    obtain ⟨-, t, rfl, -, ht⟩ := h3 p hp1
    rcases List.mem_append.mp hp2 with h | h
    · exact absurd h (by decide)
    · have := (hp _ (ht _ h)).2.1
      revert this; decide

/-- **C147** for the value of an Autocrypt header -/
theorem folded_header {env : Env} (he : KeepsLines env) {addr : Option Str} (ha : ∀ y, addr = some y → Folded y) {kd : Bytes} {pe : PE} {v : Str}
    (h : makeAcHeaderValue env addr kd pe.toStr = .ok v) : Folded v := by
  unfold makeAcHeaderValue at h
  split at h
  · cases h
  · rename_i hk
    split at h
    · cases h
    · rename_i f hf
      cases h
      obtain ⟨b, hb, hf2⟩ := folded_key kd (by simpa using hk) hf
      refine Folded.join (.of_none (by decide)) fun x hx => ?_
      simp only [List.mem_append, List.mem_singleton] at hx
      rcases hx with (rfl | hx) | rfl
      · exact Folded.append (.of_none (by decide)) (he.one _ ha)
      · cases pe
        · simp [PE.toStr] at hx
        · have : x = str!"prefer-encrypt=mutual" := by simpa [PE.toStr] using hx
          rw [this]; exact .of_none (by decide)
      · rw [hb] at hf2 ⊢
        have := Folded.newline (a := str!"keydata=") (.of_none (by decide)) (.inl rfl) hf2
        exact this

/-! ## messages -/

theorem Msg.Folded.get {m : Msg} (h : m.Folded) (y : Str) : ∀ v, m.get y = some v → Verif.Folded v := by
  intro v hv
  unfold Msg.get at hv
  obtain ⟨f, hf, rfl⟩ := List.mem_map.mp (List.mem_of_mem_head? hv)
  exact h f (List.mem_filter.mp hf).1

theorem Msg.Folded.getAll {m : Msg} (h : m.Folded) (y : Str) : ∀ v ∈ m.getAll y, Verif.Folded v := by
  intro v hv
  obtain ⟨f, hf, rfl⟩ := List.mem_map.mp hv
  exact h f (List.mem_filter.mp hf).1

theorem Msg.Folded.targets {env : Env} (he : KeepsLines env) {m : Msg} (h : m.Folded) : ∀ a ∈ getTargetEmailadr env m, Verif.Folded a :=
  he.all _ fun y hy => by
    rcases List.mem_append.mp hy with hy | hy
    · exact h.getAll _ y hy
    · exact h.getAll _ y hy

theorem Msg.Folded.del {m : Msg} (h : m.Folded) (y : Str) : (m.del y).Folded := fun f hf => h f (List.mem_filter.mp hf).1

theorem Msg.Folded.add {m : Msg} (h : m.Folded) (y : Str) {v : Str} (hv : Verif.Folded v) : (m.add y v).Folded := fun f hf => by
  rcases List.mem_append.mp hf with hf | hf
  · exact h f hf
  · cases List.mem_singleton.mp hf; exact hv

theorem Msg.Folded.content {m : Msg} (h : m.Folded) : (makeContentMessage m).Folded := fun f hf => by
  unfold makeContentMessage at hf
  exact h f (List.mem_filter.mp hf).1

theorem Msg.Folded.enc {m : Msg} (h : m.Folded) (b : Bytes) : (Account.encMessage m b).Folded := fun f hf => by
  simp only [Account.encMessage, transferNonContentHeaders, makeMessage, nonContentHeaders, Msg.headers, List.mem_append, List.mem_singleton] at hf
  rcases hf with rfl | hf
  · exact .of_none (by decide)
  · exact h f (List.mem_filter.mp hf).1

/-! ## programs -/

/-- if a plugin is given a message then this one is folded -/
def Op.hooksFolded : Op → Prop
  | .ext (.hookBeforeEnc _ _ _ m) => m.Folded
  | _ => True

theorem Op.quiet.hooksFolded {o : Op} (h : o.quiet) : o.hooksFolded := by
  unfold Op.hooksFolded; split
  · exact h.elim
  · trivial

/-- all operations are such, and so is the result -/
def Keeping {α : Type} (Q : α → Prop) (p : Prog α) : Prop := p.AllOps Op.hooksFolded ∧ p.Returns Q

theorem Keeping.bind {α β : Type} {Q : α → Prop} {R : β → Prop} {p : Prog α} {f : α → Prog β} (hp : Keeping Q p) (hf : ∀ a, Q a → Keeping R (f a)) :
    Keeping R (p.bind f) := by
  refine ⟨?_, hp.2.bind fun a ha => (hf a ha).2⟩
  obtain ⟨h1, h2⟩ := hp
  induction p with
  | pure a => exact (hf a h2).1
  | raise e => trivial
  | op o k ih => exact ⟨h1.1, fun r => ih r (h1.2 r) (h2 r)⟩

theorem Keeping.quiet {α : Type} {p : Prog α} (h : p.AllOps Op.quiet) : Keeping (fun _ => True) p :=
  ⟨h.mono fun _ ho => ho.hooksFolded, .trivially p⟩

theorem Keeping.ofExcept {α : Type} {Q : α → Prop} {x : Except Exc α} (h : ∀ a, x = .ok a → Q a) : Keeping Q (Prog.ofExcept x) := by
  cases x with
  | ok a => exact ⟨trivial, h a rfl⟩
  | error e => exact ⟨trivial, trivial⟩

theorem Keeping.pure {α : Type} {Q : α → Prop} {a : α} (h : Q a) : Keeping Q (.pure a) := ⟨trivial, h⟩
theorem Keeping.raise {α : Type} {Q : α → Prop} (e : Exc) : Keeping Q (.raise e : Prog α) := ⟨trivial, trivial⟩

variable {env : Env} (he : KeepsLines env)
include he

theorem keeping_acHeader (n : Str) {addr : Str} (ha : Folded addr) : Keeping Folded (Account.makeAcHeader env n addr) := by
  unfold Account.makeAcHeader; simp only [bind_eq]
  exact .bind (.quiet (Account.bingpg_quiet env n)) fun g _ => .bind (.quiet (Account.ownKeyhandle_quiet n)) fun kh _ =>
    .bind (.quiet (BinGPG.getPublicKeydata_quiet env g kh _)) fun kd _ => .bind (.quiet (Account.config_quiet n)) fun c _ =>
    .ofExcept fun v hv => folded_header he (fun y hy => by cases hy; exact ha) hv

theorem keeping_encLoop (n : Str) (acc : Account.EncAcc) (hacc : acc.payload.Folded) (l : List Str) (hl : ∀ a ∈ l, Folded a) :
    Keeping (fun r => r.payload.Folded) (Account.encLoop env n acc l) := by
  induction l generalizing acc with
  | nil => exact .pure hacc
  | cons a l ih =>
    have hl' : ∀ a ∈ l, Folded a := fun x hx => hl x (List.mem_cons_of_mem _ hx)
    unfold Account.encLoop; simp only [bind_eq]
    refine .bind (.quiet (.chain trivial)) fun es _ => ?_
    split
    · refine .bind (.quiet (Account.config_quiet n)) fun c _ => .bind (Q := fun _ => True) (.ofExcept fun _ _ => trivial) fun mine _ => ?_
      split
      · exact .bind (.quiet (Account.ownKeyhandle_quiet n)) fun own _ => ih _ hacc hl'
      · exact .raise _
    · exact .bind (Q := Folded) (.ofExcept fun v hv => folded_header he (pe := .nopreference) (fun y hy => by cases hy; exact hl a (by simp)) hv)
        fun v hv => ih _ (hacc.add _ hv) hl'

theorem keeping_encryptMime (n : Str) {m : Msg} (hm : m.Folded) (l : List Str) (hl : ∀ a ∈ l, Folded a) :
    Keeping (fun r => r.encMsg.Folded) (Account.encryptMime env n m l) := by
  unfold Account.encryptMime; simp only [bind_eq, pure_eq]
  refine .bind (Q := fun _ => True) ⟨.assert _, .trivially _⟩ fun _ _ => .bind (keeping_encLoop he n _ hm.content _ ?_) fun acc hacc =>
    .bind (.quiet (Account.ownKeyhandle_quiet n)) fun own _ => .bind (Q := fun _ => True) ⟨.hookBeforeEnc hacc, .trivially _⟩ fun p _ =>
    .bind (Q := fun _ => True) (.ofExcept fun _ _ => trivial) fun clear _ => .bind (.quiet (Account.bingpg_quiet env n)) fun g _ =>
    .bind (.quiet (Account.ownKeyhandle_quiet n)) fun own _ => .bind (Q := fun _ => True) ⟨?_, .trivially _⟩ fun enc _ => .pure (hm.enc enc)
  · intro a ha
    obtain ⟨b, hb, rfl⟩ := List.mem_map.mp ha
    exact he.one _ fun y hy => by cases hy; exact hl b hb
  · unfold BinGPG.encrypt BinGPG.gpgOuterr; simp only [bind_eq, pure_eq]
    exact .bind ((BinGPG.nopassphrase_quiet env g).mono fun _ ho => ho.hooksFolded) fun _ => .bind (.bind (.gpg trivial) fun _ => .ofExcept _) fun _ => trivial

theorem keeping_outgoing (n : Str) {m : Msg} (hm : m.Folded) :
    Keeping (fun r => r.msg.Folded ∧ ∀ v, r.added = some v → Folded v) (Account.processOutgoing env n m) := by
  have hbody : ∀ (m : Msg) (enc : Option Str), m.Folded → Keeping Msg.Folded (Account.outgoingBody env n m enc) := by
    intro m enc hm
    unfold Account.outgoingBody
    simp only [bind_eq, pure_eq]
    refine .bind (Q := fun _ => True) (.ofExcept fun _ _ => trivial) fun b _ => ?_
    cases b
    · simp only [Bool.false_eq_true, if_false]
      split
      · rename_i f hf
        have hfr : Folded (parseEmailAddr env (some f)) := he.one _ fun y hy => by
          cases hy; exact hm.getAll (str!"From") f (by rw [hf]; simp)
        refine .bind (.quiet (Account.recommendation_quiet env n _ _ _)) fun r _ => ?_
        split
        · split
          · refine .bind (keeping_encryptMime he n hm _ fun a ha => ?_) fun r hr => .pure hr
            split at ha
            · exact hm.targets he a ha
            · rcases List.mem_append.mp ha with ha | ha
              · exact hm.targets he a ha
              · cases List.mem_singleton.mp ha; exact hfr
          · split
            · exact .raise _
            · exact .pure hm
        · exact .pure hm
      · exact .raise _
    · exact .pure hm
  unfold Account.processOutgoing
  simp only [bind_eq, pure_eq]
  refine .bind (Q := fun _ => True) (.ofExcept fun _ _ => trivial) fun enc _ => ?_
  refine .bind (Q := fun x : Msg × Option Str => x.1.Folded ∧ ∀ v, x.2 = some v → Folded v) ?_ fun x hx =>
    .bind (hbody x.1 enc hx.1) fun r hr => .pure ⟨hr, hx.2⟩
  split
  · exact .pure ⟨hm.del _, nofun⟩
  · exact .bind (keeping_acHeader he n (he.one _ ((hm.del _).get _))) fun v hv => .pure ⟨(hm.del _).add _ hv, fun _ e => by cases e; exact hv⟩

omit he in
theorem keeping_ccList {be : BotEnv} (hb : KeepsLinesBot be) (d : Str) {l : List (Str × Str)} (hl : ∀ x ∈ l, Folded x.1 ∧ Folded x.2) {r : List Str}
    (h : Bot.ccList be d l = .ok r) : ∀ s ∈ r, Folded s := by
  intro s hs
  obtain ⟨name, addr, h1, -, -, h2⟩ := (ccList_mem h s).mp hs
  exact hb.format _ _ (hl _ h1).1 (hl _ h1).2 h2

theorem keeping_makeReply {be : BotEnv} (hb : KeepsLinesBot be) (v : BotValues) (hv1 : Folded v.msgId) (hv2 : Folded v.date) (a : Str) {d f : Str}
    (hd : Folded d) (hf : Folded f) (b : Bool) {m : Msg} (hm : m.Folded) : Keeping Msg.Folded (Bot.makeReply env be v a d f b m) := by
  unfold Bot.makeReply
  simp only [bind_eq, pure_eq]
  refine .bind (Q := fun cc => ∀ s ∈ cc, Folded s) (.ofExcept fun cc hcc => keeping_ccList hb d (fun x hx => ?_) hcc) fun cc hcc =>
    .bind (keeping_acHeader he a hd) fun ac hac => ?_
  · refine hb.all _ (fun y hy => ?_) x ((hb.order _ _).mp hx)
    rcases List.mem_append.mp hy with hy | hy
    · exact hm.getAll _ y hy
    · exact hm.getAll _ y hy
  · have hopt : ∀ y : Str, Folded ((m.get y).getD []) := by
      intro y
      cases h : m.get y with
      | none => exact .of_none (by simp)
      | some v => exact hm.get y v h
    have hr : (Bot.genReply v d f cc (str!"Re: " ++ (m.get (str!"Subject")).getD []) (m.get (str!"Message-ID")) ac).Folded := by
      intro x hx
      simp only [Bot.genReply, Msg.headers, List.mem_append, List.mem_cons, List.not_mem_nil, or_false] at hx
      rcases hx with ((((rfl | rfl | rfl | rfl | rfl) | hx) | (rfl | rfl | rfl | rfl)) | hx)
      · exact .of_none (by decide)
      · exact .of_none (by decide)
      · exact .of_none (by decide)
      · exact hd
      · exact hf
      · split at hx
        · cases hx
        · cases List.mem_singleton.mp hx
          exact .join (.of_none (by decide)) hcc
      · exact hv1
      · exact Folded.append (.of_none (by decide)) (hopt _)
      · exact hv2
      · exact hopt _
      · split at hx
        · cases hx
        · cases List.mem_singleton.mp hx; exact hac
    split
    · exact .bind (keeping_encryptMime he a hr _ fun x hx => by
          rcases List.mem_cons.mp hx with rfl | hx
          · exact hf
          · exact hcc x hx) fun r hr =>
        .bind (Q := fun _ => True) (.ofExcept fun _ _ => trivial) fun ok _ => .bind (Q := fun _ => True) ⟨.assert _, .trivially _⟩ fun _ _ => .pure hr
    · exact .pure hr

/-! ## C147 -/

/-- **C147**: in the header which make_ac_header gives for an address, each line but the first begins with a blank, if this is so for the address. -/
theorem C147_header (S : StoreImpl σ) (O : Oracle K) (n : Str) {addr : Str} (ha : Folded addr) {w w' : World σ K} {v : Str}
    (h : run S O (Account.makeAcHeader env n addr) w = (.ok v, w')) : Folded v :=
  (keeping_acHeader he n ha).2.of_run h

/-- **C147**: if all fields of outgoing mail are folded as they should, as those which were read from a file are, then so are all fields of the result,
encrypted or not, and all fields of the message which is encrypted, as it is given to plugins. -/
theorem C147_outgoing (S : StoreImpl σ) (O : Oracle K) (n : Str) {m : Msg} (hm : m.Folded) {w w' : World σ K} {res : Except Exc Account.OutgoingResult}
    (h : run S O (Account.processOutgoing env n m) w = (res, w')) :
    (∀ r, res = .ok r → r.msg.Folded ∧ ∀ v, r.added = some v → Folded v) ∧
    ∀ new, w'.trace = new ++ w.trace → ∀ a k r2k p ret, Event.hook a k r2k p ret ∈ new → p.Folded := by
  constructor
  · rintro r rfl
    exact (keeping_outgoing he n hm).2.of_run h
  · intro new hn a k r2k p ret hp
    have := run_events (S := S) (O := O) (keeping_outgoing he n hm).1 w
    rw [h] at this
    exact this.all hn _ hp

theorem outbound_folded {O : Oracle K} {w w' : World Store K} {m x : Msg} (hm : m.Folded) (h : Outbound O env w w' m x) : x.Folded := by
  rcases h with ⟨_, _, _, _, _, rfl⟩ | ⟨_, a, w1, w2, res, _, _, _, _, h, rfl⟩
  · exact hm
  · exact ((C147_outgoing he _ _ _ hm h).1 _ rfl).1

/-- **C147** for the command line: so are all fields of mail which process-outgoing prints and which sendmail passes on. -/
theorem C147_sent {O : Oracle K} {ce : CmdEnv} {be : BotEnv} {m : Msg} {args : List Str} {w w' : World Store K} (hw : Reachable O env w)
    (hm : m.Folded) {cmd : Cmd.Command} (hc : cmd = .processOutgoing m ∨ cmd = .sendmail args m) {r : Except Exc Int}
    (h : exec O (cmd.prog ce be env) w = (r, w')) :
    (∀ x, .mail x ∈ w'.printed → .mail x ∈ w.printed ∨ x.Folded) ∧ ∀ a x, (a, x) ∈ w'.piped → (a, x) ∈ w.piped ∨ x.Folded := by
  rcases hc with rfl | rfl
  · obtain ⟨-, h1, h2⟩ := C83_process_outgoing hw h
    refine ⟨fun x hx => ?_, fun a x hx => .inl (by rw [← h1]; exact hx)⟩
    rcases h2 with ⟨y, hy, h2⟩ | ⟨-, h2⟩
    · have hf := outbound_folded he hm hy
      rcases h2 with h2 | ⟨s, h2, -⟩ <;> rw [h2] at hx
      · rcases List.mem_append.1 hx with hx | hx
        · exact .inl hx
        · cases List.mem_singleton.1 hx; exact .inr hf
      · rcases List.mem_append.1 hx with hx | hx
        · exact .inl hx
        · simp only [List.mem_cons, Output.mail.injEq, reduceCtorEq, List.not_mem_nil, or_false] at hx
          subst hx; exact .inr hf
    · rcases h2 with h2 | ⟨s, h2⟩ <;> rw [h2] at hx
      · exact .inl hx
      · rcases List.mem_append.1 hx with hx | hx
        · exact .inl hx
        · cases List.mem_singleton.1 hx
  · obtain ⟨-, h1, h2⟩ := C83_sendmail hw h
    refine ⟨fun x hx => .inl (h1 x hx), fun a x hx => ?_⟩
    rcases h2 with ⟨h2, -⟩ | ⟨exe, y, ret, h2, hy, -⟩ <;> rw [h2] at hx
    · exact .inl hx
    · rcases List.mem_append.1 hx with hx | hx
      · exact .inl hx
      · cases List.mem_singleton.1 hx; exact .inr (outbound_folded he hm hy)

/-- **C147** for the bot: so are all fields of its reply. -/
theorem C147_bot {O : Oracle K} {be : BotEnv} (hb : KeepsLinesBot be) {v : BotStamp} (hv : Folded v.msgId ∧ Folded v.date) {smtp fallback : Option Str}
    (hf : ∀ y, fallback = some y → Folded y) {m : Msg} (hm : m.Folded) {w w' : World Store K} {res : Except Exc Unit}
    (h : exec O (Bot.reply env be v smtp fallback m) w = (res, w')) {x : Msg} (hx : Replied w w' x) : x.Folded := by
  obtain ⟨d, a, f, r, pr, told, keys, kh, w1, w2, w3, w4, w5, w6, w7, hd, hs⟩ := reply_sent h hx
  have hd' : Folded d := by
    unfold getDeliveredTo at hd
    simp only at hd
    split at hd <;> split at hd <;> cases hd
    · exact he.one _ hf
    · exact he.one _ (hm.get _)
  exact (keeping_makeReply he hb _ hv.1 hv.2 a hd' (hm.get _ f hs.from_) _ hm).2.of_run hs.made

omit he

/-- the fields of a message as text: each as name, colon, blank and value -/
def fieldText (f : Str × Str) : Str := f.1 ++ str!": " ++ f.2

/-- after each line feed comes a blank or a tab -/
def Lined (s : Str) : Prop := ∀ pre post, s = pre ++ '\n' :: post → ∃ c t, post = c :: t ∧ Blank c

theorem lined_blank (v : Str) (hv : ∃ c t, v = c :: t ∧ Blank c) (h : Lined v) :
    ∀ l ∈ Py.split '\n' v, l.head? = some ' ' ∨ l.head? = some '\t' := by
  induction hk : v.length using Nat.strongRecOn generalizing v with
  | _ k ih =>
    have first : ∀ x y : Str, v = x ++ y → x ≠ [] → x.head? = some ' ' ∨ x.head? = some '\t' := by
      intro x y e hx
      obtain ⟨c, t, rfl, hc⟩ := hv
      cases x with
      | nil => exact absurd rfl hx
      | cons d x =>
        obtain ⟨rfl, -⟩ := List.cons.inj e
        rcases hc with rfl | rfl
        · exact .inl rfl
        · exact .inr rfl
    rcases hs : Py.split1 '\n' v with ⟨n, _ | r⟩
    · obtain ⟨h1, h2⟩ := Py.split1_none hs
      rw [Py.split_of_not_mem h2]
      intro l hl
      rw [List.mem_singleton.mp hl]
      exact first v [] (by simp) (by obtain ⟨c, t, rfl, -⟩ := hv; simp)
    · obtain ⟨h1, h2⟩ := Py.split1_some hs
      have hn : n ≠ [] := by
        rintro rfl
        obtain ⟨c, t, e, hc⟩ := hv
        rw [e] at h1
        obtain ⟨rfl, -⟩ := List.cons.inj h1
        rcases hc with hc | hc <;> exact absurd hc (by decide)
      rw [h1, Py.split_append, Py.split_of_not_mem h2]
      intro l hl
      rcases List.mem_append.mp hl with hl | hl
      · rw [List.mem_singleton.mp hl]
        exact first n _ h1 hn
      · refine ih r.length ?_ r (h _ _ h1) (fun pre post e => h (n ++ '\n' :: pre) post (by rw [h1, e]; simp)) rfl l hl
        rw [← hk, h1]; simp; omega

theorem lined_lines {s : Str} (hs : ∃ c t, s = c :: t ∧ c ≠ ' ' ∧ c ≠ '\t' ∧ c ≠ '\n') (h : Lined s) :
    (Py.split '\n' s).filter (fun l => l.head? ≠ some ' ' ∧ l.head? ≠ some '\t') = [(Py.split1 '\n' s).1] := by
  obtain ⟨c, t, rfl, h1, h2, h3⟩ := hs
  rcases hs : Py.split1 '\n' (c :: t) with ⟨n, _ | r⟩
  · obtain ⟨rfl, h5⟩ := Py.split1_none hs
    rw [Py.split_of_not_mem h5]
    simp [h1, h2]
  · obtain ⟨h4, h5⟩ := Py.split1_some hs
    cases n with
    | nil => exact absurd (List.cons.inj h4).1 h3
    | cons d n =>
      obtain ⟨rfl, -⟩ := List.cons.inj h4
      have hr : (Py.split '\n' r).filter (fun l => l.head? ≠ some ' ' ∧ l.head? ≠ some '\t') = [] := by
        rw [List.filter_eq_nil_iff]
        intro l hl
        have := lined_blank r (h _ _ h4) (fun pre post e => h ((c :: n) ++ '\n' :: pre) post (by rw [h4, e]; simp)) l hl
        rcases this with e | e <;> simp [e]
      rw [h4, Py.split_append, Py.split_of_not_mem h5, List.filter_append, hr]
      simp [h1, h2]

/-- **C147**, what it is good for: if all values are folded as they should, and names have no line breaks and begin with no blank, then in the text of
the fields the lines which do not begin with a blank or a tab are the first lines of these fields, and no others. -/
theorem C147_lines (fs : List (Str × Str)) (hne : fs ≠ []) (hf : ∀ f ∈ fs, Folded f.2)
    (hn : ∀ f ∈ fs, '\n' ∉ f.1 ∧ ∃ c t, f.1 = c :: t ∧ c ≠ ' ' ∧ c ≠ '\t') :
    (Py.split '\n' (Py.join ['\n'] (fs.map fieldText))).filter (fun l => l.head? ≠ some ' ' ∧ l.head? ≠ some '\t') =
      fs.map fun f => (Py.split1 '\n' (fieldText f)).1 := by
  have one : ∀ f, Folded f.2 → ('\n' ∉ f.1 ∧ ∃ c t, f.1 = c :: t ∧ c ≠ ' ' ∧ c ≠ '\t') →
      (Py.split '\n' (fieldText f)).filter (fun l => l.head? ≠ some ' ' ∧ l.head? ≠ some '\t') = [(Py.split1 '\n' (fieldText f)).1] := by
    rintro f hv ⟨h1, c, t, h2, h3, h4⟩
    refine lined_lines ⟨c, t ++ (str!": " ++ f.2), by simp [fieldText, h2], h3, h4, fun e => h1 (by rw [h2, e]; simp)⟩ fun pre post e => ?_
    have hno : '\n' ∉ f.1 ++ str!": " := by
      rw [List.mem_append]
      rintro (h | h)
      · exact h1 h
      · exact absurd h (by decide)
    rcases List.append_eq_append_iff.mp e with ⟨u, rfl, hu⟩ | ⟨u, hu, e2⟩
    · exact hv.1 _ _ hu
    · cases u with
      | nil => exact hv.1 [] post e2.symm
      | cons y u =>
        obtain ⟨rfl, -⟩ := List.cons.inj e2
        exact absurd (by rw [hu]; simp) hno
  induction fs with
  | nil => exact absurd rfl hne
  | cons f fs ih =>
    have h1 := one f (hf f (by simp)) (hn f (by simp))
    cases fs with
    | nil => exact h1
    | cons g fs =>
      have : Py.join ['\n'] ((f :: g :: fs).map fieldText) = fieldText f ++ '\n' :: Py.join ['\n'] ((g :: fs).map fieldText) := by
        simp [Py.join]
      rw [this, Py.split_append, List.filter_append, h1, ih (by simp) (fun x hx => hf x (List.mem_cons_of_mem _ hx))
        (fun x hx => hn x (List.mem_cons_of_mem _ hx))]
      rfl

/-! ## An instance -/

section
open Concrete

theorem Folded.suffix {a b : Str} (h : Folded (a ++ b)) : Folded b :=
  ⟨fun pre post e => h.1 (a ++ pre) post (by rw [e]; simp), fun pre post e => h.2 (a ++ pre) post (by rw [e]; simp)⟩

/-- a part before a character which is no white space -/
theorem Folded.before {a b : Str} {x : Char} (h : Folded (a ++ x :: b)) (hx : ¬ Blank x ∧ x ≠ '\n') : Folded a := by
  constructor
  · intro pre post e
    obtain ⟨c, t, h1, h2⟩ := h.1 pre (post ++ x :: b) (by rw [e]; simp)
    cases post with
    | nil => obtain ⟨rfl, -⟩ := List.cons.inj h1; exact absurd h2 hx.1
    | cons d post => obtain ⟨rfl, -⟩ := List.cons.inj h1; exact ⟨_, post, rfl, h2⟩
  · intro pre post e
    obtain ⟨c, t, h1, h2⟩ := h.2 pre (post ++ x :: b) (by rw [e]; simp)
    cases post with
    | nil => obtain ⟨rfl, -⟩ := List.cons.inj h1; exact absurd h2 (by rintro (h | h); exacts [hx.2 h, hx.1 h])
    | cons d post => obtain ⟨rfl, -⟩ := List.cons.inj h1; exact ⟨_, post, rfl, h2⟩

/-- a part which does not end with white space -/
theorem Folded.upto {a b : Str} (h : Folded (a ++ b)) (ha : ∀ c, a.getLast? = some c → Py.isSpace c = false) : Folded a := by
  have key : ∀ pre post (x : Char), a = pre ++ x :: post → Py.isSpace x = true → post ≠ [] := by
    rintro pre _ x rfl hx rfl
    have := ha x (by simp)
    rw [hx] at this; cases this
  constructor
  · intro pre post e
    obtain ⟨c, t, h1, h2⟩ := h.1 pre (post ++ b) (by rw [e]; simp)
    cases post with
    | nil => exact absurd rfl (key _ _ _ e (by decide))
    | cons d post => obtain ⟨rfl, -⟩ := List.cons.inj h1; exact ⟨_, post, rfl, h2⟩
  · intro pre post e
    obtain ⟨c, t, h1, h2⟩ := h.2 pre (post ++ b) (by rw [e]; simp)
    cases post with
    | nil => exact absurd rfl (key _ _ _ e (by decide))
    | cons d post => obtain ⟨rfl, -⟩ := List.cons.inj h1; exact ⟨_, post, rfl, h2⟩

theorem Folded.strip {s : Str} (h : Folded s) : Folded (Py.strip s) := by
  obtain ⟨t, h1, -⟩ := Py.lstrip_append s
  have h2 : Folded (Py.lstrip s) := by rw [h1] at h; exact h.suffix
  obtain ⟨r, h3, -⟩ := Py.rstrip_append (Py.lstrip s)
  rw [h3] at h2
  refine h2.upto fun c hc => ?_
  unfold Py.rstrip at hc
  rw [List.getLast?_reverse] at hc
  have := List.head?_dropWhile_not Py.isSpace (Py.lstrip s).reverse
  rw [hc] at this
  simpa using this

theorem Folded.pieces {s : Str} (h : Folded s) : ∀ p ∈ Py.split ',' s, Folded p := by
  induction hk : s.length using Nat.strongRecOn generalizing s with
  | _ k ih =>
    rcases hs : Py.split1 ',' s with ⟨n, _ | r⟩
    · obtain ⟨-, h2⟩ := Py.split1_none hs
      rw [Py.split_of_not_mem h2]
      intro p hp; rw [List.mem_singleton.mp hp]; exact h
    · obtain ⟨h1, h2⟩ := Py.split1_some hs
      rw [h1, Py.split_append, Py.split_of_not_mem h2]
      rw [h1] at h
      intro p hp
      rcases List.mem_append.mp hp with hp | hp
      · rw [List.mem_singleton.mp hp]; exact h.before ⟨by rintro (h | h) <;> exact absurd h (by decide), by decide⟩
      · refine ih r.length ?_ (show Folded r from ?_) rfl p hp
        · rw [← hk, h1]; simp; omega
        · rw [show n ++ ',' :: r = (n ++ [',']) ++ r by simp] at h; exact h.suffix

theorem Folded.addrPart {s : Str} (h : Folded s) : Folded (Concrete.addrPart s) := by
  unfold Concrete.addrPart
  rcases hs : Py.split1 '<' s with ⟨n, _ | r⟩
  · exact h.strip
  · obtain ⟨h1, -⟩ := Py.split1_some hs
    rw [h1, show n ++ '<' :: r = (n ++ ['<']) ++ r by simp] at h
    have hr := h.suffix
    show Folded (Py.split1 '>' r).1
    rcases hs2 : Py.split1 '>' r with ⟨n2, _ | r2⟩
    · obtain ⟨rfl, -⟩ := Py.split1_none hs2; exact hr
    · obtain ⟨h2, -⟩ := Py.split1_some hs2
      rw [h2] at hr
      exact hr.before ⟨by rintro (h | h) <;> exact absurd h (by decide), by decide⟩

theorem lowerChar_small {c x : Char} (hx : x.toNat < 65) (h : Py.lowerChar c = x) : c = x := by
  unfold Py.lowerChar at h
  split at h
  · rename_i hc
    exfalso
    have : (Char.ofNat (c.toNat + 32)).toNat = c.toNat + 32 := by
      unfold Char.ofNat; rw [dif_pos (.inl (by omega))]; rfl
    rw [← h, this] at hx
    omega
  · exact h

theorem Folded.lower {s : Str} (h : Folded s) : Folded (Py.lower s) := by
  have key : ∀ x : Char, x.toNat < 65 → ∀ pre post, Py.lower s = pre ++ x :: post → ∃ p q, s = p ++ x :: q ∧ post = Py.lower q := by
    intro x hx pre post e
    obtain ⟨p, q, rfl, -, h2⟩ := List.map_eq_append_iff.mp e
    obtain ⟨y, q, rfl, h3, h4⟩ := List.map_eq_cons_iff.mp h2
    rw [lowerChar_small hx h3]
    exact ⟨p, q, rfl, h4.symm⟩
  have blank : ∀ c, Blank c → Py.lowerChar c = c := by rintro c (rfl | rfl) <;> decide
  constructor
  · intro pre post e
    obtain ⟨p, q, h1, rfl⟩ := key _ (by decide) _ _ e
    obtain ⟨c, t, rfl, hc⟩ := h.1 _ _ h1
    exact ⟨c, Py.lower t, by simp [Py.lower, blank c hc], hc⟩
  · intro pre post e
    obtain ⟨p, q, h1, rfl⟩ := key _ (by decide) _ _ e
    obtain ⟨c, t, rfl, hc⟩ := h.2 _ _ h1
    refine ⟨c, Py.lower t, ?_, hc⟩
    rcases hc with rfl | hc
    · rfl
    · simp [Py.lower, blank c hc]

theorem concrete_keepsLines : KeepsLines Concrete.env where
  one x hx := by
    refine Folded.lower (Folded.addrPart ?_)
    cases x with
    | none => exact .of_none (by simp)
    | some y => exact hx y rfl
  all l hl a ha := by
    obtain ⟨p, hp, rfl⟩ := List.mem_map.mp ha
    obtain ⟨y, hy, hp⟩ := List.mem_flatMap.mp hp
    exact ((hl y hy).pieces p hp).addrPart

theorem concrete_keepsLinesBot : KeepsLinesBot botEnv where
  all l hl x hx := by
    obtain ⟨a, ha, rfl⟩ := List.mem_map.mp hx
    exact ⟨.of_none (by simp), concrete_keepsLines.all l hl a ha⟩
  format x s _ h2 e := by cases e; exact h2
  order l x := by simp [botEnv]

/-- a test for this -/
def foldedTest : Str → Bool
  | [] => true
  | [c] => c != '\n' && c != '\r'
  | c :: d :: s => (c != '\n' || d == ' ' || d == '\t') && (c != '\r' || d == '\n' || d == ' ' || d == '\t') && foldedTest (d :: s)

theorem Folded.of_test : ∀ {s : Str}, foldedTest s = true → Folded s
  | [], _ => .of_none (by simp)
  | [c], h => .of_none (by
      intro x hx
      rw [List.mem_singleton.mp hx]
      simpa [foldedTest] using h)
  | c :: d :: s, h => by
    simp only [foldedTest, Bool.and_eq_true, Bool.or_eq_true, bne_iff_ne, ne_eq, beq_iff_eq] at h
    obtain ⟨⟨h1, h2⟩, h3⟩ := h
    have ih := Folded.of_test h3
    constructor
    · intro pre post e
      cases pre with
      | nil =>
        obtain ⟨rfl, rfl⟩ := List.cons.inj e
        refine ⟨d, s, rfl, ?_⟩
        rcases h1 with (h1 | h1) | h1
        · exact absurd rfl h1
        · exact .inl h1
        · exact .inr h1
      | cons y pre => exact ih.1 _ _ (List.cons.inj e).2
    · intro pre post e
      cases pre with
      | nil =>
        obtain ⟨rfl, rfl⟩ := List.cons.inj e
        refine ⟨d, s, rfl, ?_⟩
        rcases h2 with ((h1 | h1) | h1) | h1
        · exact absurd rfl h1
        · exact .inl h1
        · exact .inr (.inl h1)
        · exact .inr (.inr h1)
      | cons y pre => exact ih.2 _ _ (List.cons.inj e).2

/-- the letter, with a From field of two lines -/
def foldedLetter : Msg :=
  .mk ((letter (str!"yes")).headers.map fun f => if f.1 = str!"From" then (f.1, str!"\"A\n lice\" <alice@x.org>") else f) (letter (str!"yes")).payload

/-- an instance of C147: the fields of the letter, one of which goes over two lines, are folded as they should; it is encrypted, and sent with two fields
which go over several lines -/
example : KeepsLines Concrete.env ∧ KeepsLinesBot botEnv ∧ foldedLetter.Folded ∧
    ((run Store.impl oracle (Account.processOutgoing Concrete.env (str!"a") foldedLetter) recWorld).1.toOption.map fun r =>
      (r.msg.contentType, (r.msg.headers.filter fun f => '\n' ∈ f.2).map (·.1))) =
        some (str!"multipart/encrypted", [str!"From", str!"Autocrypt"]) := by
  refine ⟨concrete_keepsLines, concrete_keepsLinesBot, ?_, by decide +kernel⟩
  have : ∀ f ∈ foldedLetter.headers, foldedTest f.2 = true := by decide +kernel
  exact fun f hf => .of_test (this f hf)

/-- an instance of the hypotheses of `C147_sent`: in a reachable state sendmail passes on the letter -/
example : Reachable oracle Concrete.env recWorld ∧
    ((exec oracle ((Cmd.Command.sendmail [str!"bob@x.org"] foldedLetter).prog cmdEnv botEnv Concrete.env) recWorld).2.piped).length = 1 :=
  ⟨after_reachable _, by decide +kernel⟩

/-- an instance of the hypotheses of `C147_bot`: the bot replies -/
example : (botMail bob (str!"bot@x.org,\n carol@x.org") []).Folded ∧ ∃ x, Replied recWorld
    (exec oracle (Bot.reply Concrete.env botEnv botValues none none (botMail bob (str!"bot@x.org,\n carol@x.org") [])) recWorld).2 x := by
  have : ∀ f ∈ (botMail bob (str!"bot@x.org,\n carol@x.org") []).headers, foldedTest f.2 = true := by decide +kernel
  refine ⟨fun f hf => .of_test (this f hf), ?_⟩
  obtain ⟨x, hx, -⟩ := botRun_replied (smtp := none) (m := botMail bob (str!"bot@x.org,\n carol@x.org") []) (g := fun _ => ()) (y := ()) (by decide +kernel)
  exact ⟨x, hx⟩

/-- an instance of `C147_lines`, and one of the lines when a value is not folded as it should -/
example : (Py.split '\n' (Py.join ['\n'] ([(str!"To", str!"a,\n b"), (str!"X", str!"y")].map fieldText))).filter
      (fun l => l.head? ≠ some ' ' ∧ l.head? ≠ some '\t') = [str!"To: a,", str!"X: y"] ∧
    (Py.split '\n' (Py.join ['\n'] ([(str!"To", str!"a\nZ: b"), (str!"X", str!"y")].map fieldText))).filter
      (fun l => l.head? ≠ some ' ' ∧ l.head? ≠ some '\t') = [str!"To: a", str!"Z: b", str!"X: y"] := by decide +kernel

/-- The hypothesis on the address in `C147_header` is needed: with a line break in the argument, make-header prints two fields. -/
example : ((run Store.impl oracle (Account.makeAcHeader Concrete.env (str!"a") (str!"<a@x.org\nX: y>")) recWorld).1.toOption.map fun v =>
    (Py.split '\n' v).take 2) = some [str!"addr=a@x.org", str!"x: y; prefer-encrypt=mutual; keydata="] := by decide +kernel

end

end Verif
