import Verif.Props.Within
import Verif.Props.BotReply
import Verif.Props.GpgTasks
/-!
# What was in encrypted mail is told to nobody (C148)

Two environments are compared in which gpg decrypts to different texts.
-/
namespace Verif
open Mime

variable {σ K : Type}

/-! ## Specification -/

/-- gpg is run to decrypt something -/
def ExtOp.Decrypts : ExtOp → Prop
  | .gpg argv stdin => GpgTask.decrypt.Run argv stdin
  | _ => False

/-- texts which contain mail with the same recipients and the same gossip -/
def SameGossip (env : Env) (b b' : Bytes) : Prop := SameFields gossipFields (env.messageFromBytes b) (env.messageFromBytes b')

/-- gpg ends alike, but the text which it gives may be another one -/
def SameBut (R : Bytes → Bytes → Prop) : Except Exc GpgOut → Except Exc GpgOut → Prop
  | .ok a, .ok b => a.ret = b.ret ∧ a.err = b.err ∧ R a.out b.out
  | .error e, .error e' => e = e'
  | _, _ => False

/-- environments which differ in the texts to which gpg decrypts, and where plugins don't look at decrypted messages -/
structure OtherTexts (R : Bytes → Bytes → Prop) (O O' : Oracle K) : Prop where
  /-- another text comes out -/
  decrypt : ∀ argv stdin s, GpgTask.decrypt.Run argv stdin →
    SameBut R (O.step (.gpg argv stdin) s).1 (O'.step (.gpg argv stdin) s).1 ∧ (O.step (.gpg argv stdin) s).2 = (O'.step (.gpg argv stdin) s).2
  /-- plugins do not look -/
  blind : ∀ a k d d' s, (O.step (.hookIncomingGossip a k d) s : Except Exc Unit × K) = (O'.step (.hookIncomingGossip a k d') s : Except Exc Unit × K)
  /-- all else is the same -/
  other : ∀ o s, ¬ o.Decrypts → O.step o s = O'.step o s

/-- the same steps, apart from the texts which gpg gives when it decrypts, and the message which plugins get -/
inductive UnsaidEvents (R : Bytes → Bytes → Prop) : List Event → List Event → Prop
  | nil : UnsaidEvents R [] []
  | same (e : Event) {l l' : List Event} : UnsaidEvents R l l' → UnsaidEvents R (e :: l) (e :: l')
  | decrypted (argv : List Str) (i : Option Bytes) (r r' : Except Exc GpgOut) {l l' : List Event} : GpgTask.decrypt.Run argv i → SameBut R r r' →
      UnsaidEvents R l l' → UnsaidEvents R (⟨.gpg argv i, r⟩ :: l) (⟨.gpg argv i, r'⟩ :: l')
  | hook (a : List Str) (k : Str) (d d' : Msg) (r : Except Exc Unit) {l l' : List Event} : UnsaidEvents R l l' →
      UnsaidEvents R (⟨.hookIncomingGossip a k d, r⟩ :: l) (⟨.hookIncomingGossip a k d', r⟩ :: l')

/-- the same state, apart from that -/
structure UnsaidWorlds (R : Bytes → Bytes → Prop) (w w' : World σ K) : Prop where
  store : w.store = w'.store
  clock : w.clock = w'.clock
  tick : w.tick = w'.tick
  env : w.env = w'.env
  trace : UnsaidEvents R w.trace w'.trace

/-- all that leaves the program: what is printed or sent by SMTP or through sendmail, what is written to files, and what gpg gets -/
def leaving (t : List Event) : List ExtOp := (t.map (·.op)).filter fun o => match o with
  | .hookIncomingGossip .. => false
  | _ => true

/-! ## Lemmas -/

theorem UnsaidEvents.refl {R : Bytes → Bytes → Prop} : ∀ l, UnsaidEvents R l l
  | [] => .nil
  | e :: l => .same e (refl l)

theorem UnsaidWorlds.refl {R : Bytes → Bytes → Prop} (w : World σ K) : UnsaidWorlds R w w := ⟨rfl, rfl, rfl, rfl, .refl _⟩

theorem UnsaidEvents.leaving {R : Bytes → Bytes → Prop} {l l' : List Event} (h : UnsaidEvents R l l') : leaving l = leaving l' := by
  unfold Verif.leaving
  induction h with
  | nil => rfl
  | same e _ ih => rw [List.map_cons, List.map_cons, List.filter_cons, List.filter_cons, ih]
  | decrypted argv i r r' _ _ _ ih => simp only [List.map_cons, List.filter_cons, ih]
  | hook a k d d' r _ ih => exact ih

/-- programs which differ in what they do with decrypted texts only as the relations allow -/
inductive Unsaid (R : Bytes → Bytes → Prop) {α : Type} (Q : α → α → Prop) : Prog α → Prog α → Prop
  | pure {a b : α} : Q a b → Unsaid R Q (.pure a) (.pure b)
  | raise (e : Exc) : Unsaid R Q (.raise e) (.raise e)
  | op (o : Op) {k k' : o.Ret → Prog α} : (∀ e, o = .ext e → ¬ e.Decrypts) → (∀ r, Unsaid R Q (k r) (k' r)) → Unsaid R Q (.op o k) (.op o k')
  | decrypt (argv : List Str) (i : Option Bytes) {k k' : Except Exc GpgOut → Prog α} : GpgTask.decrypt.Run argv i →
      (∀ r r', SameBut R r r' → Unsaid R Q (k r) (k' r')) → Unsaid R Q (.op (.ext (.gpg argv i)) k) (.op (.ext (.gpg argv i)) k')
  | hook (a : List Str) (key : Str) (d d' : Msg) {k k' : Except Exc Unit → Prog α} : (∀ r, Unsaid R Q (k r) (k' r)) →
      Unsaid R Q (.op (.ext (.hookIncomingGossip a key d)) k) (.op (.ext (.hookIncomingGossip a key d')) k')

section
variable {R : Bytes → Bytes → Prop}

theorem Unsaid.bind {α β : Type} {Q : α → α → Prop} {Q' : β → β → Prop} {p p' : Prog α} {f f' : α → Prog β} (hp : Unsaid R Q p p')
    (hf : ∀ a b, Q a b → Unsaid R Q' (f a) (f' b)) : Unsaid R Q' (p.bind f) (p'.bind f') := by
  induction hp with
  | pure h => exact hf _ _ h
  | raise e => exact .raise e
  | op o ho _ ih => exact .op o ho ih
  | decrypt argv i hr _ ih => exact .decrypt argv i hr ih
  | hook a key d d' _ ih => exact .hook a key d d' ih

theorem Unsaid.then {α β : Type} {Q' : β → β → Prop} {p p' : Prog α} {f f' : α → Prog β} (hp : Unsaid R Eq p p')
    (hf : ∀ a, Unsaid R Q' (f a) (f' a)) : Unsaid R Q' (p.bind f) (p'.bind f') :=
  hp.bind fun a _ h => h ▸ hf a

theorem Unsaid.attempt {α : Type} {p p' : Prog α} (h : Unsaid R Eq p p') : Unsaid R Eq (Prog.attempt p) (Prog.attempt p') := by
  induction h with
  | pure h => exact .pure (by rw [h])
  | raise e => exact .pure rfl
  | op o ho _ ih => exact .op o ho ih
  | decrypt argv i hr _ ih => exact .decrypt argv i hr ih
  | hook a key d d' _ ih => exact .hook a key d d' ih

/-- programs which decrypt nothing -/
theorem Unsaid.uses {α : Type} {L : List GpgTask} {p : Prog α} (h : p.AllOps (Op.uses L)) (hL : GpgTask.decrypt ∉ L) : Unsaid R Eq p p := by
  induction p with
  | pure a => exact .pure rfl
  | raise e => exact .raise e
  | op o k ih =>
    refine .op o ?_ fun r => ih r (h.2 r)
    rintro e rfl hd
    have h1 := h.1
    cases e with
    | gpg argv i =>
      obtain ⟨u, hu, hr⟩ := h1
      have := hr.word.symm.trans hd.word
      cases u <;> first | exact hL hu | exact absurd this (by decide)
    | _ => exact hd

theorem Unsaid.none {α : Type} {p : Prog α} (h : p.AllOps (Op.uses [])) : Unsaid R Eq p p := .uses h (by decide)

theorem Unsaid.ofExcept {α : Type} {x : Except Exc α} : Unsaid R Eq (Prog.ofExcept x) (Prog.ofExcept x) :=
  .none (.ofExcept _)

theorem unsaid_step {S : StoreImpl σ} {O O' : Oracle K} (hO : OtherTexts R O O') {o : Op} (ho : ∀ e, o = .ext e → ¬ e.Decrypts) {w w' : World σ K}
    (hw : UnsaidWorlds R w w') : (step S O o w).1 = (step S O' o w').1 ∧ UnsaidWorlds R (step S O o w).2 (step S O' o w').2 := by
  obtain ⟨s, c, t, e, tr⟩ := w
  obtain ⟨s', c', t', e', tr'⟩ := w'
  obtain ⟨h1, h2, h3, h4, h5⟩ := hw
  dsimp only at h1 h2 h3 h4 h5
  subst h1; subst h2; subst h3; subst h4
  cases o with
  | ext o =>
    have := hO.other o e (ho o rfl)
    unfold step
    simp only [this]
    exact ⟨rfl, ⟨rfl, rfl, rfl, rfl, .same _ h5⟩⟩
  | _ => exact ⟨rfl, ⟨rfl, rfl, rfl, rfl, h5⟩⟩

theorem unsaid_decrypt {S : StoreImpl σ} {O O' : Oracle K} (hO : OtherTexts R O O') {argv : List Str} {i : Option Bytes}
    (hr : GpgTask.decrypt.Run argv i) {w w' : World σ K} (hw : UnsaidWorlds R w w') :
    SameBut R (step S O (.ext (.gpg argv i)) w).1 (step S O' (.ext (.gpg argv i)) w').1 ∧
    UnsaidWorlds R (step S O (.ext (.gpg argv i)) w).2 (step S O' (.ext (.gpg argv i)) w').2 := by
  obtain ⟨s, c, t, e, tr⟩ := w
  obtain ⟨s', c', t', e', tr'⟩ := w'
  obtain ⟨h1, h2, h3, h4, h5⟩ := hw
  dsimp only at h1 h2 h3 h4 h5
  subst h1; subst h2; subst h3; subst h4
  have := hO.decrypt argv i e hr
  exact ⟨this.1, ⟨rfl, rfl, rfl, this.2, .decrypted argv i _ _ hr this.1 h5⟩⟩

theorem unsaid_hook {S : StoreImpl σ} {O O' : Oracle K} (hO : OtherTexts R O O') (a : List Str) (key : Str) (d d' : Msg) {w w' : World σ K}
    (hw : UnsaidWorlds R w w') :
    ((step S O (.ext (.hookIncomingGossip a key d)) w).1 : Except Exc Unit) = (step S O' (.ext (.hookIncomingGossip a key d')) w').1 ∧
    UnsaidWorlds R (step S O (.ext (.hookIncomingGossip a key d)) w).2 (step S O' (.ext (.hookIncomingGossip a key d')) w').2 := by
  obtain ⟨s, c, t, e, tr⟩ := w
  obtain ⟨s', c', t', e', tr'⟩ := w'
  obtain ⟨h1, h2, h3, h4, h5⟩ := hw
  dsimp only at h1 h2 h3 h4 h5
  subst h1; subst h2; subst h3; subst h4
  have := hO.blind a key d d' e
  unfold step
  dsimp only
  rw [this]
  exact ⟨rfl, ⟨rfl, rfl, rfl, rfl, .hook a key d d' _ h5⟩⟩

theorem unsaid_run {S : StoreImpl σ} {O O' : Oracle K} (hO : OtherTexts R O O') {α : Type} {p p' : Prog α} (hp : Unsaid R Eq p p')
    {w w' : World σ K} (hw : UnsaidWorlds R w w') :
    (run S O p w).1 = (run S O' p' w').1 ∧ UnsaidWorlds R (run S O p w).2 (run S O' p' w').2 := by
  induction hp generalizing w w' with
  | pure h => exact ⟨by rw [run, run, h], hw⟩
  | raise e => exact ⟨rfl, hw⟩
  | op o ho _ ih =>
    have hs := unsaid_step (S := S) hO ho hw
    rw [run, run, hs.1]
    exact ih _ hs.2
  | decrypt argv i hr _ ih =>
    have hs := unsaid_decrypt (S := S) hO hr hw
    exact ih _ _ hs.1 hs.2
  | hook a key d d' _ ih =>
    have hs := unsaid_hook (S := S) hO a key d d' hw
    obtain ⟨x, hx⟩ : ∃ x : Except Exc Unit, (step S O (.ext (.hookIncomingGossip a key d)) w).1 = x := ⟨_, rfl⟩
    have h1 : ∀ (O : Oracle K) (d) (k : Except Exc Unit → Prog α) (w : World σ K) (x : Except Exc Unit),
        (step S O (.ext (.hookIncomingGossip a key d)) w).1 = x →
        run S O (.op (.ext (.hookIncomingGossip a key d)) k) w = run S O (k x) (step S O (.ext (.hookIncomingGossip a key d)) w).2 := by
      rintro O d k w _ rfl; rfl
    rw [h1 O d _ w x hx, h1 O' d' _ w' x (hs.1.symm.trans hx)]
    exact ih x hs.2

theorem unsaid_runFor {S : StoreImpl σ} {O O' : Oracle K} (hO : OtherTexts R O O') {α : Type} {p p' : Prog α} (hp : Unsaid R Eq p p')
    {w w' : World σ K} (hw : UnsaidWorlds R w w') (n : Nat) : UnsaidWorlds R (runFor S O n p w) (runFor S O' n p' w') := by
  induction hp generalizing w w' n with
  | pure h => cases n <;> exact hw
  | raise e => cases n <;> exact hw
  | op o ho _ ih =>
    cases n with
    | zero => exact hw
    | succ n =>
      have hs := unsaid_step (S := S) hO ho hw
      rw [runFor, runFor, hs.1]
      exact ih _ hs.2 n
  | decrypt argv i hr _ ih =>
    cases n with
    | zero => exact hw
    | succ n =>
      have hs := unsaid_decrypt (S := S) hO hr hw
      exact ih _ _ hs.1 hs.2 n
  | hook a key d d' _ ih =>
    cases n with
    | zero => exact hw
    | succ n =>
      have hs := unsaid_hook (S := S) hO a key d d' hw
      obtain ⟨x, hx⟩ : ∃ x : Except Exc Unit, (step S O (.ext (.hookIncomingGossip a key d)) w).1 = x := ⟨_, rfl⟩
      have h1 : ∀ (O : Oracle K) (d) (k : Except Exc Unit → Prog α) (w : World σ K) (x : Except Exc Unit),
          (step S O (.ext (.hookIncomingGossip a key d)) w).1 = x →
          runFor S O (n + 1) (.op (.ext (.hookIncomingGossip a key d)) k) w = runFor S O n (k x) (step S O (.ext (.hookIncomingGossip a key d)) w).2 := by
        rintro O d k w _ rfl; rfl
      rw [h1 O d _ w x hx, h1 O' d' _ w' x (hs.1.symm.trans hx)]
      exact ih x hs.2 n

end

section
variable (env : Env)

/-- `SameBut` for what `gpgOuterr` makes of it: bytes and text -/
theorem unsaid_checkResult {R : Bytes → Bytes → Prop} {r r' : GpgOut} (h : SameBut R (.ok r) (.ok r')) :
    Unsaid R (fun a b => R a.1 b.1 ∧ a.2 = b.2) (Prog.ofExcept (BinGPG.checkResult env false false r))
      (Prog.ofExcept (BinGPG.checkResult env false false r')) := by
  obtain ⟨c, o, e⟩ := r
  obtain ⟨c', o', e'⟩ := r'
  obtain ⟨h1, h2, h3⟩ := h
  dsimp only at h1 h2 h3
  subst h1; subst h2
  unfold BinGPG.checkResult
  dsimp only
  split
  · exact .raise _
  · split
    · exact .raise _
    · simp only [Bool.false_eq_true, if_false]
      split
      · exact .raise _
      · exact .pure ⟨h3, rfl⟩

theorem unsaid_binDecrypt {R : Bytes → Bytes → Prop} (g : BinGPG) (e : Bytes) :
    Unsaid R (fun a b => R a.1 b.1 ∧ a.2 = b.2) (BinGPG.decrypt env g e) (BinGPG.decrypt env g e) := by
  have key : ∀ np, Unasked np → Unsaid R (fun a b => R a.1 b.1 ∧ a.2 = b.2)
      ((BinGPG.gpgOuterr env g (np ++ [str!"--with-colons", str!"--decrypt"]) (some e) false false).bind fun r =>
        (Prog.ofExcept (BinGPG.decryptInfos env none (Py.splitlines r.2))).bind fun infos => .pure (r.1, infos))
      ((BinGPG.gpgOuterr env g (np ++ [str!"--with-colons", str!"--decrypt"]) (some e) false false).bind fun r =>
        (Prog.ofExcept (BinGPG.decryptInfos env none (Py.splitlines r.2))).bind fun infos => .pure (r.1, infos)) := by
    intro np hnp
    refine .bind (Q := fun a b => R a.1 b.1 ∧ a.2 = b.2) ?_ fun a b hab => ?_
    · unfold BinGPG.gpgOuterr Prog.gpg
      simp only [bind_eq, Prog.bind]
      refine .decrypt _ _ ⟨g, _, argv_eq g _, np, hnp, rfl, rfl⟩ fun r r' hr => ?_
      cases r with
      | error e =>
        cases r' with
        | error e' => cases (show e = e' from hr); exact .raise _
        | ok _ => exact hr.elim
      | ok r =>
        cases r' with
        | error e' => exact hr.elim
        | ok r' => exact unsaid_checkResult env hr
    · rw [hab.2]
      exact .then .ofExcept fun _ => .pure ⟨hab.1, rfl⟩
  unfold BinGPG.decrypt BinGPG.nopassphrase
  simp only [bind_eq, pure_eq, Prog.bind_assoc]
  refine .then (.uses (BinGPG.versionAtLeast_uses env g _) (by decide)) fun b => ?_
  cases b
  · exact key _ (Or.inl rfl)
  · exact key _ (Or.inr rfl)

theorem unsaid_decryptMime (n : Str) (m : Msg) :
    Unsaid (SameGossip env) (fun a b => (∃ x y, a.decMsg = transferNonContentHeaders m x ∧ b.decMsg = transferNonContentHeaders m y ∧
      SameFields gossipFields x y) ∧ a.keyinfos = b.keyinfos) (Account.decryptMime env n m) (Account.decryptMime env n m) := by
  unfold Account.decryptMime
  simp only [bind_eq, pure_eq]
  refine .then .ofExcept fun _ => .then (.uses (Account.bingpg_uses (L := [.version]) env n (by decide)) (by decide)) fun g => ?_
  exact .bind (unsaid_binDecrypt env g _) fun a b hab => .pure ⟨⟨_, _, rfl, rfl, hab.1⟩, hab.2⟩

theorem unsaid_incoming (n : Str) (m : Msg) (i nd : Bool) :
    Unsaid (SameGossip env) Eq (Account.processIncoming env n m i nd) (Account.processIncoming env n m i nd) := by
  have h4 : ∀ h u, (Peer.updateFromMsg h u).AllOps (Op.uses [.version, .importKeys, .listPublic]) := Account.updateFromMsg_uses
  have h1 := Account.importPah_uses env n
  unfold Account.processIncoming
  simp only [bind_eq, pure_eq]
  refine .then .ofExcept fun _ => .then (.uses (L := []) ?_ (by decide)) fun _ => .then (.uses (L := []) ?_ (by decide)) fun b => ?_
  · unfold effectiveDate; simp only [bind_eq, pure_eq]; allops
  · allops
  split
  · exact .pure rfl
  · refine .then (.uses (L := [.version, .importKeys, .listPublic]) ?_ (by decide)) fun _ => .then (.none ?_) fun e => .then ?_ fun _ => .pure rfl
    · unfold Account.processAutocryptHeader; simp only [bind_eq, pure_eq]
      allops <;> first | exact h1 _ | exact h4 _ _
    · allops
    · split
      · refine .bind (unsaid_decryptMime env n m) fun a b hab => ?_
        obtain ⟨⟨x, y, e1, e2, hxy⟩, -⟩ := hab
        rw [e1, e2, gossip_within hxy]
        refine .then (.uses (L := [.version, .importKeys, .listPublic]) ?_ (by decide)) fun _ => .then (.none (Account.ownKeyhandle_uses _)) fun _ => ?_
        · have h3 := Account.gossipLoop_uses env n
          unfold Account.processGossipHeaders; simp only [bind_eq]
          allops
          exact h3 _ _ _ _ _
        · exact .hook _ _ _ _ fun r => .then .ofExcept fun _ => .pure rfl
      · exact .pure rfl

theorem unsaid_cmdIncoming (a : Option Str) (r nd : Bool) (m : Msg) :
    Unsaid (SameGossip env) Eq (Cmd.processIncoming env a r nd m) (Cmd.processIncoming env a r nd m) := by
  unfold Cmd.processIncoming
  simp only [bind_eq, pure_eq]
  refine .then (.none ?_) fun n => .then (unsaid_incoming env n m _ nd) fun _ => ?_
  · have h1 := fun m => (matching_noGpg env m).noGpg (L := [])
    have h3 := fun n b => (getAccount_noGpg env n b).noGpg (L := [])
    allops <;> first | exact h1 _ | exact h3 _ _
  · refine .none ?_
    allops

theorem unsaid_scanFile (r : Bool) (t : Time) (x : Cmd.MailFile) :
    Unsaid (SameGossip env) Eq (Cmd.scanFile env r t x) (Cmd.scanFile env r t x) := by
  have h1 := fun m => (matching_noGpg env m).noGpg (L := [])
  unfold Cmd.scanFile
  simp only [bind_eq, pure_eq]
  split
  · exact .pure rfl
  · split
    · exact .pure rfl
    · refine .then .ofExcept fun _ => .then (.none ?_) fun _ => ?_
      · unfold effectiveDate; simp only [bind_eq, pure_eq]; allops
      split
      · exact .pure rfl
      · unfold Cmd.scanRoutable
        simp only [bind_eq, pure_eq]
        refine .then (.none ?_) fun x => ?_
        · allops
          exact h1 _
        · split
          · split
            · exact .pure rfl
            · exact .raise _
          · exact .raise _
          · exact .then (unsaid_incoming env _ _ _ false).attempt fun _ => .none (by allops)

theorem unsaid_scanFiles (ce : CmdEnv) (r : Bool) (t : Time) (i : Nat) (l : List Cmd.MailFile) :
    Unsaid (SameGossip env) Eq (Cmd.scanFiles ce env r t i l) (Cmd.scanFiles ce env r t i l) := by
  induction l generalizing i with
  | nil => exact .pure rfl
  | cons x xs ih =>
    unfold Cmd.scanFiles
    simp only [bind_eq, pure_eq]
    refine .then (unsaid_scanFile env r t x) fun _ => .then (.none ?_) fun _ => .then (ih _) fun _ => .pure rfl
    unfold Cmd.sayOpt
    split
    · exact Cmd.say_uses _
    · trivial

theorem unsaid_bot (be : BotEnv) (v : BotStamp) (smtp fallback : Option Str) (m : Msg) :
    Unsaid (SameGossip env) Eq (Bot.reply env be v smtp fallback m) (Bot.reply env be v smtp fallback m) := by
  unfold Bot.reply
  simp only [bind_eq]
  refine .then .ofExcept fun d => .then (.none (fromEmailadr_noGpg env _ _).noGpg) fun x => ?_
  split
  · exact .raise _
  · refine .then (unsaid_incoming env _ m _ _) fun r => ?_
    split
    · exact .raise _
    · unfold Bot.answer
      simp only [bind_eq, pure_eq]
      refine .then (.none ?_) fun _ => .then ?_ fun _ => .uses (L := [.version, .exportPublic, .encrypt]) ?_ (by decide)
      · unfold Report.processed; simp only [bind_eq, pure_eq]; allops
      · unfold Bot.keysOf
        split
        · exact .bind (unsaid_decryptMime env _ m) fun a b hab => .pure (by rw [hab.2])
        · exact .pure rfl
      · have h4 := fun n a => (Account.makeAcHeader_uses env n a).up (L' := [.version, .exportPublic, .encrypt]) (by decide)
        have h5 := fun n m a => (Account.encryptMime_uses env n m a).up (L' := [.version, .exportPublic, .encrypt]) (by decide)
        have h6 := Account.recommendation_uses (L := [.version, .exportPublic, .encrypt]) env
        have h7 := Account.ownKeyhandle_uses (L := [.version, .exportPublic, .encrypt])
        unfold Bot.deliver Bot.makeReply Bot.replyNoFrom Bot.recFor; simp only [bind_eq, pure_eq]
        allops <;> first | exact h4 _ _ | exact h5 _ _ _ | exact h6 _ _ _ _ | exact h7 _

theorem unsaid_onAccount {α : Type} {R : Bytes → Bytes → Prop} {Q : α → α → Prop} (n : Str) {p : Prog α} (h : Unsaid R Q p p) :
    Unsaid R Eq (onAccount env n p) (onAccount env n p) :=
  .then (.none (.assert _)) fun _ => h.bind fun _ _ _ => .pure rfl

theorem unsaid_call (c : ApiCall) : Unsaid (SameGossip env) Eq (c.prog env) (c.prog env) := by
  cases c
  case processIncoming n m i nd => exact unsaid_onAccount env n (unsaid_incoming env n m i nd)
  case decryptMime n m => exact unsaid_onAccount env n (unsaid_decryptMime env n m)
  case addAccount n r k b m => exact .uses (call_uses env _) (by cases k <;> simp [ApiCall.tasks])
  all_goals exact .uses (call_uses env _) (by simp [ApiCall.tasks])

theorem unsaid_command (ce : CmdEnv) (be : BotEnv) (c : Cmd.Command) : Unsaid (SameGossip env) Eq (c.prog ce be env) (c.prog ce be env) := by
  have hb : ∀ {c : Cmd.Command}, Unsaid (SameGossip env) Eq (c.body ce be env) (c.body ce be env) →
      Unsaid (SameGossip env) Eq (c.prog ce be env) (c.prog ce be env) := by
    intro c h
    unfold Cmd.Command.prog
    simp only [bind_eq, pure_eq]
    refine .then h.attempt fun _ => .none ?_
    unfold Cmd.say
    allops
  cases c
  case processIncoming n r nd m =>
    refine hb (.then (unsaid_cmdIncoming env n r nd m) fun x => .none ?_)
    unfold Cmd.sayReport Cmd.say; simp only [bind_eq]; allops
  case scandir r l =>
    exact hb (.then (.then (.none (.now trivial)) fun t => unsaid_scanFiles env ce r t 0 l) fun _ => .pure rfl)
  case botReply v s f m => exact hb (.then (unsaid_bot env be v s f m) fun _ => .pure rfl)
  case addAccount n s k b r => exact .uses (command_uses ce be env _) (by cases k <;> simp [Cmd.Command.tasks])
  all_goals exact .uses (command_uses ce be env _) (by simp [Cmd.Command.tasks])

theorem unsaid_history {S : StoreImpl σ} {O O' : Oracle K} (hO : OtherTexts (SameGossip env) O O') (hist : List (Happening K)) {w w' : World σ K}
    (hw : UnsaidWorlds (SameGossip env) w w') : UnsaidWorlds (SameGossip env) (runHistory S O env hist w) (runHistory S O' env hist w') := by
  induction hist generalizing w w' with
  | nil => exact hw
  | cons h hs ih =>
    refine ih ?_
    cases h with
    | call c => exact (unsaid_run hO (unsaid_call env c) hw).2
    | killed c n => exact unsaid_runFor hO (unsaid_call env c) hw n
    | command ce be c => exact (unsaid_run hO (unsaid_command env ce be c) hw).2
    | commandKilled ce be c n => exact unsaid_runFor hO (unsaid_command env ce be c) hw n
    | outside k => exact ⟨hw.store, hw.clock, hw.tick, rfl, hw.trace⟩

end

/-! ## The property -/

section
variable {env : Env}

/-- C148: calls of the API and commands, whichever, do the same and end alike if gpg decrypts to another text with the same recipients and the same
gossip; only what gpg gives and the message which plugins get are not the same. -/
theorem C148_alike (S : StoreImpl σ) {O O' : Oracle K} (hO : OtherTexts (SameGossip env) O O') (w : World σ K) :
    (∀ c : ApiCall, (run S O (c.prog env) w).1 = (run S O' (c.prog env) w).1 ∧
      UnsaidWorlds (SameGossip env) (run S O (c.prog env) w).2 (run S O' (c.prog env) w).2) ∧
    ∀ (ce : CmdEnv) (be : BotEnv) (c : Cmd.Command), (run S O (c.prog ce be env) w).1 = (run S O' (c.prog ce be env) w).1 ∧
      UnsaidWorlds (SameGossip env) (run S O (c.prog ce be env) w).2 (run S O' (c.prog ce be env) w).2 :=
  ⟨fun c => unsaid_run hO (unsaid_call env c) (.refl w), fun ce be c => unsaid_run hO (unsaid_command env ce be c) (.refl w)⟩

/-- C148: in particular the result of `process_incoming` is the same -/
theorem C148_incoming (S : StoreImpl σ) {O O' : Oracle K} (hO : OtherTexts (SameGossip env) O O') (n : Str) (m : Msg) (i nd : Bool) (w : World σ K) :
    (run S O (Account.processIncoming env n m i nd) w).1 = (run S O' (Account.processIncoming env n m i nd) w).1 :=
  (unsaid_run hO (unsaid_incoming env n m i nd) (.refl w)).1

/-- C148: after whatever happened, including processes which died, the same is stored, and the same has left the program: it has printed the same,
sent the same mail, written the same files and given the same to gpg. -/
theorem C148_leaving (S : StoreImpl σ) {O O' : Oracle K} (hO : OtherTexts (SameGossip env) O O') (hist : List (Happening K)) (w : World σ K) :
    (runHistory S O env hist w).store = (runHistory S O' env hist w).store ∧
    leaving (runHistory S O env hist w).trace = leaving (runHistory S O' env hist w).trace :=
  have h := unsaid_history env (S := S) hO hist (.refl w)
  ⟨h.store, h.trace.leaving⟩

end

section examples
open Concrete

/-- the command line by which data is decrypted -/
def openLine : List Str :=
  [str!"/usr/bin/gpg", str!"--batch", str!"--homedir", str!"/d/gpg/a", str!"--passphrase", str!"123", str!"--pinentry-mode=loopback",
    str!"--with-colons", str!"--decrypt"]

/-- some encrypted data turns out to be this text -/
def opens (t : Bytes) : Oracle Unit where
  step o k := match o with
    | .gpg a i => if a = openLine ∧ i = some (bs (str!"sesame")) then (.ok ⟨0, t, []⟩, k) else oracle.step (.gpg a i) k
    | o => oracle.step o k

/-- a text with Carol's key -/
def text1 : Bytes := flat (.mk [(str!"To", carol), gossipField carol [9]] (.text (str!"hi")))
/-- another one, with a subject and something else to read -/
def text2 : Bytes := flat (.mk [(str!"Subject", str!"secret"), (str!"To", carol), gossipField carol [9]] (.text (str!"what a day")))

/-- mail to the bot with the encrypted data -/
def secretMail : Msg :=
  .mk [(str!"Delivered-To", str!"bot@x.org"), (str!"From", bob), (str!"To", str!"bot@x.org"), (str!"Message-Id", str!"9"), (str!"Date", str!"100"),
      (str!"Content-Type", str!"multipart/encrypted")]
    (.multi [.mk [(str!"Content-Type", str!"application/pgp-encrypted")] (.text []),
      .mk [(str!"Content-Type", str!"application/octet-stream")] (.text (str!"sesame"))])

/-- what came out of decrypted data -/
def openedTexts (t : List Event) : List Bytes := t.filterMap fun e => match e with
  | ⟨.gpg a _, .ok out⟩ => if a = openLine then some out.out else none
  | _ => none

/-- The hypothesis of the theorems is met by these environments. -/
theorem opens_otherTexts : OtherTexts (SameGossip env) (opens text1) (opens text2) := by
  have ht : SameGossip env text1 text2 := by
    intro x hx
    simp only [gossipFields, List.mem_cons, List.not_mem_nil, or_false] at hx
    rcases hx with rfl | rfl | rfl <;> decide +kernel
  have hr : GpgTask.decrypt.Run openLine (some (bs (str!"sesame"))) :=
    ⟨⟨some (str!"/d/gpg/a"), str!"/usr/bin/gpg"⟩, [str!"--passphrase", str!"123", str!"--pinentry-mode=loopback", str!"--with-colons", str!"--decrypt"],
      by decide, [str!"--passphrase", str!"123", str!"--pinentry-mode=loopback"], Or.inr rfl, rfl, rfl⟩
  constructor
  · intro argv i s _
    refine ⟨?_, rfl⟩
    by_cases h : argv = openLine ∧ i = some (bs (str!"sesame"))
    · have e : ∀ t, (opens t).step (.gpg argv i) s = ((.ok ⟨0, t, []⟩ : Except Exc GpgOut), s) := fun t => if_pos h
      rw [e, e]
      exact ⟨rfl, rfl, ht⟩
    · have e : ∀ t, (opens t).step (.gpg argv i) s = ((.ok (gpg argv i) : Except Exc GpgOut), s) := fun t => if_neg h
      rw [e, e]
      exact ⟨rfl, rfl, fun _ _ => rfl⟩
  · intro _ _ _ _ _; rfl
  · intro o s ho
    cases o with
    | gpg a i =>
      unfold opens
      dsimp only
      split
      · rename_i h; exact absurd (by rw [h.1, h.2]; exact hr) ho
      · rfl
    | _ => rfl

/-- The texts are decrypted, they are not the same, and Carol's key is taken from them; the bot replies. -/
example : ∀ t ∈ [text1, text2],
    openedTexts (exec (opens t) ((Cmd.Command.botReply botValues none none secretMail).prog cmdEnv botEnv env) recWorld).2.trace = [t, t] ∧
    (carols (exec (opens t) ((Cmd.Command.botReply botValues none none secretMail).prog cmdEnv botEnv env) recWorld).2).length = 2 ∧
    (delivered (exec (opens t) ((Cmd.Command.botReply botValues none none secretMail).prog cmdEnv botEnv env) recWorld).2.trace).length = 1 := by
  decide +kernel

example : text1 ≠ text2 := by decide +kernel

/-- and so the same replies were sent -/
example : leaving (exec (opens text1) ((Cmd.Command.botReply botValues none none secretMail).prog cmdEnv botEnv env) recWorld).2.trace =
    leaving (exec (opens text2) ((Cmd.Command.botReply botValues none none secretMail).prog cmdEnv botEnv env) recWorld).2.trace :=
  ((C148_alike Store.impl opens_otherTexts recWorld).2 cmdEnv botEnv _).2.trace.leaving

end examples

end Verif
