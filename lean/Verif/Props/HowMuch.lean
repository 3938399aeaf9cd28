import Verif.Props.GpgTasks
import Verif.Props.IncomingScope
import Verif.Lemmas.Mailless
import Verif.Props.CommandFailures
/-!
# How much a call does (C135)

How often gpg is run, how many entries are stored and how many mails are sent, at most.
-/
namespace Verif
open Mime

variable {α β K : Type}

/-! ## What is counted -/

/-- how often gpg was run for this -/
def runsFor (u : GpgTask) (tr : List Event) : Nat :=
  tr.countP fun ev => match ev.op with
    | .gpg argv _ => commandWord argv = some u.word
    | _ => false

/-- how many mails were handed over: to the sendmail program or to a mail server -/
def mailsSent (tr : List Event) : Nat :=
  tr.countP fun ev => match ev.op with
    | .sendmail .. => true
    | .emit (.smtp ..) => true
    | _ => false

/-- how many entries there are, of everyone -/
def entryCount (s : Store) : Nat := (s.map fun x => x.2.length).sum

/-! ## Programs with a limit -/

/-- the operations of any run of the program cost together at most `n` -/
def Prog.AtMost (f : Op → Nat) : Nat → Prog α → Prop
  | _, .pure _ => True
  | _, .raise _ => True
  | n, .op o k => f o ≤ n ∧ ∀ r, (k r).AtMost f (n - f o)

namespace Prog.AtMost
variable {f : Op → Nat} {n m : Nat}

theorem mono {p : Prog α} (h : p.AtMost f n) (hn : n ≤ m) : p.AtMost f m := by
  induction p generalizing n m with
  | pure a => trivial
  | raise e => trivial
  | op o k ih => exact ⟨Nat.le_trans h.1 hn, fun r => ih r (h.2 r) (Nat.sub_le_sub_right hn _)⟩

theorem bind {p : Prog α} {g : α → Prog β} (hp : p.AtMost f n) (hg : ∀ a, (g a).AtMost f m) : (p.bind g).AtMost f (n + m) := by
  induction p generalizing n with
  | pure a => exact (hg a).mono (Nat.le_add_left ..)
  | raise e => trivial
  | op o k ih =>
    refine ⟨Nat.le_trans hp.1 (Nat.le_add_right ..), fun r => ?_⟩
    have := ih r (hp.2 r)
    rwa [← Nat.sub_add_comm hp.1] at this

theorem tryCatch {p : Prog α} {h : Exc → Prog α} (hp : p.AtMost f n) (hh : ∀ e, (h e).AtMost f m) : (p.tryCatch h).AtMost f (n + m) := by
  induction p generalizing n with
  | pure a => trivial
  | raise e => exact (hh e).mono (Nat.le_add_left ..)
  | op o k ih =>
    refine ⟨Nat.le_trans hp.1 (Nat.le_add_right ..), fun r => ?_⟩
    have := ih r (hp.2 r)
    rwa [← Nat.sub_add_comm hp.1] at this

theorem attempt {p : Prog α} (hp : p.AtMost f n) : p.attempt.AtMost f n :=
  (tryCatch (m := 0) (bind (m := 0) hp fun _ => trivial) fun _ => trivial)

theorem finally_ {p : Prog α} {q : Prog Unit} (hp : p.AtMost f n) (hq : q.AtMost f m) : (p.finally_ q).AtMost f (n + m) :=
  bind (attempt hp) fun r => (bind (m := 0) hq fun _ => by cases r <;> trivial)

theorem free {p : Prog α} (hp : p.AllOps fun o => f o = 0) : p.AtMost f n := by
  induction p generalizing n with
  | pure a => trivial
  | raise e => trivial
  | op o k ih => exact ⟨by rw [hp.1]; exact Nat.zero_le _, fun r => ih r (hp.2 r)⟩

/-- what the limit says about runs -/
theorem run_le {O : Oracle K} {p : Prog α} (hp : p.AtMost f n) {μ : World Store K → Nat} (hμ : ∀ o w, μ (step Store.impl O o w).2 ≤ μ w + f o)
    (w : World Store K) : μ (exec O p w).2 ≤ μ w + n := by
  induction p generalizing n w with
  | pure a => exact Nat.le_add_right ..
  | raise e => exact Nat.le_add_right ..
  | op o k ih =>
    have h1 := ih _ (hp.2 (step Store.impl O o w).1) (step Store.impl O o w).2
    have h2 := hμ o w
    have h3 := hp.1
    show μ (run Store.impl O (k _) _).2 ≤ _
    simp only [exec] at h1
    omega
end Prog.AtMost

/-- what is limited -/
inductive Item where
  | run (u : GpgTask)
  | entry
  | mail
deriving DecidableEq

/-- how much an operation takes of this -/
def Op.cost : Item → Op → Nat
  | .run u, .ext (.gpg argv _) => if commandWord argv = some u.word then 1 else 0
  | .entry, .append .. => 1
  | .mail, .ext (.sendmail ..) => 1
  | .mail, .ext (.emit (.smtp ..)) => 1
  | _, _ => 0

/-- how much there is of this -/
def Item.amount : Item → World Store K → Nat
  | .run u, w => runsFor u w.trace
  | .entry, w => entryCount w.store
  | .mail, w => mailsSent w.trace

theorem entryCount_push (s : Store) (h : Str) (e : Entry) : entryCount (s.push h e) = entryCount s + 1 := by
  induction s with
  | nil => rfl
  | cons x s ih =>
    obtain ⟨n, l⟩ := x
    unfold Store.push
    split
    · simp [entryCount]; omega
    · unfold entryCount at ih ⊢
      simp only [List.map_cons, List.sum_cons, ih]
      omega

theorem entryCount_filter (s : Store) (p : Str × List Entry → Bool) : entryCount (s.filter p) ≤ entryCount s := by
  induction s with
  | nil => exact Nat.le_refl _
  | cons x s ih =>
    unfold entryCount at ih ⊢
    rw [List.filter_cons]
    split
    · simp only [List.map_cons, List.sum_cons]; omega
    · simp only [List.map_cons, List.sum_cons]; omega

theorem Item.step_le (i : Item) (O : Oracle K) (o : Op) (w : World Store K) : i.amount (step Store.impl O o w).2 ≤ i.amount w + Op.cost i o := by
  cases o with
  | append h e =>
    cases i with
    | entry => exact Nat.le_of_eq (entryCount_push ..)
    | _ => exact Nat.le_refl _
  | removeIf p =>
    cases i with
    | entry => exact entryCount_filter ..
    | _ => exact Nat.le_refl _
  | wipe =>
    cases i with
    | entry => exact Nat.zero_le _
    | _ => exact Nat.le_refl _
  | ext o =>
    cases i with
    | entry => exact Nat.le_refl _
    | run u =>
      simp only [step, Item.amount, runsFor, List.countP_cons]
      cases o <;> simp [Op.cost]
    | mail =>
      simp only [step, Item.amount, mailsSent, List.countP_cons]
      cases o <;> simp [Op.cost]
      rename_i x; cases x <;> simp
  | _ => cases i <;> exact Nat.le_refl _

/-- the things in the list are all that a run can take, except for questions about the version of gpg -/
def Prog.Takes (L : List Item) (p : Prog α) : Prop := ∀ i, i ≠ .run .version → p.AtMost (Op.cost i) (L.count i)

/-- operations which take nothing -/
def Op.free : Op → Prop
  | .append .. => False
  | .ext (.gpg argv stdin) => GpgTask.version.Run argv stdin
  | .ext (.sendmail ..) => False
  | .ext (.emit (.smtp ..)) => False
  | _ => True

theorem GpgTask.word_inj {u v : GpgTask} (h : u.word = v.word) : u = v := by
  cases u <;> cases v <;> first | rfl | (exact absurd h (by decide))

theorem GpgTask.Run.cost {u : GpgTask} {argv : List Str} {stdin : Option Bytes} (h : u.Run argv stdin) (i : Item) :
    Op.cost i (.ext (.gpg argv stdin)) = if i = .run u then 1 else 0 := by
  cases i with
  | run v =>
    simp only [Op.cost, h.word, Option.some.injEq, Item.run.injEq]
    by_cases hv : v = u
    · simp [hv]
    · rw [if_neg (fun h' => hv (GpgTask.word_inj h').symm), if_neg hv]
  | entry => rfl
  | mail => rfl

theorem Op.free.cost {o : Op} (h : o.free) {i : Item} (hi : i ≠ .run .version) : o.cost i = 0 := by
  cases o with
  | append => exact h.elim
  | ext o =>
    cases o with
    | gpg argv stdin => rw [GpgTask.Run.cost (u := .version) h, if_neg hi]
    | sendmail => exact h.elim
    | emit x =>
      cases x with
      | smtp => exact h.elim
      | _ => cases i <;> rfl
    | _ => cases i <;> rfl
  | _ => cases i <;> rfl

namespace Prog.Takes
variable {L L' : List Item}

theorem free {p : Prog α} (h : p.AllOps Op.free) : p.Takes L := fun _ hi => .free (h.mono fun _ ho => ho.cost hi)

theorem up {p : Prog α} (h : p.Takes L) (hL : ∀ i, L.count i ≤ L'.count i) : p.Takes L' := fun i hi => (h i hi).mono (hL i)

theorem sub {p : Prog α} (h : p.Takes L) (hL : L.Sublist L') : p.Takes L' := h.up fun _ => hL.count_le _

theorem bind {p : Prog α} {g : α → Prog β} (hp : p.Takes L) (hg : ∀ a, (g a).Takes L') : (p.bind g).Takes (L ++ L') := fun i hi => by
  rw [List.count_append]; exact (hp i hi).bind fun a => hg a i hi

theorem bindL {p : Prog α} {g : α → Prog β} (hp : p.Takes L) (hg : ∀ a, (g a).AllOps Op.free) : (p.bind g).Takes L := fun i hi =>
  .bind (m := 0) (hp i hi) fun a => free (L := []) (hg a) i hi

theorem bindR {p : Prog α} {g : α → Prog β} (hp : p.AllOps Op.free) (hg : ∀ a, (g a).Takes L) : (p.bind g).Takes L := fun i hi => by
  have := (free (L := []) hp i hi).bind fun a => hg a i hi
  rwa [List.count_nil, Nat.zero_add] at this

theorem attempt {p : Prog α} (hp : p.Takes L) : p.attempt.Takes L := fun i hi => (hp i hi).attempt

theorem finally_ {p : Prog α} {q : Prog Unit} (hp : p.Takes L) (hq : q.AllOps Op.free) : (p.finally_ q).Takes L := fun i hi =>
  .finally_ (m := 0) (hp i hi) (free (L := []) hq i hi)

theorem pure (a : α) : (Prog.pure a).Takes L := fun _ _ => trivial
theorem raise (e : Exc) : (Prog.raise e : Prog α).Takes L := fun _ _ => trivial

theorem append (h : Str) (e : Entry) : (Prog.append h e).Takes [.entry] := by
  intro i _
  refine ⟨?_, fun r => .free (.ofExcept r)⟩
  cases i <;> simp [Op.cost]

theorem gpg {u : GpgTask} {argv : List Str} {stdin : Option Bytes} (h : u.Run argv stdin) : (Prog.gpg argv stdin).Takes [.run u] := by
  intro i _
  refine ⟨?_, fun r => .free (.ofExcept r)⟩
  rw [h.cost]
  split
  · rename_i hi; rw [hi]; simp
  · exact Nat.zero_le _

/-- what it says about runs -/
theorem run_le {p : Prog α} (hp : p.Takes L) {i : Item} (hi : i ≠ .run .version) (O : Oracle K) (w : World Store K) :
    i.amount (exec O p w).2 ≤ i.amount w + L.count i := (hp i hi).run_le (i.step_le O) w
end Prog.Takes

/-! ## Functions -/

namespace BinGPG
variable (env : Env) (g : BinGPG)

theorem gpgOuterr_takes {u : GpgTask} {a : List Str} {b : Option Bytes} (h : u.Args a b.isSome) (c d) : (gpgOuterr env g a b c d).Takes [.run u] :=
  .bindL (.gpg ⟨g, a, argv_eq g a, h⟩) fun _ => .ofExcept _

theorem versionAtLeast_free (v) : (versionAtLeast env g v).AllOps Op.free :=
  .bind (.bind (.bind (.gpg ⟨g, _, argv_eq g _, rfl, rfl⟩) fun _ => .ofExcept _) fun _ => .ofExcept _) fun _ => .ofExcept _

theorem ensureInit_free : (ensureInit env g).AllOps Op.free := by
  unfold ensureInit badDefaults
  split
  · trivial
  · simp only [bind_eq, pure_eq]
    have := versionAtLeast_free env g
    allops <;> exact this _

theorem create_free (h p) : (create env h p).AllOps Op.free := by
  unfold create; simp only [bind_eq, pure_eq]
  have := fun g => ensureInit_free env g
  allops <;> exact this _

theorem nopassphrase_takes {f : List Str → Prog α} {L : List Item} (h : ∀ np, Unasked np → (f np).Takes L) : ((nopassphrase env g).bind f).Takes L := by
  unfold nopassphrase
  simp only [bind_eq, pure_eq, Prog.bind_assoc]
  refine .bindR (versionAtLeast_free env g _) fun b => ?_
  cases b
  · exact h _ (Or.inl rfl)
  · exact h _ (Or.inr rfl)

theorem listPublic_takes (k) : (listPublicKeyinfos env g (some k)).Takes [.run .listPublic] :=
  .bindL (.bindL (gpgOuterr_takes env g (u := .listPublic) ⟨k, rfl, rfl⟩ _ _) fun _ => .ofExcept _) fun _ => .ofExcept _

theorem getSecretKeyhandle_takes (k) : (getSecretKeyhandle env g k).Takes [.run .listSecret] :=
  .bindL (.bindL (.bindL (gpgOuterr_takes env g (u := .listSecret) ⟨k, rfl, rfl⟩ _ _) fun _ => .ofExcept _) fun _ => .ofExcept _) fun _ => trivial

theorem findKeyhandle_takes (t) : (findKeyhandle env g t).Takes [.run .listPublic] := by
  unfold findKeyhandle
  split
  · exact .raise _
  · rename_i x _
    split
    · refine .bindL (listPublic_takes env g x) fun l => ?_
      split <;> trivial
    · exact .pure _

theorem genSecretKey_takes (e) : (genSecretKey env g e).Takes [.run .generate, .run .listPublic] := by
  unfold genSecretKey withTempFile; simp only [bind_eq]
  refine .bind (L := [.run .generate]) (.bindR (.mkTemp trivial) fun n => .bindR (.writeTemp trivial) fun _ => .finally_ ?_ (.rmTemp trivial)) fun _ => findKeyhandle_takes env g _
  exact nopassphrase_takes env g fun np hnp => gpgOuterr_takes env g (u := .generate) ⟨np, _, hnp, rfl, rfl⟩ _ _

theorem getPublicKeydata_takes (k a) : (getPublicKeydata env g k a).Takes [.run .exportPublic] := by
  refine .bindL (gpgOuterr_takes env g (u := .exportPublic) ⟨if a then [str!"-a"] else [], k, ?_, rfl, rfl⟩ _ _) fun _ => trivial
  cases a <;> simp

theorem getSecretKeydata_takes (k a) : (getSecretKeydata env g k a).Takes [.run .exportSecret] := by
  refine nopassphrase_takes env g fun np hnp =>
    .bindL (gpgOuterr_takes env g (u := .exportSecret) ⟨if a then [str!"-a"] else [], np, k, ?_, hnp, rfl, rfl⟩ _ _) fun _ => trivial
  cases a <;> simp

theorem encrypt_takes (d r s) : (encrypt env g d r s true).Takes [.run .encrypt] := by
  refine nopassphrase_takes env g fun np hnp =>
    .bindL (gpgOuterr_takes env g (u := .encrypt) ⟨np, r, if s.isEmpty then [] else [str!"--sign", str!"-u", s], hnp, ?_, by rw [encryptOpts, List.flatMap_def]; rfl, rfl⟩ _ _) fun _ => trivial
  split
  · exact Or.inl rfl
  · exact Or.inr ⟨_, rfl⟩

theorem decrypt_takes (d) : (decrypt env g d).Takes [.run .decrypt] :=
  nopassphrase_takes env g fun np hnp =>
    .bindL (gpgOuterr_takes env g (u := .decrypt) ⟨np, hnp, rfl, rfl⟩ _ _) fun _ => .bind (.ofExcept _) fun _ => trivial

theorem import_takes (d) : (importKeydata env g d false).Takes [.run .importKeys, .run .listPublic] :=
  .bind (L := [_]) (L' := [_]) (gpgOuterr_takes env g (u := .importKeys) ⟨rfl, rfl⟩ _ _) fun _ =>
    .bindL (findKeyhandle_takes env g _) fun _ => trivial

theorem importMinimal_takes (d) : (importKeydata env g d true).Takes
    [.run .importKeys, .run .listPublic, .run .exportPublic, .run .delete, .run .importKeys, .run .listPublic] :=
  .bind (L := [_]) (gpgOuterr_takes env g (u := .importKeys) ⟨rfl, rfl⟩ _ _) fun _ =>
    .bind (L := [_]) (findKeyhandle_takes env g _) fun k =>
    .bind (L := [_]) (getPublicKeydata_takes env g _ _) fun _ =>
    .bind (L := [_]) (gpgOuterr_takes env g (u := .delete) ⟨k, rfl, rfl⟩ _ _) fun _ =>
    .bind (L := [_]) (L' := [_]) (gpgOuterr_takes env g (u := .importKeys) ⟨rfl, rfl⟩ _ _) fun _ =>
    .bindL (findKeyhandle_takes env g _) fun _ => .bind (.assert _) fun _ => trivial

end BinGPG

namespace Account
variable (env : Env) (n : Str)

theorem config_free : (Own.config n).AllOps Op.free := by unfold Own.config; simp only [bind_eq, pure_eq]; allops
theorem ownKeyhandle_free : (ownKeyhandle n).AllOps Op.free := by
  unfold ownKeyhandle Own.keyhandle; simp only [bind_eq, pure_eq]; allops
theorem bingpg_free : (bingpg env n).AllOps Op.free := by
  unfold bingpg; simp only [bind_eq]
  refine .bind (config_free n) fun c => ?_
  split
  · trivial
  · exact BinGPG.create_free env _ _

theorem makeAcHeader_takes (a) : (makeAcHeader env n a).Takes [.run .exportPublic] := by
  unfold makeAcHeader; simp only [bind_eq]
  exact .bindR (bingpg_free env n) fun _ => .bindR (ownKeyhandle_free n) fun _ =>
    .bindL (BinGPG.getPublicKeydata_takes env _ _ _) fun _ => .bind (config_free n) fun _ => .ofExcept _
theorem exportPublicKey_takes (k) : (exportPublicKey env n k).Takes [.run .exportPublic] := by
  unfold exportPublicKey; simp only [bind_eq]
  refine .bindR ?_ fun _ => .bindR (bingpg_free env n) fun _ => BinGPG.getPublicKeydata_takes env _ _ _
  split
  · trivial
  · exact ownKeyhandle_free n
theorem exportSecretKey_takes : (exportSecretKey env n).Takes [.run .exportSecret] := by
  unfold exportSecretKey; simp only [bind_eq]
  exact .bindR (bingpg_free env n) fun _ => .bindR (ownKeyhandle_free n) fun _ => BinGPG.getSecretKeydata_takes env _ _ _
theorem importPah_takes (p) : (importPah env n p).Takes [.run .importKeys, .run .listPublic] := by
  unfold importPah importKey; simp only [bind_eq, pure_eq]
  refine .bindL (.bindR (bingpg_free env n).attempt fun x => ?_) fun x => by cases x <;> trivial
  cases x with
  | ok g =>
    refine .bindL (BinGPG.import_takes env g _).attempt fun x => ?_
    split
    · trivial
    · split <;> trivial
  | error e =>
    refine .bindR (bingpg_free env n) fun _ => ?_
    split
    · exact .pure _
    · exact .raise _
theorem decryptMime_takes (m) : (decryptMime env n m).Takes [.run .decrypt] := by
  unfold decryptMime; simp only [bind_eq, pure_eq]
  exact .bindR (.ofExcept _) fun _ => .bindR (bingpg_free env n) fun _ => .bindL (BinGPG.decrypt_takes env _ _) fun _ => trivial
theorem recommendation_free (a r f) : (recommendation env n a r f).AllOps Op.free := by
  unfold recommendation; simp only [bind_eq]
  refine .bind (config_free n) fun _ => .bind ?_ fun _ => .ofExcept _
  generalize peerAddrs env a f = l
  induction l with
  | nil => trivial
  | cons a l ih => exact .bind (.chain trivial) fun _ => .bind ih fun _ => trivial
theorem encLoop_free (acc l) : (encLoop env n acc l).AllOps Op.free := by
  induction l generalizing acc with
  | nil => trivial
  | cons a l ih =>
    unfold encLoop; simp only [bind_eq]
    have h1 := config_free n
    have h2 := ownKeyhandle_free n
    allops <;> exact ih _
theorem encryptMime_takes (m a) : (encryptMime env n m a).Takes [.run .encrypt] := by
  unfold encryptMime; simp only [bind_eq, pure_eq]
  exact .bindR (.assert _) fun _ => .bindR (encLoop_free env n _ _) fun _ => .bindR (ownKeyhandle_free n) fun _ =>
    .bindR (.hookBeforeEnc trivial) fun _ => .bindR (.ofExcept _) fun _ => .bindR (bingpg_free env n) fun _ =>
    .bindR (ownKeyhandle_free n) fun _ => .bindL (BinGPG.encrypt_takes env _ _ _ _) fun _ => trivial
theorem outgoingBody_takes (m e) : (outgoingBody env n m e).Takes [.run .encrypt] := by
  unfold outgoingBody; simp only [bind_eq, pure_eq]
  refine .bindR (.ofExcept _) fun b => ?_
  split
  · exact .pure _
  split
  · refine .bindR (recommendation_free env n _ _ _) fun r => ?_
    split
    · split
      · exact .bindL (encryptMime_takes env n _ _) fun _ => trivial
      · split
        · exact .raise _
        · exact .pure _
    · exact .pure _
  · exact .raise _
theorem processOutgoing_takes (m) : (processOutgoing env n m).Takes [.run .exportPublic, .run .encrypt] := by
  unfold processOutgoing; simp only [bind_eq, pure_eq]
  refine .bindR (.ofExcept _) fun e => .bind (L := [_]) ?_ fun x => .bindL (outgoingBody_takes env n _ _) fun _ => trivial
  split
  · exact .pure _
  · exact .bindL (makeAcHeader_takes env n _) fun _ => trivial
theorem updateFromMsg_takes (h u) : (Peer.updateFromMsg h u).Takes [.entry] := by
  unfold Peer.updateFromMsg; simp only [bind_eq, pure_eq]
  refine .bindR (.chain trivial) fun _ => .bindR (.ofExcept _) fun o => ?_
  split
  · exact .append _ _
  · exact .pure _
theorem updateFromGossip_takes (h u) : (Peer.updateFromGossip h u).Takes [.entry] := by
  unfold Peer.updateFromGossip; simp only [bind_eq, pure_eq]
  refine .bindR (.chain trivial) fun _ => .bindR (.ofExcept _) fun o => ?_
  split
  · exact .append _ _
  · exact .pure _

/-- what is taken for one key received by mail -/
def oneKey : List Item := [.run .importKeys, .run .listPublic, .entry]

theorem gossipLoop_takes (dict d i pr l) :
    (gossipLoop env n dict d i pr l).Takes ((l.filter fun r => (dictGet dict r).isSome).flatMap fun _ => oneKey) := by
  induction l generalizing pr with
  | nil => exact .pure _
  | cons r rs ih =>
    unfold gossipLoop
    split
    · rename_i h
      rw [List.filter_cons_of_neg (by rw [h]; simp)]
      exact ih _
    · rename_i h
      rw [List.filter_cons_of_pos (by rw [h]; simp), List.flatMap_cons]
      simp only [bind_eq]
      show Prog.Takes ([.run .importKeys, .run .listPublic] ++ ([.entry] ++ _)) _
      exact .bind (importPah_takes env n _) fun x => .bind (updateFromGossip_takes _ _) fun _ => ih _
theorem processAutocryptHeader_takes (m f h d i) : (processAutocryptHeader env n m f h d i).Takes oneKey := by
  unfold processAutocryptHeader; simp only [bind_eq, pure_eq]
  refine .bindR (.ofExcept _) fun p => .bind (L := [_, _]) (L' := [_]) ?_ fun _ => .bindL (updateFromMsg_takes _ _) fun _ => trivial
  split
  · exact .pure _
  · exact importPah_takes env n _

theorem createKey_takes (k) : (createKey env n k).Takes (match k with | none => [.run .generate, .run .listPublic] | some _ => [.run .listSecret]) := by
  unfold createKey
  cases k with
  | none =>
    simp only [bind_eq]
    exact .bindR (.uuid trivial) fun _ => .bindR (bingpg_free env n) fun _ => BinGPG.genSecretKey_takes env _ _
  | some k =>
    simp only [bind_eq, pure_eq]
    refine .bindR (bingpg_free env n) fun _ => .bindL (BinGPG.getSecretKeyhandle_takes env _ _) fun _ => ?_
    split <;> trivial

theorem create_takes (r k b m) : (create env n r k b m).Takes (.entry ::
    ((match k with | none => [.run .generate, .run .listPublic] | some _ => [.run .listSecret]) ++ [.run .exportSecret, .entry])) := by
  unfold create Own.newConfig Own.appendKeygen; simp only [bind_eq, pure_eq]
  refine .bindR ?_ fun _ => .bind (L := [_]) (.append _ _) fun _ => .bind (createKey_takes env n k) fun _ =>
    .bindR (bingpg_free env n) fun _ =>
    .bind (L := [_]) (BinGPG.getSecretKeydata_takes env _ _ _) fun _ => .append _ _
  split
  · trivial
  split <;> trivial

theorem importLoop_takes (p k l) : (importLoop env n p k l).Takes (l.flatMap fun _ => [.run .exportPublic, .entry]) := by
  induction l with
  | nil => exact .pure _
  | cons a l ih =>
    unfold importLoop; simp only [bind_eq]
    exact .bindR (.now trivial) fun _ => .bindR (bingpg_free env n) fun _ =>
      .bind (L := [_]) (BinGPG.getPublicKeydata_takes env _ _ _) fun _ => .bind (L := [_]) (updateFromMsg_takes _ _) fun _ => ih

end Account

theorem getAccount_takes (env : Env) (n : Str) (b : Bool) : (Manager.getAccount env n b).Takes [.entry] := by
  unfold Manager.getAccount Manager.ensureInit Manager.init Mgr.setVersion Manager.account Account.exists_
  simp only [bind_eq, pure_eq]
  refine .bindL (.bindR (.chain trivial) fun es => ?_) fun _ => by allops
  split
  · exact .pure _
  · exact .bindR (.chain trivial) fun _ => .bindR (.assert _) fun _ => .bindR (.chain trivial) fun _ => .bindR (.assert _) fun _ => .append _ _

theorem onAccount_takes (env : Env) (n : Str) {p : Prog α} {L : List Item} (hp : p.Takes L) : (onAccount env n p).Takes L :=
  .bindR (.assert _) fun _ => .bindL hp fun _ => trivial

/-! ## Calls -/

/-- how often gpg is run for what -/
def ApiCall.gpgRuns : ApiCall → List GpgTask
  | .addAccount _ _ none _ _ => [.generate, .listPublic, .exportSecret]
  | .addAccount _ _ (some _) _ _ => [.listSecret, .exportSecret]
  | .makeAcHeader .. | .exportPublicKey .. => [.exportPublic]
  | .exportSecretKey _ => [.exportSecret]
  | .processOutgoing .. => [.exportPublic, .encrypt]
  | .encryptMime .. => [.encrypt]
  | .decryptMime .. => [.decrypt]
  | _ => []

/-- how many entries are stored. Opening an account writes the version of the format, when this is the first time. -/
def ApiCall.newEntries : ApiCall → Nat
  | .addAccount .. => 3
  | .modAccount .. => 2
  | .init | .getAccount .. | .delAccount .. | .accountFromEmailadr .. | .matchingAccount .. => 1
  | .peerMsg .. | .peerGossip .. | .verifySelf .. | .verifyPeer .. => 1
  | _ => 0

theorem count_gpg (L : List GpgTask) (k : Nat) (u : GpgTask) : (L.map Item.run ++ List.replicate k Item.entry).count (Item.run u) = L.count u := by
  rw [List.count_append, List.count_replicate]
  induction L with
  | nil => rfl
  | cons v L ih =>
    rw [List.map_cons, List.count_cons, List.count_cons, ← ih]
    have : (Item.run v == Item.run u) = (v == u) := by
      rw [Bool.eq_iff_iff, beq_iff_eq, beq_iff_eq, Item.run.injEq]
    rw [this]; omega

theorem count_entry (L : List GpgTask) (k : Nat) : (L.map Item.run ++ List.replicate k Item.entry).count Item.entry = k := by
  rw [List.count_append, List.count_replicate, List.count_eq_zero_of_not_mem (by simp)]; simp

theorem Item.perm {L L' : List Item} (h : L.Perm L') (i : Item) : L.count i ≤ L'.count i := Nat.le_of_eq (h.count_eq i)


/-- The first entry of all is written at most once. -/
theorem lookup_entries (O : Oracle K) (env : Env) (w : World Store K) (c : ApiCall) (hinit : ∀ a, c.acts env a → a = .setVersion) :
    entryCount (exec O (c.prog env) w).2.store ≤ entryCount w.store + 1 := by
  have := (safe_call env c).respects (O := O)
    (R := fun w w' => entryCount w'.store + (if (Mgr.version (w'.log managerHead)).isNone then 1 else 0) ≤
      entryCount w.store + (if (Mgr.version (w.log managerHead)).isNone then 1 else 0))
    (fun _ _ _ h1 h2 => Nat.le_trans h2 h1) (fun _ _ h _ _ _ => by unfold World.log; rw [h]; exact Nat.le_refl _) ?_ w
  · have h2 : (if (Mgr.version (w.log managerHead)).isNone then 1 else 0) ≤ 1 := by split <;> decide
    omega
  · intro a ha w
    rw [hinit a ha]
    have := store_act O .setVersion w
    dsimp only at this
    unfold World.log
    rw [this]
    split
    · rename_i hv
      rw [entryCount_push, Store.get_push, if_pos rfl]
      simp [Mgr.version, Entry.acfg?]
    · rename_i hv; simp [hv]

theorem addAccount_takes (env : Env) (n r k b m) : (Manager.addAccount env n r k b m).Takes (.entry :: .entry ::
    ((match k with | none => [.run .generate, .run .listPublic] | some _ => [.run .listSecret]) ++ [.run .exportSecret, .entry])) := by
  unfold Manager.addAccount; simp only [bind_eq, pure_eq]
  refine .bind (L := [_]) (getAccount_takes env n false) fun a => .bindR ?_ fun e => ?_
  · unfold Account.exists_; simp only [bind_eq, pure_eq]; allops
  · cases e
    case true => exact .raise _
    case false => exact .bindL (Account.create_takes env a _ k b m) fun _ => trivial

theorem call_takes (env : Env) (c : ApiCall) (h1 : ∀ n m i d, c ≠ .processIncoming n m i d) (h2 : ∀ n a k p, c ≠ .importKey n a k p)
    (h3 : ¬ c.looksUp) : (c.prog env).Takes (c.gpgRuns.map .run ++ List.replicate c.newEntries .entry) := by
  cases c
  case processIncoming n m i d => exact absurd rfl (h1 n m i d)
  case importKey n a k p => exact absurd rfl (h2 n a k p)
  case getAccount => exact absurd trivial h3
  case accountFromEmailadr => exact absurd trivial h3
  case matchingAccount => exact absurd trivial h3
  case init => exact .bindR (.chain trivial) fun _ => .bindR (.assert _) fun _ => .bindR (.chain trivial) fun _ => .bindR (.assert _) fun _ => .append _ _
  case addAccount n r k b m =>
    cases k with
    | none =>
      have hp : List.Perm [Item.entry, .entry, .run .generate, .run .listPublic, .run .exportSecret, .entry]
        [.run .generate, .run .listPublic, .run .exportSecret, .entry, .entry, .entry] := by decide
      exact .bindL ((addAccount_takes env n r none b m).up (Item.perm hp)) fun _ => trivial
    | some k =>
      have hp : List.Perm [Item.entry, .entry, .run .listSecret, .run .exportSecret, .entry]
        [.run .listSecret, .run .exportSecret, .entry, .entry, .entry] := by decide
      exact .bindL ((addAccount_takes env n r (some k) b m).up (Item.perm hp)) fun _ => trivial
  case modAccount n r k b p =>
    unfold ApiCall.prog Manager.modAccount Account.modify Own.changeConfig; simp only [bind_eq, pure_eq]
    refine .bindL (.bind (L := [_]) (L' := [_]) (getAccount_takes env n true) fun a => .bindL (.bindR (.chain trivial) fun es => ?_) fun _ => trivial) fun _ => trivial
    split
    · exact .raise _
    · refine .bindR (.ofExcept _) fun _ => ?_
      split
      · exact .bindL (.append _ _) fun _ => trivial
      · exact .pure _
  case delAccount n =>
    unfold ApiCall.prog Manager.delAccount removeAccount; simp only [bind_eq]
    exact .bindL (getAccount_takes env n true) fun _ => ⟨trivial, fun r => .ofExcept r⟩
  case listAccountNames => exact .free (.bind (.bind (.heads trivial) fun _ => trivial) fun _ => trivial)
  case removeAll => exact .free ⟨trivial, fun _ => ⟨trivial, fun _ => trivial⟩⟩
  case peernames n => exact onAccount_takes env n (.free (.bind (.heads trivial) fun _ => trivial))
  case recommendation n as r f => exact onAccount_takes env n (.free (Account.recommendation_free env n as r f))
  case makeAcHeader n a => exact onAccount_takes env n (Account.makeAcHeader_takes env n a)
  case exportPublicKey n k => exact onAccount_takes env n (Account.exportPublicKey_takes env n k)
  case exportSecretKey n => exact onAccount_takes env n (Account.exportSecretKey_takes env n)
  case processOutgoing n m => exact onAccount_takes env n (Account.processOutgoing_takes env n m)
  case encryptMime n m as => exact onAccount_takes env n (Account.encryptMime_takes env n m as)
  case decryptMime n m => exact onAccount_takes env n (Account.decryptMime_takes env n m)
  case peerMsg n a u => exact onAccount_takes env n (Account.updateFromMsg_takes _ u)
  case peerGossip n a u => exact onAccount_takes env n (Account.updateFromGossip_takes _ u)
  case verifySelf n a k => exact onAccount_takes env n (.append _ _)
  case verifyPeer n a k => exact onAccount_takes env n (.append _ _)
  case getVerification n a =>
    refine onAccount_takes env n (.free ?_)
    unfold OOB.getVerification; simp only [bind_eq, pure_eq]; allops

/-! ## Runs -/

/-- between the two worlds no more than this was taken -/
def Taken (L : List Item) (w w' : World Store K) : Prop := ∀ i, i ≠ .run .version → i.amount w' ≤ i.amount w + L.count i

theorem Taken.trans {L L' : List Item} {w w1 w2 : World Store K} (h : Taken L w w1) (h' : Taken L' w1 w2) : Taken (L ++ L') w w2 := fun i hi => by
  have h1 := h i hi
  have h2 := h' i hi
  rw [List.count_append]; omega

theorem Prog.Takes.taken {p : Prog α} {L : List Item} (h : p.Takes L) {O : Oracle K} {w w' : World Store K} {r : Except Exc α} (hr : exec O p w = (r, w')) :
    Taken L w w' := fun i hi => by
  have := h.run_le hi O w
  rwa [hr] at this

theorem taken_nil {O : Oracle K} {p : Prog α} {w w' : World Store K} {r : Except Exc α} (h : p.AllOps Op.free) (hr : exec O p w = (r, w')) : Taken [] w w' :=
  (Prog.Takes.free h).taken hr

/-- for every way in which the first part can end -/
theorem bind_elim {O : Oracle K} {p : Prog α} {f : α → Prog β} {w : World Store K} {Q : World Store K → Prop}
    (h : ∀ e w1, exec O p w = (.error e, w1) → Q w1) (h' : ∀ a w1, exec O p w = (.ok a, w1) → Q (exec O (f a) w1).2) : Q (exec O (p.bind f) w).2 := by
  simp only [exec, run_bind] at h h' ⊢
  cases hp : run Store.impl O p w with
  | mk r w1 =>
    cases r with
    | error e => exact h e w1 hp
    | ok a => exact h' a w1 hp

theorem count_keys (G : List Str) (i : Item) : (G.flatMap fun _ => Account.oneKey).count i = G.length * Account.oneKey.count i := by
  induction G with
  | nil => simp
  | cons r G ih => rw [List.flatMap_cons, List.count_append, ih, List.length_cons, Nat.succ_mul]; omega

/-- the addressees of an incoming mail for whom it brings keys: those of the decrypted mail with a valid header -/
def Introduced (env : Env) (m : Msg) (nd : Bool) (w w' : World Store K) (G : List Str) : Prop :=
  G = [] ∨ nd = false ∧ PgpMime m ∧ ∃ dec, DecryptedTo w w' m dec ∧ G.Sublist (decRecipients env m dec) ∧
    ∀ r ∈ G, ∃ v ∈ innerOuter env m dec (str!"Autocrypt-Gossip"), ∃ p, ValidFor env r v p

/-- what was taken for an incoming mail -/
def MailTaken (env : Env) (m : Msg) (nd : Bool) (w : World Store K) (L : List Item) (w' : World Store K) : Prop :=
  ∃ G, Introduced env m nd w w' G ∧ Taken (L ++ G.flatMap fun _ => Account.oneKey) w w'

theorem incoming_taken (O : Oracle K) (env : Env) (n : Str) (m : Msg) (i nd : Bool) (w : World Store K) :
    MailTaken env m nd w (Account.oneKey ++ (if nd then [] else [.run .decrypt])) (exec O (Account.processIncoming env n m i nd) w).2 := by
  generalize hL : Account.oneKey ++ (if nd then [] else [.run .decrypt]) = L
  have hL1 : ∀ j, Account.oneKey.count j ≤ L.count j := fun j => by rw [← hL, List.count_append]; omega
  have early : ∀ w1, Taken L w w1 → MailTaken env m nd w L w1 :=
    fun w1 h => ⟨[], .inl rfl, by simpa using h⟩
  have more : ∀ {L' w1}, (∀ j, L'.count j ≤ L.count j) → Taken L' w w1 → Taken L w w1 := fun h h' j hj => Nat.le_trans (h' j hj) (Nat.add_le_add_left (h j) _)
  unfold Account.processIncoming
  simp only [bind_eq, pure_eq]
  refine bind_elim (Q := MailTaken env m nd w L) (fun e w1 h => early _ (more (by simp) (taken_nil (.ofExcept _) h))) fun d w1 h => ?_
  have ht1 := taken_nil (.ofExcept _) h
  have hs1 : w.trace <:+ w1.trace := trace_le h
  have hfd : (effectiveDate d).AllOps Op.free := by unfold effectiveDate; simp only [bind_eq, pure_eq]; allops
  refine bind_elim (Q := MailTaken env m nd w L) (fun e w2 h => early _ (more (by simp) (ht1.trans (taken_nil hfd h)))) fun t w2 h => ?_
  have ht2 := ht1.trans (taken_nil hfd h)
  have hs2 : w.trace <:+ w2.trace := hs1.trans (trace_le h)
  have hfk : ∀ hd : Str, (if i = true then (Prog.chain hd).bind fun es => Prog.pure (Peer.hasMessage es (messageId m)) else Prog.pure false : Prog Bool).AllOps Op.free := by
    intro hd; split
    · exact .bind (.chain trivial) fun _ => trivial
    · trivial
  refine bind_elim (Q := MailTaken env m nd w L) (fun e w3 h => early _ (more (by simp) (ht2.trans (taken_nil (hfk _) h)))) fun known w3 h => ?_
  have ht3 := ht2.trans (taken_nil (hfk _) h)
  have hs3 : w.trace <:+ w3.trace := hs2.trans (trace_le h)
  cases known
  case true => exact early _ (more (by simp) ht3)
  simp only [Bool.false_eq_true, if_false]
  refine bind_elim (Q := MailTaken env m nd w L) (fun e w4 h => early _ (more hL1 (ht3.trans ((Account.processAutocryptHeader_takes env n m _ _ _ _).taken h)))) fun pah w4 h => ?_
  have ht4 : Taken Account.oneKey w w4 := ht3.trans ((Account.processAutocryptHeader_takes env n m _ _ _ _).taken h)
  have hs4 : w.trace <:+ w4.trace := hs3.trans (trace_le h)
  have hfe : (if nd = true then Prog.pure false else Prog.ofExcept (isEncrypted m) : Prog Bool).AllOps Op.free := by
    split
    · trivial
    · exact .ofExcept _
  have ht5' : ∀ {r w5}, exec O (if nd = true then Prog.pure false else Prog.ofExcept (isEncrypted m) : Prog Bool) w4 = (r, w5) → Taken Account.oneKey w w5 := by
    intro r w5 h
    have := ht4.trans (taken_nil hfe h)
    rwa [List.append_nil] at this
  refine bind_elim (Q := MailTaken env m nd w L) (fun e w5 h => early _ (more hL1 (ht5' h))) fun enc w5 h => ?_
  have hs5 : w.trace <:+ w5.trace := hs4.trans (trace_le h)
  cases enc
  case false => exact early _ (more hL1 (ht5' h))
  have ht5 := ht5' h
  have hne : nd = false ∧ isEncrypted m = .ok true := by
    cases nd
    · refine ⟨rfl, ?_⟩
      simp only [Bool.false_eq_true, if_false, exec, run_ofExcept] at h
      exact congrArg Prod.fst h
    · cases h
  obtain ⟨rfl, he⟩ := hne
  simp only [if_true]
  have hL2 : L = Account.oneKey ++ [.run .decrypt] := hL.symm
  have early2 : ∀ w1, Taken (Account.oneKey ++ [.run .decrypt]) w w1 → MailTaken env m false w L w1 :=
    fun w1 h => early w1 (by rwa [hL2])
  simp only [Prog.bind_assoc]
  refine bind_elim (Q := MailTaken env m false w L) (fun e w6 h => early2 _ (ht5.trans ((Account.decryptMime_takes env n m).taken h))) fun dr w6 h => ?_
  have ht6 := ht5.trans ((Account.decryptMime_takes env n m).taken h)
  obtain ⟨dec, hdm, hdt⟩ := decryptMime_ok h
  have hs6 : w.trace <:+ w6.trace := hs5.trans (trace_le h)
  unfold Account.processGossipHeaders
  simp only [bind_eq, Prog.bind_assoc]
  refine bind_elim (Q := MailTaken env m false w L) (fun e w7 h => early2 _ (by have := ht6.trans (taken_nil (.ofExcept _) h); rwa [List.append_nil] at this)) fun dict w7 h => ?_
  have ht7 : Taken (Account.oneKey ++ [.run .decrypt]) w w7 := by have := ht6.trans (taken_nil (.ofExcept _) h); rwa [List.append_nil] at this
  simp only [exec, run_ofExcept] at h
  have hdict : getGossipHeadersFromMsg env dr.decMsg = .ok dict := congrArg Prod.fst h
  have hw7 : w6 = w7 := congrArg Prod.snd h
  subst hw7
  have hgh : dr.decMsg.getAll (str!"Autocrypt-Gossip") = innerOuter env m dec (str!"Autocrypt-Gossip") := by
    rw [hdm]; exact getAll_transfer _ _ (by decide)
  rw [getGossipHeadersFromMsg, hgh] at hdict
  have htgt : getTargetEmailadr env dr.decMsg = decRecipients env m dec := by
    rw [hdm, getTargetEmailadr, getAll_transfer _ _ (by decide), getAll_transfer _ _ (by decide), decRecipients]
    simp only [innerOuter]
    rw [getAll_congr _ (show Py.lower (str!"To") = Py.lower (str!"to") by decide),
      getAll_congr _ (show Py.lower (str!"Cc") = Py.lower (str!"cc") by decide),
      getAll_congr m (show Py.lower (str!"To") = Py.lower (str!"to") by decide),
      getAll_congr m (show Py.lower (str!"Cc") = Py.lower (str!"cc") by decide)]
  rw [htgt]
  have last : ∀ w8, w6.trace <:+ w8.trace → Taken (((decRecipients env m dec).filter fun r => (dictGet dict r).isSome).flatMap fun _ => Account.oneKey) w6 w8 →
      MailTaken env m false w L w8 := by
    intro w8 hs h
    refine ⟨_, .inr ⟨rfl, by spec_mail; exact he, dec, hdt.mono hs5 hs, List.filter_sublist, fun r hr => ?_⟩, by rw [hL2]; exact ht7.trans h⟩
    obtain ⟨p, hp⟩ := Option.isSome_iff_exists.mp (List.mem_filter.mp hr).2
    rcases collectGossip_get hdict r p hp with ⟨h7, _⟩ | ⟨v, ⟨x, y, hl, _⟩, hv⟩
    · cases h7
    · exact ⟨v, by rw [hl]; simp, p, hv⟩
  refine bind_elim (Q := MailTaken env m false w L) (fun e w8 h => last _ (trace_le h) ((Account.gossipLoop_takes env n dict t _ [] _).taken h)) fun out w8 h => ?_
  have ht8 := (Account.gossipLoop_takes env n dict t _ [] _).taken h
  have hs8 : w6.trace <:+ w8.trace := trace_le h
  have hrest : ∀ q : Prog (Option Account.IncomingResult), q.AllOps Op.free → MailTaken env m false w L (exec O q w8).2 := by
    intro q hq
    have := ht8.trans (taken_nil (O := O) (w' := (exec O q w8).2) hq rfl)
    rw [List.append_nil] at this
    exact last _ (hs8.trans (run_trace _ _)) this
  exact hrest _ (.bind (Account.ownKeyhandle_free n) fun _ => .bind (.hookIncomingGossip trivial) fun _ => trivial)

/-! ## Import of keys -/

/-- what the import of a key takes, with this number of addresses -/
def importTakes (named : Bool) (k : Nat) : List Item :=
  [.run .importKeys, .run .listPublic] ++ ((if named then [] else [.run .listPublic]) ++
    ([.run .importKeys, .run .listPublic, .run .exportPublic, .run .delete, .run .importKeys, .run .listPublic] ++
      ((List.replicate k [Item.run .exportPublic, .entry]).flatten ++ [.run .exportPublic])))

theorem importLoop_takes' (env : Env) (n p k : Str) (l : List Str) :
    (Account.importLoop env n p k l).Takes (List.replicate l.length [Item.run .exportPublic, .entry]).flatten := by
  have := Account.importLoop_takes env n p k l
  rwa [List.flatMap_def, List.map_const'] at this

/-- the part after the addresses are known -/
theorem importRest_takes (env : Env) (n p : Str) (k : Bytes) (as : List Str) :
    ((Account.bingpg env n).bind fun g => (BinGPG.importKeydata env g k true).bind fun kh => (Account.importLoop env n p kh as).bind fun _ =>
      (Account.bingpg env n).bind fun g => (BinGPG.getPublicKeydata env g kh).bind fun kd =>
      Prog.pure ({ addrs := as, pe := p, keyhandle := kh, keydata := kd } : Account.ImportResult)).Takes
    ([.run .importKeys, .run .listPublic, .run .exportPublic, .run .delete, .run .importKeys, .run .listPublic] ++
      ((List.replicate as.length [Item.run .exportPublic, .entry]).flatten ++ [.run .exportPublic])) :=
  .bindR (Account.bingpg_free env n) fun g => .bind (BinGPG.importMinimal_takes env g k) fun kh => .bind (importLoop_takes' env n p kh as) fun _ =>
    .bindR (Account.bingpg_free env n) fun g => .bindL (BinGPG.getPublicKeydata_takes env g kh _) fun _ => trivial

theorem import_named (env : Env) (n a : Str) (k : Bytes) (p : Str) : (Account.importKeydataAsAutocrypt env n (some a) k p).Takes (importTakes true 1) := by
  unfold Account.importKeydataAsAutocrypt importTakes; simp only [bind_eq, pure_eq]
  exact .bindR (Account.bingpg_free env n) fun g => .bind (BinGPG.import_takes env g k) fun kh => importRest_takes env n p k [_]

theorem import_all {O : Oracle K} {env : Env} {n : Str} {a : Option Str} {k : Bytes} {p : Str} {w w' : World Store K} {res : Account.ImportResult}
    (h : exec O (Account.importKeydataAsAutocrypt env n a k p) w = (.ok res, w')) : Taken (importTakes a.isSome res.addrs.length) w w' := by
  unfold Account.importKeydataAsAutocrypt at h; simp only [bind_eq, pure_eq, exec] at h
  obtain ⟨g, w1, h1, h⟩ := run_bind_ok.mp h
  obtain ⟨kh, w2, h2, h⟩ := run_bind_ok.mp h
  obtain ⟨as, w3, h3, h⟩ := run_bind_ok.mp h
  have has : res.addrs = as := by
    obtain ⟨_, _, _, h⟩ := run_bind_ok.mp h
    obtain ⟨_, _, _, h⟩ := run_bind_ok.mp h
    obtain ⟨_, _, _, h⟩ := run_bind_ok.mp h
    obtain ⟨_, _, _, h⟩ := run_bind_ok.mp h
    obtain ⟨_, _, _, h⟩ := run_bind_ok.mp h
    cases h; rfl
  have t4 := (importRest_takes env n p k as).taken h
  rw [← has] at t4
  have t3 : Taken (if a.isSome then [] else [.run .listPublic]) w2 w3 := by
    cases a with
    | some a => exact (Prog.Takes.pure _).taken h3
    | none =>
      refine Prog.Takes.taken (p := (Account.bingpg env n).bind fun g => (BinGPG.listPublicKeyinfos env g (some kh)).bind fun l => Prog.pure (Account.uidAddrs env kh l)) ?_ h3
      exact .bindR (Account.bingpg_free env n) fun _ => .bindL (BinGPG.listPublic_takes env _ _) fun _ => trivial
  exact (taken_nil (Account.bingpg_free env n) h1).trans (((BinGPG.import_takes env g k).taken h2).trans (t3.trans t4))

theorem count_pairs (k : Nat) (i : Item) : ((List.replicate k [Item.run .exportPublic, .entry]).flatten).count i = k * [Item.run .exportPublic, .entry].count i := by
  induction k with
  | zero => simp
  | succ k ih => rw [List.replicate_succ, List.flatten_cons, List.count_append, ih, Nat.succ_mul]; omega

/-! ## Mails -/

/-- the commands which may send a mail: `sendmail`, and the bot if it is given a mail server -/
def Cmd.Command.sends : Cmd.Command → Bool
  | .sendmail .. => true
  | .botReply _ smtp _ _ => !(smtp.getD []).isEmpty
  | _ => false

theorem Op.noMail.cost {o : Op} (h : o.noMail) : o.cost .mail = 0 := by
  cases o with
  | ext o =>
    cases o with
    | sendmail => exact h.elim
    | emit x => cases x <;> first | rfl | exact h.elim
    | _ => rfl
  | _ => rfl

theorem Mailless.none {p : Prog α} (h : Mailless p) : p.AtMost (Op.cost .mail) 0 := .free (h.mono fun _ => Op.noMail.cost)

theorem Prog.AtMost.after {p : Prog α} {f : α → Prog β} {k : Nat} (hp : Mailless p) (hf : ∀ a, (f a).AtMost (Op.cost .mail) k) :
    (p.bind f).AtMost (Op.cost .mail) k := by
  have := hp.none.bind hf
  rwa [Nat.zero_add] at this

section
variable (ce : CmdEnv) (be : BotEnv) (env : Env)

theorem deliver_mail (s : Option Str) (m : Msg) : (Bot.deliver env s m).AtMost (Op.cost .mail) (if (s.getD []).isEmpty then 0 else 1) := by
  unfold Bot.deliver
  split
  · exact Mailless.none (.emit _ trivial)
  · split
    · refine .after (.ofExcept _) fun p => .bind (n := 1) (m := 0) ?_ fun _ => Mailless.none (.emit _ trivial)
      exact ⟨Nat.le_refl _, fun r => Mailless.none (.ofExcept r)⟩
    · trivial

theorem reply_mail (v s f m) : (Bot.reply env be v s f m).AtMost (Op.cost .mail) (if (s.getD []).isEmpty then 0 else 1) := by
  unfold Bot.reply; simp only [bind_eq]
  generalize hk : (if (s.getD []).isEmpty then 0 else 1) = k
  refine .after (.ofExcept _) fun d => .after (Manager.mailless_getAccountFromEmailadr env _ _) fun a => ?_
  cases a with
  | none => trivial
  | some a => ?_
  refine .after (Account.mailless_processIncoming env _ _ _ _) fun r => ?_
  cases r with
  | none => trivial
  | some r => ?_
  unfold Bot.answer; simp only [bind_eq, pure_eq]
  refine .after (Bot.mailless_processed env _ _ _) fun _ => .after (Bot.mailless_keysOf env _ _) fun _ => .after (Account.mailless_ownKeyhandle _) fun _ =>
    .after (Bot.mailless_recFor env _ _) fun r => ?_
  split
  · trivial
  split
  · trivial
  split
  · exact (Mailless.none (Bot.mailless_replyNoFrom env be _ _ _)).mono (Nat.zero_le _)
  · subst hk
    exact .after (Bot.mailless_makeReply env be _ _ _ _ _ _) fun _ => deliver_mail env s _

theorem sendmail_mail (l m) : (Cmd.sendmail ce env l m).AtMost (Op.cost .mail) 1 := by
  unfold Cmd.sendmail; simp only [bind_eq, pure_eq]
  refine .after (.assert _) fun _ => .after (Cmd.mailless_processOutgoing env _) fun _ => .after (.findExecutable _) fun _ => .bind (n := 1) (m := 0) ?_ fun r => ?_
  · exact ⟨Nat.le_refl _, fun r => Mailless.none (.ofExcept r)⟩
  · split
    · exact Mailless.none (.bind (Cmd.mailless_say _) fun _ => trivial)
    · trivial

theorem body_mail (c : Cmd.Command) : (c.body ce be env).AtMost (Op.cost .mail) (if c.sends then 1 else 0) := by
  by_cases h : (∃ l m, c = .sendmail l m) ∨ ∃ v s f m, c = .botReply v s f m
  · rcases h with ⟨l, m, rfl⟩ | ⟨v, s, f, m, rfl⟩
    · exact sendmail_mail ce env l m
    · unfold Cmd.Command.body; simp only [bind_eq, pure_eq]
      refine (Prog.AtMost.bind (m := 0) (reply_mail be env v s f m) fun _ => ?_).mono ?_
      · trivial
      · unfold Cmd.Command.sends
        simp only [Nat.add_zero, Bool.not_eq_true']
        cases (s.getD []).isEmpty <;> simp
  · refine (Mailless.none ?_).mono (Nat.zero_le _)
    unfold Cmd.Command.body Cmd.addAccount Cmd.modAccount; simp only [bind_eq, pure_eq]
    mailless [Cmd.mailless_say, Cmd.mailless_status, Cmd.mailless_statusAccount, Manager.mailless_getAccount, Manager.mailless_addAccount, Manager.mailless_modAccount,
      Manager.mailless_delAccount, Cmd.mailless_accountFor, Cmd.mailless_processIncoming, Cmd.mailless_sayReport, Cmd.mailless_scandir,
      Account.mailless_importKeydataAsAutocrypt, Cmd.mailless_sayAddrs, Cmd.mailless_peerstate, Account.mailless_recommendation, Cmd.mailless_processOutgoing,
      Account.mailless_makeAcHeader, Account.mailless_exportPublicKey, Account.mailless_exportSecretKey, Cmd.mailless_managerExists, Cmd.mailless_destroyAll]
    all_goals first
      | exact absurd (.inl ⟨_, _, rfl⟩) h
      | exact absurd (.inr ⟨_, _, _, _, rfl⟩) h
      | exact .emit _ trivial

theorem command_mail (c : Cmd.Command) : (c.prog ce be env).AtMost (Op.cost .mail) (if c.sends then 1 else 0) := by
  unfold Cmd.Command.prog; simp only [bind_eq, pure_eq]
  refine .bind (m := 0) (body_mail ce be env c).attempt fun r => ?_
  split
  · trivial
  · split
    · exact Mailless.none (.bind (Cmd.mailless_say _) fun _ => trivial)
    · trivial
end

/-! ## What is claimed -/

theorem runsFor_mono {tr tr' : List Event} (h : tr <:+ tr') (u : GpgTask) : runsFor u tr ≤ runsFor u tr' := h.sublist.countP_le
theorem mailsSent_mono {tr tr' : List Event} (h : tr <:+ tr') : mailsSent tr ≤ mailsSent tr' := h.sublist.countP_le

/-- C135: what a call of the API does, other than processing an incoming mail and importing a key, is limited by the lists above. -/
theorem C135_calls (O : Oracle K) (env : Env) (c : ApiCall) (h1 : ∀ n m i d, c ≠ .processIncoming n m i d) (h2 : ∀ n a k p, c ≠ .importKey n a k p)
    (w : World Store K) :
    (∀ u, u ≠ .version → runsFor u (exec O (c.prog env) w).2.trace ≤ runsFor u w.trace + c.gpgRuns.count u) ∧
    entryCount (exec O (c.prog env) w).2.store ≤ entryCount w.store + c.newEntries := by
  by_cases h3 : c.looksUp
  · have hg : c.gpgRuns = [] ∧ c.newEntries = 1 ∧ c.gpgAccount = none ∧ ∀ a, c.acts env a → a = .setVersion := by
      cases c <;> first | exact h3.elim | exact ⟨rfl, rfl, rfl, fun a ha => by cases a <;> first | rfl | exact ha.elim⟩
    rw [hg.1, hg.2.1]
    refine ⟨fun u _ => ?_, lookup_entries O env w c hg.2.2.2⟩
    exact Prog.AtMost.run_le (.free ((others_noGpg env c hg.2.2.1).mono fun o ho => by
      cases o with
      | ext o => cases o <;> first | rfl | exact ho.elim
      | _ => rfl)) (Item.step_le (.run u) O) w
  · have ht := call_takes env c h1 h2 h3
    refine ⟨fun u hu => ?_, ?_⟩
    · have := ht.run_le (i := .run u) (fun h => hu (Item.run.inj h)) O w
      rwa [count_gpg] at this
    · have := ht.run_le (i := .entry) (fun h => nomatch h) O w
      rwa [count_entry] at this

/-- C135: for an incoming mail gpg decrypts at most once, and not at all if this is switched off. Keys are imported at most once for the sender
and once for each addressee of the decrypted mail with a valid gossip header, and for each of these at most one entry is stored. Gpg does nothing else. -/
theorem C135_incoming {O : Oracle K} {env : Env} {n : Str} {m : Msg} {i nd : Bool} {w w' : World Store K} {r : Except Exc (Option Account.IncomingResult)}
    (h : exec O (Account.processIncoming env n m i nd) w = (r, w')) :
    ∃ G, Introduced env m nd w w' G ∧
      entryCount w'.store ≤ entryCount w.store + 1 + G.length ∧
      runsFor .importKeys w'.trace ≤ runsFor .importKeys w.trace + 1 + G.length ∧
      runsFor .listPublic w'.trace ≤ runsFor .listPublic w.trace + 1 + G.length ∧
      runsFor .decrypt w'.trace ≤ runsFor .decrypt w.trace + (if nd then 0 else 1) ∧
      ∀ u, u ∉ [GpgTask.version, .importKeys, .listPublic, .decrypt] → runsFor u w'.trace = runsFor u w.trace := by
  obtain ⟨G, hG, ht⟩ := incoming_taken O env n m i nd w
  have hs : w.trace <:+ w'.trace := trace_le h
  rw [h] at hG ht
  have hc : ∀ j, j ≠ .run .version → j.amount w' ≤ j.amount w + Account.oneKey.count j + (if nd then [] else [Item.run .decrypt]).count j + G.length * Account.oneKey.count j := by
    intro j hj
    have : j.amount w' ≤ _ := ht j hj
    rw [List.count_append, List.count_append, count_keys] at this
    omega
  refine ⟨G, hG, ?_, ?_, ?_, ?_, fun u hu => Nat.le_antisymm ?_ (runsFor_mono hs u)⟩
  · have := hc .entry (fun h => nomatch h)
    rw [show Account.oneKey.count .entry = 1 from rfl, show (if nd then [] else [Item.run .decrypt]).count .entry = 0 by cases nd <;> rfl] at this
    simpa [Item.amount] using this
  · have := hc (.run .importKeys) (by decide)
    rw [show Account.oneKey.count (.run .importKeys) = 1 from rfl, show (if nd then [] else [Item.run .decrypt]).count (.run .importKeys) = 0 by cases nd <;> rfl] at this
    simpa [Item.amount] using this
  · have := hc (.run .listPublic) (by decide)
    rw [show Account.oneKey.count (.run .listPublic) = 1 from rfl, show (if nd then [] else [Item.run .decrypt]).count (.run .listPublic) = 0 by cases nd <;> rfl] at this
    simpa [Item.amount] using this
  · have := hc (.run .decrypt) (by decide)
    rw [show Account.oneKey.count (.run .decrypt) = 0 from rfl, show (if nd then [] else [Item.run .decrypt]).count (.run .decrypt) = if nd then 0 else 1 by cases nd <;> rfl] at this
    simpa [Item.amount] using this
  · simp only [List.mem_cons, List.not_mem_nil, or_false, not_or] at hu
    have := hc (.run u) (fun h => hu.1 (Item.run.inj h))
    rw [show Account.oneKey.count (.run u) = 0 by revert hu; cases u <;> decide, show (if nd then [] else [Item.run .decrypt]).count (.run u) = 0 by revert hu; cases nd <;> cases u <;> decide] at this
    simpa [Item.amount] using this

/-- C135: for the import of a key by the user with an address there is at most one entry, three imports and the deletion of one key; without an address
there is at most one entry for each address of the result, if there is one. -/
theorem C135_import {O : Oracle K} {env : Env} {n : Str} {a : Option Str} {k : Bytes} {p : Str} {w w' : World Store K} {r : Except Exc Account.ImportResult}
    (h : exec O (Account.importKeydataAsAutocrypt env n a k p) w = (r, w')) {l : Nat} (hl : l = 1 ∧ a.isSome = true ∨ ∃ res, r = .ok res ∧ l = res.addrs.length) :
    entryCount w'.store ≤ entryCount w.store + l ∧ runsFor .importKeys w'.trace ≤ runsFor .importKeys w.trace + 3 ∧
    runsFor .listPublic w'.trace ≤ runsFor .listPublic w.trace + (if a.isSome then 3 else 4) ∧
    runsFor .exportPublic w'.trace ≤ runsFor .exportPublic w.trace + 2 + l ∧ runsFor .delete w'.trace ≤ runsFor .delete w.trace + 1 ∧
    ∀ u, u ∉ [GpgTask.version, .importKeys, .listPublic, .exportPublic, .delete] → runsFor u w'.trace = runsFor u w.trace := by
  have hs : w.trace <:+ w'.trace := trace_le h
  have ht : Taken (importTakes a.isSome l) w w' := by
    rcases hl with ⟨rfl, ha⟩ | ⟨res, rfl, rfl⟩
    · obtain ⟨b, rfl⟩ := Option.isSome_iff_exists.mp ha
      exact (import_named env n b k p).taken h
    · exact import_all h
  have hc : ∀ j, j ≠ .run .version → j.amount w' ≤ j.amount w + ([Item.run .importKeys, .run .listPublic].count j + ((if a.isSome then [] else [Item.run .listPublic]).count j +
      ([Item.run .importKeys, .run .listPublic, .run .exportPublic, .run .delete, .run .importKeys, .run .listPublic].count j +
      (l * [Item.run .exportPublic, .entry].count j + [Item.run .exportPublic].count j)))) := by
    intro j hj
    have := ht j hj
    unfold importTakes at this
    rwa [List.count_append, List.count_append, List.count_append, List.count_append, count_pairs] at this
  generalize hb : a.isSome = b at hc ⊢
  refine ⟨?_, ?_, ?_, ?_, ?_, fun u hu => Nat.le_antisymm ?_ (runsFor_mono hs u)⟩
  · have := hc .entry (fun h => nomatch h)
    cases b <;> simpa [Item.amount, List.count_cons] using this
  · have := hc (.run .importKeys) (by decide)
    cases b <;> simpa [Item.amount, List.count_cons] using this
  · have := hc (.run .listPublic) (by decide)
    cases b <;> simpa [Item.amount, List.count_cons] using this
  · have := hc (.run .exportPublic) (by decide)
    cases b <;> simp [Item.amount, List.count_cons] at this ⊢ <;> omega
  · have := hc (.run .delete) (by decide)
    cases b <;> simpa [Item.amount, List.count_cons] using this
  · simp only [List.mem_cons, List.not_mem_nil, or_false, not_or] at hu
    have := hc (.run u) (fun h => hu.1 (Item.run.inj h))
    revert hu this
    cases b <;> cases u <;> simp [Item.amount, List.count_cons]

/-- C135: calls of the API send no mail. -/
theorem C135_no_mail (O : Oracle K) (env : Env) (c : ApiCall) (w : World Store K) :
    mailsSent (exec O (c.prog env) w).2.trace = mailsSent w.trace :=
  Nat.le_antisymm ((Mailless.none (mailless_call env c)).run_le (Item.step_le .mail O) w) (mailsSent_mono (run_trace _ _))

/-- C135: a command sends at most one mail, and none unless it is `sendmail` or the bot with a mail server. -/
theorem C135_commands (O : Oracle K) (ce : CmdEnv) (be : BotEnv) (env : Env) (c : Cmd.Command) (w : World Store K) :
    mailsSent (exec O (c.prog ce be env) w).2.trace ≤ mailsSent w.trace + (if c.sends then 1 else 0) :=
  (command_mail ce be env c).run_le (Item.step_le .mail O) w

/-! ## The limits are reached -/
open Concrete

/-- C135: the first account: three entries; a key is generated and exported -/
example : entryCount (after [addA]).store = entryCount (after []).store + addA.newEntries ∧
    runsFor .generate (after [addA]).trace = addA.gpgRuns.count .generate ∧ runsFor .exportSecret (after [addA]).trace = addA.gpgRuns.count .exportSecret ∧
    (∀ n m i d, addA ≠ .processIncoming n m i d) ∧ ∀ n a k p, addA ≠ .importKey n a k p :=
  ⟨by decide +kernel, by decide +kernel, by decide +kernel, by intros; exact nofun, by intros; exact nofun⟩

/-- C135: an encrypted mail of Bob with a key, and gossip about Carol: decrypted once, two imports and two entries -/
example :
    let call := recvEnc (str!"1") (str!"100") [(str!"Autocrypt", ((mail bob (str!"1") (str!"100") [7]).get (str!"Autocrypt")).getD [])] [gossipField carol [8]]
    entryCount (after [addA, call]).store = entryCount (after [addA]).store + 1 + [carol].length ∧
    runsFor .importKeys (after [addA, call]).trace = runsFor .importKeys (after [addA]).trace + 1 + [carol].length ∧
    runsFor .decrypt (after [addA, call]).trace = runsFor .decrypt (after [addA]).trace + 1 := by decide +kernel

/-- C135: a key imported for an address: three imports, three exports, one deletion, one entry -/
example :
    let call := ApiCall.importKey (str!"a") (some bob) [1, 2] (str!"mutual")
    entryCount (after [addA, call]).store = entryCount (after [addA]).store + 1 ∧
    runsFor .importKeys (after [addA, call]).trace = runsFor .importKeys (after [addA]).trace + 3 ∧
    runsFor .exportPublic (after [addA, call]).trace = runsFor .exportPublic (after [addA]).trace + 3 ∧
    runsFor .delete (after [addA, call]).trace = runsFor .delete (after [addA]).trace + 1 := by decide +kernel

/-- C135: the bot sends its answer to a mail server, if there is one -/
example : mailsSent (exec oracle ((Cmd.Command.botReply botValues (some (str!"h,25")) none (botMail bob (str!"bot@x.org") [])).prog cmdEnv botEnv env) recWorld).2.trace =
      mailsSent recWorld.trace + 1 ∧
    mailsSent (exec oracle ((Cmd.Command.botReply botValues none none (botMail bob (str!"bot@x.org") [])).prog cmdEnv botEnv env) recWorld).2.trace =
      mailsSent recWorld.trace := by decide +kernel

end Verif
