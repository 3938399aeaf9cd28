import Verif.Props.GpgHome
import Verif.Props.Bot
/-!
# What gpg is used for (C113)

For each call of the API and each command a short list of the things for which it may run gpg, with the complete
command lines.
-/
namespace Verif
open Mime

/-- the things for which gpg is run -/
inductive GpgTask where
  | version | listPublic | listSecret | generate | exportPublic | exportSecret | encrypt | decrypt | importKeys | delete
deriving DecidableEq

/-- the word on the command line which tells gpg what to do -/
def GpgTask.word : GpgTask → Str
  | .version => str!"--version"
  | .listPublic => str!"--list-public-keys"
  | .listSecret => str!"--list-secret-keys"
  | .generate => str!"--gen-key"
  | .exportPublic => str!"--export"
  | .exportSecret => str!"--export-secret-key"
  | .encrypt => str!"--encrypt"
  | .decrypt => str!"--decrypt"
  | .importKeys => str!"--import"
  | .delete => str!"--delete-key"

/-- options which keep gpg from asking for a passphrase -/
def Unasked (l : List Str) : Prop :=
  l = [str!"--passphrase", str!"123"] ∨ l = [str!"--passphrase", str!"123", str!"--pinentry-mode=loopback"]

/-- the arguments for each use, and whether something is written to stdin -/
def GpgTask.Args : GpgTask → List Str → Bool → Prop
  | .version, l, i => l = [str!"--version"] ∧ i = false
  | .listPublic, l, i => ∃ k, l = [str!"--skip-verify", str!"--with-colons", str!"--list-public-keys", k] ∧ i = false
  | .listSecret, l, i => ∃ k, l = [str!"--skip-verify", str!"--with-colons", str!"--list-secret-keys", k] ∧ i = false
  | .generate, l, i => ∃ np file, Unasked np ∧ l = np ++ [str!"--gen-key", file] ∧ i = false
  | .exportPublic, l, i => ∃ a k, (a = [] ∨ a = [str!"-a"]) ∧ l = a ++ [str!"--export-options=export-minimal", str!"--export", k] ∧ i = false
  | .exportSecret, l, i => ∃ a np k, (a = [] ∨ a = [str!"-a"]) ∧ Unasked np ∧
      l = a ++ np ++ [str!"--export-options=export-minimal", str!"--export-secret-key", k] ∧ i = false
  | .encrypt, l, i => ∃ (np ks sign : List Str), Unasked np ∧ (sign = [] ∨ ∃ k, sign = [str!"--sign", str!"-u", k]) ∧
      l = np ++ [str!"--encrypt", str!"--always-trust"] ++ (ks.map fun k => [str!"-r", k]).flatten ++ sign ++ [str!"--armor"] ∧ i = true
  | .decrypt, l, i => ∃ np, Unasked np ∧ l = np ++ [str!"--with-colons", str!"--decrypt"] ∧ i = true
  | .importKeys, l, i => l = [str!"--skip-verify", str!"--import"] ∧ i = true
  | .delete, l, i => ∃ k, l = [str!"--yes", str!"--delete-key", k] ∧ i = false

/-- gpg is run for this use -/
def GpgTask.Run (u : GpgTask) (argv : List Str) (stdin : Option Bytes) : Prop :=
  ∃ g args, argv = commandLine g args ∧ u.Args args stdin.isSome

/-- the words by which gpg can be told what to do, as far as this program knows them -/
def commandWords : List Str :=
  [GpgTask.version, .listPublic, .listSecret, .generate, .exportPublic, .exportSecret, .encrypt, .decrypt, .importKeys, .delete].map (·.word)

/-- the arguments after the program, `--batch` and the home directory -/
def ownArguments : List Str → List Str
  | _ :: _ :: o :: h :: r => if o = str!"--homedir" then r else o :: h :: r
  | _ :: _ :: r => r
  | _ => []

/-- what gpg is told to do: the first of its words -/
def commandWord (argv : List Str) : Option Str := (ownArguments argv).find? fun w => commandWords.contains w

/-- The arguments begin with something other than the option for the home directory. -/
theorem GpgTask.Args.first {u : GpgTask} {args : List Str} {i : Bool} (h : u.Args args i) : ∃ a r, args = a :: r ∧ a ≠ str!"--homedir" := by
  cases u <;> simp only [GpgTask.Args] at h
  case version => obtain ⟨rfl, -⟩ := h; exact ⟨_, _, rfl, by decide⟩
  case listPublic => obtain ⟨k, rfl, -⟩ := h; exact ⟨_, _, rfl, by decide⟩
  case listSecret => obtain ⟨k, rfl, -⟩ := h; exact ⟨_, _, rfl, by decide⟩
  case generate => obtain ⟨np, f, rfl | rfl, rfl, -⟩ := h <;> exact ⟨_, _, rfl, by decide⟩
  case exportPublic => obtain ⟨a, k, rfl | rfl, rfl, -⟩ := h <;> exact ⟨_, _, rfl, by decide⟩
  case exportSecret => obtain ⟨a, np, k, rfl | rfl, rfl | rfl, rfl, -⟩ := h <;> exact ⟨_, _, rfl, by decide⟩
  case encrypt => obtain ⟨np, ks, s, rfl | rfl, -, rfl, -⟩ := h <;> exact ⟨_, _, rfl, by decide⟩
  case decrypt => obtain ⟨np, rfl | rfl, rfl, -⟩ := h <;> exact ⟨_, _, rfl, by decide⟩
  case importKeys => obtain ⟨rfl, -⟩ := h; exact ⟨_, _, rfl, by decide⟩
  case delete => obtain ⟨k, rfl, -⟩ := h; exact ⟨_, _, rfl, by decide⟩

/-- The command lines say what the use is. -/
theorem GpgTask.Run.word {u : GpgTask} {argv : List Str} {stdin : Option Bytes} (h : u.Run argv stdin) :
    commandWord argv = some u.word := by
  obtain ⟨g, args, rfl, h⟩ := h
  have hown : (∃ a r, args = a :: r ∧ a ≠ str!"--homedir") → ownArguments (commandLine g args) = args := by
    rintro ⟨a, r, rfl, ha⟩
    unfold commandLine
    cases g.home with
    | none => cases r <;> simp [ownArguments, ha]
    | some hm =>
      by_cases hh : hm = []
      · cases r <;> simp [hh, ownArguments, ha]
      · simp [hh, ownArguments]
  unfold commandWord
  rw [hown h.first]
  cases u <;> simp only [GpgTask.Args] at h
  case version => obtain ⟨rfl, -⟩ := h; decide
  case listPublic => obtain ⟨k, rfl, -⟩ := h; rfl
  case listSecret => obtain ⟨k, rfl, -⟩ := h; rfl
  case generate => obtain ⟨np, f, rfl | rfl, rfl, -⟩ := h <;> rfl
  case exportPublic => obtain ⟨a, k, rfl | rfl, rfl, -⟩ := h <;> rfl
  case exportSecret => obtain ⟨a, np, k, rfl | rfl, rfl | rfl, rfl, -⟩ := h <;> rfl
  case encrypt => obtain ⟨np, ks, s, rfl | rfl, -, rfl, -⟩ := h <;> rfl
  case decrypt => obtain ⟨np, rfl | rfl, rfl, -⟩ := h <;> rfl
  case importKeys => obtain ⟨rfl, -⟩ := h; rfl
  case delete => obtain ⟨k, rfl, -⟩ := h; rfl

/-- operations which run gpg only for these uses -/
def Op.uses (L : List GpgTask) : Op → Prop
  | .ext (.gpg argv stdin) => ∃ u ∈ L, u.Run argv stdin
  | _ => True

theorem Prog.AllOps.up {α : Type} {p : Prog α} {L L' : List GpgTask} (h : p.AllOps (Op.uses L)) (hs : L ⊆ L') : p.AllOps (Op.uses L') := by
  refine h.mono fun o ho => ?_
  unfold Op.uses at ho ⊢
  split
  · obtain ⟨u, h1, h2⟩ := ho; exact ⟨u, hs h1, h2⟩
  · trivial

theorem Prog.AllOps.noGpg {α : Type} {p : Prog α} {L : List GpgTask} (h : p.AllOps Op.noGpg) : p.AllOps (Op.uses L) := by
  refine h.mono fun o ho => ?_
  unfold Op.uses
  split
  · exact ho.elim
  · trivial

namespace BinGPG
variable {L : List GpgTask} (env : Env) (g : BinGPG)

theorem gpgOuterr_uses {u : GpgTask} {a : List Str} {b : Option Bytes} (h : u.Args a b.isSome) (hu : u ∈ L) (c d) :
    (gpgOuterr env g a b c d).AllOps (Op.uses L) :=
  .bind (.gpg ⟨u, hu, g, a, argv_eq g a, h⟩) fun _ => .ofExcept _

theorem versionAtLeast_uses (v) : (versionAtLeast env g v).AllOps (Op.uses [.version]) :=
  .bind (.bind (gpgOuterr_uses env g (u := .version) ⟨rfl, rfl⟩ (by decide) _ _) fun _ => .ofExcept _) fun _ => .ofExcept _

theorem ensureInit_uses : (ensureInit env g).AllOps (Op.uses [.version]) := by
  unfold ensureInit badDefaults
  split
  · trivial
  · simp only [bind_eq, pure_eq]
    have := versionAtLeast_uses env g
    allops <;> exact this _

theorem create_uses (h p) : (create env h p).AllOps (Op.uses [.version]) := by
  unfold create; simp only [bind_eq, pure_eq]
  have := fun g => ensureInit_uses env g
  allops <;> exact this _

theorem nopassphrase_bind {α : Type} {f : List Str → Prog α} (hL : .version ∈ L) (h : ∀ np, Unasked np → (f np).AllOps (Op.uses L)) :
    ((nopassphrase env g).bind f).AllOps (Op.uses L) := by
  unfold nopassphrase
  simp only [bind_eq, pure_eq, Prog.bind_assoc]
  refine .bind ((versionAtLeast_uses env g _).up (by simpa using hL)) fun b => ?_
  cases b
  · exact h _ (Or.inl rfl)
  · exact h _ (Or.inr rfl)

theorem listPublic_uses (k) : (listPublicKeyinfos env g (some k)).AllOps (Op.uses [.listPublic]) :=
  .bind (.bind (gpgOuterr_uses env g (u := .listPublic) ⟨k, rfl, rfl⟩ (by decide) _ _) fun _ => .ofExcept _) fun _ => .ofExcept _

theorem getSecretKeyhandle_uses (k) : (getSecretKeyhandle env g k).AllOps (Op.uses [.listSecret]) :=
  .bind (.bind (.bind (gpgOuterr_uses env g (u := .listSecret) ⟨k, rfl, rfl⟩ (by decide) _ _) fun _ => .ofExcept _) fun _ => .ofExcept _)
    fun _ => trivial

theorem findKeyhandle_uses (t) : (findKeyhandle env g t).AllOps (Op.uses [.listPublic]) := by
  unfold findKeyhandle; simp only [bind_eq, pure_eq]
  have := listPublic_uses env g
  allops <;> exact this _

theorem genSecretKey_uses (e) : (genSecretKey env g e).AllOps (Op.uses [.version, .generate, .listPublic]) := by
  unfold genSecretKey withTempFile; simp only [bind_eq]
  refine .bind (.bind (.mkTemp trivial) fun n => .bind (.writeTemp trivial) fun _ => .finally_ ?_ (.rmTemp trivial)) fun _ => (findKeyhandle_uses env g _).up (by decide)
  exact nopassphrase_bind env g (by decide) fun np hnp => gpgOuterr_uses env g (u := .generate) ⟨np, _, hnp, rfl, rfl⟩ (by decide) _ _

theorem getPublicKeydata_uses (k a) : (getPublicKeydata env g k a).AllOps (Op.uses [.exportPublic]) := by
  refine .bind (gpgOuterr_uses env g (u := .exportPublic) ⟨if a then [str!"-a"] else [], k, ?_, rfl, rfl⟩ (by decide) _ _) fun _ => trivial
  cases a <;> simp

theorem getSecretKeydata_uses (k a) : (getSecretKeydata env g k a).AllOps (Op.uses [.version, .exportSecret]) := by
  refine nopassphrase_bind env g (by decide) fun np hnp =>
    .bind (gpgOuterr_uses env g (u := .exportSecret) ⟨if a then [str!"-a"] else [], np, k, ?_, hnp, rfl, rfl⟩ (by decide) _ _) fun _ => trivial
  cases a <;> simp

theorem encrypt_uses (d r s) : (encrypt env g d r s true).AllOps (Op.uses [.version, .encrypt]) := by
  refine nopassphrase_bind env g (by decide) fun np hnp =>
    .bind (gpgOuterr_uses env g (u := .encrypt) ⟨np, r, if s.isEmpty then [] else [str!"--sign", str!"-u", s], hnp, ?_, by rw [encryptOpts, List.flatMap_def]; rfl, rfl⟩ (by decide) _ _) fun _ => trivial
  split
  · exact Or.inl rfl
  · exact Or.inr ⟨_, rfl⟩

theorem decrypt_uses (d) : (decrypt env g d).AllOps (Op.uses [.version, .decrypt]) :=
  nopassphrase_bind env g (by decide) fun np hnp =>
    .bind (gpgOuterr_uses env g (u := .decrypt) ⟨np, hnp, rfl, rfl⟩ (by decide) _ _) fun _ => .bind (.ofExcept _) fun _ => trivial

theorem import_uses (d) : (importKeydata env g d false).AllOps (Op.uses [.importKeys, .listPublic]) :=
  .bind (gpgOuterr_uses env g (u := .importKeys) ⟨rfl, rfl⟩ (by decide) _ _) fun _ =>
    .bind ((findKeyhandle_uses env g _).up (by decide)) fun _ => trivial

theorem importMinimal_uses (d) : (importKeydata env g d true).AllOps (Op.uses [.importKeys, .listPublic, .exportPublic, .delete]) :=
  .bind (gpgOuterr_uses env g (u := .importKeys) ⟨rfl, rfl⟩ (by decide) _ _) fun _ =>
    .bind ((findKeyhandle_uses env g _).up (by decide)) fun k =>
    .bind ((getPublicKeydata_uses env g _ _).up (by decide)) fun _ =>
    .bind (gpgOuterr_uses env g (u := .delete) ⟨k, rfl, rfl⟩ (by decide) _ _) fun _ =>
    .bind (gpgOuterr_uses env g (u := .importKeys) ⟨rfl, rfl⟩ (by decide) _ _) fun _ =>
    .bind ((findKeyhandle_uses env g _).up (by decide)) fun _ => .bind (.assert _) fun _ => trivial

end BinGPG

namespace Account
variable {L : List GpgTask} (env : Env) (n : Str)

theorem config_uses : (Own.config n).AllOps (Op.uses L) := (config_noGpg n).noGpg
theorem ownKeyhandle_uses : (ownKeyhandle n).AllOps (Op.uses L) := by
  unfold ownKeyhandle Own.keyhandle; simp only [bind_eq, pure_eq]; allops
theorem bingpg_uses (hL : .version ∈ L) : (bingpg env n).AllOps (Op.uses L) := by
  unfold bingpg; simp only [bind_eq]
  refine .bind (config_uses n) fun c => ?_
  split
  · trivial
  · exact (BinGPG.create_uses env _ _).up (by simpa using hL)

theorem makeAcHeader_uses (a) : (makeAcHeader env n a).AllOps (Op.uses [.version, .exportPublic]) := by
  unfold makeAcHeader; simp only [bind_eq]
  exact .bind (bingpg_uses env n (by decide)) fun _ => .bind (ownKeyhandle_uses n) fun _ =>
    .bind ((BinGPG.getPublicKeydata_uses env _ _ _).up (by decide)) fun _ => .bind (config_uses n) fun _ => .ofExcept _
theorem exportPublicKey_uses (k) : (exportPublicKey env n k).AllOps (Op.uses [.version, .exportPublic]) := by
  unfold exportPublicKey; simp only [bind_eq]
  refine .bind ?_ fun _ => .bind (bingpg_uses env n (by decide)) fun _ => (BinGPG.getPublicKeydata_uses env _ _ _).up (by decide)
  split
  · trivial
  · exact ownKeyhandle_uses n
theorem exportSecretKey_uses : (exportSecretKey env n).AllOps (Op.uses [.version, .exportSecret]) := by
  unfold exportSecretKey; simp only [bind_eq]
  exact .bind (bingpg_uses env n (by decide)) fun _ => .bind (ownKeyhandle_uses n) fun _ => BinGPG.getSecretKeydata_uses env _ _ _
theorem importPah_uses (p) : (importPah env n p).AllOps (Op.uses [.version, .importKeys, .listPublic]) := by
  unfold importPah importKey; simp only [bind_eq, pure_eq]
  have h1 := bingpg_uses (L := [.version, .importKeys, .listPublic]) env n (by decide)
  have h2 := fun g => (BinGPG.import_uses env g (p.keydata.getD [])).up (L' := [.version, .importKeys, .listPublic]) (by decide)
  allops <;> exact h2 _
theorem decryptMime_uses (m) : (decryptMime env n m).AllOps (Op.uses [.version, .decrypt]) := by
  unfold decryptMime; simp only [bind_eq, pure_eq]
  exact .bind (.ofExcept _) fun _ => .bind (bingpg_uses env n (by decide)) fun _ => .bind (BinGPG.decrypt_uses env _ _) fun _ => trivial
theorem recommendation_uses (a r f) : (recommendation env n a r f).AllOps (Op.uses L) := by
  unfold recommendation; simp only [bind_eq]
  refine .bind (config_uses n) fun _ => .bind ?_ fun _ => .ofExcept _
  generalize peerAddrs env a f = l
  induction l with
  | nil => trivial
  | cons a l ih => exact .bind (.chain trivial) fun _ => .bind ih fun _ => trivial
theorem encLoop_uses (acc l) : (encLoop env n acc l).AllOps (Op.uses L) := by
  induction l generalizing acc with
  | nil => trivial
  | cons a l ih =>
    unfold encLoop; simp only [bind_eq]
    have h1 := config_uses (L := L) n
    have h2 := ownKeyhandle_uses (L := L) n
    allops <;> exact ih _
theorem encryptMime_uses (m a) : (encryptMime env n m a).AllOps (Op.uses [.version, .encrypt]) := by
  unfold encryptMime; simp only [bind_eq, pure_eq]
  exact .bind (.assert _) fun _ => .bind (encLoop_uses env n _ _) fun _ => .bind (ownKeyhandle_uses n) fun _ =>
    .bind (.hookBeforeEnc trivial) fun _ => .bind (.ofExcept _) fun _ => .bind (bingpg_uses env n (by decide)) fun _ =>
    .bind (ownKeyhandle_uses n) fun _ => .bind (BinGPG.encrypt_uses env _ _ _ _) fun _ => trivial
theorem processOutgoing_uses (m) : (processOutgoing env n m).AllOps (Op.uses [.version, .exportPublic, .encrypt]) := by
  unfold processOutgoing outgoingBody; simp only [bind_eq, pure_eq]
  have h1 := fun a => (makeAcHeader_uses env n a).up (L' := [.version, .exportPublic, .encrypt]) (by decide)
  have h2 := fun m a => (encryptMime_uses env n m a).up (L' := [.version, .exportPublic, .encrypt]) (by decide)
  have h3 := recommendation_uses (L := [.version, .exportPublic, .encrypt]) env n
  allops <;> first | exact h1 _ | exact h2 _ _ | exact h3 _ _ _
theorem updateFromMsg_uses (h u) : (Peer.updateFromMsg h u).AllOps (Op.uses L) := by
  unfold Peer.updateFromMsg; simp only [bind_eq, pure_eq]; allops; all_goals exact .append trivial
theorem updateFromGossip_uses (h u) : (Peer.updateFromGossip h u).AllOps (Op.uses L) := by
  unfold Peer.updateFromGossip; simp only [bind_eq, pure_eq]; allops; all_goals exact .append trivial
theorem gossipLoop_uses (dict d i pr l) : (gossipLoop env n dict d i pr l).AllOps (Op.uses [.version, .importKeys, .listPublic]) := by
  induction l generalizing pr with
  | nil => trivial
  | cons r rs ih =>
    unfold gossipLoop
    split
    · exact ih _
    · simp only [bind_eq]
      exact .bind (importPah_uses env n _) fun _ => .bind (updateFromGossip_uses _ _) fun _ => ih _

/-- what incoming mail needs -/
def incomingTasks : Bool → List GpgTask
  | false => [.version, .importKeys, .listPublic, .decrypt]
  | true => [.version, .importKeys, .listPublic]

theorem processIncoming_uses (m i nd) : (processIncoming env n m i nd).AllOps (Op.uses (incomingTasks nd)) := by
  unfold processIncoming processAutocryptHeader effectiveDate; simp only [bind_eq, pure_eq]
  have h1 := fun p => (importPah_uses env n p).up (L' := incomingTasks nd) (by cases nd <;> decide)
  have h4 := updateFromMsg_uses (L := incomingTasks nd)
  cases nd with
  | true =>
    simp only [if_pos, Bool.false_eq_true, if_false]
    allops <;> first | exact h1 _ | exact h4 _ _ | skip
  | false =>
    have h2 := fun m => (decryptMime_uses env n m).up (L' := incomingTasks false) (by decide)
    have h3 := fun dict d i pr l => (gossipLoop_uses env n dict d i pr l).up (L' := incomingTasks false) (by decide)
    have h5 := ownKeyhandle_uses (L := incomingTasks false) n
    unfold processGossipHeaders; simp only [bind_eq, pure_eq]
    allops <;> first | exact h1 _ | exact h2 _ | exact h3 _ _ _ _ _ | exact h4 _ _

/-- what the import of a key needs -/
def importTasks : List GpgTask := [.version, .importKeys, .listPublic, .exportPublic, .delete]

theorem importLoop_uses (p k l) : (importLoop env n p k l).AllOps (Op.uses importTasks) := by
  induction l with
  | nil => trivial
  | cons a l ih =>
    unfold importLoop; simp only [bind_eq]
    exact .bind (.now trivial) fun _ => .bind (bingpg_uses env n (by decide)) fun _ =>
      .bind ((BinGPG.getPublicKeydata_uses env _ _ _).up (by decide)) fun _ => .bind (updateFromMsg_uses _ _) fun _ => ih

theorem import_uses (a k p) : (importKeydataAsAutocrypt env n a k p).AllOps (Op.uses importTasks) := by
  unfold importKeydataAsAutocrypt; simp only [bind_eq, pure_eq]
  have h1 := bingpg_uses (L := importTasks) env n (by decide)
  refine .bind h1 fun _ => .bind ((BinGPG.import_uses env _ _).up (by decide)) fun _ => .bind ?_ fun _ => .bind h1 fun _ =>
    .bind ((BinGPG.importMinimal_uses env _ _).up (by decide)) fun _ => .bind (importLoop_uses env n _ _ _) fun _ => .bind h1 fun _ =>
    .bind ((BinGPG.getPublicKeydata_uses env _ _ _).up (by decide)) fun _ => trivial
  split
  · trivial
  · exact .bind h1 fun _ => .bind ((BinGPG.listPublic_uses env _ _).up (by decide)) fun _ => trivial

/-- what a new account needs: a new key or the search for one, and the secret key itself, which is stored -/
def newTasks : Option Str → List GpgTask
  | none => [.version, .generate, .listPublic, .exportSecret]
  | some _ => [.version, .listSecret, .exportSecret]

theorem createKey_uses (k) : (createKey env n k).AllOps (Op.uses (newTasks k)) := by
  unfold createKey
  cases k with
  | none =>
    simp only [bind_eq]
    exact .bind (.uuid trivial) fun _ => .bind (bingpg_uses env n (by decide)) fun _ => (BinGPG.genSecretKey_uses env _ _).up (by decide)
  | some k =>
    simp only [bind_eq, pure_eq]
    refine .bind (bingpg_uses env n (by simp [newTasks])) fun _ =>
      .bind ((BinGPG.getSecretKeyhandle_uses env _ _).up (by simp [newTasks])) fun _ => ?_
    split <;> trivial

theorem create_uses (r k b m) : (create env n r k b m).AllOps (Op.uses (newTasks k)) := by
  unfold create Own.newConfig Own.appendKeygen; simp only [bind_eq, pure_eq]
  refine .bind ?_ fun _ => .bind (.append trivial) fun _ => .bind (createKey_uses env n k) fun _ =>
    .bind (bingpg_uses env n (by cases k <;> simp [newTasks])) fun _ =>
    .bind ((BinGPG.getSecretKeydata_uses env _ _ _).up (by cases k <;> simp [newTasks])) fun _ => .append trivial
  split
  · trivial
  split <;> trivial
end Account

/-! ## Calls -/

/-- what a call may use gpg for -/
def ApiCall.tasks : ApiCall → List GpgTask
  | .addAccount _ _ none _ _ => [.version, .generate, .listPublic, .exportSecret]
  | .addAccount _ _ (some _) _ _ => [.version, .listSecret, .exportSecret]
  | .makeAcHeader .. | .exportPublicKey .. => [.version, .exportPublic]
  | .exportSecretKey _ => [.version, .exportSecret]
  | .processIncoming _ _ _ false => [.version, .importKeys, .listPublic, .decrypt]
  | .processIncoming _ _ _ true => [.version, .importKeys, .listPublic]
  | .processOutgoing .. => [.version, .exportPublic, .encrypt]
  | .encryptMime .. => [.version, .encrypt]
  | .decryptMime .. => [.version, .decrypt]
  | .importKey .. => [.version, .importKeys, .listPublic, .exportPublic, .delete]
  | _ => []

theorem addAccount_uses (env : Env) (n r k b m) : (Manager.addAccount env n r k b m).AllOps (Op.uses (Account.newTasks k)) := by
  unfold Manager.addAccount; simp only [bind_eq, pure_eq]
  refine .bind (getAccount_noGpg env n false).noGpg fun a => .bind ?_ fun e => ?_
  · unfold Account.exists_; simp only [bind_eq, pure_eq]; allops
  · split
    · trivial
    · exact .bind (Account.create_uses env a _ k b m) fun _ => trivial

theorem onAccount_uses {α : Type} {L : List GpgTask} (env : Env) (n : Str) {p : Prog α} (hp : p.AllOps (Op.uses L)) :
    (onAccount env n p).AllOps (Op.uses L) :=
  .bind (.assert _) fun _ => .bind hp fun _ => trivial

theorem call_uses (env : Env) (c : ApiCall) : (c.prog env).AllOps (Op.uses c.tasks) := by
  cases c <;> try exact (others_noGpg env _ rfl).noGpg
  case addAccount n r k b m =>
    have := addAccount_uses env n r k b m
    cases k <;> exact .bind this fun _ => trivial
  case makeAcHeader n a => exact onAccount_uses env n (Account.makeAcHeader_uses env n a)
  case exportPublicKey n k => exact onAccount_uses env n (Account.exportPublicKey_uses env n k)
  case exportSecretKey n => exact onAccount_uses env n (Account.exportSecretKey_uses env n)
  case processIncoming n m i d =>
    have := Account.processIncoming_uses env n m i d
    cases d <;> exact onAccount_uses env n this
  case processOutgoing n m => exact onAccount_uses env n (Account.processOutgoing_uses env n m)
  case encryptMime n m as => exact onAccount_uses env n (Account.encryptMime_uses env n m as)
  case decryptMime n m => exact onAccount_uses env n (Account.decryptMime_uses env n m)
  case importKey n a k p => exact onAccount_uses env n (Account.import_uses env n a k p)

/-! ## Commands -/

/-- what a command may use gpg for -/
def Cmd.Command.tasks : Cmd.Command → List GpgTask
  | .status .. | .modAccount .. | .delAccount _ => [.version, .listPublic]
  | .addAccount _ _ none _ _ => [.version, .generate, .listPublic, .exportSecret]
  | .addAccount _ _ (some _) _ _ => [.version, .listSecret, .exportSecret, .listPublic]
  | .findAccount _ | .peerstate .. | .recommend .. | .destroyAll _ => []
  | .processIncoming _ _ false _ | .scandir .. => [.version, .importKeys, .listPublic, .decrypt]
  | .processIncoming _ _ true _ => [.version, .importKeys, .listPublic]
  | .importPublicKey .. => [.version, .importKeys, .listPublic, .exportPublic, .delete]
  | .processOutgoing _ | .sendmail .. => [.version, .exportPublic, .encrypt]
  | .makeHeader .. | .exportPublicKey .. => [.version, .exportPublic]
  | .exportSecretKey _ => [.version, .exportSecret]
  | .botReply .. => [.version, .importKeys, .listPublic, .decrypt, .exportPublic, .encrypt]

namespace Cmd
variable {L : List GpgTask} (ce : CmdEnv) (env : Env)

theorem say_uses (s) : (say s).AllOps (Op.uses L) := .emit trivial
theorem kecho_uses (a b) : (kecho a b).AllOps (Op.uses L) := .emit trivial
theorem sayUids_uses (l) : (sayUids l).AllOps (Op.uses L) := by
  induction l with
  | nil => trivial
  | cons a l ih => exact .bind (kecho_uses _ _) fun _ => ih
theorem sayAddrs_uses (l) : (sayAddrs l).AllOps (Op.uses L) := by
  induction l with
  | nil => trivial
  | cons a l ih => exact .bind (say_uses _) fun _ => ih
theorem sayPeers_uses (a l) : (sayPeers ce env a l).AllOps (Op.uses L) := by
  induction l with
  | nil => trivial
  | cons n l ih =>
    unfold sayPeers; simp only [bind_eq]
    have := say_uses (L := L)
    allops; exact this _
theorem statusAccount_uses (a v) : (statusAccount ce env a v).AllOps (Op.uses [.version, .listPublic]) := by
  unfold statusAccount getPeernameList; simp only [bind_eq, pure_eq]
  have h1 := Account.bingpg_uses (L := [.version, .listPublic]) env a (by decide)
  have h2 := fun g k => (BinGPG.listPublic_uses env g k).up (L' := [.version, .listPublic]) (by decide)
  have h3 := Account.ownKeyhandle_uses (L := [.version, .listPublic]) a
  have h4 := say_uses (L := [.version, .listPublic])
  have h5 := kecho_uses (L := [.version, .listPublic])
  have h6 := sayUids_uses (L := [.version, .listPublic])
  have h7 := sayPeers_uses (L := [.version, .listPublic]) ce env a
  have h8 := Account.config_uses (L := [.version, .listPublic]) a
  allops <;> first | exact h2 _ _ | exact h4 _ | exact h5 _ _ | exact h6 _ | exact h7 _
theorem statusAll_uses (v l) : (statusAll ce env v l).AllOps (Op.uses [.version, .listPublic]) := by
  induction l with
  | nil => trivial
  | cons n l ih =>
    exact .bind (getAccount_noGpg env n true).noGpg fun _ => .bind (statusAccount_uses ce env _ v) fun _ => .bind (say_uses _) fun _ => ih
theorem status_uses (v) : (status ce env v).AllOps (Op.uses [.version, .listPublic]) := by
  unfold status getAccountNames; simp only [bind_eq, pure_eq]
  have h1 := statusAll_uses ce env v
  have h4 := say_uses (L := [.version, .listPublic])
  allops <;> first | exact h4 _ | exact h1 _
theorem outgoing_uses (m) : (processOutgoing env m).AllOps (Op.uses [.version, .exportPublic, .encrypt]) := by
  unfold processOutgoing; simp only [bind_eq, pure_eq]
  have h1 := fun a b => (fromEmailadr_noGpg env a b).noGpg (L := [.version, .exportPublic, .encrypt])
  have h2 := Account.processOutgoing_uses env
  allops <;> first | exact h1 _ _ | exact h2 _ _
theorem incoming_uses (n r nd m) : (processIncoming env n r nd m).AllOps (Op.uses (Account.incomingTasks nd)) := by
  unfold processIncoming; simp only [bind_eq, pure_eq]
  have h1 := fun m => (matching_noGpg env m).noGpg (L := Account.incomingTasks nd)
  have h2 := Account.processIncoming_uses env
  have h3 := fun n b => (getAccount_noGpg env n b).noGpg (L := Account.incomingTasks nd)
  allops <;> first | exact h1 _ | exact h2 _ _ _ _ | exact h3 _ _
theorem scanFile_uses (r now f) : (scanFile env r now f).AllOps (Op.uses (Account.incomingTasks false)) := by
  unfold scanFile scanRoutable effectiveDate; simp only [bind_eq, pure_eq]
  have h1 := fun m => (matching_noGpg env m).noGpg (L := Account.incomingTasks false)
  have h2 := fun n m i => Account.processIncoming_uses env n m i false
  allops <;> first | exact h1 _ | exact h2 _ _ _
theorem scandir_uses (r l) : (scandir ce env r l).AllOps (Op.uses (Account.incomingTasks false)) := by
  refine .bind (.now trivial) fun now => ?_
  generalize 0 = i
  induction l generalizing i with
  | nil => trivial
  | cons f l ih =>
    refine .bind (scanFile_uses env r now f) fun _ => .bind ?_ fun _ => .bind (ih _) fun _ => trivial
    unfold sayOpt
    split
    · exact say_uses _
    · trivial

end Cmd

namespace Bot

/-- what the answer of the bot needs -/
def replyTasks : List GpgTask := [.version, .importKeys, .listPublic, .decrypt, .exportPublic, .encrypt]

theorem reply_uses (env : Env) (be : BotEnv) (v s f m) : (reply env be v s f m).AllOps (Op.uses replyTasks) := by
  have h1 := fun a b => (fromEmailadr_noGpg env a b).noGpg (L := replyTasks)
  have h2 := fun n m i => (Account.processIncoming_uses env n m i false).up (L' := replyTasks) (by decide)
  have h3 := fun n m => (Account.decryptMime_uses env n m).up (L' := replyTasks) (by decide)
  have h4 := fun n a => (Account.makeAcHeader_uses env n a).up (L' := replyTasks) (by decide)
  have h5 := fun n m a => (Account.encryptMime_uses env n m a).up (L' := replyTasks) (by decide)
  have h6 := Account.recommendation_uses (L := replyTasks) env
  have h7 := Account.ownKeyhandle_uses (L := replyTasks)
  unfold reply answer deliver makeReply replyNoFrom keysOf recFor Report.processed; simp only [bind_eq, pure_eq]
  allops <;> first | exact h1 _ _ | exact h2 _ _ _ | exact h3 _ _ | exact h4 _ _ | exact h5 _ _ _ | exact h6 _ _ _ _ | exact h7 _

end Bot

theorem command_uses (ce : CmdEnv) (be : BotEnv) (env : Env) (c : Cmd.Command) : (c.prog ce be env).AllOps (Op.uses c.tasks) := by
  have hbody : (c.body ce be env).AllOps (Op.uses c.tasks) := by
    cases c
    case status n v =>
      cases n with
      | none => exact .bind (Cmd.status_uses ce env v) fun _ => trivial
      | some n => exact .bind (getAccount_noGpg env n true).noGpg fun _ => .bind (Cmd.statusAccount_uses ce env _ v) fun _ => trivial
    case addAccount n s k b r =>
      have h := addAccount_uses env n r k b (if s then str!"system" else str!"own")
      cases k with
      | none =>
        exact .bind h fun _ => .bind (Cmd.say_uses _) fun _ =>
          .bind ((Cmd.statusAccount_uses ce env _ _).up (by simp [Cmd.Command.tasks])) fun _ => trivial
      | some k =>
        exact .bind (h.up (by simp [Account.newTasks, Cmd.Command.tasks])) fun _ => .bind (Cmd.say_uses _) fun _ =>
          .bind ((Cmd.statusAccount_uses ce env _ _).up (by simp [Cmd.Command.tasks])) fun _ => trivial
    case modAccount n k b r p =>
      refine .bind (.bind (getAccount_noGpg env n true).noGpg fun _ => .bind ?_ fun _ => trivial) fun _ => .bind (Cmd.say_uses _) fun _ =>
        .bind (Cmd.statusAccount_uses ce env _ _) fun _ => trivial
      unfold Account.modify Own.changeConfig; simp only [bind_eq, pure_eq]
      allops <;> exact .append trivial
    case delAccount n =>
      exact .bind (Prog.AllOps.noGpg (others_noGpg env (.delAccount n) rfl)) fun _ => .bind (Cmd.say_uses _) fun _ =>
        .bind (Cmd.status_uses ce env _) fun _ => trivial
    case findAccount a =>
      unfold Cmd.Command.body Cmd.accountFor; simp only [bind_eq, pure_eq]
      refine .bind (.bind (fromEmailadr_noGpg env a true).noGpg fun o => ?_) fun _ => .bind (Cmd.say_uses _) fun _ => trivial
      split <;> trivial
    case processIncoming n r nd m =>
      have h := Cmd.incoming_uses env n r nd m
      have h2 : ∀ x, (Cmd.sayReport m x).AllOps (Op.uses (Account.incomingTasks nd)) := by
        intro x
        unfold Cmd.sayReport Cmd.say; simp only [bind_eq]; allops
      cases nd <;> exact .bind h fun x => .bind (h2 x) fun _ => trivial
    case scandir r l => exact .bind (Cmd.scandir_uses ce env r l) fun _ => trivial
    case importPublicKey n k p e =>
      exact .bind (getAccount_noGpg env n true).noGpg fun _ => .bind (Account.import_uses env _ _ _ _) fun _ => .bind (Cmd.say_uses _) fun _ =>
        .bind (Cmd.sayAddrs_uses _) fun _ => trivial
    case peerstate n a =>
      unfold Cmd.Command.body Cmd.peerstate Cmd.say; simp only [bind_eq, pure_eq]
      refine .bind (getAccount_noGpg env n true).noGpg fun _ => ?_
      allops
    case recommend n l =>
      exact .bind (getAccount_noGpg env n true).noGpg fun _ => .bind (Account.recommendation_uses env _ _ _ _) fun _ => .bind (Cmd.say_uses _) fun _ => trivial
    case processOutgoing m => exact .bind (Cmd.outgoing_uses env m) fun _ => .bind (.emit trivial) fun _ => trivial
    case sendmail l m =>
      unfold Cmd.Command.body Cmd.sendmail Cmd.say; simp only [bind_eq, pure_eq]
      refine .bind (.assert _) fun _ => .bind (Cmd.outgoing_uses env m) fun _ => ?_
      allops
    case makeHeader a v =>
      unfold Cmd.Command.body Cmd.accountFor; simp only [bind_eq, pure_eq]
      refine .bind (.bind (fromEmailadr_noGpg env a true).noGpg fun o => ?_) fun _ => .bind (Account.makeAcHeader_uses env _ _) fun _ =>
        .bind (Cmd.say_uses _) fun _ => trivial
      split <;> trivial
    case exportPublicKey n k =>
      exact .bind (getAccount_noGpg env n true).noGpg fun _ => .bind (Account.exportPublicKey_uses env _ _) fun _ => .bind (.emit trivial) fun _ => trivial
    case exportSecretKey n =>
      exact .bind (getAccount_noGpg env n true).noGpg fun _ => .bind (Account.exportSecretKey_uses env _) fun _ => .bind (.emit trivial) fun _ => trivial
    case botReply v s f m => exact .bind (Bot.reply_uses env be v s f m) fun _ => trivial
    case destroyAll y =>
      have h : Manager.remove.AllOps (Op.uses (Cmd.Command.destroyAll y).tasks) := ⟨trivial, fun _ => ⟨trivial, fun _ => trivial⟩⟩
      unfold Cmd.Command.body Cmd.destroyAll Cmd.managerExists Cmd.say; simp only [bind_eq, pure_eq]
      allops
  unfold Cmd.Command.prog Cmd.say; simp only [bind_eq, pure_eq]
  allops

/-! ## What is claimed -/

variable {K : Type}

/-- C113: a call of the API runs gpg only for what is listed for it, and with no other arguments than those. -/
theorem C113_calls (O : Oracle K) (env : Env) (c : ApiCall) (w : World Store K) :
    Events (fun ev => ∀ argv stdin, ev.op = .gpg argv stdin → ∃ u ∈ c.tasks, u.Run argv stdin) w (exec O (c.prog env) w).2 :=
  (run_events (call_uses env c) w).mono fun ev hev argv stdin h => by
    rw [h] at hev
    exact hev

/-- C113: the same for the commands. -/
theorem C113_commands (O : Oracle K) (ce : CmdEnv) (be : BotEnv) (env : Env) (c : Cmd.Command) (w : World Store K) :
    Events (fun ev => ∀ argv stdin, ev.op = .gpg argv stdin → ∃ u ∈ c.tasks, u.Run argv stdin) w (exec O (c.prog ce be env) w).2 :=
  (run_events (command_uses ce be env c) w).mono fun ev hev argv stdin h => by
    rw [h] at hev
    exact hev

/-- C113: the first command word on a command line of gpg tells which commands can have run it. Secret keys are exported only when
an account is added and by `export-secret-key`; keys are made only when an account is added without one, and deleted only
when a key is imported by the user; nothing is decrypted when this is switched off. -/
theorem C113_words (O : Oracle K) (ce : CmdEnv) (be : BotEnv) (env : Env) (c : Cmd.Command) (w : World Store K) :
    Events (fun ev => ∀ argv stdin, ev.op = .gpg argv stdin → ∃ word, commandWord argv = some word ∧
      (word = str!"--export-secret-key" → (∃ n s k b r, c = .addAccount n s k b r) ∨ ∃ n, c = .exportSecretKey n) ∧
      (word = str!"--gen-key" → ∃ n s b r, c = .addAccount n s none b r) ∧
      (word = str!"--list-secret-keys" → ∃ n s k b r, c = .addAccount n s (some k) b r) ∧
      (word = str!"--delete-key" → ∃ n k p e, c = .importPublicKey n k p e) ∧
      (word = str!"--import" → (∃ n k p e, c = .importPublicKey n k p e) ∨ (∃ n r nd m, c = .processIncoming n r nd m) ∨
        (∃ r l, c = .scandir r l) ∨ ∃ v s f m, c = .botReply v s f m) ∧
      (word = str!"--decrypt" → (∃ n r m, c = .processIncoming n r false m) ∨ (∃ r l, c = .scandir r l) ∨ ∃ v s f m, c = .botReply v s f m) ∧
      (word = str!"--encrypt" → (∃ m, c = .processOutgoing m) ∨ (∃ l m, c = .sendmail l m) ∨ ∃ v s f m, c = .botReply v s f m))
      w (exec O (c.prog ce be env) w).2 := by
  refine (C113_commands O ce be env c w).mono fun ev hev argv stdin h => ?_
  obtain ⟨u, hu, hr⟩ := hev argv stdin h
  refine ⟨_, hr.word, ?_⟩
  cases c
  case addAccount n s k b r => cases k <;> simp [Cmd.Command.tasks] at hu <;> rcases hu with rfl | rfl | rfl | rfl <;> simp [GpgTask.word]
  case processIncoming n r nd m => cases nd <;> simp [Cmd.Command.tasks] at hu <;> rcases hu with rfl | rfl | rfl | rfl <;> simp [GpgTask.word]
  all_goals
    simp only [Cmd.Command.tasks, List.mem_cons, List.not_mem_nil, or_false] at hu
  all_goals first
    | exact hu.elim
    | (rcases hu with rfl | rfl <;> simp [GpgTask.word])
    | (rcases hu with rfl | rfl | rfl <;> simp [GpgTask.word])
    | (rcases hu with rfl | rfl | rfl | rfl <;> simp [GpgTask.word])
    | (rcases hu with rfl | rfl | rfl | rfl | rfl <;> simp [GpgTask.word])
    | (rcases hu with rfl | rfl | rfl | rfl | rfl | rfl <;> simp [GpgTask.word])

/-- what gpg was told to do, oldest first -/
def gpgWords (l : List Event) : List (Option Str) :=
  l.reverse.filterMap fun ev => match ev.op with
    | .gpg argv _ => some (commandWord argv)
    | _ => none


open Concrete in
/-- what gpg is told to do by a command, apart from the questions for the version -/
def toldBy (c : Cmd.Command) : List Str :=
  let w := (exec oracle (c.prog cmdEnv botEnv env) recWorld).2
  ((gpgWords (w.trace.take (w.trace.length - recWorld.trace.length))).map (·.getD [])).filter (· ≠ str!"--version")

open Concrete in
/-- mail with keys of Bob and Carol, of which the second one is found when the mail is decrypted -/
def gossipMail : Msg :=
  encMail (str!"8") (str!"100") [(str!"Autocrypt", str!"addr=" ++ bob ++ str!"; keydata=" ++ Py.b64encode [7])] [gossipField carol [9]]

open Concrete in
/-- commands which do all these things -/
example :
    toldBy (.addAccount (str!"b") true none (str!"gpg") none) = [str!"--gen-key", str!"--export-secret-key", str!"--list-public-keys"] ∧
    toldBy (.addAccount (str!"b") true (some (str!"B")) (str!"gpg") none) = [str!"--list-secret-keys", str!"--export-secret-key", str!"--list-public-keys"] ∧
    toldBy (.processIncoming none true false gossipMail) = [str!"--import", str!"--decrypt", str!"--import"] ∧
    toldBy (.processIncoming none true true gossipMail) = [str!"--import"] ∧
    toldBy (.importPublicKey (str!"a") [7] .mutual (some bob)) =
      [str!"--import", str!"--import", str!"--export", str!"--delete-key", str!"--import"] ∧
    toldBy (.botReply botValues none none (botMail bob (str!"bot@x.org,carol@x.org") [])) = [str!"--export", str!"--encrypt"] ∧
    toldBy (.exportSecretKey (str!"a")) = [str!"--export-secret-key"] ∧
    toldBy (.recommend (str!"a") [bob]) = [] := by
  refine ⟨?_, ?_, ?_, ?_, ?_, ?_, ?_, ?_⟩ <;> decide +kernel
