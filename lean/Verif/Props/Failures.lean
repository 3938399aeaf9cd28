import Verif.Props.GpgHome
import Verif.Props.Gpg
/-!
# Failures of the environment are not ignored: C78

`Failed` says when an operation of the environment (gpg, files, plugins) failed. A program heeds failures if after
each of them it can only end with an exception.
-/
namespace Verif

variable {K : Type}

/-! ## Specification -/

/-- the operation failed: gpg could not be run or ended with an error code, a file could not be made or removed, the binary was not found,
or a plugin raised -/
def Failed : (o : ExtOp) → o.Ret → Prop
  | .gpg _ _, r => match (r : Except Exc GpgOut) with | .error _ => True | .ok out => out.ret ≠ 0
  | .findExecutable _, r => (r : Option Str) = none
  | .makedirs _, r => ∃ e, (r : Except Exc Unit) = .error e
  | .writeFile _ _, r => ∃ e, (r : Except Exc Unit) = .error e
  | .mkTemp, r => ∃ e, (r : Except Exc Str) = .error e
  | .writeTemp _ _, r => ∃ e, (r : Except Exc Unit) = .error e
  | .rmTemp _, r => ∃ e, (r : Except Exc Unit) = .error e
  | .hookInstantiate _, r => ∃ e, (r : Except Exc Unit) = .error e
  | .hookIncomingGossip _ _ _, r => ∃ e, (r : Except Exc Unit) = .error e
  | .hookBeforeEnc _ _ _ _, r => ∃ e, (r : Except Exc Msg) = .error e
  | .sendmail _ _, r => ∃ e, (r : Except Exc Int) = .error e
  | .emit _, r => ∃ e, (r : Except Exc Unit) = .error e
  | _, _ => False

/-- the operation failed, and not just because gpg ended with an error code other than that of an interrupt. (`InvocationFailure` is only
raised by muacrypt's own wrapper, bingpg.py:194, not by the operations themselves.) -/
def FailedBadly : (o : ExtOp) → o.Ret → Prop
  | .gpg _ _, r => match (r : Except Exc GpgOut) with | .error e => e ≠ .invocationFailure | .ok out => out.ret = 130
  | .makedirs _, r => ∃ e, (r : Except Exc Unit) = .error e ∧ e ≠ .invocationFailure
  | .writeFile _ _, r => ∃ e, (r : Except Exc Unit) = .error e ∧ e ≠ .invocationFailure
  | o, r => Failed o r

/-! ## Programs which heed failures -/

namespace Prog
variable {S : (o : ExtOp) → o.Ret → Prop} {G T : Exc → Prop} {α β : Type}

/-- the program can only end with an exception in `G` -/
def Fails (G : Exc → Prop) : Prog α → Prop
  | .pure _ => False
  | .raise e => G e
  | .op _ k => ∀ r, Fails G (k r)

/-- after an operation with a result in `S` the program can only end with an exception in `G` -/
def Heeds (S : (o : ExtOp) → o.Ret → Prop) (G : Exc → Prop) : Prog α → Prop
  | .pure _ => True
  | .raise _ => True
  | .op (.ext o) k => ∀ r, Heeds S G (k r) ∧ (S o r → Fails G (k r))
  | .op .now k => ∀ r, Heeds S G (k r)
  | .op (.chain _) k => ∀ r, Heeds S G (k r)
  | .op (.append _ _) k => ∀ r, Heeds S G (k r)
  | .op .heads k => ∀ r, Heeds S G (k r)
  | .op (.removeIf _) k => ∀ r, Heeds S G (k r)
  | .op .wipe k => ∀ r, Heeds S G (k r)

theorem Heeds.cont {o : Op} {k : o.Ret → Prog α} (h : Heeds S G (.op o k)) (r : o.Ret) : Heeds S G (k r) := by
  cases o with
  | ext o => exact (h r).1
  | _ => exact h r

theorem Heeds.mk_op {o : Op} {k : o.Ret → Prog α} (h : ∀ r, Heeds S G (k r))
    (h' : ∀ (x : ExtOp) (e : o = .ext x) (r : x.Ret), S x r → Fails G (k (cast (by rw [e]; rfl) r))) : Heeds S G (.op o k) := by
  cases o with
  | ext o => exact fun r => ⟨h r, h' o rfl r⟩
  | _ => exact h

theorem Fails.bind {p : Prog α} (h : Fails G p) (f : α → Prog β) : Fails G (p.bind f) := by
  induction p with
  | pure a => exact h.elim
  | raise e => exact h
  | op o k ih => exact fun r => ih r (h r)

theorem Fails.mono {p : Prog α} (h : Fails G p) (hG : ∀ e, G e → T e) : Fails T p := by
  induction p with
  | pure a => exact h.elim
  | raise e => exact hG e h
  | op o k ih => exact fun r => ih r (h r)

theorem Heeds.bind {p : Prog α} {f : α → Prog β} (hp : Heeds S G p) (hf : ∀ a, Heeds S G (f a)) : Heeds S G (p.bind f) := by
  induction p with
  | pure a => exact hf a
  | raise e => trivial
  | op o k ih =>
    refine .mk_op (fun r => ih r (hp.cont r)) fun x e r hr => ?_
    cases e
    exact ((hp r).2 hr).bind f

theorem Heeds.mono {p : Prog α} (h : Heeds S G p) (hG : ∀ e, G e → T e) : Heeds S T p := by
  induction p with
  | pure a => trivial
  | raise e => trivial
  | op o k ih =>
    refine .mk_op (fun r => ih r (h.cont r)) fun x e r hr => ?_
    cases e
    exact ((h r).2 hr).mono hG

theorem Fails.attempt {p : Prog α} (h : Fails G p) {f : Except Exc α → Prog β} (hf : ∀ e, G e → Fails T (f (.error e))) :
    Fails T (p.attempt.bind f) := by
  induction p with
  | pure a => exact h.elim
  | raise e => exact hf e h
  | op o k ih => exact fun r => ih r (h r)

theorem Heeds.attempt {p : Prog α} {f : Except Exc α → Prog β} (hp : Heeds S G p) (hok : ∀ r, Heeds S T (f r))
    (herr : ∀ e, G e → Fails T (f (.error e))) : Heeds S T (p.attempt.bind f) := by
  induction p with
  | pure a => exact hok _
  | raise e => exact hok _
  | op o k ih =>
    refine .mk_op (fun r => ih r (hp.cont r)) fun x e r hr => ?_
    cases e
    exact ((hp r).2 hr).attempt herr

theorem Fails.after {p : Prog α} {q : α → Prog β} (hq : ∀ a, Fails (fun _ => True) (q a)) : Fails (fun _ => True) (p.bind q) := by
  induction p with
  | pure a => exact hq a
  | raise e => trivial
  | op o k ih => exact fun r => ih r

theorem Heeds.ofExcept (x : Except Exc α) : Heeds S G (Prog.ofExcept x) := by cases x <;> trivial
theorem Heeds.assert (b : Bool) : Heeds S G (Prog.assert b) := by cases b <;> trivial
theorem Heeds.now : Heeds S G Prog.now := fun _ => trivial
theorem Heeds.chain (h : Str) : Heeds S G (Prog.chain h) := fun _ => .ofExcept _
theorem Heeds.append (h : Str) (e : Entry) : Heeds S G (Prog.append h e) := fun _ => .ofExcept _
theorem Heeds.heads : Heeds S G Prog.heads := fun _ => .ofExcept _
theorem Heeds.void {p : Prog α} (hp : Heeds S G p) : Heeds S G p.void := .bind hp fun _ => trivial

theorem Heeds.finally_ {p : Prog α} {f : Prog Unit} (hp : Heeds S G p) (hf : Heeds S (fun _ => True) f) :
    Heeds S (fun _ => True) (p.finally_ f) := by
  refine Heeds.attempt hp (fun r => .bind hf fun _ => ?_) fun e _ => Fails.after fun _ => trivial
  cases r <;> trivial

end Prog

/-- structural search for `Heeds` goals -/
macro "heeds" : tactic => `(tactic|
  repeat' (first
    | exact trivial
    | assumption
    | with_reducible apply Prog.Heeds.bind
    | with_reducible apply Prog.Heeds.ofExcept
    | with_reducible apply Prog.Heeds.assert
    | with_reducible apply Prog.Heeds.now
    | with_reducible apply Prog.Heeds.chain
    | with_reducible apply Prog.Heeds.append
    | with_reducible apply Prog.Heeds.heads
    | with_reducible intro _
    | split))

/-- a failing run -/
theorem Prog.Fails.run {O : Oracle K} {G : Exc → Prop} {α : Type} {p : Prog α} (h : p.Fails G) (w : World Store K) :
    ∃ e, (exec O p w).1 = .error e ∧ G e := by
  induction p generalizing w with
  | pure a => exact h.elim
  | raise e => exact ⟨e, rfl, h⟩
  | op o k ih => exact ih _ (h _) _

/-- a run which heeds failures -/
theorem Prog.Heeds.run {O : Oracle K} {S : (o : ExtOp) → o.Ret → Prop} {G : Exc → Prop} {α : Type} {p : Prog α} (h : p.Heeds S G) (w : World Store K) :
    ∃ new, (exec O p w).2.trace = new ++ w.trace ∧ ((∀ ev ∈ new, ¬ S ev.op ev.ret) ∨ ∃ e, (exec O p w).1 = .error e ∧ G e) := by
  induction p generalizing w with
  | pure a => exact ⟨[], rfl, .inl (by simp)⟩
  | raise e => exact ⟨[], rfl, .inl (by simp)⟩
  | op o k ih =>
    obtain ⟨new, h1, h2⟩ := ih (step Store.impl O o w).1 (h.cont _) (step Store.impl O o w).2
    cases o with
    | ext x =>
      refine ⟨new ++ [⟨x, (step Store.impl O (.ext x) w).1⟩], ?_, ?_⟩
      · rw [List.append_assoc]; exact h1
      · by_cases hS : S x (step Store.impl O (.ext x) w).1
        · exact .inr (((h _).2 hS).run _)
        · refine h2.imp (fun h2 ev hev => ?_) id
          rcases List.mem_append.mp hev with hev | hev
          · exact h2 ev hev
          · rw [List.mem_singleton.mp hev]; exact hS
    | _ => exact ⟨new, h1, h2⟩

/-! ## The wrapper -/

/-- failures which the single operations report with exceptions in `G` -/
structure Reported (env : Env) (S : (o : ExtOp) → o.Ret → Prop) (G : Exc → Prop) : Prop where
  gpg : ∀ a i e, S (.gpg a i) (.error e) → G e
  gpgRet : ∀ a i out s d, S (.gpg a i) (.ok out) → ∃ e, BinGPG.checkResult env s d out = .error e ∧ G e
  find : ∀ n, S (.findExecutable n) none → G .valueError
  find' : ∀ n p, ¬ S (.findExecutable n) (some p)
  path : ∀ p r, ¬ S (.pathExists p) r
  mkdir : ∀ p r, S (.makedirs p) r → ∃ e, r = .error e ∧ G e
  write : ∀ p c r, S (.writeFile p c) r → ∃ e, r = .error e ∧ G e

theorem Reported.all (env : Env) : Reported env Failed fun _ => True where
  gpg _ _ _ _ := trivial
  gpgRet a i out s d h := by
    cases hc : BinGPG.checkResult env s d out with
    | error e => exact ⟨e, rfl, trivial⟩
    | ok r => exact absurd (checkResult_returns hc).1 h
  find _ _ := trivial
  find' _ _ h := by cases h
  path _ _ h := h.elim
  mkdir _ _ h := h.imp fun _ h => ⟨h, trivial⟩
  write _ _ _ h := h.imp fun _ h => ⟨h, trivial⟩

theorem Reported.badly (env : Env) : Reported env FailedBadly fun e => e ≠ .invocationFailure where
  gpg _ _ _ h := h
  gpgRet a i out s d h := ⟨.keyboardInterrupt, by unfold BinGPG.checkResult; rw [if_pos (show out.ret = 130 from h)], by simp⟩
  find _ _ := by simp
  find' _ _ h := by cases h
  path _ _ h := h.elim
  mkdir _ _ h := h
  write _ _ _ h := h

namespace BinGPG
variable {env : Env} {S : (o : ExtOp) → o.Ret → Prop} {G : Exc → Prop} (R : Reported env S G) (g : BinGPG)
include R

theorem heeds_gpgOuterr (a b c d) : (gpgOuterr env g a b c d).Heeds S G := by
  intro r
  cases r with
  | error e => exact ⟨trivial, fun h => R.gpg _ _ _ h⟩
  | ok out =>
    refine ⟨.ofExcept _, fun h => ?_⟩
    obtain ⟨e, he, hG⟩ := R.gpgRet _ _ out c d h
    show (Prog.ofExcept (checkResult env c d out)).Fails G
    rw [he]; exact hG

theorem heeds_versionAtLeast (v) : (versionAtLeast env g v).Heeds S G :=
  .bind (.bind (heeds_gpgOuterr R g _ _ _ _) fun _ => .ofExcept _) fun _ => .ofExcept _

theorem heeds_pathExists (p) : (Prog.pathExists p).Heeds S G := fun _ => ⟨trivial, fun h => (R.path _ _ h).elim⟩

theorem heeds_makedirs (p) : (Prog.makedirs p).Heeds S G := by
  intro r
  refine ⟨.ofExcept _, fun h => ?_⟩
  obtain ⟨e, rfl, hG⟩ := R.mkdir _ r h
  exact hG

theorem heeds_writeFile (p c) : (Prog.writeFile p c).Heeds S G := by
  intro r
  refine ⟨.ofExcept _, fun h => ?_⟩
  obtain ⟨e, rfl, hG⟩ := R.write _ _ r h
  exact hG

theorem heeds_ensureInit : (ensureInit env g).Heeds S G := by
  unfold ensureInit badDefaults; simp only [bind_eq, pure_eq]
  have h1 := heeds_pathExists R
  have h2 := heeds_makedirs R
  have h3 := heeds_writeFile R
  have h4 := heeds_versionAtLeast R g
  heeds <;> first | exact h1 _ | exact h2 _ | exact h3 _ _ | exact h4 _

theorem heeds_create (h p) : (create env h p).Heeds S G := by
  show Prog.Heeds S G (.op (.ext (.findExecutable p)) _)
  intro r
  cases r with
  | none => exact ⟨trivial, R.find _⟩
  | some p => 
    have hb : ((ensureInit env ⟨h, p⟩).bind fun _ => Prog.pure (⟨h, p⟩ : BinGPG)).Heeds S G := .bind (heeds_ensureInit R ⟨h, p⟩) fun _ => trivial
    exact ⟨hb, fun h => (R.find' _ _ h).elim⟩

theorem heeds_nopassphrase : (nopassphrase env g).Heeds S G := .bind (heeds_versionAtLeast R g _) fun _ => trivial

theorem heeds_parseList (a t) : (parseList env g a t).Heeds S G :=
  .bind (.bind (heeds_gpgOuterr R g _ _ _ _) fun _ => .ofExcept _) fun _ => .ofExcept _

theorem heeds_listPublicKeyinfos (k) : (listPublicKeyinfos env g k).Heeds S G := heeds_parseList R g _ _

theorem heeds_getSecretKeyhandle (k) : (getSecretKeyhandle env g k).Heeds S G := .bind (heeds_parseList R g _ _) fun _ => trivial

theorem heeds_findKeyhandle (t) : (findKeyhandle env g t).Heeds S G := by
  unfold findKeyhandle; simp only [bind_eq, pure_eq]
  have h1 := heeds_listPublicKeyinfos R g
  heeds <;> exact h1 _

theorem heeds_getPublicKeydata (k a) : (getPublicKeydata env g k a).Heeds S G := .bind (heeds_gpgOuterr R g _ _ _ _) fun _ => trivial

theorem heeds_getSecretKeydata (k a) : (getSecretKeydata env g k a).Heeds S G :=
  .bind (heeds_nopassphrase R g) fun _ => .bind (heeds_gpgOuterr R g _ _ _ _) fun _ => trivial

theorem heeds_encrypt (d r s t) : (encrypt env g d r s t).Heeds S G :=
  .bind (heeds_nopassphrase R g) fun _ => .bind (heeds_gpgOuterr R g _ _ _ _) fun _ => trivial

theorem heeds_decrypt (d) : (decrypt env g d).Heeds S G :=
  .bind (heeds_nopassphrase R g) fun _ => .bind (heeds_gpgOuterr R g _ _ _ _) fun _ => .bind (.ofExcept _) fun _ => trivial

theorem heeds_importKeydata (d m) : (importKeydata env g d m).Heeds S G := by
  unfold importKeydata; simp only [bind_eq, pure_eq]
  have h1 := heeds_gpgOuterr R g
  have h2 := heeds_findKeyhandle R g
  have h3 := heeds_getPublicKeydata R g
  heeds <;> first | exact h1 _ _ _ _ | exact h2 _ | exact h3 _ _

omit R in
theorem heeds_genSecretKey (e) : (genSecretKey env g e).Heeds Failed fun _ => True := by
  have R := Reported.all env
  refine .bind (.bind (fun r => ⟨.ofExcept _, ?_⟩) fun n => .bind (fun r => ⟨.ofExcept _, ?_⟩) fun _ => .finally_ (.bind (heeds_nopassphrase R g) fun _ => heeds_gpgOuterr R g _ _ _ _)
    fun r => ⟨.ofExcept _, ?_⟩) fun _ => heeds_findKeyhandle R g _
  · rintro ⟨e, rfl⟩; trivial
  · rintro ⟨e, rfl⟩; trivial
  · rintro ⟨e, rfl⟩; trivial

end BinGPG

/-! ## Accounts -/

namespace Account
variable {env : Env} {S : (o : ExtOp) → o.Ret → Prop} {G : Exc → Prop} (R : Reported env S G) (n : Str)

theorem heeds_config : (Own.config n).Heeds S G := by
  unfold Own.config; simp only [bind_eq, pure_eq]; heeds

theorem heeds_ownKeyhandle : (ownKeyhandle n).Heeds S G := by
  unfold ownKeyhandle Own.keyhandle; simp only [bind_eq, pure_eq]; heeds

theorem heeds_updateFromMsg (h u) : (Peer.updateFromMsg h u).Heeds S G := by
  unfold Peer.updateFromMsg; simp only [bind_eq, pure_eq]; heeds

theorem heeds_updateFromGossip (h u) : (Peer.updateFromGossip h u).Heeds S G := by
  unfold Peer.updateFromGossip; simp only [bind_eq, pure_eq]; heeds

include R

theorem heeds_bingpg : (bingpg env n).Heeds S G := by
  unfold bingpg; simp only [bind_eq, pure_eq]
  have h1 := heeds_config (S := S) (G := G) n
  have h2 := BinGPG.heeds_create R
  heeds <;> exact h2 _ _

theorem heeds_with {α : Type} {f : BinGPG → Prog α} (hf : ∀ g, (f g).Heeds S G) : ((bingpg env n).bind f).Heeds S G :=
  .bind (heeds_bingpg R n) hf

theorem heeds_makeAcHeader (a) : (makeAcHeader env n a).Heeds S G :=
  heeds_with R n fun g => .bind (heeds_ownKeyhandle n) fun _ => .bind (BinGPG.heeds_getPublicKeydata R g _ _) fun _ =>
    .bind (heeds_config n) fun _ => .ofExcept _

theorem heeds_exportPublicKey (k) : (exportPublicKey env n k).Heeds S G := by
  refine .bind ?_ fun _ => heeds_with R n fun g => BinGPG.heeds_getPublicKeydata R g _ _
  split
  · trivial
  · exact heeds_ownKeyhandle n

theorem heeds_exportSecretKey : (exportSecretKey env n).Heeds S G :=
  heeds_with R n fun g => .bind (heeds_ownKeyhandle n) fun _ => BinGPG.heeds_getSecretKeydata R g _ _

theorem heeds_decryptMime (m) : (decryptMime env n m).Heeds S G :=
  .bind (.ofExcept _) fun _ => heeds_with R n fun g => .bind (BinGPG.heeds_decrypt R g _) fun _ => trivial

theorem heeds_importLoop (pe kh l) : (importLoop env n pe kh l).Heeds S G := by
  induction l with
  | nil => trivial
  | cons a l ih =>
    exact .bind .now fun _ => heeds_with R n fun g => .bind (BinGPG.heeds_getPublicKeydata R g _ _) fun _ =>
      Prog.Heeds.bind (heeds_updateFromMsg _ _) fun _ => ih

theorem heeds_import (a k p) : (importKeydataAsAutocrypt env n a k p).Heeds S G := by
  refine heeds_with R n fun g => .bind (BinGPG.heeds_importKeydata R g _ _) fun _ => .bind ?_ fun _ => heeds_with R n fun g =>
    .bind (BinGPG.heeds_importKeydata R g _ _) fun _ => .bind (heeds_importLoop R n _ _ _) fun _ => heeds_with R n fun g =>
    .bind (BinGPG.heeds_getPublicKeydata R g _ _) fun _ => trivial
  split
  · trivial
  · exact heeds_with R n fun g => .bind (BinGPG.heeds_listPublicKeyinfos R g _) fun _ => trivial

omit R

theorem heeds_readPeers (l) : (readPeers env n l).Heeds S G := by
  induction l with
  | nil => trivial
  | cons a l ih => exact .bind (.chain _) fun _ => .bind ih fun _ => trivial

theorem heeds_recommendation (a r f) : (recommendation env n a r f).Heeds S G :=
  .bind (heeds_config n) fun _ => .bind (heeds_readPeers n _) fun _ => .ofExcept _

theorem heeds_encLoop (acc l) : (encLoop env n acc l).Heeds S G := by
  induction l generalizing acc with
  | nil => trivial
  | cons a l ih =>
    unfold encLoop; simp only [bind_eq, pure_eq]
    have h1 := heeds_config (S := S) (G := G) n
    have h2 := heeds_ownKeyhandle (S := S) (G := G) n
    heeds <;> exact ih _

/-- the import of a key from a message: only the errors of gpg itself are caught -/
theorem heeds_importKey (k) : (importKey env n k).Heeds FailedBadly fun _ => True := by
  have R := Reported.badly env
  refine .attempt (heeds_bingpg R n) (fun x => ?_) fun e he => Prog.Fails.after fun _ => ?_
  · cases x with
    | ok g =>
      refine .attempt (BinGPG.heeds_importKeydata R g _ _) (fun y => ?_) fun e he => ?_
      · cases y with
        | ok _ => trivial
        | error e => dsimp only; split <;> trivial
      · dsimp only; rw [if_neg he]; trivial
    | error e =>
      refine .bind ((heeds_bingpg R n).mono fun _ _ => trivial) fun _ => ?_
      split <;> trivial
  · rw [if_neg he]; trivial

theorem heeds_importPah (p) : (importPah env n p).Heeds FailedBadly fun _ => True := by
  refine .bind (heeds_importKey n _) fun x => ?_
  cases x <;> trivial

theorem heeds_gossipLoop (dict dt i pr l) : (gossipLoop env n dict dt i pr l).Heeds FailedBadly fun _ => True := by
  induction l generalizing pr with
  | nil => trivial
  | cons a l ih =>
    unfold gossipLoop; simp only [bind_eq, pure_eq]
    have h1 := heeds_importPah (env := env) n
    have h2 := heeds_updateFromGossip (S := FailedBadly) (G := fun _ => True)
    heeds <;> first | exact h1 _ | exact h2 _ _ | exact ih _

theorem heeds_processIncoming (m i d) : (processIncoming env n m i d).Heeds FailedBadly fun _ => True := by
  have R := Reported.badly env
  unfold processIncoming processAutocryptHeader processGossipHeaders effectiveDate; simp only [bind_eq, pure_eq]
  have h1 := heeds_importPah (env := env) n
  have h2 := heeds_updateFromMsg (S := FailedBadly) (G := fun _ => True)
  have h3 := heeds_gossipLoop (env := env) n
  have h4 := fun m => (heeds_decryptMime R n m).mono (T := fun _ => True) fun _ _ => trivial
  have h5 := heeds_ownKeyhandle (S := FailedBadly) (G := fun _ => True) n
  have h6 : ∀ a k m, (Prog.hookIncomingGossip a k m).Heeds FailedBadly fun _ => True := by
    intro a k m r
    refine ⟨.ofExcept _, ?_⟩
    rintro ⟨e, rfl⟩; trivial
  heeds <;> first | exact h1 _ | exact h2 _ _ | exact h3 _ _ _ _ _ | exact h4 _ | exact h6 _ _ _

theorem heeds_encryptMime (m a) : (encryptMime env n m a).Heeds Failed fun _ => True := by
  have R := Reported.all env
  refine .bind (.assert _) fun _ => .bind (heeds_encLoop n _ _) fun _ => .bind (heeds_ownKeyhandle n) fun _ =>
    .bind (fun r => ⟨.ofExcept _, ?_⟩) fun _ => .bind (.ofExcept _) fun _ => heeds_with R n fun g => .bind (heeds_ownKeyhandle n) fun _ =>
    .bind (BinGPG.heeds_encrypt R g _ _ _ _) fun _ => trivial
  rintro ⟨e, rfl⟩; trivial

theorem heeds_processOutgoing (m) : (processOutgoing env n m).Heeds Failed fun _ => True := by
  unfold processOutgoing outgoingBody; simp only [bind_eq, pure_eq]
  have h1 := heeds_makeAcHeader (Reported.all env) n
  have h2 := heeds_recommendation (S := Failed) (G := fun _ => True) (env := env) n
  have h3 := heeds_encryptMime (env := env) n
  heeds <;> first | exact h1 _ | exact h2 _ _ _ | exact h3 _ _

theorem heeds_createKey (k) : (createKey env n k).Heeds Failed fun _ => True := by
  have R := Reported.all env
  unfold createKey; simp only [bind_eq, pure_eq]
  split
  · exact .bind (fun r => ⟨trivial, fun h => h.elim⟩) fun _ => heeds_with R n fun g => BinGPG.heeds_genSecretKey g _
  · refine heeds_with R n fun g => .bind (BinGPG.heeds_getSecretKeyhandle R g _) fun x => ?_
    cases x <;> trivial

theorem heeds_create (re k b m) : (create env n re k b m).Heeds Failed fun _ => True := by
  have R := Reported.all env
  unfold create Own.newConfig Own.appendKeygen; simp only [bind_eq, pure_eq]
  have h1 := heeds_createKey (env := env) n
  have h2 := heeds_bingpg R n
  have h3 := BinGPG.heeds_getSecretKeydata R
  heeds <;> first | exact h1 _ | exact h3 _ _ _

end Account

/-! ## Calls -/

theorem heeds_ensureInit {S : (o : ExtOp) → o.Ret → Prop} {G : Exc → Prop} : Manager.ensureInit.Heeds S G := by
  unfold Manager.ensureInit Manager.init Mgr.setVersion; simp only [bind_eq, pure_eq]; heeds

theorem heeds_getAccount (env : Env) (n : Str) (b : Bool) : (Manager.getAccount env n b).Heeds Failed fun _ => True := by
  have h1 := heeds_ensureInit (S := Failed) (G := fun _ => True)
  have h2 : ∀ d, (Prog.hookInstantiate d).Heeds Failed fun _ => True := by
    intro d r
    refine ⟨.ofExcept _, ?_⟩
    rintro ⟨e, rfl⟩; trivial
  unfold Manager.getAccount Manager.account Account.exists_; simp only [bind_eq, pure_eq]
  heeds <;> exact h2 _

theorem heeds_firstMatch (env : Env) (a : Str) (l : List Str) : (Manager.firstMatch env a l).Heeds Failed fun _ => True := by
  induction l with
  | nil => trivial
  | cons n l ih =>
    have h1 := heeds_getAccount env
    have h2 := Account.heeds_config (S := Failed) (G := fun _ => True)
    unfold Manager.firstMatch; simp only [bind_eq, pure_eq]
    heeds <;> first | exact h1 _ _ | exact h2 _

theorem heeds_fromEmailadr (env : Env) (a : Str) (b : Bool) : (Manager.getAccountFromEmailadr env a b).Heeds Failed fun _ => True := by
  unfold Manager.getAccountFromEmailadr getAccountNames; simp only [bind_eq, pure_eq]
  have h1 := heeds_firstMatch env a
  heeds <;> exact h1 _

theorem heeds_patterns (env : Env) (l : List Str) : (Manager.patterns env l).Heeds Failed fun _ => True := by
  induction l with
  | nil => trivial
  | cons n l ih =>
    have h1 := heeds_getAccount env
    have h2 := Account.heeds_config (S := Failed) (G := fun _ => True)
    unfold Manager.patterns; simp only [bind_eq, pure_eq]
    heeds <;> first | exact h1 _ _ | exact h2 _

theorem heeds_matching (env : Env) (m : Msg) : (Manager.getMatchingAccount env m).Heeds Failed fun _ => True := by
  unfold Manager.getMatchingAccount getAccountNames; simp only [bind_eq, pure_eq]
  have h1 := heeds_patterns env
  have h2 := heeds_fromEmailadr env
  heeds <;> first | exact h1 _ | exact h2 _ _

theorem heeds_onAccount {α : Type} {S : (o : ExtOp) → o.Ret → Prop} {G : Exc → Prop} (env : Env) (n : Str) {p : Prog α}
    (hp : p.Heeds S G) : (onAccount env n p).Heeds S G :=
  .bind (.assert _) fun _ => .bind hp fun _ => trivial

theorem heeds_calls (env : Env) (c : ApiCall) (hc : ∀ n m i d, c ≠ .processIncoming n m i d) :
    (c.prog env).Heeds Failed fun _ => True := by
  have R := Reported.all env
  have h1 := heeds_getAccount env
  cases c
  case init => unfold ApiCall.prog Manager.init Mgr.setVersion; simp only [bind_eq, pure_eq]; heeds
  case getAccount n b => exact .bind (h1 _ _) fun _ => trivial
  case addAccount n r k b m =>
    have h2 := Account.heeds_create (env := env)
    unfold ApiCall.prog Manager.addAccount Account.exists_ Prog.void; simp only [bind_eq, pure_eq]
    heeds <;> first | exact h1 _ _ | exact h2 _ _ _ _ _
  case modAccount n r k b p =>
    unfold ApiCall.prog Manager.modAccount Account.modify Own.changeConfig Prog.void; simp only [bind_eq, pure_eq]
    heeds <;> exact h1 _ _
  case delAccount n =>
    unfold ApiCall.prog Manager.delAccount removeAccount; simp only [bind_eq, pure_eq]
    exact .bind (h1 _ _) fun _ => fun r => .ofExcept r
  case listAccountNames => exact .bind (.bind .heads fun _ => trivial) fun _ => trivial
  case accountFromEmailadr a b => exact .bind (heeds_fromEmailadr env a b) fun _ => trivial
  case matchingAccount m => exact .bind (heeds_matching env m) fun _ => trivial
  case removeAll => exact fun r => ⟨fun _ => trivial, fun h => h.elim⟩
  case peernames n => exact heeds_onAccount env n (.bind .heads fun _ => trivial)
  case recommendation n as r f => exact heeds_onAccount env n (Account.heeds_recommendation n _ _ _)
  case makeAcHeader n a => exact heeds_onAccount env n (Account.heeds_makeAcHeader R n _)
  case exportPublicKey n k => exact heeds_onAccount env n (Account.heeds_exportPublicKey R n _)
  case exportSecretKey n => exact heeds_onAccount env n (Account.heeds_exportSecretKey R n)
  case processIncoming n m i d => exact absurd rfl (hc n m i d)
  case processOutgoing n m => exact heeds_onAccount env n (Account.heeds_processOutgoing n _)
  case encryptMime n m as => exact heeds_onAccount env n (Account.heeds_encryptMime n _ _)
  case decryptMime n m => exact heeds_onAccount env n (Account.heeds_decryptMime R n _)
  case importKey n a k p => exact heeds_onAccount env n (Account.heeds_import R n _ _ _)
  case peerMsg n a u => exact heeds_onAccount env n (Account.heeds_updateFromMsg _ _)
  case peerGossip n a u => exact heeds_onAccount env n (Account.heeds_updateFromGossip _ _)
  case verifySelf n a k => exact heeds_onAccount env n (.append _ _)
  case verifyPeer n a k => exact heeds_onAccount env n (.append _ _)
  case getVerification n a =>
    refine heeds_onAccount env n ?_
    unfold OOB.getVerification; simp only [bind_eq, pure_eq]
    heeds

/-- C78: a call other than `process_incoming` during which gpg, a file operation or a plugin failed raises an exception. -/
theorem C78_no_failure_ignored (O : Oracle K) (env : Env) (w w' : World Store K) (c : ApiCall) (hc : ∀ n m i d, c ≠ .processIncoming n m i d)
    (h : exec O (c.prog env) w = (.ok (), w')) : Events (fun ev => ¬ Failed ev.op ev.ret) w w' := by
  obtain ⟨new, h1, h2⟩ := (heeds_calls env c hc).run (O := O) w
  rw [h] at h1 h2
  refine ⟨new, h1, ?_⟩
  rcases h2 with h2 | ⟨e, he, _⟩
  · exact h2
  · cases he

/-- C78: `process_incoming` takes only the failure of a gpg command, other than an interrupt, for a failed key import. If it returns then
gpg could always be run and was not interrupted, and no file operation or plugin failed. -/
theorem C78_incoming (O : Oracle K) (env : Env) (w w' : World Store K) (n : Str) (m : Msg) (i d : Bool)
    {r : Option Account.IncomingResult} (h : exec O (Account.processIncoming env n m i d) w = (.ok r, w')) :
    Events (fun ev => ¬ FailedBadly ev.op ev.ret) w w' := by
  obtain ⟨new, h1, h2⟩ := (Account.heeds_processIncoming (env := env) n m i d).run (O := O) w
  rw [h] at h1 h2
  refine ⟨new, h1, ?_⟩
  rcases h2 with h2 | ⟨e, he, _⟩
  · exact h2
  · cases he

section examples
open Concrete

/-- all gpg calls and plugins of these calls succeed -/
example : (exec oracle (addA.prog env) world0).1.isOk = true ∧
    (exec oracle (addA.prog env) world0).2.trace.length > 5 ∧
    (exec oracle (Account.processIncoming env (str!"a") (mail bob (str!"1") (str!"100") [7]) false false) (after [addA])).1.isOk = true := by
  decide +kernel

/-- an environment where gpg is interrupted -/
def interrupting : Oracle Unit where
  step o k := match o with
    | .gpg _ _ => (.ok ⟨130, [], []⟩, k)
    | o => oracle.step o k

/-- then calls end with an exception; if gpg just fails then a message is processed, with an error in its result -/
example : (exec interrupting (addA.prog env) world0).1.isOk = false ∧
    (exec interrupting (Account.processIncoming env (str!"a") (mail bob (str!"1") (str!"100") [7]) false false) (after [addA])).1.isOk = false ∧
    ((exec oracle (Account.processIncoming env (str!"a") (mail bob (str!"1") (str!"100") [0]) false false) (after [addA])).1.toOption.bind id).map
      (fun r => r.pah.error) = some (some .importFailed) := by
  decide +kernel

end examples

end Verif
