import Verif.Props.IncomingOutput
import Verif.Props.Gossip
/-!
# The result of process_incoming: C100

What the result object and the plugin hook report is what happened.
-/
namespace Verif
open Mime

variable {K : Type}

/-! ## Specification -/

/-- exceptions of python's own functions are never muacrypt's `InvocationFailure`, which only bingpg.py:194 raises -/
structure PlainErrors (O : Oracle K) (env : Env) : Prop where
  int : ∀ s, env.pyInt s ≠ .error .invocationFailure
  decode : ∀ b, env.utf8Decode b ≠ .error .invocationFailure
  gpg : ∀ a i k, (O.step (.gpg a i) k).1 ≠ .error .invocationFailure
  mkdir : ∀ p k, (O.step (.makedirs p) k).1 ≠ .error .invocationFailure
  write : ∀ p b k, (O.step (.writeFile p b) k).1 ≠ .error .invocationFailure

/-- a gpg command between `w` and `w'` ended with an error status other than that of an interrupt -/
def GpgFailed (w w' : World Store K) : Prop :=
  ∃ new argv input out, w'.trace = new ++ w.trace ∧ Event.gpg argv input (.ok out) ∈ new ∧ out.ret ≠ 0 ∧ out.ret ≠ 130

/-- the result reported for a valid header with result `r` whose key was to be imported: unchanged if gpg imported the key, otherwise with
an error -/
inductive Imported (env : Env) (w w' : World Store K) (r : ACResult) : ACResult → Prop
  | done (k kh) : r.keydata = some k → ImportedKey env w w' k kh → Imported env w w' r r
  | refused : GpgFailed w w' → Imported env w w' r { r with error := some .importFailed }

/-- the result reported for the Autocrypt headers of a message -/
inductive HeaderResult (O : Oracle K) (env : Env) (n : Str) (m : Msg) (w w' : World Store K) : ACResult → Prop
  | key (v r p) : Regular env m → OnlyOne (ValidHeader env m) (m.getAll (str!"Autocrypt")) v → ValidFor env (senderAddr env m) v r →
      Imported env w w' r p → HeaderResult O env n m w w' p
  | none (e) : (∀ v, Regular env m → ¬ OnlyOne (ValidHeader env m) (m.getAll (str!"Autocrypt")) v) →
      (∀ ce, Complaint O ce env m n (Cmd.acErrText ce (senderAddr env m) e)) →
      HeaderResult O env n m w w' (.err e)

/-- the gossip headers which count for the recipient `a` of a decrypted message -/
def GossipHeader (env : Env) (m : Msg) (dec : Bytes) (a v : Str) : Prop :=
  LastOne (fun v => ∃ r, ValidFor env a v r) (innerOuter env m dec (str!"Autocrypt-Gossip")) v

/-- the message which plugins get: the content of the decrypted message, with the headers of the message which came -/
structure DecryptedMessage (env : Env) (m : Msg) (dec : Bytes) (x : Msg) : Prop where
  payload : x.payload = (env.messageFromBytes dec).payload
  headers : ∀ name, Py.lower name ∉ [str!"content-type", str!"mime-version", str!"content-transfer-encoding"] →
    x.getAll name = innerOuter env m dec name
  content : ∀ name, Py.lower name ∈ [str!"content-type", str!"mime-version", str!"content-transfer-encoding"] →
    x.getAll name = (env.messageFromBytes dec).getAll name

/-- the gossip reported for a message -/
structure GossipResult (env : Env) (m : Msg) (dec : Bytes) (w w' : World Store K) (g : List (Str × ACResult)) : Prop where
  nodup : (g.map (·.1)).Nodup
  addrs : ∀ a, a ∈ g.map (·.1) ↔ a ∈ decRecipients env m dec ∧ ∃ v, GossipHeader env m dec a v
  results : ∀ a p, (a, p) ∈ g → ∃ v r, GossipHeader env m dec a v ∧ ValidFor env a v r ∧ Imported env w w' r p

/-- the call of the plugin hook for gossip -/
def Event.gossipHook (addrs : List Str) (key : Str) (dec : Msg) : Event := ⟨.hookIncomingGossip addrs key dec, (.ok () : Except Exc Unit)⟩

/-- some call of the plugin hook for gossip -/
def Event.IsGossipHook (ev : Event) : Prop := ∃ a k d, ev.op = .hookIncomingGossip a k d

/-! ## Failed imports -/

/-- results which the law allows -/
def Lawful : (o : ExtOp) → o.Ret → Prop
  | .gpg _ _, r => (r : Except Exc GpgOut) ≠ .error .invocationFailure
  | .makedirs _, r => (r : Except Exc Unit) ≠ .error .invocationFailure
  | .writeFile _ _, r => (r : Except Exc Unit) ≠ .error .invocationFailure
  | _, _ => True

/-- gpg ended with an error status -/
def BadStatus : (o : ExtOp) → o.Ret → Prop
  | .gpg _ _, r => ∃ out, (r : Except Exc GpgOut) = .ok out ∧ out.ret ≠ 0 ∧ out.ret ≠ 130
  | _, _ => False

theorem PlainErrors.lawful {O : Oracle K} {env : Env} (h : PlainErrors O env) (o : ExtOp) (k : K) : Lawful o (O.step o k).1 := by
  cases o <;> first | trivial | exact h.gpg _ _ _ | exact h.mkdir _ _ | exact h.write _ _ _

namespace Prog
variable {α β : Type}

/-- `InvocationFailure` is only raised after a gpg command with an error status, or if `B` -/
def Blames : Prop → Prog α → Prop
  | _, .pure _ => True
  | B, .raise e => e = .invocationFailure → B
  | B, .op (.ext o) k => ∀ r, Lawful o r → Blames (B ∨ BadStatus o r) (k r)
  | B, .op (.chain _) k => ∀ es, Blames B (k (.ok es))
  | B, .op .now k => ∀ r, Blames B (k r)
  | B, .op (.append _ _) k => ∀ r, Blames B (k r)
  | B, .op .heads k => ∀ r, Blames B (k r)
  | B, .op (.removeIf _) k => ∀ r, Blames B (k r)
  | B, .op .wipe k => ∀ r, Blames B (k r)

theorem Blames.mono {B C : Prop} {p : Prog α} (h : Blames B p) (hBC : B → C) : Blames C p := by
  induction p generalizing B C with
  | pure a => trivial
  | raise e => exact fun he => hBC (h he)
  | op o k ih =>
    cases o with
    | ext o => exact fun r hr => ih r (h r hr) (Or.imp_left hBC)
    | chain x => exact fun es => ih _ (h es) hBC
    | _ => exact fun r => ih r (h r) hBC

theorem Blames.bind {B : Prop} {p : Prog α} {f : α → Prog β} (hp : Blames B p) (hf : ∀ a, Blames False (f a)) : Blames B (p.bind f) := by
  induction p generalizing B with
  | pure a => exact (hf a).mono False.elim
  | raise e => exact hp
  | op o k ih =>
    cases o with
    | ext o => exact fun r hr => ih r (hp r hr)
    | chain x => exact fun es => ih _ (hp es)
    | _ => exact fun r => ih r (hp r)

theorem Blames.ofExcept {B : Prop} {x : Except Exc α} (h : x ≠ .error .invocationFailure) : Blames B (Prog.ofExcept x) := by
  cases x with
  | ok a => trivial
  | error e => exact fun he => absurd (by rw [he]) h

theorem Blames.run {O : Oracle K} {env : Env} (hl : PlainErrors O env) {B : Prop} {p : Prog α} (h : Blames B p) {w w' : World Store K}
    (hr : run Store.impl O p w = (.error .invocationFailure, w')) :
    B ∨ GpgFailed w w' := by
  induction p generalizing B w with
  | pure a => cases hr
  | raise e => cases hr; exact .inl (h rfl)
  | op o k ih =>
    cases o with
    | ext o =>
      have hx := ih _ (h _ (hl.lawful o w.env)) (w := (step Store.impl O (.ext o) w).2) hr
      have htr : (step Store.impl O (.ext o) w).2.trace = ⟨o, (O.step o w.env).1⟩ :: w.trace := rfl
      have hle := trace_le (show Verif.run Store.impl O (k (step Store.impl O (.ext o) w).1) _ = _ from hr)
      rcases hx with (hB | hb) | ⟨new, argv, i, out, h1, h2, h3⟩
      · exact .inl hB
      · right
        obtain ⟨new, hnew⟩ := hle
        cases o with
        | gpg a i =>
          obtain ⟨out, ho, h3⟩ := hb
          refine ⟨new ++ [⟨.gpg a i, (O.step (.gpg a i) w.env).1⟩], a, i, out, ?_, ?_, h3⟩
          · rw [← hnew, htr]; simp
          · rw [ho]; simp [Event.gpg]
        | _ => exact hb.elim
      · exact .inr ⟨new ++ [⟨o, (O.step o w.env).1⟩], argv, i, out, by rw [h1, htr]; simp, List.mem_append_left _ h2, h3⟩
    | chain x => exact ih _ (h _) hr
    | now => exact ih _ (h _) (w := (step Store.impl O .now w).2) hr
    | append a b => exact ih _ (h _) (w := (step Store.impl O (.append a b) w).2) hr
    | heads => exact ih _ (h _) hr
    | removeIf p => exact ih _ (h _) (w := (step Store.impl O (.removeIf p) w).2) hr
    | wipe => exact ih _ (h _) (w := (step Store.impl O .wipe w).2) hr

end Prog

section
variable {O : Oracle K} {env : Env} (hl : PlainErrors O env)
include hl
open Prog

theorem blames_gpgOuterr (g : BinGPG) (a i d) : Blames False (BinGPG.gpgOuterr env g a i false d) := by
  unfold BinGPG.gpgOuterr
  refine fun (r : Except Exc GpgOut) (hr : r ≠ _) => ?_
  cases r with
  | error e => exact fun he => absurd (by rw [he]) hr
  | ok out =>
    by_cases hb : out.ret ≠ 0 ∧ out.ret ≠ 130
    · refine Blames.mono (B := True) ?_ fun _ => .inr ⟨out, rfl, hb⟩
      show Blames True (Prog.ofExcept (BinGPG.checkResult env false d out))
      cases BinGPG.checkResult env false d out with
      | ok _ => trivial
      | error e => exact fun _ => trivial
    · show Blames _ (Prog.ofExcept (BinGPG.checkResult env false d out))
      apply Blames.ofExcept
      intro hc
      unfold BinGPG.checkResult at hc
      split at hc
      · cases hc
      · rename_i h130
        split at hc
        · rename_i e he; cases hc; exact hl.decode _ he
        · split at hc
          · rename_i e he
            split at he
            · rename_i x
              cases hd : env.utf8Decode out.out with
              | ok y => rw [hd] at he; cases he
              | error y => rw [hd] at he; cases he; cases hc; exact hl.decode _ hd
            · cases he
          · split at hc
            · rename_i hx
              rcases hx with hx | hx
              · exact hb ⟨hx, h130⟩
              · exact absurd hx.1 (by simp)
            · cases hc

theorem blames_gpgOutText (g : BinGPG) (a i) : Blames False (BinGPG.gpgOutText env g a i) :=
  .bind (blames_gpgOuterr hl g _ _ _) fun _ => .ofExcept (hl.decode _)

theorem looseVersion_plain {s : Str} : Py.looseVersion env s ≠ .error .invocationFailure := by
  unfold Py.looseVersion
  split
  · simp
  · generalize Py.versionPieces env s = ps
    have hc : ∀ p, Py.component env p ≠ .error .invocationFailure := by
      intro p
      have := hl.int p
      unfold Py.component
      split <;> simp_all
    induction ps with
    | nil => intro h; cases h
    | cons p ps ih =>
      rw [List.mapM_cons]
      intro h
      cases h1 : Py.component env p with
      | error e => rw [h1] at h; cases h; exact hc p h1
      | ok c =>
        rw [h1] at h
        cases h2 : ps.mapM (Py.component env) with
        | error e => rw [h2] at h; cases h; exact ih h2
        | ok cs => rw [h2] at h; cases h

omit hl in
theorem componentsGe_plain (as bs : List Py.Component) : Py.componentsGe as bs ≠ .error .invocationFailure := by
  induction as generalizing bs with
  | nil => cases bs <;> (intro h; cases h)
  | cons a as ih =>
    cases bs with
    | nil => intro h; cases h
    | cons b bs =>
      unfold Py.componentsGe
      split
      · exact ih bs
      · cases a <;> cases b <;> (intro h; cases h)

theorem versionGe_plain {t v : Str} : BinGPG.versionGe env t v ≠ .error .invocationFailure := by
  unfold BinGPG.versionGe BinGPG.versionText BinGPG.field
  intro h
  split at h
  · next x hx =>
      have h : Py.looseGe env x v = .error .invocationFailure := h
      unfold Py.looseGe at h
      cases h1 : Py.looseVersion env x with
      | error e => rw [h1] at h; cases h; exact looseVersion_plain hl h1
      | ok a =>
        rw [h1] at h
        cases h2 : Py.looseVersion env v with
        | error e => rw [h2] at h; cases h; exact looseVersion_plain hl h2
        | ok b => rw [h2] at h; exact componentsGe_plain a b h
  · cases h

theorem blames_versionAtLeast (g : BinGPG) (v) : Blames False (BinGPG.versionAtLeast env g v) :=
  .bind (blames_gpgOutText hl g _ _) fun _ => .ofExcept (versionGe_plain hl)

theorem parseLine_plain {types infos last l} : BinGPG.parseLine env types infos last l ≠ .error .invocationFailure := by
  have hf : ∀ ps i, BinGPG.field ps i ≠ .error .invocationFailure := by
    intro ps i; unfold BinGPG.field; split <;> simp
  unfold BinGPG.parseLine
  intro h
  have hb : ∀ {α β : Type} {x : Except Exc α} {f : α → Except Exc β}, x ≠ .error .invocationFailure → (∀ a, f a ≠ .error .invocationFailure) →
      (x >>= f) ≠ .error .invocationFailure := by
    intro α β x f hx hf hc
    cases x with
    | error e => cases hc; exact hx rfl
    | ok a => exact hf a hc
  revert h
  dsimp only
  split
  · exact hb (hf _ _) fun _ => hb (hf _ _) fun _ => hb (hl.int _) fun _ => hb (hf _ _) fun _ => hb (hf _ _) fun _ => hb (hf _ _) fun _ =>
      (by intro h; cases h)
  · split
    · split
      · intro h; cases h
      · exact hb (hf _ _) fun _ => (by intro h; cases h)
    · intro h; cases h

theorem parseLines_plain {types infos last ls} : BinGPG.parseLines env types infos last ls ≠ .error .invocationFailure := by
  induction ls generalizing infos last with
  | nil => intro h; cases h
  | cons l ls ih =>
    unfold BinGPG.parseLines
    split
    · rename_i e he
      intro h; cases h
      exact parseLine_plain hl he
    · exact ih

theorem blames_listPublicKeyinfos (g : BinGPG) (k) : Blames False (BinGPG.listPublicKeyinfos env g k) :=
  .bind (blames_gpgOutText hl g _ _) fun _ => .ofExcept (parseLines_plain hl)

theorem blames_findKeyhandle (g : BinGPG) (t) : Blames False (BinGPG.findKeyhandle env g t) := by
  unfold BinGPG.findKeyhandle
  split
  · intro h; cases h
  · split
    · refine .bind (blames_listPublicKeyinfos hl g _) fun _ => ?_
      split
      · trivial
      · intro h; cases h
    · trivial

theorem blames_importKeydata (g : BinGPG) (k) : Blames False (BinGPG.importKeydata env g k) :=
  .bind (blames_gpgOuterr hl g _ _ _) fun _ => .bind (blames_findKeyhandle hl g _) fun _ => trivial

omit hl in
theorem blames_makedirs (p) : Blames False (Prog.makedirs p) :=
  fun (r : Except Exc Unit) (hr : r ≠ _) => .ofExcept hr

omit hl in
theorem blames_writeFile (p c) : Blames False (Prog.writeFile p c) :=
  fun (r : Except Exc Unit) (hr : r ≠ _) => .ofExcept hr

omit hl in
theorem blames_pathExists (p) : Blames False (Prog.pathExists p) := fun _ _ => trivial

theorem blames_ensureInit (g : BinGPG) : Blames False (BinGPG.ensureInit env g) := by
  unfold BinGPG.ensureInit BinGPG.badDefaults
  split
  · trivial
  · simp only [bind_eq, pure_eq]
    refine .bind (blames_pathExists _) fun _ => ?_
    have h1 : Blames False (((BinGPG.versionAtLeast env g (str!"2.0")).bind fun b => if b = true then
        (BinGPG.versionAtLeast env g (str!"2.1.12")).bind fun v => Prog.pure !v else Prog.pure false)) := by
      refine .bind (blames_versionAtLeast hl g _) fun _ => ?_
      split
      · exact .bind (blames_versionAtLeast hl g _) fun _ => trivial
      · trivial
    split
    · refine .bind (blames_makedirs _) fun _ => .bind h1 fun _ => ?_
      split
      · refine .bind (blames_pathExists _) fun _ => ?_
        split
        · exact blames_writeFile _ _
        · trivial
      · trivial
    · refine .bind h1 fun _ => ?_
      split
      · refine .bind (blames_pathExists _) fun _ => ?_
        split
        · exact blames_writeFile _ _
        · trivial
      · trivial

theorem blames_bingpg (n : Str) : Blames False (Account.bingpg env n) := by
  unfold Account.bingpg
  simp only [bind_eq]
  refine .bind ?_ fun c => ?_
  · unfold Own.config
    simp only [bind_eq, pure_eq]
    refine .bind (fun es => trivial) fun es => ?_
    split
    · trivial
    · first | trivial | (intro h; cases h)
  · split
    · intro h; cases h
    · unfold BinGPG.create
      simp only [bind_eq, pure_eq]
      refine .bind (fun _ _ => trivial) fun o => ?_
      split
      · intro h; cases h
      · exact .bind (blames_ensureInit hl _) fun _ => trivial

/-- a refused import was refused because of gpg -/
theorem importKey_refused {n : Str} {k : Bytes} {w w' : World Store K}
    (h : run Store.impl O (Account.importKey env n k) w = (.ok none, w')) : GpgFailed w w' := by
  unfold Account.importKey at h
  simp only [bind_eq, pure_eq] at h
  obtain ⟨x, w1, h1, h⟩ := run_bind_ok.mp h
  rw [run_attempt] at h1
  have ext : ∀ {a b c d : World Store K}, a.trace <:+ b.trace → c.trace <:+ d.trace → GpgFailed b c → GpgFailed a d := by
    rintro a b c d ⟨p, hp⟩ ⟨q, hq⟩ ⟨new, argv, i, out, h1, h2, h3⟩
    exact ⟨q ++ (new ++ p), argv, i, out, by rw [← hq, h1, ← hp]; simp, by simp [h2], h3⟩
  rcases hb : run Store.impl O (Account.bingpg env n) w with ⟨e | g, w2⟩ <;> rw [hb] at h1 <;> cases h1
  · obtain ⟨_, w3, h3, h4⟩ := run_bind_ok.mp h
    split at h4
    · rename_i he
      subst he
      cases h4
      exact ext List.suffix_rfl (trace_le h3) (((blames_bingpg hl n).run hl hb).resolve_left id)
    · cases h4
  · obtain ⟨y, w3, h3, h4⟩ := run_bind_ok.mp h
    rw [run_attempt] at h3
    rcases hi : run Store.impl O (BinGPG.importKeydata env g k) w2 with ⟨e | kh, w4⟩ <;> rw [hi] at h3 <;> cases h3
    · dsimp only at h4
      split at h4
      · rename_i he
        subst he
        cases h4
        exact ext (trace_le hb) List.suffix_rfl (((blames_importKeydata hl g k).run hl hi).resolve_left id)
      · cases h4
    · cases h4

end

/-! ## Results of headers -/

theorem GpgFailed.extend {w w1 w2 w3 : World Store K} (h : GpgFailed w1 w2) (h1 : w.trace <:+ w1.trace) (h2 : w2.trace <:+ w3.trace) :
    GpgFailed w w3 := by
  obtain ⟨p, hp⟩ := h1
  obtain ⟨q, hq⟩ := h2
  obtain ⟨new, argv, i, out, h1, h2, h3⟩ := h
  exact ⟨q ++ (new ++ p), argv, i, out, by rw [← hq, h1, ← hp]; simp, by simp [h2], h3⟩

theorem Imported.extend {env : Env} {w w1 w2 w3 : World Store K} {r p : ACResult} (h : Imported env w1 w2 r p) (h1 : w.trace <:+ w1.trace)
    (h2 : w2.trace <:+ w3.trace) : Imported env w w3 r p := by
  cases h with
  | done k kh hk hi => exact .done k kh hk (hi.extend h1 h2)
  | refused hg => exact .refused (hg.extend h1 h2)

theorem importPah_result {O : Oracle K} {env : Env} (hl : PlainErrors O env) {n : Str} {r p : ACResult} {k : Bytes} (hk : r.keydata = some k)
    {kh : Option Str} {w w' : World Store K} (h : run Store.impl O (Account.importPah env n r) w = (.ok (kh, p), w')) : Imported env w w' r p := by
  unfold Account.importPah at h
  simp only [bind_eq, pure_eq] at h
  obtain ⟨o, w1, h1, h2⟩ := run_bind_ok.mp h
  rw [hk, Option.getD_some] at h1
  cases o with
  | none => cases h2; exact .refused (importKey_refused hl h1)
  | some x => cases h2; exact .done k x hk (importKey_ran h1)

theorem ValidFor.keydata {env : Env} {a v : Str} {r : ACResult} (h : ValidFor env a v r) : ∃ k, r.keydata = some k := by
  rcases parseAcHeadervalue_shape h.1 with ⟨e, rfl⟩ | ⟨k, _, _, _, rfl⟩
  · cases h.2.1
  · exact ⟨k, rfl⟩

theorem HeaderResult.extend {O : Oracle K} {env : Env} {n : Str} {m : Msg} {w w1 w2 w3 : World Store K} {p : ACResult}
    (h : HeaderResult O env n m w1 w2 p) (h1 : w.trace <:+ w1.trace) (h2 : w2.trace <:+ w3.trace) : HeaderResult O env n m w w3 p := by
  cases h with
  | key v r _ h3 h4 h5 h6 => exact .key v r p h3 h4 h5 (h6.extend h1 h2)
  | none e h3 h4 => exact .none e h3 h4

theorem header_result {O : Oracle K} {env : Env} (hl : PlainErrors O env) {n : Str} {m : Msg} {hd : Str} {t : Time} {id : Str} {p : ACResult}
    {w w' : World Store K} (h : run Store.impl O (Account.processAutocryptHeader env n m (fromAddr env m) hd t id) w = (.ok p, w')) :
    HeaderResult O env n m w w' p := by
  unfold Account.processAutocryptHeader at h
  simp only [bind_eq, pure_eq] at h
  obtain ⟨r, w1, h1, h2⟩ := run_bind_ok.mp h
  rw [run_ofExcept] at h1
  have hr : parseOneAcHeaderFromMsg env m [fromAddr env m] = .ok r := congrArg Prod.fst h1
  have hw : w = w1 := congrArg Prod.snd h1
  subst hw
  obtain ⟨⟨kh, q⟩, w2, h3, h4⟩ := run_bind_ok.mp h2
  obtain ⟨_, w3, h5, h6⟩ := run_bind_ok.mp h4
  have hq : q = p := Except.ok.inj (congrArg Prod.fst h6)
  have hw3 : w3 = w' := congrArg Prod.snd h6
  subst hq hw3
  cases he : r.error with
  | some e =>
    rw [if_pos (by rw [he]; rfl)] at h3
    have hq : r = q := congrArg Prod.snd (Except.ok.inj (congrArg Prod.fst h3))
    subst hq
    have hp : r = .err e := by
      rcases parseOne_shape hr with ⟨e', rfl⟩ | ⟨_, _, h9⟩
      · cases he; rfl
      · obtain ⟨_, v, _, _, _, h10, _⟩ := List.filterMap_eq_cons_iff.mp h9
        rw [accepted_eq_some] at h10
        rcases parseAcHeadervalue_shape h10.1 with ⟨z, hz⟩ | ⟨k, _, _, _, hz⟩
        · rw [hz] at he ⊢; cases he; rfl
        · rw [hz] at he; cases he
    rw [hp]
    refine .none e (fun v hreg hone => ?_) fun ce => parseOne_complaint hr he
    have hone' := hone
    obtain ⟨_, _, _, ⟨r', hv⟩, _⟩ := hone'
    have := parseOne_only hr hreg.1 hreg.2 rfl hone hv
    rw [this, hv.2.1] at he
    cases he
  | none =>
    rw [if_neg (by rw [he]; simp)] at h3
    obtain ⟨hreg, v, k, h7, h8, h9⟩ := parseOne_good hr he
    exact .key v r q hreg h7 h8 ((importPah_result hl h9 h3).extend List.suffix_rfl (trace_le h5))

/-! ## Results of gossip -/

theorem nodup_dictSet {α : Type} {d : List (Str × α)} (h : (d.map (·.1)).Nodup) (k : Str) (v : α) : ((dictSet d k v).map (·.1)).Nodup := by
  unfold dictSet
  split
  · have : (d.map fun x => if x.1 == k then (k, v) else x).map (·.1) = d.map (·.1) := by
      rw [List.map_map]; apply List.map_congr_left
      intro x _
      by_cases hx : x.1 = k <;> simp [hx]
    rw [this]; exact h
  · rename_i hn
    rw [List.map_append, List.nodup_append]
    refine ⟨h, by simp, ?_⟩
    intro a ha b hb
    simp only [List.map_cons, List.map_nil, List.mem_singleton] at hb
    subst hb
    rintro rfl
    obtain ⟨x, hx, rfl⟩ := List.mem_map.mp ha
    exact hn (List.any_eq_true.mpr ⟨x, hx, by simp⟩)

theorem dictGet_of_mem {α : Type} {d : List (Str × α)} (h : (d.map (·.1)).Nodup) {k : Str} {v : α} (hm : (k, v) ∈ d) : dictGet d k = some v := by
  unfold dictGet
  induction d with
  | nil => cases hm
  | cons x d ih =>
    rw [List.map_cons, List.nodup_cons] at h
    rw [List.find?_cons]
    rcases List.mem_cons.mp hm with rfl | hm
    · simp
    · have : (x.1 == k) = false := by
        rw [beq_eq_false_iff_ne]
        rintro rfl
        exact h.1 (List.mem_map.mpr ⟨_, hm, rfl⟩)
      rw [this]
      exact ih h.2 hm

/-- what the results collected so far are -/
def Results (env : Env) (w0 w : World Store K) (dict pr : List (Str × ACResult)) : Prop :=
  (pr.map (·.1)).Nodup ∧ ∀ a p, dictGet pr a = some p → ∃ r, dictGet dict a = some r ∧ Imported env w0 w r p

theorem gossipLoop_results {O : Oracle K} {env : Env} (hl : PlainErrors O env) {n id : Str} {t : Time} {dict pr out : List (Str × ACResult)}
    {l : List Str} {w0 w w' : World Store K} (h : run Store.impl O (Account.gossipLoop env n dict t id pr l) w = (.ok out, w'))
    (hd : ∀ a r, dictGet dict a = some r → r.error = none ∧ ∃ k, r.keydata = some k) (ht : w0.trace <:+ w.trace)
    (hr : Results env w0 w dict pr) :
    Results env w0 w' dict out ∧
      ∀ a, a ∈ out.map (·.1) ↔ a ∈ pr.map (·.1) ∨ a ∈ l ∧ ∃ r, dictGet dict a = some r := by
  induction l generalizing pr w with
  | nil => cases h; exact ⟨hr, by simp⟩
  | cons a0 l ih =>
    unfold Account.gossipLoop at h
    split at h
    · rename_i hn
      obtain ⟨i1, i2⟩ := ih h ht hr
      refine ⟨i1, fun a => (i2 a).trans ?_⟩
      constructor
      · rintro (h | ⟨h1, h2⟩)
        · exact .inl h
        · exact .inr ⟨List.mem_cons_of_mem _ h1, h2⟩
      · rintro (h | ⟨h1, r, h2⟩)
        · exact .inl h
        · rcases List.mem_cons.mp h1 with rfl | h1
          · rw [hn] at h2; cases h2
          · exact .inr ⟨h1, r, h2⟩
    · rename_i r0 hr0
      simp only [bind_eq] at h
      obtain ⟨⟨kh, p⟩, w1, h1, h2⟩ := run_bind_ok.mp h
      obtain ⟨_, w2, h3, h4⟩ := run_bind_ok.mp h2
      obtain ⟨he0, k, hk⟩ := hd _ _ hr0
      have t1 := trace_le h1
      have t2 := trace_le h3
      have hi := (importPah_result hl hk h1).extend ht t2
      obtain ⟨i1, i2⟩ := ih h4 (ht.trans (t1.trans t2)) (by
        refine ⟨nodup_dictSet hr.1 _ _, fun a q hq => ?_⟩
        rw [dictGet_dictSet] at hq
        split at hq
        · rename_i ha
          cases hq
          have ha : a0 = a := by first | exact ha | exact ha.symm
          subst ha
          refine ⟨r0, hr0, ?_⟩
          unfold Account.keepError
          cases hold : dictGet pr a0 with
          | none => exact hi
          | some q =>
            obtain ⟨r1, hr1, hi1⟩ := hr.2 _ _ hold
            rw [hr0] at hr1
            cases hr1
            cases hi1 with
            | done k' kh' hk' him => simp only [Option.bind_some, he0]; exact hi
            | refused hg =>
              simp only [Option.bind_some]
              have hp : ({ p with error := some AcErr.importFailed } : ACResult) = { r0 with error := some AcErr.importFailed } := by
                cases hi <;> rfl
              rw [hp]
              exact .refused (hg.extend List.suffix_rfl (t1.trans t2))
        · obtain ⟨r1, hr1, hi1⟩ := hr.2 _ _ hq
          exact ⟨r1, hr1, hi1.extend List.suffix_rfl (t1.trans t2)⟩)
      refine ⟨i1, fun a => (i2 a).trans ?_⟩
      rw [mem_keys_dictSet]
      constructor
      · rintro ((rfl | h) | ⟨h1, h2⟩)
        · exact .inr ⟨List.mem_cons_self .., r0, hr0⟩
        · exact .inl h
        · exact .inr ⟨List.mem_cons_of_mem _ h1, h2⟩
      · rintro (h | ⟨h1, h2⟩)
        · exact .inl (.inr h)
        · rcases List.mem_cons.mp h1 with rfl | h1
          · exact .inl (.inl rfl)
          · exact .inr ⟨h1, h2⟩

theorem gossip_results {O : Oracle K} {env : Env} (hl : PlainErrors O env) {n id : Str} {t : Time} {m : Msg} {dec : Bytes}
    {out : List (Str × ACResult)} {w w' : World Store K}
    (h : run Store.impl O (Account.processGossipHeaders env n (transferNonContentHeaders m (env.messageFromBytes dec)) t id) w = (.ok out, w')) :
    GossipResult env m dec w w' out := by
  unfold Account.processGossipHeaders at h
  simp only [bind_eq] at h
  obtain ⟨dict, w1, h1, h2⟩ := run_bind_ok.mp h
  rw [run_ofExcept] at h1
  have hdict := congrArg Prod.fst h1
  have hw : w = w1 := congrArg Prod.snd h1
  subst hw
  dsimp only at hdict
  rw [getGossipHeadersFromMsg, getAll_transfer _ _ (by decide)] at hdict
  have htgt : getTargetEmailadr env (transferNonContentHeaders m (env.messageFromBytes dec)) = decRecipients env m dec := by
    rw [getTargetEmailadr, getAll_transfer _ _ (by decide), getAll_transfer _ _ (by decide), decRecipients]
    simp only [innerOuter]
    rw [getAll_congr _ (show Py.lower (str!"To") = Py.lower (str!"to") by decide),
      getAll_congr _ (show Py.lower (str!"Cc") = Py.lower (str!"cc") by decide),
      getAll_congr m (show Py.lower (str!"To") = Py.lower (str!"to") by decide),
      getAll_congr m (show Py.lower (str!"Cc") = Py.lower (str!"cc") by decide)]
  rw [htgt] at h2
  have hget : ∀ a r, dictGet dict a = some r → ∃ v, GossipHeader env m dec a v ∧ ValidFor env a v r := by
    intro a r hr
    rcases collectGossip_get hdict a r hr with ⟨h1, _⟩ | h1
    · cases h1
    · exact h1
  obtain ⟨⟨j1, j2⟩, j3⟩ := gossipLoop_results hl (w0 := w) h2
    (fun a r hr => by obtain ⟨v, _, hv⟩ := hget a r hr; exact ⟨hv.2.1, hv.keydata⟩) List.suffix_rfl ⟨List.nodup_nil, fun a p hp => by cases hp⟩
  refine ⟨j1, fun a => (j3 a).trans ?_, fun a p hp => ?_⟩
  · constructor
    · rintro (h | ⟨h1, r, h2⟩)
      · cases h
      · obtain ⟨v, hv, _⟩ := hget a r h2
        exact ⟨h1, v, hv⟩
    · rintro ⟨h1, v, hv⟩
      have hv' := hv
      obtain ⟨_, _, _, ⟨r, hr⟩, _⟩ := hv'
      exact .inr ⟨h1, r, collectGossip_last hdict hv hr⟩
  · obtain ⟨r, hr, hi⟩ := j2 a p (dictGet_of_mem j1 hp)
    obtain ⟨v, hv, hvr⟩ := hget a r hr
    exact ⟨v, r, hv, hvr, hi⟩

/-! ## The hook -/

/-- no call of the hook for incoming gossip -/
def Op.noGossipHook : Op → Prop
  | .ext (.hookIncomingGossip _ _ _) => False
  | _ => True

theorem permissive_noGossipHook : Permissive Op.noGossipHook := by
  refine ⟨trivial, fun _ => trivial, trivial, fun o ho => ?_⟩
  cases o <;> trivial

theorem no_hook_events {O : Oracle K} {α : Type} {p : Prog α} (hp : p.AllOps Op.noGossipHook) (w : World Store K) :
    Events (fun ev => ¬ ev.IsGossipHook) w (run Store.impl O p w).2 := by
  refine (run_events hp w).mono ?_
  rintro ev h ⟨a, k, d, he⟩
  rw [he] at h
  exact h

theorem header_no_hook (env : Env) (n : Str) (m : Msg) (f hd : Str) (t : Time) (id : Str) :
    (Account.processAutocryptHeader env n m f hd t id).AllOps Op.noGossipHook := by
  have h1 : ∀ h u, (Peer.updateFromMsg h u).AllOps Op.noGossipHook := by
    intro h u; unfold Peer.updateFromMsg; simp only [bind_eq, pure_eq]; allops; all_goals exact .append trivial
  have h3 := fun p => Account.importPah_ops permissive_noGossipHook env n p
  unfold Account.processAutocryptHeader; simp only [bind_eq, pure_eq]
  allops <;> first | exact h1 _ _ | exact h3 _

theorem gossip_no_hook (env : Env) (n : Str) (m : Msg) (t : Time) (id : Str) :
    (Account.processGossipHeaders env n m t id).AllOps Op.noGossipHook := by
  have h2 : ∀ h u, (Peer.updateFromGossip h u).AllOps Op.noGossipHook := by
    intro h u; unfold Peer.updateFromGossip; simp only [bind_eq, pure_eq]; allops; all_goals exact .append trivial
  have h3 := fun p => Account.importPah_ops permissive_noGossipHook env n p
  unfold Account.processGossipHeaders
  refine .bind (.ofExcept _) fun dict => ?_
  generalize getTargetEmailadr env m = l
  generalize ([] : List (Str × ACResult)) = pr
  induction l generalizing pr with
  | nil => trivial
  | cons r l ih =>
    unfold Account.gossipLoop
    split
    · exact ih _
    · exact .bind (h3 _) fun _ => .bind (h2 _ _) fun _ => ih _

theorem decryptedMessage (env : Env) (m : Msg) (dec : Bytes) :
    DecryptedMessage env m dec (transferNonContentHeaders m (env.messageFromBytes dec)) where
  payload := rfl
  headers _ h := getAll_transfer _ _ h
  content name h := by
    simp only [Msg.getAll, transferNonContentHeaders, Msg.headers, nonContentHeaders, List.filter_append, List.map_append, List.filter_filter]
    have : (m.headers.filter fun a => Msg.nameEq a.1 name && decide (Py.lower a.1 ∉ [str!"content-type", str!"mime-version", str!"content-transfer-encoding"])) = [] := by
      rw [List.filter_eq_nil_iff]
      intro x _ hx
      simp only [Bool.and_eq_true, decide_eq_true_eq, Msg.nameEq, beq_iff_eq] at hx
      rw [hx.1] at hx
      exact hx.2 h
    simp only [Msg.headers] at this
    rw [this]
    simp

theorem run_hookGossip (O : Oracle K) (a : List Str) (k : Str) (d : Msg) (w : World Store K) :
    run Store.impl O (Prog.hookIncomingGossip a k d) w =
      ((O.step (.hookIncomingGossip a k d) w.env).1,
        { w with env := (O.step (.hookIncomingGossip a k d) w.env).2, trace := ⟨.hookIncomingGossip a k d, (O.step (.hookIncomingGossip a k d) w.env).1⟩ :: w.trace }) := by
  simp only [Prog.hookIncomingGossip, run]
  exact run_ofExcept _ _ _ _

/-! ## C100 -/

/-- C100: the result of `process_incoming` -/
theorem C100_result {O : Oracle K} {env : Env} (hl : PlainErrors O env) {n : Str} {m : Msg} {i nd : Bool} {w w' : World Store K}
    {res : Account.IncomingResult} (h : exec O (Account.processIncoming env n m i nd) w = (.ok (some res), w')) :
    IdText m res.msgId ∧ EffectiveDate env w m res.date ∧ res.peer = peerHead n (senderAddr env m) ∧ res.account = n ∧
    HeaderResult O env n m w w' res.pah ∧
    ((nd = true ∨ PlainMail m) ∧ res.gossip = [] ∧ Events (fun ev => ¬ ev.IsGossipHook) w w' ∨
     nd = false ∧ PgpMime m ∧ ∃ dec key x, ∃ w1 : World Store K, DecryptedTo w w' m dec ∧ GossipResult env m dec w w' res.gossip ∧
      DecryptedMessage env m dec x ∧ OwnKey w' n key ∧ Events (fun ev => ¬ ev.IsGossipHook) w w1 ∧
      w'.trace = Event.gossipHook (res.gossip.map (·.1)) key x :: w1.trace) := by
  spec_mail
  have hid : IdText m (messageId m) := by
    unfold messageId
    split
    · exact .some _ (by assumption)
    · exact .none (by assumption)
  unfold Account.processIncoming effectiveDate at h
  simp only [bind_eq, pure_eq, exec] at h
  obtain ⟨d, w0, h1, h2⟩ := run_bind_ok.mp h
  rw [run_ofExcept] at h1
  have hd : parseDateToFloat env (m.get (str!"Date")) = .ok d := congrArg Prod.fst h1
  have hw : w = w0 := congrArg Prod.snd h1
  subst hw
  obtain ⟨t, w1, h3, h4⟩ := run_bind_ok.mp h2
  have ht : t = min d (w.clock w.tick) := (Except.ok.inj (congrArg Prod.fst h3)).symm
  have hw1 : w1 = { w with tick := w.tick + 1 } := (congrArg Prod.snd h3).symm
  obtain ⟨known, w2, h5, h6⟩ := run_bind_ok.mp h4
  have hw2 : w2 = w1 := by
    split at h5
    · exact (congrArg Prod.snd h5).symm
    · exact (congrArg Prod.snd h5).symm
  subst hw2
  split at h6
  · cases h6
  obtain ⟨pah, w3, h7, h8⟩ := run_bind_ok.mp h6
  obtain ⟨enc, w4, h9, h10⟩ := run_bind_ok.mp h8
  obtain ⟨g, w5, h11, h12⟩ := run_bind_ok.mp h10
  have hres := Option.some.inj (Except.ok.inj (congrArg Prod.fst h12))
  have hw5 : w5 = w' := congrArg Prod.snd h12
  subst hw5 hres
  have htr : w.trace <:+ w2.trace := by rw [hw1]; exact List.suffix_rfl
  have hev2 : Events (fun ev => ¬ ev.IsGossipHook) w w3 := by
    have := no_hook_events (O := O) (header_no_hook env n m (fromAddr env m) (Account.peerHeadOf env n (fromAddr env m)) t (messageId m)) w2
    rw [show fromAddr env m = parseEmailAddr env (m.get (str!"From")) from rfl] at this
    rw [h7] at this
    exact (Events.of_trace_eq (by rw [hw1])).trans this
  have hw4 : w4 = w3 ∧ (enc = false → nd = true ∨ isEncrypted m = .ok false) ∧ (enc = true → nd = false ∧ isEncrypted m = .ok true) := by
    split at h9
    · rename_i hnd
      cases h9
      exact ⟨rfl, fun _ => .inl hnd, fun h => by cases h⟩
    · rename_i hnd
      rw [run_ofExcept] at h9
      have he : isEncrypted m = .ok enc := congrArg Prod.fst h9
      refine ⟨(congrArg Prod.snd h9).symm, fun h => .inr (by rw [he, h]), fun h => ⟨by simpa using hnd, by rw [he, h]⟩⟩
  obtain ⟨hw4, hf, htt⟩ := hw4
  subst hw4
  have hfin : w4.trace <:+ w5.trace := trace_le h11
  refine ⟨hid, ⟨d, parseDateToFloat_ok.mp hd, ht⟩, rfl, rfl, (header_result hl h7).extend htr hfin, ?_⟩
  cases enc with
  | false =>
    rw [if_neg (by simp)] at h11
    cases h11
    exact .inl ⟨hf rfl, rfl, hev2⟩
  | true =>
    rw [if_pos rfl] at h11
    obtain ⟨r, w6, h13, h14⟩ := run_bind_ok.mp h11
    obtain ⟨g', w7, h15, h16⟩ := run_bind_ok.mp h14
    obtain ⟨key, w8, h17, h18⟩ := run_bind_ok.mp h16
    obtain ⟨u, w9, h19, h20⟩ := run_bind_ok.mp h18
    have hg : g' = g := Except.ok.inj (congrArg Prod.fst h20)
    have hw9 : w9 = w5 := congrArg Prod.snd h20
    subst hg hw9
    obtain ⟨dec, hdm, hdt⟩ := decryptMime_ok h13
    obtain ⟨hown, hw8⟩ := exec_ownKeyhandle_ok (show exec O _ _ = _ from h17)
    subst hw8
    rw [hdm] at h15 h19
    have e1 : Events (fun ev => ¬ ev.IsGossipHook) w4 w6 := by
      have := no_hook_events (O := O) (Account.decryptMime_ops permissive_noGossipHook env n m) w4
      rw [h13] at this; exact this
    have e2 : Events (fun ev => ¬ ev.IsGossipHook) w6 w8 := by
      have := no_hook_events (O := O) (gossip_no_hook env n (transferNonContentHeaders m (env.messageFromBytes dec)) t (messageId m)) w6
      rw [h15] at this; exact this
    have tr89 := trace_le h19
    rw [run_hookGossip] at h19
    have hx := congrArg Prod.fst h19
    have hw9 := congrArg Prod.snd h19
    dsimp only at hx hw9
    have hw9 : w9.trace = Event.gossipHook (g'.map (·.1)) key (transferNonContentHeaders m (env.messageFromBytes dec)) :: w8.trace ∧
        w9.store = w8.store := by
      rw [← hw9, hx]; exact ⟨rfl, rfl⟩
    have tr46 := trace_le h13
    have tr68 := trace_le h15
    have trw4 : w.trace <:+ w4.trace := htr.trans (trace_le h7)
    refine .inr ⟨(htt rfl).1, (htt rfl).2, dec, key, _, w8, hdt.mono trw4 (tr68.trans tr89), ?_, decryptedMessage env m dec, ?_,
      hev2.trans (e1.trans e2), hw9.1⟩
    · obtain ⟨k1, k2, k3⟩ := gossip_results hl h15
      refine ⟨k1, k2, fun a p hp => ?_⟩
      obtain ⟨v, r, q1, q2, q3⟩ := k3 a p hp
      exact ⟨v, r, q1, q2, q3.extend (trw4.trans tr46) tr89⟩
    · unfold OwnKey World.log at hown ⊢
      rw [hw9.2]; exact hown

/-! ## Examples -/

section
open Concrete

theorem concrete_plainErrors : PlainErrors oracle env where
  int s := by simp only [env]; split <;> simp
  decode _ := by intro h; cases h
  gpg _ _ _ := by intro h; cases h
  mkdir _ _ := by intro h; cases h
  write _ _ _ := by intro h; cases h

/-- an encrypted message from Bob with a key which gpg refuses, and gossip for Carol -/
def refusedKey : Msg := encMail (str!"1") (str!"100") [(str!"Autocrypt", str!"addr=" ++ bob ++ str!"; keydata=" ++ Py.b64encode [0, 1])] [gossipField carol [7]]

example : let r := (exec oracle (Account.processIncoming env (str!"a") refusedKey false false) (after [addA])).1.toOption.getD none
    r.map (fun r => (r.msgId, r.account)) = some (str!"1", str!"a") ∧
    r.map (fun r => (r.pah.error, r.pah.keydata)) = some (some .importFailed, some [0, 1]) ∧
    r.map (fun r => r.gossip.map (·.1)) = some [carol] ∧
    r.map (fun r => r.gossip.map fun x => (x.2.error, x.2.keydata)) = some [(none, some [7])] := by decide +kernel

example : ((exec oracle (Account.processIncoming env (str!"a") refusedKey false true) (after [addA])).1.toOption.map
    (Option.map fun r => r.gossip.length)) = some (some 0) ∧ isEncrypted refusedKey = .ok true ∧ isEncrypted (mail bob (str!"1") (str!"100") [7]) = .ok false ∧
    ((exec oracle (Account.processIncoming env (str!"a") (mail bob (str!"1") (str!"100") []) false false) (after [addA])).1.toOption.map
      (Option.map fun r => (r.pah.error, r.pah.keydata))) = some (some (some .noValid, none)) := by decide +kernel

end

end Verif
