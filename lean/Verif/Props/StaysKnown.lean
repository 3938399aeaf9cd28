import Verif.Props.KeyOrigin
import Verif.Props.WhoseKey

/-!
C149: once a key of a person is known, one stays known. Only gpg, by refusing a key which the person sent later, can take it away
(`account.py:354-371, 434-439`, `states.py:152-214`).
-/
namespace Verif
open BinGPG Mime

variable {K : Type} {α β : Type}

/-! ## Specification -/

/-- gpg ended with an error. No other operation raises the exception which stands for that. -/
def Event.Refusal : Event → Prop
  | ⟨.gpg _ _, r⟩ => (r : Except Exc GpgOut) = .error .invocationFailure ∨ ∃ out, (r : Except Exc GpgOut) = .ok out ∧ out.ret ≠ 0
  | ⟨.makedirs _, r⟩ => (r : Except Exc Unit) = .error .invocationFailure
  | ⟨.writeFile _ _, r⟩ => (r : Except Exc Unit) = .error .invocationFailure
  | _ => False

/-- a run of gpg ended with an error between two times -/
def RefusedSince (t t' : List Event) : Prop := ∃ new, t' = new ++ t ∧ ∃ ev ∈ new, ev.Refusal

/-- what decodes bytes and numbers doesn't raise the exception which stands for an error of gpg -/
def OtherErrors (env : Env) : Prop :=
  (∀ b, env.utf8Decode b ≠ .error .invocationFailure) ∧ ∀ s, env.pyInt s ≠ .error .invocationFailure

/-- calls with which a program records a key without saying how gpg calls it -/
def ApiCall.Nameless : ApiCall → Prop
  | .peerMsg _ _ u => (∃ k, k ≠ [] ∧ u.keydata = some k) ∧ (u.keyhandle = none ∨ u.keyhandle = some [])
  | .peerGossip _ _ u => u.keyhandle = some []
  | _ => False

/-! ## Refusals -/

theorem RefusedSince.mono {t0 t1 t2 t3 : List Event} (h : RefusedSince t1 t2) (h0 : t0 <:+ t1) (h1 : t2 <:+ t3) : RefusedSince t0 t3 := by
  obtain ⟨new, rfl, ev, he, hr⟩ := h
  obtain ⟨a, rfl⟩ := h0
  obtain ⟨b, rfl⟩ := h1
  exact ⟨b ++ new ++ a, by simp, ev, by simp [he], hr⟩

/-- a program which ends as `Q` says if gpg doesn't end with an error -/
def Prog.Barring (Q : Except Exc α → Prop) : Prog α → Prop
  | .pure a => Q (.ok a)
  | .raise e => Q (.error e)
  | .op (.ext o) k => ∀ r : o.Ret, ¬ Event.Refusal ⟨o, r⟩ → Barring Q (k r)
  | .op (.chain _) k => ∀ es : List Entry, Barring Q (k (Except.ok es))
  | .op _ _ => False

namespace Prog.Barring
variable {Q : Except Exc α → Prop} {R : Except Exc β → Prop}

theorem run {O : Oracle K} {p : Prog α} (h : p.Barring Q) (w : World Store K) :
    Q (run Store.impl O p w).1 ∨ RefusedSince w.trace (run Store.impl O p w).2.trace := by
  induction p generalizing w with
  | pure a => exact .inl h
  | raise e => exact .inl h
  | op o k ih =>
    cases o with
    | ext o =>
      by_cases hr : Event.Refusal ⟨o, (O.step o w.env).1⟩
      · right
        have := run_trace (S := Store.impl) (O := O) (k (O.step o w.env).1) (step Store.impl O (.ext o) w).2
        exact RefusedSince.mono ⟨[⟨o, (O.step o w.env).1⟩], rfl, _, List.mem_singleton.mpr rfl, hr⟩ (List.suffix_refl _) this
      · refine (ih (O.step o w.env).1 (h _ hr) (step Store.impl O (.ext o) w).2).imp id fun h1 => h1.mono ?_ (List.suffix_refl _)
        exact List.suffix_cons _ _
    | chain hd =>
      exact ih _ (h _) w
    | _ => exact h.elim

theorem bind {p : Prog α} {f : α → Prog β} (h : p.Barring Q) (hf : ∀ a, Q (.ok a) → (f a).Barring R) (he : ∀ e, Q (.error e) → R (.error e)) :
    (p.bind f).Barring R := by
  induction p with
  | pure a => exact hf a h
  | raise e => exact he e h
  | op o k ih =>
    cases o with
    | ext o => exact fun r hr => ih r (h r hr)
    | chain hd => exact fun es => ih _ (h es)
    | _ => exact h.elim

theorem attempt {p : Prog α} (h : p.Barring Q) {R : Except Exc (Except Exc α) → Prop} (hr : ∀ x, Q x → R (.ok x)) : p.attempt.Barring R := by
  unfold Prog.attempt
  induction p with
  | pure a => exact hr _ h
  | raise e => exact hr _ h
  | op o k ih =>
    cases o with
    | ext o => exact fun r hr => ih r (h r hr)
    | chain hd => exact fun es => ih _ (h es)
    | _ => exact h.elim

end Prog.Barring

/-- no error of gpg -/
def Quietly (x : Except Exc α) : Prop := x ≠ .error .invocationFailure

theorem Prog.Barring.then {p : Prog α} {f : α → Prog β} (h : p.Barring Quietly) (hf : ∀ a, (f a).Barring Quietly) : (p.bind f).Barring Quietly :=
  h.bind (fun a _ => hf a) fun e he h => he (by cases h; rfl)

theorem barring_ofExcept {x : Except Exc α} (h : Quietly x) : (Prog.ofExcept x).Barring Quietly := by
  cases x <;> exact h

theorem barring_pure (a : α) : (Prog.pure a).Barring Quietly := by rintro ⟨⟩

theorem quietly_bind {x : Except Exc α} {f : α → Except Exc β} (h : Quietly x) (hf : ∀ a, Quietly (f a)) : Quietly (x >>= f) := by
  cases x with
  | error e => intro he; cases he; exact h rfl
  | ok a => exact hf a

section
variable {env : Env} (henv : OtherErrors env)
include henv

theorem quietly_version (info v : Str) : Quietly (versionGe env info v) := by
  have h1 : ∀ s : Str, Quietly (Py.looseVersion env s) := by
    intro s
    unfold Py.looseVersion
    split
    · rintro ⟨⟩
    · generalize Py.versionPieces env s = l
      induction l with
      | nil => rintro ⟨⟩
      | cons p l ih =>
        rw [List.mapM_cons]
        refine quietly_bind ?_ fun c => quietly_bind ih fun _ => by rintro ⟨⟩
        intro hp
        unfold Py.component at hp
        split at hp <;> cases hp
        rename_i h1; exact henv.2 p h1
  have h2 : ∀ a b : List Py.Component, Quietly (Py.componentsGe a b) := by
    intro a
    induction a with
    | nil => intro b h; cases b <;> cases h
    | cons x a ih =>
      intro b h
      cases b with
      | nil => cases h
      | cons y b =>
        unfold Py.componentsGe at h
        split at h
        · exact ih b h
        · cases x <;> cases y <;> cases h
  unfold versionGe
  refine quietly_bind ?_ fun t => ?_
  · unfold versionText field
    split <;> rintro ⟨⟩
  · unfold Py.looseGe
    exact quietly_bind (h1 _) fun a => quietly_bind (h1 _) fun b => h2 a b

theorem barring_outerr (g : BinGPG) (args : List Str) (input : Option Bytes) (d : Bool) : (gpgOuterr env g args input false d).Barring Quietly := by
  unfold gpgOuterr Prog.gpg
  simp only [bind_eq]
  intro r hr
  cases r with
  | error e =>
    rintro ⟨⟩
    exact hr (.inl rfl)
  | ok out =>
    have h0 : out.ret = 0 := Decidable.byContradiction fun h => hr (.inr ⟨out, rfl, h⟩)
    refine barring_ofExcept ?_
    unfold checkResult
    rw [if_neg (by rw [h0]; decide)]
    cases he : env.utf8Decode out.err with
    | error e => rintro ⟨⟩; exact henv.1 _ he
    | ok err =>
      cases d with
      | false => simp [Quietly, h0]
      | true =>
        cases ho : env.utf8Decode out.out with
        | error e =>
          intro h
          have : e = .invocationFailure := by simpa [ho, Except.map] using h
          subst this
          exact henv.1 _ ho
        | ok _ => simp [Quietly, h0, Except.map]

theorem barring_outText (g : BinGPG) (args : List Str) (input : Option Bytes) : (gpgOutText env g args input).Barring Quietly := by
  unfold gpgOutText
  exact (barring_outerr henv g args input true).then fun r => barring_ofExcept (henv.1 _)

theorem barring_versionAtLeast (g : BinGPG) (v : Str) : (versionAtLeast env g v).Barring Quietly :=
  (barring_outText henv g _ _).then fun _ => barring_ofExcept (quietly_version henv _ _)

theorem barring_create (home : Option Str) (path : Str) : (BinGPG.create env home path).Barring Quietly := by
  unfold BinGPG.create Prog.findExecutable
  simp only [bind_eq, pure_eq]
  intro (r : Option Str) _
  cases r with
  | none => rintro ⟨⟩
  | some p =>
  show ((ensureInit env { home := home, path := p }).bind fun _ => Prog.pure ({ home := home, path := p } : BinGPG)).Barring Quietly
  refine Prog.Barring.then ?_ fun _ => barring_pure _
  unfold ensureInit
  dsimp only
  cases home with
  | none => exact barring_pure _
  | some home =>
    simp only [bind_eq, pure_eq]
    refine Prog.Barring.then (fun _ _ => barring_pure _) fun b => ?_
    have hbad : (badDefaults env { home := some home, path := p }).Barring Quietly := by
      unfold badDefaults
      simp only [bind_eq, pure_eq]
      refine (barring_versionAtLeast henv _ _).then fun b => ?_
      split
      · exact (barring_versionAtLeast henv _ _).then fun _ => barring_pure _
      · exact barring_pure _
    split
    · refine Prog.Barring.then (fun r hr => barring_ofExcept hr) fun _ => hbad.then fun b => ?_
      split
      · refine Prog.Barring.then (fun _ _ => barring_pure _) fun b => ?_
        split
        · exact fun r hr => barring_ofExcept hr
        · exact barring_pure _
      · exact barring_pure _
    · refine hbad.then fun b => ?_
      split
      · refine Prog.Barring.then (fun _ _ => barring_pure _) fun b => ?_
        split
        · exact fun r hr => barring_ofExcept hr
        · exact barring_pure _
      · exact barring_pure _

theorem barring_bingpg (n : Str) : (Account.bingpg env n).Barring Quietly := by
  unfold Account.bingpg Own.config
  simp only [bind_eq, pure_eq]
  refine Prog.Barring.then ?_ fun c => ?_
  · refine Prog.Barring.then (fun es => barring_pure _) fun es => ?_
    split
    · exact barring_pure _
    · rintro ⟨⟩
  · split
    · rintro ⟨⟩
    · exact barring_create henv _ _

theorem quietly_lines (types : Str × Str) (ls : List Str) : ∀ infos last, Quietly (parseLines env types infos last ls) := by
  have hf : ∀ (ps : List Str) i, Quietly (field ps i) := fun ps i => by unfold field; split <;> rintro ⟨⟩
  induction ls with
  | nil => rintro _ _ ⟨⟩
  | cons l ls ih =>
    intro infos last
    have h1 : Quietly (parseLine env types infos last l) := by
      unfold parseLine
      dsimp only
      split
      · exact quietly_bind (hf _ _) fun _ => quietly_bind (hf _ _) fun _ => quietly_bind (henv.2 _) fun _ => quietly_bind (hf _ _) fun _ =>
          quietly_bind (hf _ _) fun _ => quietly_bind (hf _ _) fun _ => by rintro ⟨⟩
      · split
        · split
          · rintro ⟨⟩
          · exact quietly_bind (hf _ _) fun _ => by rintro ⟨⟩
        · rintro ⟨⟩
    unfold parseLines
    split
    · rename_i e h2; rintro ⟨⟩; exact h1 h2
    · exact ih _ _

theorem barring_import (g : BinGPG) (kd : Bytes) : (importKeydata env g kd false).Barring Quietly := by
  unfold importKeydata
  simp only [bind_eq, pure_eq]
  refine (barring_outerr henv g _ _ true).then fun r => Prog.Barring.then ?_ fun k => barring_pure _
  unfold findKeyhandle
  split
  · rintro ⟨⟩
  · split
    · simp only [bind_eq, pure_eq]
      refine Prog.Barring.then ?_ fun infos => ?_
      · unfold listPublicKeyinfos parseList
        exact (barring_outText henv g _ _).then fun out => barring_ofExcept (quietly_lines henv _ _ _ _)
      · split
        · exact barring_pure _
        · rintro ⟨⟩
    · exact barring_pure _

/-- a key is refused only if gpg ends with an error -/
theorem importKey_none_refused {O : Oracle K} {n : Str} {kd : Bytes} {w w' : World Store K}
    (h : run Store.impl O (Account.importKey env n kd) w = (.ok none, w')) : RefusedSince w.trace w'.trace := by
  have key : (Account.importKey env n kd).Barring fun x => x ≠ .ok none := by
    unfold Account.importKey
    simp only [bind_eq, pure_eq]
    refine Prog.Barring.bind (Q := fun x => ∀ y, x = .ok y → Quietly y) ((barring_bingpg henv n).attempt fun x hx y hy => by cases hy; exact hx) ?_ (by rintro e _ ⟨⟩)
    rintro (e | g) hx
    · dsimp only
      refine (barring_bingpg henv n).bind (fun _ _ => ?_) (by rintro e _ ⟨⟩)
      rw [if_neg fun h => hx _ rfl (by rw [h])]
      rintro ⟨⟩
    · dsimp only
      refine Prog.Barring.bind (Q := fun x => ∀ y, x = .ok y → Quietly y) ((barring_import henv g kd).attempt fun x hx y hy => by cases hy; exact hx) ?_ (by rintro e _ ⟨⟩)
      rintro (e | k) hx
      · dsimp only
        rw [if_neg fun h => hx _ rfl (by rw [h])]
        rintro ⟨⟩
      · rintro ⟨⟩
  have := key.run (O := O) w
  rw [h] at this
  exact this.resolve_left fun h => h rfl

end

/-! ## A known key stays known -/

/-- entries which don't take a known key away -/
def Entry.Named : Entry → Prop
  | .msg m => m.keydata = [] ∨ m.keyhandle ≠ []
  | .gossip g => g.keyhandle ≠ []
  | _ => True

theorem Newest.later {P : Entry → Prop} {es : List Entry} {x : Entry} (h : Newest P es x) {e : Entry} (he : ¬ P e) : Newest P (e :: es) x := by
  obtain ⟨a, b, rfl, h1, h2⟩ := h
  exact ⟨e :: a, b, rfl, h1, fun y hy => by rcases List.mem_cons.mp hy with rfl | hy; exacts [he, h2 y hy]⟩

theorem KnownKey.later {es : List Entry} (h : KnownKey es) {e : Entry} (he : e.Named) : KnownKey (e :: es) := by
  have keep : ¬ e.IsKeyMsg → ¬ e.IsGossip → KnownKey (e :: es) := fun h1 h2 =>
    h.imp (fun ⟨m, h3, h4⟩ => ⟨m, h3.later h1, h4⟩) fun ⟨g, h3, h4⟩ => ⟨g, h3.later h2, h4⟩
  cases e with
  | msg m =>
    rcases he with he | he
    · exact keep (by rintro ⟨_, ⟨⟩, h1⟩; exact h1 he) (by rintro ⟨_, ⟨⟩⟩)
    · by_cases hk : m.keydata = []
      · exact keep (by rintro ⟨_, ⟨⟩, h1⟩; exact h1 hk) (by rintro ⟨_, ⟨⟩⟩)
      · exact .inl ⟨m, ⟨[], es, rfl, ⟨m, rfl, hk⟩, by rintro y ⟨⟩⟩, he⟩
  | gossip g => exact .inr ⟨g, ⟨[], es, rfl, ⟨g, rfl⟩, by rintro y ⟨⟩⟩, he⟩
  | _ => exact keep (by rintro ⟨_, ⟨⟩, _⟩) (by rintro ⟨_, ⟨⟩⟩)

/-- a key of the peer is known, or gpg has ended with an error since -/
def StaysKnown (p : Str) (w0 w : World Store K) : Prop := w0.trace <:+ w.trace ∧ (RefusedSince w0.trace w.trace ∨ KnownKey (w.log p))

theorem StaysKnown.quiet {p : Str} {w0 w w' : World Store K} (hq : Safe.Quiet w w') (h : StaysKnown p w0 w) : StaysKnown p w0 w' := by
  obtain ⟨h1, -, -, l, h4⟩ := hq
  have hs : w.trace <:+ w'.trace := ⟨l, h4.symm⟩
  exact ⟨h.1.trans hs, h.2.imp (·.mono (List.suffix_refl _) hs) fun h => by unfold World.log at h ⊢; rw [h1]; exact h⟩

theorem StaysKnown.act {O : Oracle K} {p : Str} {w0 w : World Store K} (h : StaysKnown p w0 w) (a : Act)
    (ha : RefusedSince w0.trace w.trace ∨ ∀ e, a.Adds p e → e.Named) (hw : a ≠ .wipe) (hr : ∀ n, a = .removeAccount n → matchAccount n p = false) :
    StaysKnown p w0 (exec O a.prog w).2 := by
  have hs : w.trace <:+ (exec O a.prog w).2.trace := run_trace _ _
  refine ⟨h.1.trans hs, ?_⟩
  rcases h.2 with h2 | h2
  · exact .inl (h2.mono (List.suffix_refl _) hs)
  rcases ha with ha | ha
  · exact .inl (ha.mono (List.suffix_refl _) hs)
  right
  unfold World.log at h2 ⊢
  rw [get_act]
  cases a with
  | msg n ad u =>
    dsimp only
    split
    · rename_i hh
      rcases Peer.applyMsg_cases (w.store.get p) u with h' | ⟨x, hx, h'⟩ <;> rw [h']
      · exact h2
      · refine h2.later (ha _ ?_)
        obtain ⟨_, h2, h3, h4⟩ := Peer.updateEntry_some hx
        refine ⟨hh, h2, h3, ?_⟩
        rcases h4 with ⟨_, _, h5, h6, h7⟩ | ⟨h5, h6, h7, h8⟩
        · exact Or.inl ⟨h5, h6, h7⟩
        · refine Or.inr ⟨?_, h6, peArg_ok.mp h8, h7⟩
          rw [h6] at h5; simpa [Peer.noKey] using h5
    · exact h2
  | gossip n ad u =>
    dsimp only
    split
    · rename_i hh
      rcases Peer.applyGossip_cases (w.store.get p) u with h' | ⟨x, hx, h'⟩ <;> rw [h']
      · exact h2
      · refine h2.later (ha _ ?_)
        obtain ⟨_, h2, h3, h4, h5, h6⟩ := Peer.gossipEntry_some hx
        exact ⟨hh, h2, h3, h4, h5, by simpa using h6⟩
    · exact h2
  | wipe => exact absurd rfl hw
  | removeAccount n => dsimp only; rw [hr n rfl]; exact h2
  | _ => dsimp only; split <;> first | exact h2 | exact h2.later trivial

section calls
variable {O : Oracle K} {env : Env} {p : Str} {w0 w : World Store K} {n : Str}

theorem stays_updateMsg (hd : Str) (u : Peer.MsgUpdate) (a : Str) (hh : hd = peerHead n a) (hw : StaysKnown p w0 w)
    (hu : RefusedSince w0.trace w.trace ∨ (∀ k, u.keydata = some k → k = []) ∨ ∃ k, u.keyhandle = some k ∧ k ≠ []) :
    Always O (StaysKnown p w0) (Peer.updateFromMsg hd u) w := by
  subst hh
  intro i
  rcases (Safe.late_act (.msg n a u)).runFor (O := O) i w with hq | he
  · exact hw.quiet hq
  · rw [show Peer.updateFromMsg (peerHead n a) u = (Act.msg n a u).prog from rfl, he]
    refine hw.act (.msg n a u) (hu.imp id fun hu e he => ?_) (by rintro ⟨⟩) (by rintro _ ⟨⟩)
    cases e <;> simp only [Act.Adds] at he
    obtain ⟨-, -, -, he⟩ := he
    rcases he with ⟨h1, -⟩ | ⟨h1, h2, -, h4⟩
    · exact .inl h1
    · rcases hu with hu | ⟨k, hk, h5⟩
      · exact absurd (hu _ h2) h1
      · right; rw [h4, hk]; exact h5

theorem stays_updateGossip (hd : Str) (u : Peer.GossipUpdate) (a : Str) (hh : hd = peerHead n a) (hw : StaysKnown p w0 w) (hu : u.keyhandle ≠ some []) :
    Always O (StaysKnown p w0) (Peer.updateFromGossip hd u) w := by
  subst hh
  intro i
  rcases (Safe.late_act (.gossip n a u)).runFor (O := O) i w with hq | he
  · exact hw.quiet hq
  · rw [show Peer.updateFromGossip (peerHead n a) u = (Act.gossip n a u).prog from rfl, he]
    refine hw.act (.gossip n a u) (.inr fun e he => ?_) (by rintro ⟨⟩) (by rintro _ ⟨⟩)
    cases e <;> simp only [Act.Adds] at he
    obtain ⟨-, -, -, -, he, -⟩ := he
    show _ ≠ _
    intro h
    rw [h] at he
    exact hu he

variable (henv : OtherErrors env)

theorem tellsKey_ne {g : BinGPG} {msgs : Bytes} {k : Str} {t0 t : List Event} (h : TellsKey env g msgs k t0 t) : k ≠ [] := by
  obtain ⟨_, x, -, -, ⟨h1, rfl⟩ | ⟨-, -, h1, -⟩⟩ := h
  · rintro rfl; cases h1
  · exact h1

theorem importedAs_ne {kd : Bytes} {k : Str} {t : List Event} (h : ImportedAs env n t kd k) : k ≠ [] := by
  obtain ⟨_, _, _, -, -, -, h⟩ := h
  exact tellsKey_ne h

include henv in
theorem importPah_refused {pah : ACResult} {r : Option Str × ACResult} {w w' : World Store K}
    (h : run Store.impl O (Account.importPah env n pah) w = (.ok r, w')) : RefusedSince w.trace w'.trace ∨ ∃ k, r.1 = some k ∧ k ≠ [] := by
  have h0 := h
  unfold Account.importPah at h
  simp only [bind_eq, pure_eq] at h
  obtain ⟨x, w1, h1, h⟩ := run_bind_ok.mp h
  cases x with
  | none => cases h; exact .inl (importKey_none_refused henv h1)
  | some k => cases h; exact .inr ⟨k, rfl, importedAs_ne ((importPah_tells h0).2 k rfl)⟩

theorem parseOne_keyless {m : Msg} {fl : List Str} {r : ACResult} (h : parseOneAcHeaderFromMsg env m fl = .ok r) (he : r.error.isSome = true) :
    r.keydata = none := by
  rcases parseOne_shape h with ⟨e, rfl⟩ | ⟨-, -, h9⟩
  · rfl
  · obtain ⟨pre, v, post, h10, h11, h12, h13⟩ := List.filterMap_eq_cons_iff.mp h9
    rw [(accepted_eq_some.mp h12).2.1] at he
    cases he

include henv in
theorem stays_header (m : Msg) (f a : Str) (d : Time) (i : Str) (hw : StaysKnown p w0 w) :
    Always O (StaysKnown p w0) (Account.processAutocryptHeader env n m f (peerHead n a) d i) w := by
  have hI : ∀ w w' : World Store K, Safe.Quiet w w' → StaysKnown p w0 w → StaysKnown p w0 w' := fun _ _ hq h => h.quiet hq
  unfold Account.processAutocryptHeader
  simp only [bind_eq, pure_eq]
  refine .bind (.ro hI (.ofExcept _) hw) fun pah w1 h1 hw => ?_
  have hp : parseOneAcHeaderFromMsg env m [f] = .ok pah := by
    cases hx : parseOneAcHeaderFromMsg env m [f] with
    | error e => rw [hx] at h1; cases h1
    | ok y => rw [hx] at h1; cases h1; rfl
  refine .bind (.ro hI ?_ hw) fun r w2 h2 hw2 => ?_
  · split
    · trivial
    · exact Account.importPah_ops permissive_readOnly env n pah
  refine .bind (stays_updateMsg _ _ a rfl hw2 ?_) fun _ _ _ hw => .ro hI trivial hw
  split at h2
  · rename_i he
    cases h2
    exact .inr (.inl fun k hk => by rw [parseOne_keyless hp he] at hk; cases hk)
  · rcases importPah_refused henv h2 with h3 | h3
    · exact .inl (h3.mono hw.1 (List.suffix_refl _))
    · exact .inr (.inr h3)

theorem stays_gossipLoop (l : List (Str × ACResult)) (d : Time) (i : Str) (rs : List Str) :
    ∀ (w : World Store K) (acc : List (Str × ACResult)), StaysKnown p w0 w → Always O (StaysKnown p w0) (Account.gossipLoop env n l d i acc rs) w := by
  have hI : ∀ w w' : World Store K, Safe.Quiet w w' → StaysKnown p w0 w → StaysKnown p w0 w' := fun _ _ hq h => h.quiet hq
  induction rs with
  | nil => exact fun w acc hw => .ro hI trivial hw
  | cons r rs ih =>
    intro w acc hw
    unfold Account.gossipLoop
    split
    · exact ih w acc hw
    · simp only [bind_eq]
      refine .bind (.ro hI (Account.importPah_ops permissive_readOnly env n _) hw) fun x w2 h2 hw => ?_
      refine .bind (stays_updateGossip _ _ _ rfl hw fun hk => ?_) fun _ _ _ hw => ih _ _ hw
      exact importedAs_ne ((importPah_tells h2).2 [] hk) rfl

include henv in
theorem stays_incoming (m : Msg) (ig nd : Bool) (hw : StaysKnown p w0 w) :
    Always O (StaysKnown p w0) (Account.processIncoming env n m ig nd) w := by
  have hI : ∀ w w' : World Store K, Safe.Quiet w w' → StaysKnown p w0 w → StaysKnown p w0 w' := fun _ _ hq h => h.quiet hq
  unfold Account.processIncoming Account.processGossipHeaders effectiveDate
  simp only [bind_eq, pure_eq]
  refine .bind (.ro hI (.ofExcept _) hw) fun d w1 _ hw => .bind (.ro hI (by allops) hw) fun date w2 _ hw => .bind (.ro hI (by allops) hw) fun known w3 _ hw => ?_
  split
  · exact .ro hI trivial hw
  refine .bind (stays_header henv m _ _ _ _ hw) fun pah w4 _ hw => .bind (.ro hI (by allops) hw) fun enc w5 _ hw =>
    .bind ?_ fun _ _ _ hw => .ro hI trivial hw
  split
  · refine .bind (.ro hI (Account.decryptMime_ops permissive_readOnly env n m) hw) fun r w6 _ hw => .bind (.bind (.ro hI (.ofExcept _) hw) fun _ _ _ hw =>
      stays_gossipLoop _ _ _ _ _ _ hw) fun g w7 _ hw => .bind (.ro hI (Account.ownKeyhandle_ops permissive_readOnly n) hw) fun _ _ _ hw =>
      .bind (.ro hI (by allops) hw) fun _ _ _ hw => .ro hI trivial hw
  · exact .ro hI trivial hw

theorem stays_importLoop (pe k : Str) (hk : k ≠ []) (as : List Str) :
    ∀ w : World Store K, StaysKnown p w0 w → Always O (StaysKnown p w0) (Account.importLoop env n pe k as) w := by
  have hI : ∀ w w' : World Store K, Safe.Quiet w w' → StaysKnown p w0 w → StaysKnown p w0 w' := fun _ _ hq h => h.quiet hq
  induction as with
  | nil => exact fun w hw => .ro hI trivial hw
  | cons a as ih =>
    intro w hw
    unfold Account.importLoop
    simp only [bind_eq]
    refine .bind (.ro hI (by allops) hw) fun t w1 _ hw => .bind (.ro hI (Account.bingpg_ops permissive_readOnly env n) hw) fun g w2 _ hw =>
      .bind (.ro hI (BinGPG.getPublicKeydata_ops permissive_readOnly.2.2.2 env g k false) hw) fun kd w3 _ hw => ?_
    exact .bind (stays_updateMsg _ _ _ rfl hw (.inr (.inr ⟨k, rfl, hk⟩))) fun _ w4 _ hw => ih w4 hw

theorem stays_import (a : Option Str) (kd : Bytes) (pe : Str) (hw : StaysKnown p w0 w) :
    Always O (StaysKnown p w0) (Account.importKeydataAsAutocrypt env n a kd pe) w := by
  have hI : ∀ w w' : World Store K, Safe.Quiet w w' → StaysKnown p w0 w → StaysKnown p w0 w' := fun _ _ hq h => h.quiet hq
  have hb : ∀ w : World Store K, StaysKnown p w0 w → Always O (StaysKnown p w0) (Account.bingpg env n) w :=
    fun w hw => .ro hI (Account.bingpg_ops permissive_readOnly env n) hw
  unfold Account.importKeydataAsAutocrypt
  simp only [bind_eq, pure_eq]
  refine .bind (hb _ hw) fun g w1 h1 hw => .bind (.ro hI (BinGPG.importKeydata_ops permissive_readOnly.2.2.2 env g kd false) hw) fun kh w2 h2 hw => ?_
  refine .bind (.ro hI ?_ hw) fun addrs w3 _ hw => .bind (hb _ hw) fun g' w4 h4 hw =>
    .bind (.ro hI (BinGPG.importKeydata_ops permissive_readOnly.2.2.2 env g' kd true) hw) fun kh' w5 h5 hw => ?_
  · split
    · trivial
    · exact .bind (Account.bingpg_ops permissive_readOnly env n) fun g => .bind (BinGPG.listPublicKeyinfos_ops permissive_readOnly.2.2.2 env g _) fun _ => trivial
  refine .bind (stays_importLoop _ _ (importedAs_ne (importKeydata_tells ((bingpg_homeOf env n).of_run h4) h5)) _ _ hw) fun _ _ _ hw =>
    .bind (hb _ hw) fun g w8 _ hw => .bind (.ro hI (BinGPG.getPublicKeydata_ops permissive_readOnly.2.2.2 env g _ false) hw) fun _ _ _ hw => .ro hI trivial hw

include henv in
theorem stays_call {m a : Str} (hm : env.isalnum m = true) (c : ApiCall) (hr : ¬ c.removes m) (hl : ¬ c.Nameless) (i : Nat)
    (hw : StaysKnown (peerHead m a) w0 w) : StaysKnown (peerHead m a) w0 (runFor Store.impl O i (c.prog env) w) := by
  have hI : ∀ w w' : World Store K, Safe.Quiet w w' → StaysKnown (peerHead m a) w0 w → StaysKnown (peerHead m a) w0 w' := fun _ _ hq h => h.quiet hq
  have hon : ∀ {β : Type} (n : Str) (q : Prog β), Always O (StaysKnown (peerHead m a) w0) q w →
      StaysKnown (peerHead m a) w0 (runFor Store.impl O i (onAccount env n q) w) := by
    intro β n q hq
    rcases runFor_onAccount (O := O) (env := env) (n := n) q i w with h | h <;> rw [h]
    · exact hw
    · exact hq i
  cases c with
  | processIncoming n m ig d => exact hon n _ (stays_incoming henv m ig d hw)
  | importKey n x k pe => exact hon n _ (stays_import x k pe hw)
  | peerMsg n x u =>
    refine hon n _ (stays_updateMsg _ u _ rfl hw ?_)
    right
    by_cases hk : ∃ k, k ≠ [] ∧ u.keydata = some k
    · right
      cases hh : u.keyhandle with
      | none => exact absurd ⟨hk, .inl hh⟩ hl
      | some k => exact ⟨k, rfl, fun h => hl ⟨hk, .inr (by rw [hh, h])⟩⟩
    · exact .inl fun k h => Decidable.byContradiction fun h' => hk ⟨k, h', h⟩
  | peerGossip n x u => exact hon n _ (stays_updateGossip _ u _ rfl hw hl)
  | _ =>
    refine Always.safe (safe_call env _) hI (fun act ha w1 _ h1 => h1.act act (.inr fun e he => ?_) ?_ ?_) hw i
    · cases act <;> cases e <;> simp_all [ApiCall.acts, InitAct, CfgAct, OwnAct, Act.Adds, Entry.Named]
    · rintro rfl
      simp_all [ApiCall.acts, InitAct, CfgAct, OwnAct, ApiCall.removes]
    · rintro x rfl
      rw [matchAccount_peerHead (colon_not_mem_of_isalnum hm), decide_eq_false_iff_not]
      rintro rfl
      simp_all [ApiCall.acts, InitAct, CfgAct, OwnAct, ApiCall.removes]

end calls

/-! ## C149 -/

/-- C149: if a key of a peer is known then, whatever calls and commands are run and wherever they are interrupted, a key is known later on, unless the account
is removed, gpg ends with an error, or a program records a key without saying how gpg calls it -/
theorem C149_kept (O : Oracle K) (env : Env) (henv : OtherErrors env) (hist : List (Happening K)) {w w' : World Store K}
    (hw' : w' = runHistory Store.impl O env hist w) {n : Str} (hn : env.isalnum n = true) (a : Str)
    (hh : ∀ c ∈ callsMade hist, ¬ c.removes n ∧ ¬ c.Nameless) (hk : KnownKey (w.log (peerHead n a)))
    (hg : ¬ RefusedSince w.trace w'.trace) : KnownKey (w'.log (peerHead n a)) := by
  subst hw'
  have key := runHistory_ind (O := O) (env := env) (P := StaysKnown (peerHead n a) w) hist (fun _ _ hq h => h.quiet hq)
    (fun c hc i w1 h => stays_call henv hn c (hh c hc).1 (hh c hc).2 i h) w ⟨List.suffix_refl _, .inr hk⟩
  exact key.2.resolve_left hg

/-- C149: and then encryption to the peer isn't ruled out -/
theorem C149_recommended (O : Oracle K) (env : Env) (henv : OtherErrors env) (hist : List (Happening K)) {w w' : World Store K}
    (hw' : w' = runHistory Store.impl O env hist w) {n : Str} (hn : env.isalnum n = true) (a : Str)
    (hh : ∀ c ∈ callsMade hist, ¬ c.removes n ∧ ¬ c.Nameless) (hk : KnownKey (w.log (peerHead n a)))
    (hg : ¬ RefusedSince w.trace w'.trace) (own : PE) (reply : Bool) :
    ∃ r, Rec.peerUi (w'.log (peerHead n a)) own reply = .ok r ∧ r ≠ .disable := by
  have h1 := C149_kept O env henv hist hw' hn a hh hk hg
  obtain ⟨r, h2, h3⟩ := peerUi_cases (w'.log (peerHead n a)) own reply
  refine ⟨r, h2, ?_⟩
  cases h3 with
  | disable h4 => exact absurd h1 h4
  | _ => rintro ⟨⟩

/-- C149: for one call, interrupted or not. Only the account which it is for needs to be there still. -/
theorem C149_call (O : Oracle K) (env : Env) (henv : OtherErrors env) (c : ApiCall) (i : Nat) {w w' : World Store K}
    (hw' : w' = runFor Store.impl O i (c.prog env) w) {n : Str} (hn : env.isalnum n = true) (a : Str)
    (hr : ¬ c.removes n) (hl : ¬ c.Nameless) (hk : KnownKey (w.log (peerHead n a))) (hg : ¬ RefusedSince w.trace w'.trace) :
    KnownKey (w'.log (peerHead n a)) := by
  subst hw'
  exact (stays_call henv hn c hr hl i ⟨List.suffix_refl _, .inr hk⟩).2.resolve_left hg

/-! ## Examples -/

instance : DecidablePred Event.Refusal
  | ⟨.gpg _ _, r⟩ => match r with
    | .error e => if h : e = .invocationFailure then .isTrue (.inl (by rw [h])) else
        .isFalse (by rintro (h' | ⟨_, h', -⟩) <;> cases h'; exact h rfl)
    | .ok out => if h : out.ret = 0 then .isFalse (by rintro (h' | ⟨_, h', h2⟩) <;> cases h'; exact h2 h) else .isTrue (.inr ⟨out, rfl, h⟩)
  | ⟨.makedirs _, r⟩ => match r with
    | .error e => if h : e = .invocationFailure then .isTrue (by rw [h]; rfl) else .isFalse (by intro h'; cases h'; exact h rfl)
    | .ok _ => .isFalse (by intro h'; cases h')
  | ⟨.writeFile _ _, r⟩ => match r with
    | .error e => if h : e = .invocationFailure then .isTrue (by rw [h]; rfl) else .isFalse (by intro h'; cases h'; exact h rfl)
    | .ok _ => .isFalse (by intro h'; cases h')
  | ⟨.findExecutable _, _⟩ | ⟨.pathExists _, _⟩ | ⟨.mkTemp, _⟩ | ⟨.writeTemp _ _, _⟩ | ⟨.rmTemp _, _⟩ | ⟨.uuid, _⟩ | ⟨.hookInstantiate _, _⟩
  | ⟨.hookIncomingGossip _ _ _, _⟩ | ⟨.hookBeforeEnc _ _ _ _, _⟩ | ⟨.rmtree, _⟩ | ⟨.sendmail _ _, _⟩ | ⟨.emit _, _⟩ => .isFalse id

namespace Concrete

theorem env_otherErrors : OtherErrors Concrete.env := by
  refine ⟨fun b => by rintro ⟨⟩, fun s => ?_⟩
  show (match digits s with | some n => Except.ok (n : Int) | none => Except.error Exc.valueError) ≠ _
  split <;> rintro ⟨⟩

/-- Bob's key is known -/
def bobKnown : World Store Unit := after [addA, recv bob (str!"1") (str!"100") [7, 1]]

/-- afterwards Bob writes without a key, a mail with another key isn't processed to its end, then it is, and another account is removed -/
def bobLater : List (Happening Unit) :=
  [.call (recv bob (str!"2") (str!"200") []), .killed (recv bob (str!"3") (str!"300") [9, 2]) 6, .call (recv bob (str!"3") (str!"300") [9, 2]),
    .call (.delAccount (str!"b")), .call (recv carol (str!"4") (str!"400") [3, 4])]

/-- the hypotheses of `C149_kept`; gpg was run for two of the mails -/
example : Concrete.env.isalnum (str!"a") = true ∧ KnownKey (bobKnown.log (peerHead (str!"a") bob)) ∧
    (∀ c ∈ callsMade bobLater, ¬ c.removes (str!"a") ∧ ¬ c.Nameless) ∧
    ¬ RefusedSince bobKnown.trace (runHistory Store.impl oracle Concrete.env bobLater bobKnown).trace ∧
    bobKnown.trace.length < (runHistory Store.impl oracle Concrete.env bobLater bobKnown).trace.length := by
  refine ⟨by decide +kernel, knownKey_iff.mp (by decide +kernel), ?_, ?_, by decide +kernel⟩
  · rintro c ⟨x, hx, hc⟩
    simp only [bobLater, List.mem_cons, List.not_mem_nil, or_false] at hx
    rcases hx with rfl | rfl | rfl | rfl | rfl <;> cases hc <;> simp [recv, ApiCall.removes, ApiCall.Nameless]
  · rintro ⟨new, h1, ev, h2, h3⟩
    have key : ∀ ev ∈ (runHistory Store.impl oracle Concrete.env bobLater bobKnown).trace, ¬ ev.Refusal := by decide +kernel
    exact key ev (by rw [h1]; exact List.mem_append_left _ h2) h3

/-- without the hypothesis about gpg the key can be lost: gpg refuses the key in a later mail -/
example : KnownKey (bobKnown.log (peerHead (str!"a") bob)) ∧
    ¬ KnownKey ((exec oracle ((recv bob (str!"2") (str!"200") [0, 1]).prog Concrete.env) bobKnown).2.log (peerHead (str!"a") bob)) :=
  ⟨knownKey_iff.mp (by decide +kernel), fun h => absurd (knownKey_iff.mpr h) (by decide +kernel)⟩

end Concrete

end Verif
