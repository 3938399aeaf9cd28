import Verif.Props.Forged
import Verif.Props.AccountChanges
import Verif.Props.Outgoing

/-!
C142: an account keeps its key (`account.py:112-134, 223-266`, `states.py:270-366`).
-/
namespace Verif
open Mime

variable {K : Type}

/-- if updates only add entries, then what is stored when the process dies is part of what is stored at the end -/
theorem Safe.killed_suffix {O : Oracle K} {A : Act → Prop} {h : Str} (hA : ∀ a, A a → ∀ w : World Store K, w.log h <:+ (exec O a.prog w).2.log h)
    {α : Type} {p : Prog α} (hp : Safe A p) : ∀ i (w : World Store K),
      (runFor Store.impl O i p w).log h <:+ (exec O p w).2.log h := by
  have htrans : ∀ a b c : World Store K, a.log h <:+ b.log h → b.log h <:+ c.log h → a.log h <:+ c.log h := fun _ _ _ => List.IsSuffix.trans
  have hro : ∀ w w' : World Store K, w'.store = w.store → w'.clock = w.clock → w.tick ≤ w'.tick →
      (∃ l, w'.trace = l ++ w.trace) → w.log h <:+ w'.log h := by
    intro w w' hs _ _ _; simp only [World.log]; rw [hs]; exact List.suffix_refl _
  induction hp with
  | ro h1 =>
    intro i w
    have e1 := (Safe.runFor_ro (O := O) h1 i w).1
    have e2 := (Safe.ro (A := A) h1).respects (R := fun w w' : World Store K => w.log h <:+ w'.log h) htrans hro hA w
    simp only [World.log] at e2 ⊢
    rw [e1]; exact e2
  | act a h1 =>
    intro i w
    rcases (Safe.late_act a).runFor (O := O) i w with hq | he
    · have e := hA a h1 w
      simp only [World.log] at e ⊢
      rw [hq.1]; exact e
    · rw [he]; exact List.suffix_refl _
  | @bindQ α β p f Q hp hq hf ih1 ih2 =>
    intro i w
    rcases Safe.runFor_bind Store.impl O i p f w with he | ⟨a, w1, j, h1, he⟩
    · rw [he]
      refine (ih1 i w).trans ?_
      unfold exec
      rw [run_bind]
      rcases hr : run Store.impl O p w with ⟨x, w1⟩
      cases x with
      | error e => exact List.suffix_refl _
      | ok a => exact (hf a (hq.of_run hr)).respects (R := fun w w' : World Store K => w.log h <:+ w'.log h) htrans hro hA w1
    · rw [he]
      have := ih2 a (hq.of_run h1) j w1
      unfold exec at this ⊢
      rw [run_bind, h1]; exact this
  | @attempt α p hp ih =>
    intro i w
    rw [Safe.runFor_attempt]
    have := ih i w
    unfold exec at this ⊢
    rw [run_attempt]; exact this

theorem modAccount_log {O : Oracle K} {env : Env} {w : World Store K} {n : Str} {c : OwnConfig} (hconf : OwnConf w n c)
    (regex kh bin pe : Option Str) {w' : World Store K} {r : Except Exc (Bool × Str)}
    (h : exec O (Manager.modAccount env n regex kh bin pe) w = (r, w')) :
    w'.log (ownHead n) = w.log (ownHead n) ∨ ∃ c', Wanted c regex bin pe c' ∧ w'.log (ownHead n) = .cfg c' :: w.log (ownHead n) := by
  unfold Manager.modAccount exec at h
  simp only [bind_eq, pure_eq] at h
  rw [run_bind] at h
  rcases hg : run Store.impl O (Manager.getAccount env n) w with ⟨x, w1⟩
  obtain ⟨hst, hcourse⟩ := getAccount_course hg
  rw [hg] at h
  have hlog : ∀ hd, hd ≠ managerHead → w1.store.get hd = w.log hd := fun hd hne => by rw [hst, get_initStore hne]; rfl
  cases x with
  | error e => cases h; exact .inl (hlog _ (ownHead_ne_managerHead n))
  | ok n' =>
    have : n' = n := by cases hcourse; rfl
    subst this
    dsimp only at h
    unfold Account.modify Own.changeConfig at h
    simp only [bind_eq, pure_eq] at h
    rw [run_bind, run_bind, run_chain] at h
    dsimp only at h
    rw [hlog _ (ownHead_ne_managerHead n'), latestConfig_iff.mpr hconf] at h
    dsimp only at h
    rw [run_bind, run_ofExcept] at h
    cases hev : Own.evolve c ⟨regex, bin, pe⟩ with
    | error e => rw [hev] at h; cases h; exact .inl (hlog _ (ownHead_ne_managerHead n'))
    | ok c' =>
      rw [hev] at h
      dsimp only at h
      by_cases hcc : c' = c
      · rw [if_neg (by simpa using hcc)] at h
        cases h; exact .inl (hlog _ (ownHead_ne_managerHead n'))
      · rw [if_pos hcc, run_bind, run_append] at h
        cases h
        refine .inr ⟨c', evolve_wanted hev, ?_⟩
        unfold World.log
        dsimp only
        rw [Store.get_push_self, hlog _ (ownHead_ne_managerHead n')]; rfl

theorem exec_void (O : Oracle K) {α : Type} (p : Prog α) (w : World Store K) : (exec O p.void w).2 = (exec O p w).2 := by
  unfold exec Prog.void
  rw [run_bind]
  rcases run Store.impl O p w with ⟨x, w1⟩
  cases x <;> rfl

theorem suffix_between {α : Type} {x : α} {l l' : List α} (h1 : l <:+ l') (h2 : l' <:+ x :: l) : l' = l ∨ l' = x :: l := by
  rcases List.suffix_cons_iff.mp h2 with h | h
  · exact .inr h
  · exact .inl (h.eq_of_length_le h1.length_le)

/-- what a call which does not remove the account does to its own chain, if it exists -/
theorem call_own {O : Oracle K} {env : Env} {n : Str} (hn : env.isalnum n = true) {c : ApiCall} (hr : ¬ c.removes n) {w : World Store K}
    (hc : Configured w n) {cf : OwnConfig} (hconf : OwnConf w n cf) (i : Nat) :
    (runFor Store.impl O i (c.prog env) w).log (ownHead n) = w.log (ownHead n) ∨
    ∃ regex kh bin pe cf', c = .modAccount n regex kh bin pe ∧ Wanted cf regex bin pe cf' ∧
      (runFor Store.impl O i (c.prog env) w).log (ownHead n) = .cfg cf' :: w.log (ownHead n) := by
  have hcol := colon_not_mem_of_isalnum hn
  have hact : ∀ a, c.acts env a → ∀ w : World Store K, w.log (ownHead n) <:+ (exec O a.prog w).2.log (ownHead n) := by
    intro a ha w
    obtain ⟨h1, h2⟩ := act_of_call ha
    refine act_suffix O a w _ (fun m hm => ?_) (fun hw => hr (.inr (h2 hw)))
    rw [matchAccount_ownHead hcol, decide_eq_false_iff_not]
    rintro rfl; exact hr (.inl (h1 _ hm))
  have lo : w.log (ownHead n) <:+ (runFor Store.impl O i (c.prog env) w).log (ownHead n) :=
    (safe_call env c).respects_killed (R := fun w w' => w.log (ownHead n) <:+ w'.log (ownHead n)) (fun _ _ _ => List.IsSuffix.trans)
      (fun w w' hs _ _ _ => by simp only [World.log]; rw [hs]; exact List.suffix_refl _) hact i w
  have hi := (safe_call env c).killed_suffix (O := O) hact i w
  by_cases hs : c.Sets n
  · cases c with
    | addAccount n' regex kh bin mode =>
      cases hs
      left
      have e : (exec O ((ApiCall.addAccount n regex kh bin mode).prog env) w).2 = (exec O (Manager.addAccount env n regex kh bin mode) w).2 :=
        exec_void ..
      rw [e] at hi
      rcases h : exec O (Manager.addAccount env n regex kh bin mode) w with ⟨r, w'⟩
      have hl : w'.log (ownHead n) = w.log (ownHead n) := by
        have hsame : w'.store = initStore w.store → w'.log (ownHead n) = w.log (ownHead n) := by
          intro hst; unfold World.log; rw [hst, get_initStore (ownHead_ne_managerHead n)]
        cases addAccount_course h with
        | noOpen e hg hst => exact hsame hst
        | exists_ _ _ htr hst => exact hsame hst
        | badMode h1 => exact absurd hc h1
        | noKey _ _ h1 => exact absurd hc h1
        | added _ _ _ h1 => exact absurd hc h1
      rw [h] at hi
      dsimp only at hi
      rw [hl] at hi
      exact hi.eq_of_length_le lo.length_le
    | modAccount n' regex kh bin pe =>
      cases hs
      have e : (exec O ((ApiCall.modAccount n regex kh bin pe).prog env) w).2 = (exec O (Manager.modAccount env n regex kh bin pe) w).2 :=
        exec_void ..
      rw [e] at hi
      rcases h : exec O (Manager.modAccount env n regex kh bin pe) w with ⟨r, w'⟩
      rw [h] at hi
      dsimp only at hi
      rcases modAccount_log hconf regex kh bin pe h with h1 | ⟨cf', h1, h2⟩
      · left
        rw [h1] at hi
        exact hi.eq_of_length_le lo.length_le
      · rw [h2] at hi
        rcases suffix_between lo hi with h3 | h3
        · exact .inl h3
        · exact .inr ⟨regex, kh, bin, pe, cf', rfl, h1, h3⟩
    | delAccount n' => cases hs; exact absurd (.inl rfl) hr
    | removeAll => exact absurd (.inr rfl) hr
    | _ => exact hs.elim
  · exact .inl ((call_frame O hn c i w).1 hs)

/-- how the settings of an account came about: they are the former ones, or set by one of the calls -/
structure SettingsFrom (calls : Set ApiCall) (n : Str) (c c' : OwnConfig) : Prop where
  name : c'.name = c.name
  mode : c'.gpgmode = c.gpgmode
  regex : c'.emailRegex = c.emailRegex ∨ ∃ kh bin pe, .modAccount n (some c'.emailRegex) kh bin pe ∈ calls
  bin : c'.gpgbin = c.gpgbin ∨ ∃ regex kh pe, .modAccount n regex kh (some c'.gpgbin) pe ∈ calls
  pe : c'.pe = c.pe ∨ ∃ regex kh bin, .modAccount n regex kh bin (some c'.pe.toStr) ∈ calls

theorem SettingsFrom.refl {calls : Set ApiCall} {n : Str} {c : OwnConfig} : SettingsFrom calls n c c := ⟨rfl, rfl, .inl rfl, .inl rfl, .inl rfl⟩

theorem SettingsFrom.step {calls : Set ApiCall} {n : Str} {c c' c'' : OwnConfig} (h : SettingsFrom calls n c c') {regex kh bin pe : Option Str}
    (hm : .modAccount n regex kh bin pe ∈ calls) (hw : Wanted c' regex bin pe c'') : SettingsFrom calls n c c'' where
  name := hw.name.trans h.name
  mode := hw.mode.trans h.mode
  regex := by
    cases hr : regex with
    | none =>
      rw [hw.regex.2 hr]; exact h.regex
    | some x => rw [hw.regex.1 x hr, ← hr]; exact .inr ⟨_, _, _, hm⟩
  bin := by
    cases hr : bin with
    | none => rw [hw.bin.2 hr]; exact h.bin
    | some x => rw [hw.bin.1 x hr, ← hr]; exact .inr ⟨_, _, _, hm⟩
  pe := by
    cases hr : pe with
    | none => rw [hw.pe.2 hr]; exact h.pe
    | some x => rw [hw.pe.1 x hr, ← hr]; exact .inr ⟨_, _, _, hm⟩

theorem OwnKey.of_log {w w' : World Store K} {n k : Str} (h : w'.log (ownHead n) = w.log (ownHead n)) : OwnKey w' n k ↔ OwnKey w n k := by
  unfold OwnKey; rw [h]

theorem OwnKey.of_cfg {w w' : World Store K} {n k : Str} {c : OwnConfig} (h : w'.log (ownHead n) = .cfg c :: w.log (ownHead n)) :
    OwnKey w' n k ↔ OwnKey w n k := by
  unfold OwnKey
  simp only [← latestKeygen_iff]
  rw [h]; exact Iff.rfl

/-- C142, for an account which exists: as long as it is not deleted, it goes on to exist and has the same key, whatever happens: also if an account of
this name is added once more, if keys are imported for the account's own address, or if mail arrives in its name. Its name and its way to use
gpg never change, and its other settings are the former ones or were given by the user for this account. -/
theorem C142_kept {O : Oracle K} {env : Env} {n : Str} (hn : env.isalnum n = true) {hist : List (Happening K)}
    (hr : ∀ c ∈ callsMade hist, ¬ c.removes n) {w w' : World Store K} (hw' : w' = runHistory Store.impl O env hist w)
    (hc : Configured w n) {c : OwnConfig} (hconf : OwnConf w n c) :
    Configured w' n ∧ (∀ k, OwnKey w' n k ↔ OwnKey w n k) ∧ ∃ c', OwnConf w' n c' ∧ SettingsFrom (callsMade hist) n c c' := by
  subst hw'
  refine runHistory_ind (P := fun w' => Configured w' n ∧ (∀ k, OwnKey w' n k ↔ OwnKey w n k) ∧
    ∃ c', OwnConf w' n c' ∧ SettingsFrom (callsMade hist) n c c') hist ?_ ?_ w ⟨hc, fun _ => Iff.rfl, c, hconf, .refl⟩
  · rintro w1 w2 ⟨hs, -⟩ ⟨h1, h2, c', h3, h4⟩
    have hl : w2.log (ownHead n) = w1.log (ownHead n) := by simp only [World.log]; rw [hs]
    refine ⟨by unfold Configured; rw [hl]; exact h1, fun k => (OwnKey.of_log hl).trans (h2 k), c', by unfold OwnConf; rw [hl]; exact h3, h4⟩
  · rintro call hcall i w1 ⟨h1, h2, c', h3, h4⟩
    rcases call_own hn (hr call hcall) h1 h3 i (O := O) with hl | ⟨regex, kh, bin, pe, c'', rfl, h5, hl⟩
    · refine ⟨by unfold Configured; rw [hl]; exact h1, fun k => (OwnKey.of_log hl).trans (h2 k), c', by unfold OwnConf; rw [hl]; exact h3, h4⟩
    · refine ⟨?_, fun k => (OwnKey.of_cfg hl).trans (h2 k), c'', ?_, h4.step hcall h5⟩
      · unfold Configured; rw [hl]
        obtain ⟨-, k, hk⟩ := h1
        exact ⟨⟨c'', List.mem_cons_self ..⟩, k, List.mem_cons_of_mem _ hk⟩
      · unfold OwnConf; rw [hl]; exact ⟨[], _, rfl, ⟨_, rfl⟩, by simp⟩

/-- C142, what goes out: the key in the Autocrypt header which is added to a mail is, as long as the account is not deleted, always the one which gpg
exports under the handle that was reported when the account was made, and the preference is the one which is set at this time. -/
theorem C142_sent {O : Oracle K} {env : Env} {n : Str} (hn : env.isalnum n = true) {hist : List (Happening K)}
    (hr : ∀ c ∈ callsMade hist, ¬ c.removes n) {w w1 w2 : World Store K} {k : Str} (hc : Configured w n) (hk : OwnKey w n k)
    (hw1 : w1 = runHistory Store.impl O env hist w) {m : Msg} {res : Account.OutgoingResult} {v : Str}
    (h : exec O (Account.processOutgoing env n m) w1 = (.ok res, w2)) (hadd : res.added = some v) :
    ∃ new pre out pe, w2.trace = new ++ w1.trace ∧
      Event.gpg (pre ++ [str!"--export-options=export-minimal", str!"--export", k]) none (.ok out) ∈ new ∧ out.ret = 0 ∧
      (∃ c, OwnConf w1 n c ∧ c.pe = pe) ∧ makeAcHeaderValue env (some (address env (m.get (str!"From")))) out.out pe.toStr = .ok v := by
  obtain ⟨m2, hp, -⟩ := (processOutgoing_course h).1.ok
  rcases hp with ⟨_, _, h'⟩ | ⟨-, v', -, h', kd, cf, ⟨new, pre, kh, out, h1, h2, h3, h4, rfl⟩, h5, h6⟩
  · rw [h'] at hadd; cases hadd
  · rw [h'] at hadd; cases hadd
    obtain ⟨c, hconf⟩ : ∃ c, OwnConf w n c := by
      obtain ⟨⟨c, hcm⟩, -⟩ := hc
      obtain ⟨y, hy⟩ := Newest.of_mem hcm (P := fun e => ∃ c, e = Entry.cfg c) ⟨_, rfl⟩
      have hy' := hy
      obtain ⟨_, _, _, ⟨c', rfl⟩, _⟩ := hy'
      exact ⟨c', hy⟩
    have : kh = k := ((C142_kept hn hr hw1 hc hconf).2.1 kh |>.mp h2).unique hk
    subst this
    exact ⟨new, pre, out, cf.pe, h1, h3, h4, ⟨cf, h5, rfl⟩, h6⟩

section
open Concrete

/-- an instance of the hypotheses of `C142_kept` and `C142_sent`, and of the conclusions: the account is added again and modified, and in between a key for
its own address arrives. Afterwards a mail is sent. -/
def muchDone : List (Happening Unit) :=
  [.call addA, .killed addA 7, .call (.modAccount (str!"a") none (some (str!"CCCC")) none (some (str!"mutual"))),
    .call (.processIncoming (str!"a") (mail bob (str!"1") (str!"100") [8]) false false)]

example : (∀ c ∈ callsMade muchDone, ¬ c.removes (str!"a")) ∧ Configured (after [addA]) (str!"a") ∧
    OwnKey (after [addA]) (str!"a") (str!"BBBBBBBBBBBBBBBB") ∧
    ((Own.latestConfig ((runHistory Store.impl oracle Concrete.env muchDone (after [addA])).log (ownHead (str!"a")))).map fun c => c.pe) = some .mutual := by
  refine ⟨?_, isConfigured_iff.mp (by decide +kernel), ⟨⟨some (bs (str!"secret")), some (str!"BBBBBBBBBBBBBBBB")⟩,
    latestKeygen_iff.mp (by decide +kernel), rfl⟩, by decide +kernel⟩
  rintro c ⟨h, hm, hc⟩
  simp only [muchDone, List.mem_cons, List.not_mem_nil, or_false] at hm
  rcases hm with rfl | rfl | rfl | rfl <;> cases hc <;> simp [ApiCall.removes, addA]

end

end Verif
