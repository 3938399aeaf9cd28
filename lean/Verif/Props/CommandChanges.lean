import Verif.Props.CommandOutput
import Verif.Props.Cmdline
/-!
# Commands which change accounts: C87, C88
-/
namespace Verif
open Mime

variable {K : Type}

/-! ## Specification -/

/-- between `w` and `w'` the line `s` was printed, before anything else -/
def SaidFirst (w w' : World Store K) (s : Str) : Prop := ∃ rest, w'.printed = w.printed ++ .line s :: rest

/-- nothing is stored in `w'` which was not in `w`, apart from the mark that the store is initialised -/
def Untouched (w w' : World Store K) : Prop := (∀ hd, hd ≠ managerHead → w'.log hd = w.log hd) ∧ (Initialised w → w'.store = w.store)

/-- the account named in the arguments of a command which needs an existing account -/
inductive NeedsAccount (n : Str) : Cmd.Command → Prop
  | status (v) : NeedsAccount n (.status (some n) v)
  | modAccount (k b r p) : NeedsAccount n (.modAccount n k b r p)
  | delAccount : NeedsAccount n (.delAccount n)
  | processIncoming (r d m) : NeedsAccount n (.processIncoming (some n) r d m)
  | importPublicKey (kd pe a) : NeedsAccount n (.importPublicKey n kd pe a)
  | peerstate (a) : NeedsAccount n (.peerstate n a)
  | recommend (l) : NeedsAccount n (.recommend n l)
  | exportPublicKey (k) : NeedsAccount n (.exportPublicKey n k)
  | exportSecretKey : NeedsAccount n (.exportSecretKey n)

/-! ## Lemmas -/

theorem printed_prefix {w w' : World Store K} (h : w.trace <:+ w'.trace) : ∃ l, w'.printed = w.printed ++ l := by
  obtain ⟨new, hn⟩ := h
  unfold World.printed
  rw [← hn, List.filterMap_append, List.reverse_append]
  exact ⟨_, rfl⟩

theorem SaidFirst.mk {O : Oracle K} {α β : Type} {p : Prog α} (hp : p.AllOps Op.silent) {w w1 w2 w' : World Store K} {r : Except Exc α}
    (h1 : run Store.impl O p w = (r, w1)) {s : Str} {x : Except Exc Unit} (h2 : run Store.impl O (Cmd.say s) w1 = (x, w2)) {q : Prog β} {y : Except Exc β}
    (h3 : run Store.impl O q w2 = (y, w')) : SaidFirst w w' s := by
  obtain ⟨l, hl⟩ := printed_prefix (trace_le h3)
  refine ⟨l, ?_⟩
  rw [hl, (say_said h2).printed, (silent_printed hp h1).1]
  simp

theorem addAccount_silent (env : Env) (n : Str) (regex kh : Option Str) (bin mode : Str) :
    (Manager.addAccount env n regex kh bin mode).AllOps Op.silent := by
  have h1 := getAccount_silent env n false
  have h2 := fun a => Account.createKey_ops permissive_silent env a kh
  have h3 := fun a => Account.bingpg_ops permissive_silent env a
  have h4 := fun g k => BinGPG.getSecretKeydata_ops permissive_silent.2.2.2 env g k false
  unfold Manager.addAccount Account.create Own.newConfig Own.appendKeygen Account.exists_
  simp only [bind_eq, pure_eq]
  allops
  all_goals first | exact .append trivial | exact h2 _ | exact h3 _ | exact h4 _ _

theorem modAccount_silent (env : Env) (n : Str) (regex kh bin pe : Option Str) :
    (Manager.modAccount env n regex kh bin pe).AllOps Op.silent := by
  have h1 := getAccount_silent env n true
  unfold Manager.modAccount Account.modify Own.changeConfig
  simp only [bind_eq, pure_eq]
  allops
  all_goals exact .append trivial

theorem delAccount_silent (env : Env) (n : Str) : (Manager.delAccount env n).AllOps Op.silent := by
  have h1 := getAccount_silent env n true
  unfold Manager.delAccount removeAccount
  simp only [bind_eq]
  exact .bind h1 fun _ => ⟨trivial, fun _ => .ofExcept _⟩

theorem import_silent (env : Env) (n : Str) (a : Option Str) (kd : Bytes) (pe : Str) :
    (Account.importKeydataAsAutocrypt env n a kd pe).AllOps Op.silent := by
  have h1 := Account.bingpg_ops permissive_silent env n
  have h2 := fun g k b => BinGPG.importKeydata_ops permissive_silent.2.2.2 env g k b
  have h3 := fun g k => BinGPG.listPublicKeyinfos_ops permissive_silent.2.2.2 env g k
  have h4 := fun g k b => BinGPG.getPublicKeydata_ops permissive_silent.2.2.2 env g k b
  have h5 : ∀ p k l, (Account.importLoop env n p k l).AllOps Op.silent := by
    intro p k l
    induction l with
    | nil => trivial
    | cons b l ih =>
      unfold Account.importLoop Peer.updateFromMsg; simp only [bind_eq, pure_eq]
      allops
      all_goals first | exact .append trivial | exact h4 _ _ _
  unfold Account.importKeydataAsAutocrypt
  simp only [bind_eq, pure_eq]
  allops
  all_goals first | exact h2 _ _ _ | exact h3 _ _ | exact h4 _ _ _ | exact h5 _ _ _

theorem sayAddrs_said {O : Oracle K} (l : List Str) {w w' : World Store K} {u : Unit} (h : run Store.impl O (Cmd.sayAddrs l) w = (.ok u, w')) :
    Said w w' (l.map fun a => .line (str!" " ++ a)) := by
  induction l generalizing w with
  | nil => cases h; exact .rfl' _
  | cons a l ih =>
    unfold Cmd.sayAddrs at h
    simp only [bind_eq] at h
    obtain ⟨_, w1, h1, h2⟩ := run_bind_ok.mp h
    exact (say_said h1).trans (ih h2)

/-- what is stored does not change while the status is shown -/
theorem statusAccount_store {O : Oracle K} {ce : CmdEnv} {env : Env} {n : Str} {v : Bool} {w w' : World Store K} {r : Except Exc Unit}
    (h : run Store.impl O (Cmd.statusAccount ce env n v) w = (r, w')) : w'.store = w.store :=
  ro_store (statusAccount_ops permissive_readOnly (fun _ => trivial) ce env n v) h

theorem ReportedKey.later {env : Env} {w w1 w' : World Store K} {kh : Option Str} {k : Str} (h : ReportedKey env w w1 kh k) (ht : w1.trace <:+ w'.trace) :
    ReportedKey env w w' kh k := by
  cases kh with
  | some q => exact RanGpg.extend h (List.suffix_refl _) ht
  | none =>
    refine (RanGpg.extend h (List.suffix_refl _) ht).mono ?_
    rintro a o ⟨h1, text, x, h2, h3, h4⟩
    refine ⟨h1, text, x, h2, h3, h4.imp id ?_⟩
    rintro ⟨h5, h6, h7, h8⟩
    exact ⟨h5, h6, h7, h8.extend (List.suffix_refl _) ht⟩

theorem Safe.wf {O : Oracle K} {α : Type} {A : Act → Prop} {p : Prog α} (hp : Safe A p) {w : World Store K} (hw : w.store.Wf) :
    (run Store.impl O p w).2.store.Wf :=
  hp.respects (R := fun w w' => w.store.Wf → w'.store.Wf) (fun _ _ _ h1 h2 h => h2 (h1 h)) (fun _ _ h _ _ _ hw => by rw [h]; exact hw)
    (fun a _ w hw => Store.Wf.act a hw) w hw

/-! ## C87: what the commands change -/

/-- C87: add-account, if it exits with 0, printed first that the account was added; there was no account of that name before, and now it
is listed, with the given pattern, gpg program and keyring, and a key which gpg generated, or found for the key given; nothing else changed -/
theorem C87_add {O : Oracle K} {ce : CmdEnv} {be : BotEnv} {env : Env} {n bin : Str} {sys : Bool} {key regex : Option Str} {w w' : World Store K}
    (hw : Reachable O env w) (h : exec O ((Cmd.Command.addAccount n sys key bin regex).prog ce be env) w = (.ok 0, w')) :
    SaidFirst w w' (str!"account added: '" ++ n ++ str!"'") ∧ ¬ Configured w n ∧ Configured w' n ∧ (∀ l, listed O w' = .ok l → n ∈ l) ∧
    (∃ c, OwnConf w' n c ∧ c.name = n ∧ c.emailRegex = regex.getD (str!".*") ∧ c.gpgbin = bin ∧ (c.gpgmode = .system ↔ sys = true) ∧
      c.pe = .nopreference) ∧
    (∃ k, OwnKey w' n k ∧ ReportedKey env w w' key k) ∧ SameOthers n w w' := by
  have h := ok0_body h
  simp only [Cmd.Command.body, Cmd.addAccount, bind_eq, pure_eq] at h
  obtain ⟨a, w1, h1, c1⟩ := run_bind_ok.mp h
  obtain ⟨_, w2, h2, c2⟩ := run_bind_ok.mp c1
  obtain ⟨_, w3, h3, c3⟩ := run_bind_ok.mp c2
  cases c3
  obtain ⟨rfl, e1, e2, e3, ⟨c, e4, e5, e6, e7, e8, e9⟩, ⟨k, e10, e11, -⟩, e12⟩ := C45_added hw regex key bin _ h1
  have hst : w'.store = w1.store := (statusAccount_store h3).trans (say_said h2).store
  have hlog : ∀ hd, w'.log hd = w1.log hd := fun hd => by unfold World.log; rw [hst]
  refine ⟨.mk (addAccount_silent env a regex key bin _) h1 h2 h3, e1, (Configured.of_log (hlog _)).mpr e2, ?_, ⟨c, ?_, e5, e6, e7, ?_, e9⟩,
    ⟨k, ?_, e11.later ((say_said h2).trace.trans (trace_le h3))⟩, fun hd h1 h2 => by rw [hlog]; exact e12 hd h1 h2⟩
  · intro l hl
    rw [listed_eq, hst, ← listed_eq O] at hl
    exact e3 l hl
  · unfold OwnConf; rw [hlog]; exact e4
  · cases sys <;> cases hm : c.gpgmode <;> rw [hm] at e8 <;> first | exact absurd e8 (by decide) | simp
  · unfold OwnKey; rw [hlog]; exact e10

/-- C87: mod-account, if it exits with 0: the account existed, its settings are now those which were asked for and the line printed first
says whether they differ from the previous ones; the key of the account and everything else stays. The gpg program is set to "gpg" if none is
given, see C73; a key handle given is ignored, see C47. -/
theorem C87_mod {O : Oracle K} {ce : CmdEnv} {be : BotEnv} {env : Env} {n : Str} {key bin regex pe : Option Str} {w w' : World Store K}
    (hw : Reachable O env w) (h : exec O ((Cmd.Command.modAccount n key bin regex pe).prog ce be env) w = (.ok 0, w')) :
    ∃ c c', OwnConf w n c ∧ Wanted c regex (some (bin.getD (str!"gpg"))) pe c' ∧ OwnConf w' n c' ∧
      (c' ≠ c → SaidFirst w w' (str!"account modified: '" ++ n ++ str!"'")) ∧
      (c' = c → SaidFirst w w' (str!"account NOT modified: '" ++ n ++ str!"'")) ∧
      (∀ k, OwnKey w' n k ↔ OwnKey w n k) ∧ SameOthers n w w' := by
  have h := ok0_body h
  simp only [Cmd.Command.body, Cmd.modAccount, bind_eq, pure_eq] at h
  obtain ⟨⟨b, a⟩, w1, h1, c1⟩ := run_bind_ok.mp h
  obtain ⟨_, w2, h2, c2⟩ := run_bind_ok.mp c1
  obtain ⟨_, w3, h3, c3⟩ := run_bind_ok.mp c2
  cases c3
  have hst : w'.store = w1.store := (statusAccount_store h3).trans (say_said h2).store
  have hlog : ∀ hd, w'.log hd = w1.log hd := fun hd => by unfold World.log; rw [hst]
  obtain ⟨a', w4, h4, -⟩ := run_bind_ok.mp (show run Store.impl O ((Manager.getAccount env n).bind _) w = _ from h1)
  obtain ⟨rfl, f1, -, -⟩ := getAccount_said hw.sane h4
  obtain ⟨x, hx⟩ := f1.1
  obtain ⟨y, hy⟩ := Newest.of_mem (P := fun e => ∃ c, e = Entry.cfg c) hx ⟨_, rfl⟩
  obtain ⟨c, rfl⟩ : ∃ c, y = Entry.cfg c := by obtain ⟨_, _, _, h, _⟩ := hy; exact h
  obtain ⟨g1, g2, g3, g4⟩ := modAccount_opened (show (exec O (Manager.getAccount env a') w).1 = .ok a' from congrArg Prod.fst h4) hy regex key
    (some (bin.getD (str!"gpg"))) pe h1
  have hv : ValidPref pe := Classical.byContradiction fun hv => by have := (g2 hv).1; cases this
  obtain ⟨c', i1, i2, i3⟩ := g1 hv
  injection i3 with i3
  obtain ⟨rfl, rfl⟩ := Prod.mk.inj i3
  refine ⟨c, c', hy, i1, by unfold OwnConf; rw [hlog]; exact i2, fun hne => ?_, fun he => ?_, fun k => ?_, fun hd h1 h2 => by rw [hlog]; exact g4 hd h1 h2⟩
  · rw [decide_eq_true hne] at h2
    exact .mk (modAccount_silent env a regex key _ pe) h1 (s := str!"account modified: '" ++ a ++ str!"'") (by simpa using h2) h3
  · rw [decide_eq_false (fun h => h he)] at h2
    exact .mk (modAccount_silent env a regex key _ pe) h1 (s := str!"account NOT modified: '" ++ a ++ str!"'") (by simpa using h2) h3
  · rw [← g3 k]; unfold OwnKey; rw [hlog]

/-- C87: del-account, if it exits with 0: the account existed, the line printed first says it was deleted; now nothing is stored about it or
its peers, it is not listed, and everything about other accounts is as before -/
theorem C87_del {O : Oracle K} {ce : CmdEnv} {be : BotEnv} {env : Env} {n : Str} {w w' : World Store K}
    (hw : Reachable O env w) (h : exec O ((Cmd.Command.delAccount n).prog ce be env) w = (.ok 0, w')) :
    Configured w n ∧ SaidFirst w w' (str!"account deleted: " ++ ce.repr n) ∧ Gone w' n ∧ (∀ l, listed O w' = .ok l → n ∉ l) ∧
    ∀ n', env.isalnum n' = true → n' ≠ n → w'.log (ownHead n') = w.log (ownHead n') ∧ w'.log (oobHead n') = w.log (oobHead n') ∧
      ∀ a, w'.log (peerHead n' a) = w.log (peerHead n' a) := by
  have h := ok0_body h
  simp only [Cmd.Command.body, bind_eq, pure_eq] at h
  obtain ⟨_, w1, h1, c1⟩ := run_bind_ok.mp h
  obtain ⟨_, w2, h2, c2⟩ := run_bind_ok.mp c1
  obtain ⟨_, w3, h3, c3⟩ := run_bind_ok.mp c2
  cases c3
  obtain ⟨a', w4, h4, -⟩ := run_bind_ok.mp (show run Store.impl O ((Manager.getAccount env n).bind _) w = _ from h1)
  obtain ⟨rfl, f1, -, -⟩ := getAccount_said hw.sane h4
  obtain ⟨-, g1, g2, -, -, g3⟩ := delAccount_opened hw f1 (show (exec O (Manager.getAccount env a') w).1 = .ok a' from congrArg Prod.fst h4) h1
  have hs := safe_init_effect (O := O) (safe_status ce env true) w2
  rw [exec, h3] at hs
  have hlog : ∀ hd, hd ≠ managerHead → w'.log hd = w1.log hd := fun hd hne => by rw [hs.2 hd hne, (say_said h2).log]
  refine ⟨f1, .mk (delAccount_silent env a') h1 h2 h3, ⟨?_, fun a => ?_⟩, ?_, fun n' h5 h6 => ⟨?_, ?_, fun a => ?_⟩⟩
  · rw [hlog _ (ownHead_ne_managerHead _)]; exact g1.1
  · rw [hlog _ (managerHead_ne_peerHead _ _).symm]; exact g1.2 a
  · intro l hl hmem
    have hwf : w'.store.Wf := by
      have hw1 := run_wf hw (.delAccount a')
      rw [show (exec O ((ApiCall.delAccount a').prog env) w).2 = w1 from congrArg Prod.snd h1, ← (say_said h2).store] at hw1
      have := (safe_status ce env true).wf (O := O) hw1
      rwa [h3] at this
    refine (mem_listed hwf hl a').mp hmem ?_
    rw [hlog _ (ownHead_ne_managerHead _)]; exact g1.1
  · rw [hlog _ (ownHead_ne_managerHead _)]; exact (g3 n' h5 h6).1
  · rw [hlog _ (oobHead_ne_managerHead _)]; exact (g3 n' h5 h6).2.1
  · rw [hlog _ (managerHead_ne_peerHead _ _).symm]; exact (g3 n' h5 h6).2.2 a

/-- C87: import-public-key, if it exits with 0, stored the key for exactly the addresses printed: the one given, or those of the key. It is
then the key used for them, with the given preference. Here the clock runs forward, no recorded key is from the future and gpg does not export
nothing with success, as for C55. -/
theorem C87_import {O : Oracle K} {ce : CmdEnv} {be : BotEnv} {env : Env} {n : Str} {kd : Bytes} {pe : PE} {email : Option Str} {w w' : World Store K}
    (hw : Reachable O env w) (h : exec O ((Cmd.Command.importPublicKey n kd pe email).prog ce be env) w = (.ok 0, w'))
    (hfw : Forward w.clock) (hpast : KeysArePast w n) (hex : ExportsData w') :
    Configured w n ∧ ∃ kh addrs, kh ≠ [] ∧
      w'.printed = w.printed ++ (.line (str!"imported key " ++ ce.repr kh ++ str!" with prefer-encrypt=" ++ pe.toStr ++ str!" for addresses") ::
        addrs.map fun a => .line (str!" " ++ a)) ∧
      (∀ a, email = some a → addrs = [address env (some a)]) ∧ (email = none → KeyAddrs env w w' addrs) ∧
      (∀ a ∈ addrs, ∃ d, Exported w w' kh d ∧ ShowsKey (peerLog env w' n a) kh d pe.toStr) ∧
      ∀ hd, (∀ a, hd ≠ peerHead n a) → w'.log hd = w.log hd := by
  spec_mail
  have h := ok0_body h
  simp only [Cmd.Command.body, bind_eq, pure_eq] at h
  obtain ⟨a, w1, h1, c1⟩ := run_bind_ok.mp h
  obtain ⟨res, w2, h2, c2⟩ := run_bind_ok.mp c1
  obtain ⟨_, w3, h3, c3⟩ := run_bind_ok.mp c2
  obtain ⟨_, w4, h4, c4⟩ := run_bind_ok.mp c3
  cases c4
  obtain ⟨rfl, f1, -, f2⟩ := getAccount_said hw.sane h1
  have f3 := (say_said h3).trans (sayAddrs_said _ h4)
  have hck := run_clock (S := Store.impl) (O := O) (Manager.getAccount env a) w
  rw [h1] at hck
  dsimp only at hck
  have hpast1 : KeysArePast w1 a := by
    unfold KeysArePast
    have := hfw _ _ hck.2
    refine ⟨by rw [hck.1]; exact Int.le_trans hpast.1 this, fun b m hm hk => ?_⟩
    rw [f2.log] at hm
    rw [hck.1]
    exact Int.lt_of_lt_of_le (hpast.2 b m hm hk) this
  obtain ⟨g1, g2, -, g4, g5, g6⟩ := C55_imported_partial (show exec O (Account.importKeydataAsAutocrypt env a email kd pe.toStr) w1 = _ from h2)
    (by rw [hck.1]; exact hfw) hpast1 (hex.mono f3.trace)
  refine ⟨f1, res.keyhandle, res.addrs, g1, ?_, g4, fun he => RanGpg.extend (g5 he) f2.trace f3.trace, fun b hb => ?_, fun hd hne => ?_⟩
  · rw [f3.printed, (silent_printed (import_silent env a email kd pe.toStr) h2).1, f2.printed, g2]; simp
  · obtain ⟨d, i1, i2⟩ := g6 b hb
    refine ⟨d, i1.extend f2.trace f3.trace, ?_⟩
    unfold peerLog at i2 ⊢
    rw [f3.log]; exact i2
  · have := (Account.safe_import env a email kd pe.toStr).frame (O := O) w1 (h := hd) ?_
    · rw [exec, h2] at this
      rw [f3.log, this, f2.log]
    · intro act hact
      cases act with
      | msg n' b u =>
        obtain ⟨rfl, -⟩ := hact
        exact hne b
      | _ => exact hact.elim

/-! ## C88: unknown accounts -/

theorem needs_body {n : Str} {c : Cmd.Command} (h : NeedsAccount n c) (ce : CmdEnv) (be : BotEnv) (env : Env) :
    ∃ f, c.body ce be env = (Manager.getAccount env n).bind f := by
  cases h
  all_goals first
    | exact ⟨_, rfl⟩
    | simp only [Cmd.Command.body, Cmd.modAccount, Manager.modAccount, Manager.delAccount, Cmd.processIncoming, bind_eq, Prog.bind_assoc]; exact ⟨_, rfl⟩

/-- C88: a command which needs an account, called with a name which is not that of an account, stores nothing (apart from the mark that the
store is initialised) and runs no other program. If the name is alphanumeric the text of AccountNotFound is all that is printed, and the exit
status is 1, if it can be printed. Otherwise the command stops with an AssertionError. -/
theorem C88_unknown {O : Oracle K} {ce : CmdEnv} {be : BotEnv} {env : Env} {n : Str} {c : Cmd.Command} (hn : NeedsAccount n c) {w w' : World Store K}
    {r : Except Exc Int} (hc : ¬ Configured w n) (h : exec O (c.prog ce be env) w = (r, w')) :
    Untouched w w' ∧
    (env.isalnum n = true → ∃ x : Except Exc Unit, w'.trace = ⟨.emit (.line (ce.excText .accountNotFound)), x⟩ :: w.trace ∧
      (x = .ok () → r = .ok 1) ∧ ∀ e, x = .error e → r = .error e) ∧
    (env.isalnum n = false → w'.trace = w.trace ∧ r = .error .assertionError) := by
  obtain ⟨f, hf⟩ := needs_body hn ce be env
  rcases hg : run Store.impl O (Manager.getAccount env n) w with ⟨x, w1⟩
  obtain ⟨hst, hco⟩ := getAccount_course hg
  have hun : ∀ v : World Store K, v.store = w1.store → Untouched w v := fun v hv =>
    ⟨fun hd hne => by unfold World.log; rw [hv, hst, get_initStore hne], fun hi => by rw [hv, hst, initStore_of_initialised hi]⟩
  have hb : ∀ e, x = .error e → exec O (c.body ce be env) w = (.error e, w1) := by
    rintro e rfl
    rw [hf, exec, run_bind, hg]
  cases hco with
  | badName h1 h2 =>
    have hb := hb _ rfl
    rcases command_cases h with ⟨st, e1, e2⟩ | ⟨e, w2, y, e1, e2, e3, e4⟩ | ⟨e, e1, e2, e3, e4⟩ <;> rw [hb] at e1 <;> cases e1
    · rcases e2 with e2 | e2 <;> cases e2
    · exact ⟨hun _ rfl, (fun h => by rw [h1] at h; cases h), fun _ => ⟨h2, e4⟩⟩
  | notFound h1 _ _ h2 =>
    have hb := hb _ rfl
    rcases command_cases h with ⟨st, e1, e2⟩ | ⟨e, w2, y, e1, e2, e3, e4⟩ | ⟨e, e1, e2, e3, e4⟩ <;> rw [hb] at e1 <;> cases e1
    · obtain ⟨i1, -, -, i2⟩ := emit_ran e3
      refine ⟨hun _ i1, fun _ => ⟨y, by rw [i2, h2], ?_, ?_⟩, fun h => by rw [h1] at h; cases h⟩
      · rintro rfl; exact e4
      · rintro e rfl; exact e4
    · cases e2
  | plugin e _ h1 => exact absurd (h1 rfl) hc
  | opened _ h1 => exact absurd (h1 rfl) hc

/-- C88: add-account with the name of an existing account stores nothing and runs no program; if plugins do not fail the text of AccountExists
is all that is printed, and the exit status is 1 if it can be printed -/
theorem C88_exists {O : Oracle K} {ce : CmdEnv} {be : BotEnv} {env : Env} {n bin : Str} {sys : Bool} {key regex : Option Str} {w w' : World Store K}
    {r : Except Exc Int} (hw : Reachable O env w) (hc : Configured w n)
    (h : exec O ((Cmd.Command.addAccount n sys key bin regex).prog ce be env) w = (r, w')) :
    w'.store = w.store ∧ r ≠ .ok 0 ∧
    ∃ (ret : Except Exc Unit) (rest : List Event), w'.trace = rest ++ Event.instantiate env n ret :: w.trace ∧
      (∀ ev ∈ rest, ∃ s x, ev = ⟨.emit (.line s), x⟩) ∧
      (ret = .ok () → ∃ x : Except Exc Unit, rest = [⟨.emit (.line (ce.excText .accountExists)), x⟩] ∧ (x = .ok () → r = .ok 1) ∧
        ∀ e, x = .error e → r = .error e) := by
  rcases hb : exec O (Manager.addAccount env n regex key bin (if sys then str!"system" else str!"own")) w with ⟨y, w1⟩
  obtain ⟨⟨ret, i1, i2, i3⟩, -, i4, -⟩ := C44_exists hw hc regex key bin _ hb
  have hst := i4 (hw.sane.init n hc.log_ne)
  have hy : ∃ e, y = .error e ∧ (ret = .ok () → e = .accountExists) := by
    rcases ret with e | ⟨⟩
    · exact ⟨e, i3 e rfl, fun h => by cases h⟩
    · exact ⟨_, i2 rfl, fun _ => rfl⟩
  obtain ⟨e0, rfl, he0⟩ := hy
  have hbody : exec O ((Cmd.Command.addAccount n sys key bin regex).body ce be env) w = (.error e0, w1) := by
    simp only [Cmd.Command.body, Cmd.addAccount, bind_eq, exec] at hb ⊢
    rw [run_bind, hb]
  rcases command_cases h with ⟨st, e1, e2⟩ | ⟨e, w2, x, e1, e2, e3, e4⟩ | ⟨e, e1, e2, e3, e4⟩ <;> rw [hbody] at e1 <;> cases e1
  · obtain ⟨k1, -, -, k2⟩ := emit_ran e3
    refine ⟨k1.trans hst, ?_, ret, [⟨.emit (.line (ce.excText e0)), x⟩], by rw [k2, i1]; rfl, ?_, fun hr => ⟨x, by rw [he0 hr], ?_, ?_⟩⟩
    · rw [e4]; cases x <;> simp [Except.map]
    · intro ev hev
      rw [List.mem_singleton] at hev
      exact ⟨_, x, hev⟩
    · rintro rfl; exact e4
    · rintro e rfl; exact e4
  · refine ⟨hst, by rw [e4]; simp, ret, [], i1, by simp, fun hr => ?_⟩
    rw [he0 hr] at e2
    cases e2

/-! ## Examples -/

open Concrete in
/-- C87: accounts with own and system keyring are added, one is modified, modified without effect and deleted; a key is imported -/
example : (cmd [] (.addAccount (str!"a") false none (str!"gpg") none)).1.toOption = some 0 ∧
    (cmd [] (.addAccount (str!"a") true (some (str!"CCCC")) (str!"gpg") none)).1.toOption = some 0 ∧
    (cmd [addA] (.modAccount (str!"a") none none none (some (str!"mutual")))).1.toOption = some 0 ∧
    (cmd [addA] (.modAccount (str!"a") none none none none)).1.toOption = some 0 ∧
    (lines (cmd [addA] (.modAccount (str!"a") none none none none)).2.printed).head? = some (str!"account NOT modified: 'a'") ∧
    (cmd [addA] (.delAccount (str!"a"))).1.toOption = some 0 ∧
    (cmd [addA] (.importPublicKey (str!"a") [1, 2] .mutual none)).1.toOption = some 0 ∧
    (cmd [addA] (.importPublicKey (str!"a") [1, 2] .mutual (some carol))).1.toOption = some 0 ∧
    ¬ (lines (cmd [addA] (.importPublicKey (str!"a") [1, 2] .mutual none)).2.printed).length < 2 := by
  decide +kernel

open Concrete in
/-- C88: no account b, and an account a twice -/
example : (cmd [addA] (.exportPublicKey (str!"b") none)).1.toOption = some 1 ∧ (cmd [addA] (.addAccount (str!"a") false none (str!"gpg") none)).1.toOption = some 1 ∧
    (cmd [addA] (.exportPublicKey (str!"b:") none)).1.exc? = some .assertionError := by decide +kernel

end Verif
