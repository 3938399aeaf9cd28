import Verif.Props.Commands
import Verif.Props.Import
import Verif.Props.Names
/-!
# What commands print: C84 – C86
-/
namespace Verif
open Mime Rec

variable {K : Type}

/-! ## Specification -/

/-- between `w` and `w'` exactly `l` was printed, and nothing was stored or sent -/
structure Said (w w' : World Store K) (l : List Output) : Prop where
  store : w'.store = w.store
  printed : w'.printed = w.printed ++ l
  piped : w'.piped = w.piped
  trace : w.trace <:+ w'.trace

/-- the words for recommendations -/
inductive RecWord : Rec → Str → Prop
  | disable : RecWord .disable (str!"disable")
  | discourage : RecWord .discourage (str!"discourage")
  | available : RecWord .available (str!"available")
  | encrypt : RecWord .encrypt (str!"encrypt")

/-- the weakest recommendation for the peers with these entries; the own preference decides if there are none -/
def Weakest (peers : List (List Entry)) (own : PE) (r : Rec) : Prop :=
  (peers = [] → r = match own with | .mutual => .encrypt | .nopreference => .available) ∧
  (peers ≠ [] → (∃ es ∈ peers, r = recSpec es own false) ∧ ∀ es ∈ peers, r.rank ≤ (recSpec es own false).rank)

/-- the key handle shown for a peer: of the newest key if it could be imported, else of the newest gossip, else none -/
inductive ShownKey (es : List Entry) : Str → Prop
  | direct (m) : UsableKey es m → ShownKey es m.keyhandle
  | gossip (g) : (¬ ∃ m, UsableKey es m) → Newest Entry.IsGossip es (.gossip g) → ShownKey es g.keyhandle
  | none : (¬ ∃ m, UsableKey es m) → (∀ e ∈ es, ¬ e.IsGossip) → ShownKey es []

/-- the preference shown for a peer -/
inductive ShownPref (es : List Entry) : Str → Prop
  | «mutual» (m) : UsableKey es m → m.pe = .mutual → ShownPref es (str!"mutual")
  | nopreference (m) : UsableKey es m → m.pe = .nopreference → ShownPref es (str!"nopreference")
  | none : (¬ ∃ m, UsableKey es m) → ShownPref es []

/-- the date of the newest entry with `P` as text; empty if there is none, or if it is 0 -/
inductive ShownDate (ce : CmdEnv) (P : Entry → Prop) (es : List Entry) : Str → Prop
  | date (m s) : Newest P es (.msg m) → m.date ≠ 0 → ce.iso m.date = .ok s → ShownDate ce P es s
  | zero (m) : Newest P es (.msg m) → m.date = 0 → ShownDate ce P es []
  | none : (∀ e ∈ es, ¬ P e) → ShownDate ce P es []

/-- the id of the newest entry with `P`; empty if there is none -/
inductive ShownId (P : Entry → Prop) (es : List Entry) : Str → Prop
  | id (m) : Newest P es (.msg m) → ShownId P es m.msgId
  | none : (∀ e ∈ es, ¬ P e) → ShownId P es []

/-- `name` filled up with blanks to 16 characters, a blank and `value` -/
def Field (name value line : Str) : Prop := ∃ k, line = name ++ List.replicate k ' ' ++ ' ' :: value ∧ name.length + k = max name.length 16

/-! ## Lemmas -/

theorem Said.rfl' (w : World Store K) : Said w w [] := ⟨rfl, by simp, rfl, List.suffix_refl _⟩

theorem Said.trans {w w1 w2 : World Store K} {l1 l2 : List Output} (h1 : Said w w1 l1) (h2 : Said w1 w2 l2) : Said w w2 (l1 ++ l2) :=
  ⟨h2.store.trans h1.store, by rw [h2.printed, h1.printed, List.append_assoc], h2.piped.trans h1.piped, h1.trace.trans h2.trace⟩

theorem Said.log {w w' : World Store K} {l : List Output} (h : Said w w' l) (hd : Str) : w'.log hd = w.log hd := by
  unfold World.log; rw [h.store]

theorem quiet_said {O : Oracle K} {α : Type} {p : Prog α} (hp : p.AllOps Op.silent) (hr : p.AllOps Op.readOnly) {w w' : World Store K} {r : Except Exc α}
    (h : run Store.impl O p w = (r, w')) : Said w w' [] := by
  obtain ⟨h1, h2⟩ := silent_printed hp h
  exact ⟨ro_store hr h, by rw [h1, List.append_nil], h2, trace_le h⟩

theorem emit_said {O : Oracle K} {o : Output} {w w' : World Store K} {r : Except Exc Unit} (h : run Store.impl O (Prog.emit o) w = (r, w')) :
    Said w w' [o] := by
  obtain ⟨h1, h2, h3, h4⟩ := emit_ran h
  exact ⟨h1, h2, h3, by rw [h4]; exact List.suffix_cons _ _⟩

theorem say_said {O : Oracle K} {s : Str} {w w' : World Store K} {r : Except Exc Unit} (h : run Store.impl O (Cmd.say s) w = (r, w')) :
    Said w w' [.line s] := emit_said h

theorem chain_said {O : Oracle K} {hd : Str} {w w' : World Store K} {r : Except Exc (List Entry)} (h : run Store.impl O (Prog.chain hd) w = (r, w')) :
    w' = w ∧ r = .ok (w.log hd) := by
  rw [run_chain] at h; cases h; exact ⟨rfl, rfl⟩

theorem ofExcept_said {O : Oracle K} {α : Type} {x : Except Exc α} {w w' : World Store K} {r : Except Exc α}
    (h : run Store.impl O (Prog.ofExcept x) w = (r, w')) : w' = w ∧ r = x := by
  rw [run_ofExcept] at h; cases h; exact ⟨rfl, rfl⟩

/-- a command which exits with 0 did not end with an exception -/
theorem ok0_body {O : Oracle K} {ce : CmdEnv} {be : BotEnv} {env : Env} {c : Cmd.Command} {w w' : World Store K}
    (h : exec O (c.prog ce be env) w = (.ok 0, w')) : run Store.impl O (c.body ce be env) w = (.ok 0, w') := by
  rcases command_cases h with ⟨st, h1, h2⟩ | ⟨e, w1, x, -, -, -, h2⟩ | ⟨e, -, -, -, h2⟩
  · cases h2; exact h1
  · cases x <;> simp [Except.map] at h2
  · cases h2

theorem getAccount_said {O : Oracle K} {env : Env} {n a : Str} {w w' : World Store K} (hw : Sane env w)
    (h : run Store.impl O (Manager.getAccount env n) w = (.ok a, w')) : a = n ∧ Configured w n ∧ env.isalnum n = true ∧ Said w w' [] := by
  obtain ⟨hst, hc⟩ := getAccount_course h
  cases hc with
  | opened h1 h2 h3 =>
    have hconf := h2 rfl
    obtain ⟨h4, h5⟩ := silent_printed (getAccount_silent env n true) h
    refine ⟨rfl, hconf, h1, ?_, by rw [h4, List.append_nil], h5, trace_le h⟩
    rw [hst, initStore_of_initialised (hw.init n hconf.log_ne)]

theorem accountFor_said {O : Oracle K} {env : Env} {addr a : Str} {w w' : World Store K} (hw : Reachable O env w)
    (h : run Store.impl O (Cmd.accountFor env addr) w = (.ok a, w')) : FirstAccount env w addr a ∧ Said w w' [] := by
  unfold Cmd.accountFor at h
  simp only [bind_eq, pure_eq] at h
  obtain ⟨o, w1, h1, h2⟩ := run_bind_ok.mp h
  have hst := lookup_store (O := O) hw.sane addr true
  have hso := C49_sound hw addr true
  simp only [exec, h1] at hst hso
  obtain ⟨hp1, hp2⟩ := silent_printed (lookup_silent env addr true) h1
  cases o with
  | none => cases h2
  | some b =>
    cases h2
    exact ⟨(hso _ rfl).1 _ rfl, hst, by rw [hp1, List.append_nil], hp2, trace_le h1⟩

theorem OwnKey.said {w w' : World Store K} {l : List Output} (h : Said w w' l) {n k : Str} (hk : OwnKey w' n k) : OwnKey w n k := by
  unfold OwnKey at hk ⊢; rwa [h.log] at hk

theorem OwnConf.said {w w' : World Store K} {l : List Output} (h : Said w w' l) {n : Str} {c : OwnConfig} (hk : OwnConf w' n c) : OwnConf w n c := by
  unfold OwnConf at hk ⊢; rwa [h.log] at hk

theorem OwnAcValue.said {env : Env} {w w1 w2 w' : World Store K} {n a v : Str} {l l' : List Output} (h : OwnAcValue env w1 w2 n a v) (h1 : Said w w1 l)
    (h2 : Said w2 w' l') : OwnAcValue env w w' n a v := by
  obtain ⟨kd, c, ⟨new, pre, kh, out, e1, e2, e3, e4, e5⟩, e6, e7⟩ := h
  obtain ⟨q1, hq1⟩ := h1.trace
  obtain ⟨q2, hq2⟩ := h2.trace
  exact ⟨kd, c, ⟨q2 ++ (new ++ q1), pre, kh, out, by rw [← hq2, e1, ← hq1]; simp, e2.said h1,
    List.mem_append_right _ (List.mem_append_left _ e3), e4, e5⟩, e6.said h1, e7⟩

/-! ## C84: find-account, make-header and recommend -/

/-- C84: find-account, if it exits with 0, prints exactly the name of the first account matching the address -/
theorem C84_find_account {O : Oracle K} {ce : CmdEnv} {be : BotEnv} {env : Env} {addr : Str} {w w' : World Store K} (hw : Reachable O env w)
    (h : exec O ((Cmd.Command.findAccount addr).prog ce be env) w = (.ok 0, w')) :
    ∃ a, FirstAccount env w addr a ∧ Said w w' [.line a] := by
  have h := ok0_body h
  simp only [Cmd.Command.body, bind_eq, pure_eq] at h
  obtain ⟨a, w1, h1, h⟩ := run_bind_ok.mp h
  obtain ⟨u, w2, h2, h⟩ := run_bind_ok.mp h
  cases h
  obtain ⟨f1, f2⟩ := accountFor_said hw h1
  exact ⟨a, f1, f2.trans (say_said h2)⟩

/-- C84: make-header, if it exits with 0, prints exactly the header of the first account matching the address: with the key which gpg
exported for this account, its preference, and the address -/
theorem C84_make_header {O : Oracle K} {ce : CmdEnv} {be : BotEnv} {env : Env} {addr : Str} {val : Bool} {w w' : World Store K} (hw : Reachable O env w)
    (h : exec O ((Cmd.Command.makeHeader addr val).prog ce be env) w = (.ok 0, w')) :
    ∃ a v, FirstAccount env w addr a ∧ OwnAcValue env w w' a addr v ∧
      (val = true → Said w w' [.line v]) ∧ (val = false → Said w w' [.line (str!"Autocrypt: " ++ v)]) := by
  have h := ok0_body h
  simp only [Cmd.Command.body, bind_eq, pure_eq] at h
  obtain ⟨a, w1, h1, h⟩ := run_bind_ok.mp h
  obtain ⟨v, w2, h2, h⟩ := run_bind_ok.mp h
  obtain ⟨u, w3, h3, h⟩ := run_bind_ok.mp h
  cases h
  obtain ⟨f1, f2⟩ := accountFor_said hw h1
  have f3 := quiet_said (Account.makeAcHeader_ops permissive_silent env a addr) (Account.makeAcHeader_ops permissive_readOnly env a addr) h2
  have f4 := say_said h3
  refine ⟨a, v, f1, (makeAcHeader_ok h2).said f2 f4, ?_, ?_⟩
  · rintro rfl; exact (f2.trans f3).trans f4
  · rintro rfl; exact (f2.trans f3).trans f4

theorem groupRec_weakest (l : List Rec) (own : PE) :
    (l = [] → groupRec l own = match own with | .mutual => .encrypt | .nopreference => .available) ∧
    (l ≠ [] → groupRec l own ∈ l ∧ ∀ r ∈ l, (groupRec l own).rank ≤ r.rank) := by
  refine ⟨fun h => by unfold groupRec; rw [if_pos h]; cases own <;> rfl, fun h => ?_⟩
  unfold groupRec
  rw [if_neg h]
  by_cases h1 : Rec.disable ∈ l
  · rw [if_pos h1]
    exact ⟨h1, fun r _ => by simp [Rec.rank]⟩
  · rw [if_neg h1]
    by_cases h2 : Rec.discourage ∈ l
    · rw [if_pos h2]
      exact ⟨h2, fun r hr => by cases r <;> simp [Rec.rank] <;> exact absurd hr h1⟩
    · rw [if_neg h2]
      by_cases h3 : Rec.available ∈ l
      · rw [if_pos h3]
        refine ⟨h3, fun r hr => ?_⟩
        cases r <;> simp [Rec.rank]
        · exact absurd hr h1
        · exact absurd hr h2
      · rw [if_neg h3]
        have hall : ∀ r ∈ l, r = .encrypt := by
          intro r hr
          cases r
          · exact absurd hr h1
          · exact absurd hr h2
          · exact absurd hr h3
          · rfl
        obtain ⟨r, hr⟩ := List.exists_mem_of_ne_nil l h
        exact ⟨by rw [← hall r hr]; exact hr, fun r hr => by rw [hall r hr]; exact Nat.le_refl _⟩

theorem recStr_word (r : Rec) : RecWord r (Cmd.recStr r) := by cases r <;> constructor

/-- C84: recommend, if it exits with 0, prints exactly the word for the weakest of the recommendations for the given addresses in the account -/
theorem C84_recommend {O : Oracle K} {ce : CmdEnv} {be : BotEnv} {env : Env} {n : Str} {addrs : List Str} {w w' : World Store K} (hw : Reachable O env w)
    (h : exec O ((Cmd.Command.recommend n addrs).prog ce be env) w = (.ok 0, w')) :
    Configured w n ∧ ∃ own r s, OwnPreference w n own ∧ Weakest (addrs.map fun a => peerLog env w n (address env (some a))) own r ∧ RecWord r s ∧
      Said w w' [.line s] := by
  spec_mail
  have h := ok0_body h
  simp only [Cmd.Command.body, bind_eq, pure_eq] at h
  obtain ⟨a, w1, h1, h⟩ := run_bind_ok.mp h
  obtain ⟨r, w2, h2, h⟩ := run_bind_ok.mp h
  obtain ⟨u, w3, h3, h⟩ := run_bind_ok.mp h
  cases h
  obtain ⟨rfl, f1, -, f2⟩ := getAccount_said hw.sane h1
  obtain ⟨x, hx⟩ := f1.1
  obtain ⟨y, hy⟩ := Newest.of_mem (P := fun e => ∃ c, e = Entry.cfg c) hx ⟨_, rfl⟩
  obtain ⟨c, rfl⟩ : ∃ c, y = Entry.cfg c := by obtain ⟨_, _, _, h, _⟩ := hy; exact h
  have h4 := exec_recommendation O env a addrs false none w1 c (by rw [f2.log]; exact latestConfig_iff.mpr hy)
  rw [exec, h2] at h4
  obtain ⟨h4, rfl⟩ := Prod.mk.inj h4
  injection h4 with h4
  refine ⟨f1, c.pe, r, _, ⟨c, hy, rfl⟩, ?_, recStr_word r, f2.trans (say_said h3)⟩
  obtain ⟨g1, g2⟩ := groupRec_weakest ((Account.peerAddrs env addrs none).map fun b => recSpec (w2.log (Account.peerHeadOf env a b)) c.pe false) c.pe
  rw [← h4] at g1 g2
  have hmem : ∀ es, es ∈ (addrs.map fun b => peerLog env w a (parseEmailAddr env (some b))) ↔
      ∃ b ∈ Account.peerAddrs env addrs none, es = w2.log (Account.peerHeadOf env a b) := by
    intro es
    simp only [List.mem_map, mem_peerAddrs, f2.log]
    constructor
    · rintro ⟨b, hb, rfl⟩; exact ⟨_, ⟨b, hb, rfl, by simp⟩, rfl⟩
    · rintro ⟨_, ⟨b, hb, rfl, -⟩, rfl⟩; exact ⟨b, hb, rfl⟩
  constructor
  · intro he
    apply g1
    have : addrs = [] := by simpa using he
    subst this
    rfl
  · intro he
    have : Account.peerAddrs env addrs none ≠ [] := by
      intro h0
      obtain ⟨es, hes⟩ := List.exists_mem_of_ne_nil _ he
      obtain ⟨b, hb, -⟩ := (hmem es).mp hes
      rw [h0] at hb
      cases hb
    obtain ⟨g3, g4⟩ := g2 (by simpa using this)
    obtain ⟨b, hb, hr⟩ := List.mem_map.mp g3
    refine ⟨⟨_, (hmem _).mpr ⟨b, hb, rfl⟩, hr.symm⟩, fun es hes => ?_⟩
    obtain ⟨b, hb, rfl⟩ := (hmem es).mp hes
    exact g4 _ (List.mem_map.mpr ⟨b, hb, rfl⟩)

/-! ## C85: exports -/

/-- C85: export-public-key, if it exits with 0, prints exactly what gpg exported, in text form, for the given key or address, or for the own key
of the account -/
theorem C85_export_public {O : Oracle K} {ce : CmdEnv} {be : BotEnv} {env : Env} {n : Str} {key : Option Str} {w w' : World Store K} (hw : Reachable O env w)
    (h : exec O ((Cmd.Command.exportPublicKey n key).prog ce be env) w = (.ok 0, w')) :
    Configured w n ∧ ∃ k kd, (match key with | some x => k = x | none => OwnKey w n k) ∧ Said w w' [.data kd] ∧
      RanGpg w w' fun argv out => str!"-a" ∈ argv ∧ str!"--export" ∈ argv ∧ argv.getLast? = some k ∧ out.out = kd := by
  have h := ok0_body h
  simp only [Cmd.Command.body, bind_eq, pure_eq] at h
  obtain ⟨a, w1, h1, h⟩ := run_bind_ok.mp h
  obtain ⟨kd, w2, h2, h⟩ := run_bind_ok.mp h
  obtain ⟨u, w3, h3, h⟩ := run_bind_ok.mp h
  cases h
  obtain ⟨rfl, f1, -, f2⟩ := getAccount_said hw.sane h1
  have f3 := quiet_said (Account.exportPublicKey_ops permissive_silent env a key) (Account.exportPublicKey_ops permissive_readOnly env a key) h2
  have f4 := emit_said h3
  unfold Account.exportPublicKey BinGPG.getPublicKeydata at h2
  simp only [bind_eq, pure_eq] at h2
  obtain ⟨k, w4, h4, h2⟩ := run_bind_ok.mp h2
  obtain ⟨g, w5, h5, h2⟩ := run_bind_ok.mp h2
  obtain ⟨r, w6, h6, h2⟩ := run_bind_ok.mp h2
  cases h2
  refine ⟨f1, k, r.1, ?_, (f2.trans f3).trans f4, ?_⟩
  · cases key with
    | some x => cases h4; rfl
    | none => exact (exec_ownKeyhandle_ok h4).1.said f2
  · refine ((ranGpg_of_ok h6).mono ?_).extend (f2.trace.trans ((trace_le h4).trans (trace_le h5))) f4.trace
    rintro argv out ⟨rfl, ho, -⟩
    refine ⟨mem_argv (by simp), mem_argv (by simp), ?_, ho⟩
    exact getLast_argv g [str!"-a", str!"--export-options=export-minimal", str!"--export"] k

/-- C85: export-secret-key, if it exits with 0, prints exactly what gpg exported, in text form, as secret key for the own key of the account -/
theorem C85_export_secret {O : Oracle K} {ce : CmdEnv} {be : BotEnv} {env : Env} {n : Str} {w w' : World Store K} (hw : Reachable O env w)
    (h : exec O ((Cmd.Command.exportSecretKey n).prog ce be env) w = (.ok 0, w')) :
    Configured w n ∧ ∃ k kd, OwnKey w n k ∧ Said w w' [.data kd] ∧
      RanGpg w w' fun argv out => str!"-a" ∈ argv ∧ str!"--export-secret-key" ∈ argv ∧ argv.getLast? = some k ∧ out.out = kd := by
  have h := ok0_body h
  simp only [Cmd.Command.body, bind_eq, pure_eq] at h
  obtain ⟨a, w1, h1, h⟩ := run_bind_ok.mp h
  obtain ⟨kd, w2, h2, h⟩ := run_bind_ok.mp h
  obtain ⟨u, w3, h3, h⟩ := run_bind_ok.mp h
  cases h
  obtain ⟨rfl, f1, -, f2⟩ := getAccount_said hw.sane h1
  have f3 := quiet_said (Account.exportSecretKey_ops permissive_silent env a) (Account.exportSecretKey_ops permissive_readOnly env a) h2
  have f4 := emit_said h3
  unfold Account.exportSecretKey BinGPG.getSecretKeydata at h2
  simp only [bind_eq, pure_eq] at h2
  obtain ⟨g, w4, h4, h2⟩ := run_bind_ok.mp h2
  obtain ⟨k, w5, h5, h2⟩ := run_bind_ok.mp h2
  obtain ⟨np, w6, h6, h2⟩ := run_bind_ok.mp h2
  obtain ⟨r, w7, h7, h2⟩ := run_bind_ok.mp h2
  cases h2
  have f5 := quiet_said (Account.bingpg_ops permissive_silent env a) (Account.bingpg_ops permissive_readOnly env a) h4
  refine ⟨f1, k, r.1, ((exec_ownKeyhandle_ok h5).1.said f5).said f2, (f2.trans f3).trans f4, ?_⟩
  refine ((ranGpg_of_ok h7).mono ?_).extend (f2.trace.trans ((trace_le h4).trans ((trace_le h5).trans (trace_le h6)))) f4.trace
  rintro argv out ⟨rfl, ho, -⟩
  refine ⟨mem_argv (by simp), mem_argv (by simp), ?_, ho⟩
  have := getLast_argv g ([str!"-a"] ++ np ++ [str!"--export-options=export-minimal", str!"--export-secret-key"]) k
  simpa using this

/-! ## C86: peerstate -/

theorem ljust_field {name value : Str} : Field name value (Cmd.peerLine name value) := by
  refine ⟨16 - name.length, by simp [Cmd.peerLine, Cmd.ljust], ?_⟩
  omega

theorem latest_none {P : Entry → Prop} {es : List Entry} (h : ∀ x, ¬ Newest P es x) : ∀ e ∈ es, ¬ P e := by
  intro e he hp
  obtain ⟨y, hy⟩ := Newest.of_mem he hp
  exact h y hy

theorem no_newest_msg {es : List Entry} (h : Peer.latestMsg es = none) : ∀ e ∈ es, ¬ e.IsMsg := by
  refine latest_none fun x hx => ?_
  obtain ⟨m, rfl⟩ : x.IsMsg := by obtain ⟨_, _, _, h, _⟩ := hx; exact h
  rw [latestMsg_iff.mpr hx] at h
  cases h

theorem no_newest_key {es : List Entry} (h : Peer.latestAc es = none) : ∀ e ∈ es, ¬ e.IsKeyMsg := by
  refine latest_none fun x hx => ?_
  obtain ⟨m, rfl, hm⟩ : x.IsKeyMsg := by obtain ⟨_, _, _, h, _⟩ := hx; exact h
  rw [latestAc_iff.mpr hx] at h
  cases h

theorem no_newest_gossip {es : List Entry} (h : Peer.latestGossip es = none) : ∀ e ∈ es, ¬ e.IsGossip := by
  refine latest_none fun x hx => ?_
  obtain ⟨m, rfl⟩ : x.IsGossip := by obtain ⟨_, _, _, h, _⟩ := hx; exact h
  rw [latestGossip_iff.mpr hx] at h
  cases h

theorem shownKey (es : List Entry) : ShownKey es (Peer.publicKeyhandle es) := by
  have hg : (¬ ∃ m, UsableKey es m) → ∀ o, o = (Peer.latestGossip es).map Sum.inr → ShownKey es (match (o : Option EncEntry) with
      | some (.inl m) => m.keyhandle | some (.inr g) => g.keyhandle | none => []) := by
    rintro hn o rfl
    cases h : Peer.latestGossip es with
    | none => exact .none hn (no_newest_gossip h)
    | some g => exact .gossip g hn (latestGossip_iff.mp h)
  unfold Peer.publicKeyhandle Peer.entryForEncryption
  cases h : Peer.latestAc es with
  | none =>
    refine hg ?_ _ rfl
    rintro ⟨m, hm, -⟩
    rw [latestAc_iff.mpr hm] at h; cases h
  | some m =>
    dsimp only
    cases hk : m.keyhandle.isEmpty with
    | false =>
      exact .direct m ⟨latestAc_iff.mp h, by simpa using hk⟩
    | true =>
      refine hg ?_ _ rfl
      rintro ⟨m', hm', hk'⟩
      rw [latestAc_iff.mpr hm'] at h
      cases h
      simp [hk'] at hk

theorem shownPref (es : List Entry) : ShownPref es (Peer.preferEncrypt es) := by
  unfold Peer.preferEncrypt Peer.entryForEncryption
  have hn : (¬ ∃ m, UsableKey es m) → ∀ o, o = (Peer.latestGossip es).map Sum.inr → ShownPref es (match (o : Option EncEntry) with
      | some (.inl m) => m.pe.toStr | _ => []) := by
    rintro hn o rfl
    cases Peer.latestGossip es <;> exact .none hn
  cases h : Peer.latestAc es with
  | none =>
    refine hn ?_ _ rfl
    rintro ⟨m, hm, -⟩
    rw [latestAc_iff.mpr hm] at h; cases h
  | some m =>
    dsimp only
    cases hk : m.keyhandle.isEmpty with
    | false =>
      have hu : UsableKey es m := ⟨latestAc_iff.mp h, by simpa using hk⟩
      cases hp : m.pe with
      | «mutual» => simp [hp, PE.toStr]; exact .mutual m hu hp
      | nopreference => simp [hp, PE.toStr]; exact .nopreference m hu hp
    | true =>
      refine hn ?_ _ rfl
      rintro ⟨m', hm', hk'⟩
      rw [latestAc_iff.mpr hm'] at h
      cases h
      simp [hk'] at hk

theorem shownSeen {ce : CmdEnv} {es : List Entry} {s : Str} (h : Cmd.dateStr ce (Peer.lastSeen es) = .ok s) : ShownDate ce Entry.IsMsg es s := by
  unfold Cmd.dateStr Peer.lastSeen at h
  cases hm : Peer.latestMsg es with
  | none => rw [hm] at h; cases h; exact .none (no_newest_msg hm)
  | some m =>
    rw [hm] at h
    dsimp only at h
    by_cases h0 : m.date = 0
    · rw [if_pos h0] at h; cases h; exact .zero m (latestMsg_iff.mp hm) h0
    · rw [if_neg h0] at h; exact .date m s (latestMsg_iff.mp hm) h0 h

theorem shownAc {ce : CmdEnv} {es : List Entry} {s : Str} (h : Cmd.dateStr ce (Peer.acTimestamp es) = .ok s) : ShownDate ce Entry.IsKeyMsg es s := by
  unfold Cmd.dateStr Peer.acTimestamp at h
  cases hm : Peer.latestAc es with
  | none => rw [hm] at h; cases h; exact .none (no_newest_key hm)
  | some m =>
    rw [hm] at h
    dsimp only at h
    by_cases h0 : m.date = 0
    · rw [if_pos h0] at h; cases h; exact .zero m (latestAc_iff.mp hm) h0
    · rw [if_neg h0] at h; exact .date m s (latestAc_iff.mp hm) h0 h

theorem shownId (es : List Entry) : ShownId Entry.IsMsg es (match Peer.latestMsg es with | some e => e.msgId | none => []) := by
  cases hm : Peer.latestMsg es with
  | none => exact .none (no_newest_msg hm)
  | some m => exact .id m (latestMsg_iff.mp hm)

theorem shownLast (es : List Entry) (h : ∀ m, Newest Entry.IsMsg es (.msg m) → m.keydata ≠ []) :
    ShownId Entry.IsKeyMsg es (match Peer.latestMsg es with | some e => e.msgId | none => []) := by
  cases hm : Peer.latestMsg es with
  | none => exact .none fun e he hk => no_newest_msg hm e he (by obtain ⟨m, rfl, -⟩ := hk; exact ⟨m, rfl⟩)
  | some m =>
    refine .id m ?_
    obtain ⟨newer, older, e1, -, e3⟩ := latestMsg_iff.mp hm
    exact ⟨newer, older, e1, ⟨m, rfl, h m (latestMsg_iff.mp hm)⟩, fun y hy ⟨m', hy', _⟩ => e3 y hy ⟨m', hy'⟩⟩

/-- what peerstate shows about entries; the line "last_ac_msg" is only described if the newest message has a key -/
structure PeerShown (ce : CmdEnv) (es : List Entry) (addr : Str) (lines : List Str) : Prop where
  /-- there are eight lines -/
  shape : ∃ kh dk pe seen id ac last l1 l2 l3 l4 l5 l6 l7 l8, lines = [l1, l2, l3, l4, l5, l6, l7, l8] ∧
    Field (str!"peer address") addr l1 ∧ Field (str!"keyhandle") kh l2 ∧ Field (str!"direct_key") dk l3 ∧ Field (str!"prefer_encrypt") pe l4 ∧
    Field (str!"last_seen") seen l5 ∧ Field (str!"last_msg") id l6 ∧ Field (str!"ac timestamp") ac l7 ∧ Field (str!"last_ac_msg") last l8 ∧
    ShownKey es kh ∧ ((∃ m, UsableKey es m) ∧ dk = str!"True" ∨ (¬ ∃ m, UsableKey es m) ∧ dk = str!"False") ∧ ShownPref es pe ∧
    ShownDate ce Entry.IsMsg es seen ∧ ShownId Entry.IsMsg es id ∧ ShownDate ce Entry.IsKeyMsg es ac ∧
    ((∀ m, Newest Entry.IsMsg es (.msg m) → m.keydata ≠ []) → ShownId Entry.IsKeyMsg es last)

/-- C86, what holds: peerstate, if it exits with 0, prints exactly eight lines with what is recorded about the peer with the address in the account.

Missing from the full statement: the line "last_ac_msg" should have the id of the newest message with a key, see `C86_refuted`. -/
theorem C86_peerstate_partial {O : Oracle K} {ce : CmdEnv} {be : BotEnv} {env : Env} {n addr : Str} {w w' : World Store K} (hw : Reachable O env w)
    (h : exec O ((Cmd.Command.peerstate n addr).prog ce be env) w = (.ok 0, w')) :
    Configured w n ∧ ∃ lines, Said w w' (lines.map .line) ∧ PeerShown ce (peerLog env w n addr) (address env (some addr)) lines := by
  spec_mail
  have h := ok0_body h
  simp only [Cmd.Command.body, Cmd.peerstate, bind_eq, pure_eq] at h
  obtain ⟨a, w1, h1, h⟩ := run_bind_ok.mp h
  obtain ⟨u, w2, hb, h'⟩ := run_bind_ok.mp h
  cases h'
  obtain ⟨rfl, f1, hal, f2⟩ := getAccount_said hw.sane h1
  obtain ⟨es, w3, h3, c0⟩ := run_bind_ok.mp hb
  obtain ⟨rfl, h3⟩ := chain_said h3
  injection h3 with h3
  rw [f2.log] at h3
  subst h3
  obtain ⟨_, v1, k1, c1⟩ := run_bind_ok.mp c0
  obtain ⟨_, v2, k2, c2⟩ := run_bind_ok.mp c1
  obtain ⟨_, v3, k3, c3⟩ := run_bind_ok.mp c2
  obtain ⟨_, v4, k4, c4⟩ := run_bind_ok.mp c3
  obtain ⟨seen, v5, k5, c5⟩ := run_bind_ok.mp c4
  obtain ⟨rfl, d5⟩ := ofExcept_said k5
  obtain ⟨_, v6, k6, c6⟩ := run_bind_ok.mp c5
  obtain ⟨_, v7, k7, c7⟩ := run_bind_ok.mp c6
  obtain ⟨ac, v8, k8, c8⟩ := run_bind_ok.mp c7
  obtain ⟨rfl, d8⟩ := ofExcept_said k8
  obtain ⟨_, v9, k9, c9⟩ := run_bind_ok.mp c8
  have hs := ((((((((f2.trans (say_said k1)).trans (say_said k2)).trans (say_said k3)).trans (say_said k4)).trans (say_said k6)).trans (say_said k7)).trans
    (say_said k9)).trans (say_said c9))
  refine ⟨f1, [_, _, _, _, _, _, _, _], hs, ⟨_, _, _, _, _, _, _, _, _, _, _, _, _, _, _, rfl, ?_, ljust_field, ljust_field, ljust_field,
    ljust_field, ljust_field, ljust_field, ljust_field, shownKey _, ?_, shownPref _, shownSeen d5.symm, shownId _, shownAc d8.symm, shownLast _⟩⟩
  · rw [Account.peerHeadOf, C06_addr env hal]
    exact ljust_field
  · rcases hd : Peer.hasDirectKey (w.log (Account.peerHeadOf env a addr)) with _ | _
    · exact .inr ⟨fun hx => (by rw [show Peer.hasDirectKey (w.log (Account.peerHeadOf env a addr)) = true from hasDirectKey_iff.mpr hx] at hd; cases hd), rfl⟩
    · exact .inl ⟨hasDirectKey_iff.mp hd, rfl⟩

namespace Concrete

/-- Bob sent a message with a key, then one without -/
def twoMails : List ApiCall := [addA, recv bob (str!"1") (str!"100") [7, 8], recv bob (str!"2") (str!"200") []]

end Concrete

open Concrete in
/-- The full C86 fails: the line "last_ac_msg" has the id of the newest message, which had no key; the newest message with a key has another id. -/
theorem C86_refuted : ∃ (w w' : World Store Unit) (m : MsgEntry) (l8 : Str), Reachable oracle env w ∧
    exec oracle ((Cmd.Command.peerstate (str!"a") bob).prog cmdEnv botEnv env) w = (.ok 0, w') ∧
    (lines w'.printed).getLast? = some l8 ∧ Newest Entry.IsKeyMsg (peerLog env w (str!"a") bob) (.msg m) ∧ m.msgId ≠ str!"2" ∧
    Field (str!"last_ac_msg") (str!"2") l8 := by
  refine ⟨after twoMails, (cmd twoMails (.peerstate (str!"a") bob)).2, ⟨str!"1", sec 100, .nopreference, [7, 8], keyId [7, 8]⟩,
    Cmd.peerLine (str!"last_ac_msg") (str!"2"), after_reachable _, ?_, by decide +kernel, latestAc_iff.mp (by decide +kernel), by decide, ljust_field⟩
  have h : (cmd twoMails (.peerstate (str!"a") bob)).1.toOption = some 0 := by decide +kernel
  exact Prod.ext (Except.eq_ok_of_toOption h) rfl

open Concrete in
/-- C84: an account is found, its header is made; encryption to Bob is available after mail with a key, and disabled with Carol -/
example : ((cmd [addA] (.findAccount bob)).1.toOption = some 0 ∧ lines (cmd [addA] (.findAccount bob)).2.printed = [str!"a"]) ∧
    ((cmd [addA] (.makeHeader bob true)).1.toOption = some 0 ∧ (lines (cmd [addA] (.makeHeader bob true)).2.printed).length = 1) ∧
    ((cmd twoMails (.recommend (str!"a") [bob])).1.toOption = some 0 ∧
      lines (cmd twoMails (.recommend (str!"a") [bob])).2.printed = [str!"available"]) ∧
    lines (cmd twoMails (.recommend (str!"a") [bob, carol])).2.printed = [str!"disable"] :=
  ⟨⟨by decide +kernel, by decide +kernel⟩, ⟨by decide +kernel, by decide +kernel⟩, ⟨by decide +kernel, by decide +kernel⟩, by decide +kernel⟩

open Concrete in
/-- C85: both keys can be exported -/
example : (cmd [addA] (.exportPublicKey (str!"a") none)).1.toOption = some 0 ∧ (cmd [addA] (.exportPublicKey (str!"a") (some bob))).1.toOption = some 0 ∧
    (cmd [addA] (.exportSecretKey (str!"a"))).1.toOption = some 0 :=
  ⟨by decide +kernel, by decide +kernel, by decide +kernel⟩

open Concrete in
/-- C86: what is shown about Bob -/
example : (cmd twoMails (.peerstate (str!"a") bob)).1.toOption = some 0 ∧
    lines (cmd twoMails (.peerstate (str!"a") bob)).2.printed =
      [str!"peer address     bob@x.org", str!"keyhandle        AAAAAAAAAAAA0708", str!"direct_key       True", str!"prefer_encrypt   nopreference",
        str!"last_seen        later", str!"last_msg         2", str!"ac timestamp     1970-01-01T00:01:40", str!"last_ac_msg      2"] :=
  ⟨by decide +kernel, by decide +kernel⟩

end Verif
