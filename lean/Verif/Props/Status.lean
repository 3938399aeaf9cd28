import Verif.Props.CommandChanges
/-!
# What status prints: C89
-/
namespace Verif
open Mime

variable {K : Type}

/-! ## Specification -/

/-- a line about the setting `name`, with a colon after the name -/
def Setting (name value line : Str) : Prop := ∃ f, Field (name ++ [':']) value f ∧ line = str!"  " ++ f

/-- the keyring as text -/
inductive ShownMode (env : Env) (n : Str) : GpgMode → Str → Prop
  | own : ShownMode env n .own (str!"own [home: " ++ env.dir ++ str!"/gpg/" ++ n ++ str!"]")
  | system : ShownMode env n .system (str!"system")

/-- the gpg program as text; if it is not a path, with the path where it was found between `w` and `w'` -/
inductive ShownBin (w w' : World Store K) : Str → Str → Prop
  | path (b) : '/' ∈ b → ShownBin w w' b b
  | found (b new p) : '/' ∉ b → w'.trace = new ++ w.trace → (⟨.findExecutable b, some p⟩ : Event) ∈ new →
      ShownBin w w' b (b ++ str!" [currently resolves to: " ++ p ++ str!"]")
  | missing (b new) : '/' ∉ b → w'.trace = new ++ w.trace → (⟨.findExecutable b, none⟩ : Event) ∈ new →
      ShownBin w w' b (b ++ str!" [currently resolves to: None]")

/-- the user ids of the keys which gpg lists for `kh`, each once -/
def KeyUids (env : Env) (w w' : World Store K) (kh : Str) (uids : List Str) : Prop :=
  uids.Nodup ∧ RanGpg w w' fun argv out => str!"--list-public-keys" ∈ argv ∧ argv.getLast? = some kh ∧ ∃ text keys,
    env.utf8Decode out.out = .ok text ∧ Listing env (str!"pub", str!"sub") (Py.splitlines text) keys ∧ ∀ u, u ∈ uids ↔ ∃ k ∈ keys, u ∈ k.uids

/-- lines `ls` show the uids -/
inductive UidLines : List Str → List Str → Prop
  | nil : UidLines [] []
  | cons {u l us ls} : Setting (str!"^^ uid") u l → UidLines us ls → UidLines (u :: us) (l :: ls)

/-- the line about a peer -/
def peerRow (addr kh status date : Str) : Str :=
  str!"  " ++ addr ++ str!": last seen key " ++ kh ++ str!", status: " ++ status ++ str!", last_seen: " ++ date

/-- the newest message of the peer has a key -/
def LastHasKey (es : List Entry) : Prop := ∃ m, Newest Entry.IsMsg es (.msg m) ∧ m.keydata ≠ []

/-- the date of the newest message; 0 if there is none -/
def SeenAt (es : List Entry) (t : Time) : Prop := (∃ m, Newest Entry.IsMsg es (.msg m) ∧ t = m.date) ∨ ((∀ e ∈ es, ¬ e.IsMsg) ∧ t = 0)

/-- what should be printed about a peer: whether its last message had a key; nothing if there is no key at all -/
inductive PeerRow (ce : CmdEnv) (es : List Entry) (addr : Str) : Option Str → Prop
  | current (kh t d) : LastHasKey es → ShownKey es kh → SeenAt es t → ce.ctime t = .ok d → PeerRow ce es addr (some (peerRow addr kh (str!"last-was-autocrypt") d))
  | past (kh t d) : ¬ LastHasKey es → ShownKey es kh → kh ≠ [] → SeenAt es t → ce.ctime t = .ok d →
      PeerRow ce es addr (some (peerRow addr kh (str!"past-autocrypt") d))
  | skipped : ¬ LastHasKey es → ShownKey es [] → PeerRow ce es addr none

/-- the newest message has a key, or another date than the newest key (0 if there is none) -/
def Distinct (es : List Entry) : Prop := ∃ m, Newest Entry.IsMsg es (.msg m) ∧ (m.keydata = [] →
  (∀ k, Newest Entry.IsKeyMsg es (.msg k) → k.date ≠ m.date) ∧ ((∀ e ∈ es, ¬ e.IsKeyMsg) → m.date ≠ 0))

/-- lines about peers of `n`, described if `Distinct` and if the address is its own normal form -/
inductive PeerRows (ce : CmdEnv) (env : Env) (w : World Store K) (n : Str) : List Str → List Str → Prop
  | nil : PeerRows ce env w n [] []
  | cons {a o as ls} : (address env (some a) = a → Distinct (w.log (peerHead n a)) → PeerRow ce (w.log (peerHead n a)) a o) → PeerRows ce env w n as ls →
      PeerRows ce env w n (a :: as) (o.toList ++ ls)

/-- what is printed about the peers of `n`: all of them in alphabetical order -/
def PeersShown (ce : CmdEnv) (env : Env) (w : World Store K) (n : Str) (lines : List Str) : Prop :=
  ∃ peers, peers.Nodup ∧ peers.Pairwise (fun a b => Py.strLe a b = true) ∧ (∀ a, a ∈ peers ↔ w.log (peerHead n a) ≠ []) ∧
    (peers = [] → lines = [str!"  ---- no peers registered -----"]) ∧
    (peers ≠ [] → ∃ rows, lines = str!"  ----peers-----" :: rows ∧ PeerRows ce env w n peers rows)

/-- what is printed about the account `n` -/
def AccountShown (ce : CmdEnv) (env : Env) (w w' : World Store K) (n : Str) (verbose : Bool) (lines : List Str) : Prop :=
  ∃ c kh mode bin uids l1 l2 l3 l4 l5 us ps, OwnConf w n c ∧ OwnKey w n kh ∧ lines = (str!"account: " ++ ce.repr c.name) :: l1 :: l2 :: l3 :: l4 :: l5 :: (us ++ ps) ∧
    Setting (str!"email_regex") c.emailRegex l1 ∧ ShownMode env n c.gpgmode mode ∧ Setting (str!"gpgmode") mode l2 ∧
    ShownBin w w' c.gpgbin bin ∧ Setting (str!"gpgbin") bin l3 ∧ Setting (str!"prefer-encrypt") c.pe.toStr l4 ∧ Setting (str!"own-keyhandle") kh l5 ∧
    KeyUids env w w' kh uids ∧ UidLines uids us ∧ (verbose = false → ps = []) ∧ (verbose = true → PeersShown ce env w n ps)

/-- what is printed about accounts: each followed by an empty line -/
inductive AccountsShown (ce : CmdEnv) (env : Env) (w w' : World Store K) (verbose : Bool) : List Str → List Str → Prop
  | nil : AccountsShown ce env w w' verbose [] []
  | cons {n ns ls rest} : AccountShown ce env w w' n verbose ls → AccountsShown ce env w w' verbose ns rest →
      AccountsShown ce env w w' verbose (n :: ns) (ls ++ [] :: rest)

/-! ## Lemmas -/

theorem kecho_said {O : Oracle K} {name value : Str} {w w' : World Store K} {r : Except Exc Unit} (h : run Store.impl O (Cmd.kecho name value) w = (r, w')) :
    ∃ l, Said w w' [.line l] ∧ Setting name value l := by
  refine ⟨_, say_said h, _, ljust_field, ?_⟩
  simp [Cmd.peerLine, List.append_assoc]

theorem sayUids_said {O : Oracle K} {us : List Str} {w w' : World Store K} {u : Unit} (h : run Store.impl O (Cmd.sayUids us) w = (.ok u, w')) :
    ∃ ls, Said w w' (ls.map .line) ∧ UidLines us ls := by
  induction us generalizing w with
  | nil => cases h; exact ⟨[], .rfl' _, .nil⟩
  | cons x us ih =>
    unfold Cmd.sayUids at h
    simp only [bind_eq] at h
    obtain ⟨_, w1, h1, h2⟩ := run_bind_ok.mp h
    obtain ⟨l, g1, g2⟩ := kecho_said h1
    obtain ⟨ls, g3, g4⟩ := ih h2
    exact ⟨l :: ls, g1.trans g3, .cons g2 g4⟩

theorem seenAt (es : List Entry) : SeenAt es (Peer.lastSeen es) := by
  unfold Peer.lastSeen
  cases hm : Peer.latestMsg es with
  | none => exact .inr ⟨no_newest_msg hm, rfl⟩
  | some m => exact .inl ⟨m, latestMsg_iff.mp hm, rfl⟩

theorem lastHasKey_iff {es : List Entry} (h : Distinct es) : LastHasKey es ↔ Peer.lastSeen es = Peer.acTimestamp es := by
  obtain ⟨m, hm, hd⟩ := h
  have h1 := latestMsg_iff.mpr hm
  constructor
  · rintro ⟨m', hm', hk⟩
    have h2 := latestMsg_iff.mpr hm'
    rw [h1] at h2
    cases h2
    obtain ⟨newer, older, e1, -, e3⟩ := hm
    have h3 : Peer.latestAc es = some m := latestAc_iff.mpr ⟨newer, older, e1, ⟨m, rfl, hk⟩, fun y hy ⟨m', hy', _⟩ => e3 y hy ⟨m', hy'⟩⟩
    unfold Peer.lastSeen Peer.acTimestamp
    rw [h1, h3]
  · intro he
    refine ⟨m, hm, fun hk => ?_⟩
    obtain ⟨d1, d2⟩ := hd hk
    unfold Peer.lastSeen Peer.acTimestamp at he
    rw [h1] at he
    cases h3 : Peer.latestAc es with
    | none => rw [h3] at he; exact d2 (no_newest_key h3) he
    | some k => rw [h3] at he; exact d1 k (latestAc_iff.mp h3) he.symm

theorem PeerRows.of_log {ce : CmdEnv} {env : Env} {n : Str} {w w' : World Store K} (h : ∀ hd, w'.log hd = w.log hd) {as ls : List Str}
    (hr : PeerRows ce env w' n as ls) : PeerRows ce env w n as ls := by
  induction hr with
  | nil => exact .nil
  | cons h1 _ ih =>
    rw [h] at h1
    exact .cons h1 ih

theorem sayPeers_said {O : Oracle K} {ce : CmdEnv} {env : Env} {n : Str} (hn : env.isalnum n = true) {ps : List Str} {w w' : World Store K} {u : Unit}
    (h : run Store.impl O (Cmd.sayPeers ce env n ps) w = (.ok u, w')) : ∃ ls, Said w w' (ls.map .line) ∧ PeerRows ce env w n ps ls := by
  induction ps generalizing w with
  | nil => cases h; exact ⟨[], .rfl' _, .nil⟩
  | cons x ps ih =>
    unfold Cmd.sayPeers at h
    simp only [bind_eq] at h
    obtain ⟨es, w1, h1, h2⟩ := run_bind_ok.mp h
    obtain ⟨rfl, h1⟩ := chain_said h1
    injection h1 with h1
    subst h1
    cases hs : Cmd.peerStatus (w1.log (Account.peerHeadOf env n x)) with
    | none =>
      rw [hs] at h2
      obtain ⟨ls, g1, g2⟩ := ih h2
      refine ⟨ls, g1, .cons (o := none) ?_ g2⟩
      intro hx hd
      rw [Account.peerHeadOf, ← address_eq, hx] at hs
      unfold Cmd.peerStatus at hs
      split at hs
      · cases hs
      · next hne =>
        split at hs
        · cases hs
        · next hk =>
          refine .skipped (fun hl => hne ((lastHasKey_iff hd).mp hl)) ?_
          have := shownKey (w1.log (peerHead n x))
          rwa [show Peer.publicKeyhandle (w1.log (peerHead n x)) = [] by simpa using hk] at this
    | some st =>
      rw [hs] at h2
      dsimp only at h2
      obtain ⟨d, w2, h3, c1⟩ := run_bind_ok.mp h2
      obtain ⟨rfl, h3⟩ := ofExcept_said h3
      obtain ⟨_, w3, h4, c2⟩ := run_bind_ok.mp c1
      obtain ⟨ls, g1, g2⟩ := ih c2
      have g0 := say_said h4
      refine ⟨_ :: ls, g0.trans g1, .cons (o := some _) ?_ ?_⟩
      · intro hx hd
        rw [Account.peerHeadOf, ← address_eq, hx] at hs h3 ⊢
        rw [C06_addr env hn]
        unfold Cmd.peerStatus at hs
        split at hs
        · next he =>
          cases hs
          exact .current _ _ _ ((lastHasKey_iff hd).mpr he) (shownKey _) (seenAt _) h3.symm
        · next hne =>
          split at hs
          · next hk =>
            cases hs
            exact .past _ _ _ (fun hl => hne ((lastHasKey_iff hd).mp hl)) (shownKey _) (by simpa using hk) (seenAt _) h3.symm
          · cases hs
      · exact g2.of_log g0.log

theorem ShownBin.extend {w w1 w2 w' : World Store K} {b t : Str} (h : ShownBin w1 w2 b t) (h2 : w.trace <:+ w1.trace) (h3 : w2.trace <:+ w'.trace) :
    ShownBin w w' b t := by
  obtain ⟨x, hx⟩ := h2
  obtain ⟨y, hy⟩ := h3
  cases h with
  | path h => exact .path _ h
  | found new p i1 i2 i3 => exact .found b (y ++ (new ++ x)) p i1 (by rw [← hy, i2, ← hx]; simp) (by simp [i3])
  | missing new i1 i2 i3 => exact .missing b (y ++ (new ++ x)) i1 (by rw [← hy, i2, ← hx]; simp) (by simp [i3])

theorem PeersShown.of_log {ce : CmdEnv} {env : Env} {n : Str} {w w' : World Store K} (h : ∀ hd, w'.log hd = w.log hd) {ls : List Str}
    (hp : PeersShown ce env w' n ls) : PeersShown ce env w n ls := by
  obtain ⟨peers, i1, i2, i3, i4, i5⟩ := hp
  refine ⟨peers, i1, i2, fun a => by rw [i3, h], i4, fun hp => ?_⟩
  obtain ⟨rows, k1, k2⟩ := i5 hp
  exact ⟨rows, k1, k2.of_log h⟩

theorem AccountShown.extend {ce : CmdEnv} {env : Env} {w w1 w2 w' : World Store K} {n : Str} {v : Bool} {ls : List Str} (h : AccountShown ce env w1 w2 n v ls)
    (h1 : ∀ hd, w1.log hd = w.log hd) (h2 : w.trace <:+ w1.trace) (h3 : w2.trace <:+ w'.trace) : AccountShown ce env w w' n v ls := by
  obtain ⟨c, kh, mode, bin, uids, l1, l2, l3, l4, l5, us, ps, e1, e2, e3, e4, e5, e6, e7, e8, e9, e10, e11, e12, e13, e14⟩ := h
  refine ⟨c, kh, mode, bin, uids, l1, l2, l3, l4, l5, us, ps, ?_, ?_, e3, e4, e5, e6, e7.extend h2 h3, e8, e9, e10, ⟨e11.1, e11.2.extend h2 h3⟩, e12, e13,
    fun hv => (e14 hv).of_log h1⟩
  · unfold OwnConf at e1 ⊢; rwa [h1] at e1
  · unfold OwnKey at e2 ⊢; rwa [h1] at e2

theorem AccountsShown.extend {ce : CmdEnv} {env : Env} {w w1 w2 w' : World Store K} {ns : List Str} {v : Bool} {ls : List Str} (h : AccountsShown ce env w1 w2 v ns ls)
    (h1 : ∀ hd, w1.log hd = w.log hd) (h2 : w.trace <:+ w1.trace) (h3 : w2.trace <:+ w'.trace) : AccountsShown ce env w w' v ns ls := by
  induction h with
  | nil => exact .nil
  | cons i1 _ ih => exact .cons (i1.extend h1 h2 h3) ih

theorem bingpg_home {O : Oracle K} {env : Env} {n : Str} {g : BinGPG} {w w' : World Store K} (h : run Store.impl O (Account.bingpg env n) w = (.ok g, w'))
    {c : OwnConfig} (hc : OwnConf w n c) (hm : c.gpgmode = .own) : g.home = some (env.dir ++ str!"/gpg/" ++ n) := by
  unfold Account.bingpg at h
  simp only [bind_eq] at h
  obtain ⟨c', w1, h1, hb⟩ := run_bind_ok.mp h
  obtain ⟨h2, rfl⟩ := exec_config_ok h1
  have : c' = c := by
    have := latestConfig_iff.mpr hc
    rw [latestConfig_iff.mpr h2] at this
    exact Option.some.inj this
  subst this
  rw [hm] at hb
  dsimp only at hb
  split at hb
  · cases hb
  · unfold BinGPG.create at hb
    simp only [bind_eq, pure_eq] at hb
    obtain ⟨p, w2, -, c0⟩ := run_bind_ok.mp hb
    cases p with
    | none => cases c0
    | some p =>
      obtain ⟨_, w3, -, c1⟩ := run_bind_ok.mp c0
      cases c1
      rfl

theorem nodup_eraseDups (l : List Str) : l.eraseDups.Nodup := by
  induction hn : l.length using Nat.strongRecOn generalizing l with
  | _ n ih =>
    cases l with
    | nil => simp
    | cons a l =>
      rw [List.eraseDups_cons]
      refine List.nodup_cons.mpr ⟨by simp, ih _ ?_ _ rfl⟩
      rw [← hn]
      exact Nat.lt_succ_of_le (List.length_filter_le ..)

theorem listUids {O : Oracle K} {ce : CmdEnv} (hset : ∀ l, (ce.setOrder l).Perm l) {env : Env} {g : BinGPG} {kh : Str} {infos : List BinGPG.KeyInfo} {w w' : World Store K}
    (h : run Store.impl O (BinGPG.listPublicKeyinfos env g (some kh)) w = (.ok infos, w')) : KeyUids env w w' kh (ce.setOrder (Cmd.allUids infos)) := by
  refine ⟨(hset _).nodup_iff.mpr (nodup_eraseDups _), ?_⟩
  unfold BinGPG.listPublicKeyinfos BinGPG.parseList at h
  simp only [bind_eq] at h
  obtain ⟨text, v3, e3, e2⟩ := run_bind_ok.mp h
  rw [run_ofExcept] at e2
  have hp := congrArg Prod.fst e2
  have hv : v3 = w' := congrArg Prod.snd e2
  dsimp only at hp
  obtain ⟨out, htr, h0, hdec, -⟩ := gpgOutText_ok e3
  rw [hv] at htr
  refine ⟨[_], _, _, out, htr, List.mem_singleton.mpr rfl, h0, mem_argv (by simp),
      getLast_argv g [str!"--skip-verify", str!"--with-colons", str!"--list-public-keys"] kh, text, infos, hdec, C61_listing_partial (Or.inl rfl) _ _ hp, ?_⟩
  intro u
  rw [(hset _).mem_iff]
  unfold Cmd.allUids
  simp

theorem statusAccount_said {O : Oracle K} {ce : CmdEnv} (hset : ∀ l, (ce.setOrder l).Perm l) {env : Env} {n : Str} {v : Bool} {w w' : World Store K} {u : Unit}
    (hwf : w.store.Wf) (hn : env.isalnum n = true) (h : run Store.impl O (Cmd.statusAccount ce env n v) w = (.ok u, w')) :
    ∃ ls, Said w w' (ls.map .line) ∧ AccountShown ce env w w' n v ls := by
  unfold Cmd.statusAccount at h
  simp only [bind_eq, pure_eq] at h
  obtain ⟨c, w1, h1, c1⟩ := run_bind_ok.mp h
  obtain ⟨hc, rfl⟩ := exec_config_ok h1
  obtain ⟨_, w2, h2, c2⟩ := run_bind_ok.mp c1
  obtain ⟨_, w3, h3, c3⟩ := run_bind_ok.mp c2
  obtain ⟨_, w4, h4, c4⟩ := run_bind_ok.mp c3
  obtain ⟨_, w5, h5, c5⟩ := run_bind_ok.mp c4
  obtain ⟨_, w6, h6, c6⟩ := run_bind_ok.mp c5
  obtain ⟨g, w7, h7, c7⟩ := run_bind_ok.mp c6
  obtain ⟨kh, w8, h8, c8⟩ := run_bind_ok.mp c7
  obtain ⟨infos, w9, h9, c9⟩ := run_bind_ok.mp c8
  obtain ⟨_, w10, h10, c10⟩ := run_bind_ok.mp c9
  obtain ⟨_, w11, h11, c11⟩ := run_bind_ok.mp c10
  have s2 := say_said h2
  obtain ⟨l1, s3, q1⟩ := kecho_said h3
  have s23 := s2.trans s3
  have hmode : ∃ mode l, Said w3 w4 [.line l] ∧ ShownMode env n c.gpgmode mode ∧ Setting (str!"gpgmode") mode l := by
    cases hm : c.gpgmode with
    | own =>
      rw [hm] at h4
      obtain ⟨g', v1, k1, k2⟩ := run_bind_ok.mp h4
      obtain ⟨l, i1, i2⟩ := kecho_said k2
      refine ⟨_, l, (quiet_said (Account.bingpg_ops permissive_silent env n) (Account.bingpg_ops permissive_readOnly env n) k1).trans i1, .own, ?_⟩
      rw [bingpg_home k1 (c := c) (by unfold OwnConf at hc ⊢; rwa [s23.log]) hm] at i2
      simpa [Cmd.optStr] using i2
    | system =>
      rw [hm] at h4
      obtain ⟨l, i1, i2⟩ := kecho_said h4
      exact ⟨_, l, i1, .system, i2⟩
  obtain ⟨mode, l2, s4, q2, q3⟩ := hmode
  have hbin : ∃ bin l, Said w4 w5 [.line l] ∧ ShownBin w4 w5 c.gpgbin bin ∧ Setting (str!"gpgbin") bin l := by
    split at h5
    · next hs =>
      obtain ⟨l, i1, i2⟩ := kecho_said h5
      exact ⟨_, l, i1, .path _ (by simpa using hs), i2⟩
    · next hs =>
      obtain ⟨p, v1, k1, k2⟩ := run_bind_ok.mp h5
      obtain ⟨l, i1, i2⟩ := kecho_said k2
      have j1 := quiet_said (p := Prog.findExecutable c.gpgbin) (.findExecutable trivial) (.findExecutable trivial) k1
      have j2 : v1.trace = ⟨.findExecutable c.gpgbin, p⟩ :: w4.trace := by cases k1; rfl
      obtain ⟨x, hx⟩ := i1.trace
      refine ⟨_, l, j1.trans i1, ?_, i2⟩
      have hs' : '/' ∉ c.gpgbin := by simpa using hs
      cases p with
      | none => 
        have := ShownBin.missing (w := w4) (w' := w5) c.gpgbin (x ++ [⟨.findExecutable c.gpgbin, none⟩]) hs' (by rw [← hx, j2]; simp) (by simp)
        simpa [Cmd.optStr] using this
      | some q => exact .found c.gpgbin (x ++ [⟨.findExecutable c.gpgbin, some q⟩]) q hs' (by rw [← hx, j2]; simp) (by simp)
  obtain ⟨bin, l3, s5, q4, q5⟩ := hbin
  obtain ⟨l4, s6, q6⟩ := kecho_said h6
  have s7 := quiet_said (Account.bingpg_ops permissive_silent env n) (Account.bingpg_ops permissive_readOnly env n) h7
  obtain ⟨hk, rfl⟩ := exec_ownKeyhandle_ok h8
  have s9 := quiet_said (BinGPG.listPublicKeyinfos_ops permissive_silent.2.2.2 env g (some kh)) (BinGPG.listPublicKeyinfos_ops permissive_readOnly.2.2.2 env g (some kh)) h9
  have q7 := listUids hset h9
  obtain ⟨l5, s10, q8⟩ := kecho_said h10
  obtain ⟨us, s11, q9⟩ := sayUids_said h11
  have s234 := s23.trans s4
  have s25 := s234.trans s5
  have s27 := (s25.trans s6).trans s7
  have s211 := ((s27.trans s9).trans s10).trans s11
  have hps : ∃ ps, Said w11 w' (ps.map .line) ∧ (v = false → ps = []) ∧ (v = true → PeersShown ce env w11 n ps) := by
    cases v with
    | false => cases c11; exact ⟨[], .rfl' _, fun _ => rfl, (fun h => by cases h)⟩
    | true =>
      rw [if_pos rfl] at c11
      obtain ⟨peers, v1, k1, k2⟩ := run_bind_ok.mp c11
      have hp : peers = Py.sorted (stripPrefix (peerHead n []) w11.store.names) ∧ v1 = w11 := by cases k1; exact ⟨rfl, rfl⟩
      obtain ⟨hp, rfl⟩ := hp
      have hwf1 : v1.store.Wf := by rw [s211.store]; exact hwf
      have hmem : ∀ a, a ∈ peers ↔ v1.log (peerHead n a) ≠ [] := fun a => by
        rw [hp, mem_sorted, mem_stripPrefix]
        unfold World.log
        rw [← hwf1.2]
        simp [peerHead]
      have hnd : peers.Nodup := by rw [hp]; exact nodup_sorted.mpr (nodup_stripPrefix hwf1.1)
      have hpw : peers.Pairwise (fun a b => Py.strLe a b = true) := by rw [hp]; exact pairwise_sorted _
      cases hpe : peers.isEmpty with
      | true =>
        rw [hpe, if_pos rfl] at k2
        refine ⟨[_], say_said k2, (fun h => by cases h), fun _ => ⟨peers, hnd, hpw, hmem, fun _ => rfl, fun h => ?_⟩⟩
        exact absurd (by simpa using hpe) h
      | false =>
        rw [hpe, if_neg (by simp)] at k2
        obtain ⟨_, v2, k3, k4⟩ := run_bind_ok.mp k2
        have t1 := say_said k3
        obtain ⟨rows, t2, t3⟩ := sayPeers_said hn k4
        refine ⟨_ :: rows, t1.trans t2, (fun h => by cases h), fun _ => ⟨peers, hnd, hpw, hmem, fun h => ?_, fun _ => ⟨rows, rfl, t3.of_log t1.log⟩⟩⟩
        rw [h] at hpe; cases hpe
  obtain ⟨ps, s12, q10, q11⟩ := hps
  have s := s211.trans s12
  refine ⟨(str!"account: " ++ ce.repr c.name) :: l1 :: l2 :: l3 :: l4 :: l5 :: (us ++ ps), by simpa using s, ?_⟩
  have s1011 := (s10.trans s11).trans s12
  refine ⟨c, kh, mode, bin, _, l1, l2, l3, l4, l5, us, ps, hc, hk.said s27, rfl, q1, q2, q3, q4.extend s234.trace ?_, q5, q6, q8,
    ⟨q7.1, q7.2.extend s27.trace s1011.trace⟩, q9, q10, fun hv => (q11 hv).of_log s211.log⟩
  exact ((s6.trans s7).trans s9).trace.trans s1011.trace

theorem statusAll_said {O : Oracle K} {ce : CmdEnv} (hset : ∀ l, (ce.setOrder l).Perm l) {env : Env} {v : Bool} {ns : List Str} {w w' : World Store K} {u : Unit}
    (hw : Sane env w) (h : run Store.impl O (Cmd.statusAll ce env v ns) w = (.ok u, w')) :
    (∀ n ∈ ns, Configured w n) ∧ ∃ ls, Said w w' (ls.map .line) ∧ AccountsShown ce env w w' v ns ls := by
  induction ns generalizing w with
  | nil => cases h; exact ⟨by simp, [], .rfl' _, .nil⟩
  | cons n ns ih =>
    unfold Cmd.statusAll at h
    simp only [bind_eq] at h
    obtain ⟨a, w1, h1, c1⟩ := run_bind_ok.mp h
    obtain ⟨_, w2, h2, c2⟩ := run_bind_ok.mp c1
    obtain ⟨_, w3, h3, c3⟩ := run_bind_ok.mp c2
    obtain ⟨rfl, f1, f2, f3⟩ := getAccount_said hw h1
    obtain ⟨ls, f4, f5⟩ := statusAccount_said hset (by rw [f3.store]; exact hw.wf) f2 h2
    have f6 := say_said h3
    have f7 := (f3.trans f4).trans f6
    obtain ⟨g1, rest, g2, g3⟩ := ih (w := w3) ⟨by rw [f7.store]; exact hw.wf, fun n => by rw [f7.log]; exact hw.alnum n,
      fun n => by rw [f7.log]; intro h; obtain ⟨v, hv⟩ := hw.init n h; exact ⟨v, by rw [f7.log]; exact hv⟩⟩ c3
    refine ⟨?_, ls ++ [] :: rest, by simpa using f7.trans g2, .cons (f5.extend f3.log f3.trace (f6.trans g2).trace) (g3.extend f7.log f7.trace List.suffix_rfl)⟩
    intro m hm
    rcases List.mem_cons.mp hm with rfl | hm
    · exact f1
    · exact (Configured.of_log (f7.log _)).mp (g1 m hm)

/-! ## C89 -/

/-- C89, what holds: status of an account, if it exits with 0, stores nothing and prints the settings of the account, its key with the user ids
gpg lists for it, and if asked for details its peers in alphabetical order, for each whether its last message had a key.

Missing from the full statement: the line of a peer is only described if its newest message has a key or another date than its newest key, and
for addresses in normal form; see `C89_refuted`. The order of the user ids is that of python's set. -/
theorem C89_account_partial {O : Oracle K} {ce : CmdEnv} (hset : ∀ l, (ce.setOrder l).Perm l) {be : BotEnv} {env : Env} {n : Str} {v : Bool}
    {w w' : World Store K} (hw : Reachable O env w) (h : exec O ((Cmd.Command.status (some n) v).prog ce be env) w = (.ok 0, w')) :
    Configured w n ∧ ∃ ls, Said w w' (ls.map .line) ∧ AccountShown ce env w w' n v ls := by
  have h := ok0_body h
  simp only [Cmd.Command.body, bind_eq, pure_eq] at h
  obtain ⟨a, w1, h1, c1⟩ := run_bind_ok.mp h
  obtain ⟨_, w2, h2, c2⟩ := run_bind_ok.mp c1
  cases c2
  obtain ⟨rfl, f1, f2, f3⟩ := getAccount_said hw.sane h1
  obtain ⟨ls, f4, f5⟩ := statusAccount_said hset (by rw [f3.store]; exact hw.wf) f2 h2
  exact ⟨f1, ls, f3.trans f4, f5.extend f3.log f3.trace List.suffix_rfl⟩

/-- C89, what holds: status, if it exits with 0, stores nothing and prints the directory and then the same for all accounts, in alphabetical
order. Missing: as in `C89_account_partial`. -/
theorem C89_status_partial {O : Oracle K} {ce : CmdEnv} (hset : ∀ l, (ce.setOrder l).Perm l) {be : BotEnv} {env : Env} {v : Bool}
    {w w' : World Store K} (hw : Reachable O env w) (h : exec O ((Cmd.Command.status none v).prog ce be env) w = (.ok 0, w')) :
    ∃ names ls, names.Nodup ∧ names.Pairwise (fun a b => Py.strLe a b = true) ∧ (∀ n, n ∈ names ↔ Configured w n) ∧
      (names = [] → ls = [str!"no accounts configured"]) ∧ (names ≠ [] → AccountsShown ce env w w' v names ls) ∧
      Said w w' (.line (str!"account-dir: " ++ env.dir) :: ls.map .line) := by
  have h := ok0_body h
  simp only [Cmd.Command.body, Cmd.status, bind_eq, pure_eq, Prog.bind_assoc] at h
  obtain ⟨_, w1, h1, c1⟩ := run_bind_ok.mp h
  have f1 := say_said h1
  obtain ⟨names, w2, h2, c2⟩ := run_bind_ok.mp c1
  have hnames : names = Py.sorted (stripPrefix (ownHead []) w1.store.names) ∧ w2 = w1 := by cases h2; exact ⟨rfl, rfl⟩
  obtain ⟨hnm, rfl⟩ := hnames
  have hwf : w2.store.Wf := by rw [f1.store]; exact hw.wf
  have hmem : ∀ n, n ∈ names ↔ w.log (ownHead n) ≠ [] := fun n => by
    rw [← f1.log]; exact mem_listed (O := O) hwf (by rw [listed_eq, hnm]) n
  have hnd : names.Nodup := by rw [hnm]; exact nodup_sorted.mpr (nodup_stripPrefix hwf.1)
  have hpw : names.Pairwise (fun a b => Py.strLe a b = true) := by rw [hnm]; exact pairwise_sorted _
  cases hpe : names.isEmpty with
  | true =>
    have hnil : names = [] := by simpa using hpe
    rw [hpe, if_pos rfl] at c2
    obtain ⟨_, w3, h3, c3⟩ := run_bind_ok.mp c2
    cases c3
    refine ⟨names, [_], hnd, hpw, fun n => ?_, fun _ => rfl, fun h => absurd hnil h, f1.trans (say_said h3)⟩
    rw [hmem]
    refine ⟨fun h => ?_, fun h => h.log_ne⟩
    have := (hmem n).mpr h
    rw [hnil] at this; cases this
  | false =>
    rw [hpe, if_neg (by simp)] at c2
    obtain ⟨_, w3, h3, c3⟩ := run_bind_ok.mp c2
    cases c3
    obtain ⟨g1, ls, g2, g3⟩ := statusAll_said hset (w := w2) ⟨hwf, fun n => by rw [f1.log]; exact hw.sane.alnum n,
      fun n => by rw [f1.log]; intro h; obtain ⟨v, hv⟩ := hw.sane.init n h; exact ⟨v, by rw [f1.log]; exact hv⟩⟩ h3
    refine ⟨names, ls, hnd, hpw, fun n => ⟨fun h => ?_, fun h => (hmem n).mpr h.log_ne⟩, fun h => ?_, fun _ => g3.extend f1.log f1.trace List.suffix_rfl, f1.trans g2⟩
    · exact (Configured.of_log (f1.log _)).mp (g1 n h)
    · rw [h] at hpe; cases hpe

open Concrete in
/-- The full C89 fails: Carol, from whom there is no message at all but whose key came as gossip, is listed with "last-was-autocrypt". -/
theorem C89_refuted : ∃ (w w' : World Store Unit) (kh d : Str), Reachable oracle env w ∧
    exec oracle ((Cmd.Command.status (some (str!"a")) true).prog cmdEnv botEnv env) w = (.ok 0, w') ∧
    (∀ e ∈ w.log (peerHead (str!"a") carol), ¬ e.IsMsg) ∧ address env (some carol) = carol ∧
    peerRow carol kh (str!"last-was-autocrypt") d ∈ lines w'.printed := by
  spec_mail
  refine ⟨after [addA, recvEnc (str!"1") (str!"100") [] [gossipField carol [7]]],
    (cmd [addA, recvEnc (str!"1") (str!"100") [] [gossipField carol [7]]] (.status (some (str!"a")) true)).2, keyId [7], str!"later", after_reachable _, ?_, ?_,
    by decide +kernel, by decide +kernel⟩
  · have h : (cmd [addA, recvEnc (str!"1") (str!"100") [] [gossipField carol [7]]] (.status (some (str!"a")) true)).1.toOption = some 0 := by decide +kernel
    exact Prod.ext (Except.eq_ok_of_toOption h) rfl
  · exact no_newest_msg (by decide +kernel)

open Concrete in
/-- C89: two accounts, and a peer in the details of one: its last message had no key -/
example : (cmd [] (.status none true)).1.toOption = some 0 ∧ (cmd (addB :: twoMails) (.status none true)).1.toOption = some 0 ∧
    (lines (cmd (addB :: twoMails) (.status none false)).2.printed).length = 17 ∧
    peerRow bob (keyId [7, 8]) (str!"past-autocrypt") (str!"later") ∈ lines (cmd twoMails (.status (some (str!"a")) true)).2.printed ∧
    Distinct (bobs (after twoMails)) := by
  refine ⟨by decide +kernel, by decide +kernel, by decide +kernel, by decide +kernel, ?_⟩
  refine ⟨⟨str!"2", sec 200, .nopreference, [], []⟩, latestMsg_iff.mp (by decide +kernel), fun _ => ⟨fun k hk => ?_, fun h => ?_⟩⟩
  · have : Peer.latestAc (bobs (after twoMails)) = some ⟨str!"1", sec 100, .nopreference, [7, 8], keyId [7, 8]⟩ := by decide +kernel
    rw [latestAc_iff.mpr hk] at this
    cases this
    decide +kernel
  · decide +kernel

end Verif
