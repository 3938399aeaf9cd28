import Verif.Lemmas.Paths
import Verif.Props.Outgoing
import Verif.Props.OutgoingExamples
import Verif.Props.Accesses
/-!
# C123: what holds for outgoing mail whatever happens meanwhile

Plugins get the account object and may change what is stored; other processes may do so at any time, files may be damaged or
replaced. Here nothing is assumed about the answers of the store, the clock, gpg and the plugins: they may be any at all, and reading
the same log again may give something else.
-/
namespace Verif
open Mime

/-! ## Specification -/

/-- some time during the call, reading the log gave `es` -/
def ReadAs (l : List Did) (h : Str) (es : List Entry) : Prop := Did.chain h (.ok es) ∈ l

/-- the newest direct key or the newest gossip, with handle and data -/
def KeyIn (es : List Entry) (kh : Str) (kd : Bytes) : Prop :=
  (∃ m, UsableKey es m ∧ kh = m.keyhandle ∧ kd = m.keydata) ∨
  ∃ g, Newest Entry.IsGossip es (.gossip g) ∧ kh = g.keyhandle ∧ kd = g.keydata

/-- some time during the call the account's own key was `kh` -/
def OwnKeyThen (l : List Did) (n kh : Str) : Prop :=
  ∃ es k, ReadAs l (ownHead n) es ∧ Newest (fun e => ∃ k, e = Entry.keygen k) es (.keygen k) ∧ k.keyhandle = some kh

/-- some time during the call the address matched the account's pattern -/
def OwnAddressThen (env : Env) (l : List Did) (n a : Str) : Prop :=
  ∃ es c, ReadAs l (ownHead n) es ∧ Newest (fun e => ∃ c, e = Entry.cfg c) es (.cfg c) ∧ env.reMatch c.emailRegex a = .ok true

/-- some time during the call `kh` was the key of the peer with address `a`; or no gossip gave a key for it, it was an own address, and
`kh` was the own key -/
def RecipientKeyThen (env : Env) (l : List Did) (n a kh : Str) : Prop :=
  (∃ es kd, ReadAs l (peerHead n (address env (some a))) es ∧ KeyIn es kh kd ∧ kh ≠ []) ∨
  ((∃ es, ReadAs l (peerHead n (address env (some a))) es ∧ ¬ UsableGossip es) ∧ OwnAddressThen env l n a ∧ OwnKeyThen l n kh)

/-- the header field with the gossip for `a`, with a key which was that of the peer with address `a` some time during the call -/
def GossipThen (env : Env) (l : List Did) (n a : Str) (h : Str × Str) : Prop :=
  h.1 = str!"Autocrypt-Gossip" ∧ ∃ es kh kd, ReadAs l (peerHead n (address env (some a))) es ∧ KeyIn es kh kd ∧
    makeAcHeaderValue env (some a) kd (str!"nopreference") = .ok h.2

/-- the Autocrypt header value for `addr`: the key which gpg exported for the own key of the account, and the account's preference -/
def HeaderThen (env : Env) (l : List Did) (n addr v : Str) : Prop :=
  ∃ pre kh out es c, OwnKeyThen l n kh ∧
    Did.gpg (pre ++ [str!"--export-options=export-minimal", str!"--export", kh]) none (.ok out) ∈ l ∧ out.ret = 0 ∧
    ReadAs l (ownHead n) es ∧ Newest (fun e => ∃ c, e = Entry.cfg c) es (.cfg c) ∧
    makeAcHeaderValue env (some addr) out.out c.pe.toStr = .ok v

/-- data is passed to gpg -/
def Did.data (d : Did) : Prop := ∃ argv data ret, d = Did.gpg argv (some data) ret

/-! ## Lemmas -/
namespace Anyhow

variable {α : Type} {l l' : List Did}

theorem _root_.Verif.ReadAs.mono (h : l ⊆ l') {hd : Str} {es : List Entry} : ReadAs l hd es → ReadAs l' hd es := fun hr => h hr
theorem _root_.Verif.OwnKeyThen.mono (h : l ⊆ l') {n kh : Str} : OwnKeyThen l n kh → OwnKeyThen l' n kh :=
  fun ⟨es, k, h1, h2⟩ => ⟨es, k, h h1, h2⟩
theorem _root_.Verif.OwnAddressThen.mono (h : l ⊆ l') {env : Env} {n a : Str} : OwnAddressThen env l n a → OwnAddressThen env l' n a :=
  fun ⟨es, k, h1, h2⟩ => ⟨es, k, h h1, h2⟩
theorem _root_.Verif.RecipientKeyThen.mono (h : l ⊆ l') {env : Env} {n a kh : Str} : RecipientKeyThen env l n a kh → RecipientKeyThen env l' n a kh := by
  rintro (⟨es, kd, h1, h2⟩ | ⟨⟨es, h1, h2⟩, h3, h4⟩)
  · exact .inl ⟨es, kd, h h1, h2⟩
  · exact .inr ⟨⟨es, h h1, h2⟩, h3.mono h, h4.mono h⟩
theorem _root_.Verif.GossipThen.mono (h : l ⊆ l') {env : Env} {n a : Str} {x : Str × Str} : GossipThen env l n a x → GossipThen env l' n a x :=
  fun ⟨h1, es, kh, kd, h2, h3⟩ => ⟨h1, es, kh, kd, h h2, h3⟩

theorem config_path {n : Str} {c : OwnConfig} (h : (Own.config n).Path l (.ok c)) :
    ∃ es, ReadAs l (ownHead n) es ∧ Newest (fun e => ∃ c, e = Entry.cfg c) es (.cfg c) := by
  obtain ⟨es, l1, l2, h1, h2, rfl⟩ := Prog.Path.bind_ok.mp h
  refine ⟨es, by rw [h1.chain]; exact List.mem_cons_self .., ?_⟩
  rw [← latestConfig_iff]
  split at h2
  · rename_i c' hc; obtain ⟨_, h2⟩ := h2; cases h2; exact hc
  · obtain ⟨_, h2⟩ := h2; cases h2

theorem ownKeyhandle_path {n kh : Str} (h : (Account.ownKeyhandle n).Path l (.ok kh)) : OwnKeyThen l n kh := by
  unfold Account.ownKeyhandle Own.keyhandle at h
  simp only [bind_eq, pure_eq] at h
  obtain ⟨k, l1, l2, h1, h2, rfl⟩ := Prog.Path.bind_ok.mp h
  obtain ⟨es, l3, l4, h3, h4, rfl⟩ := Prog.Path.bind_ok.mp h1
  split at h4
  · rename_i k' hk
    obtain ⟨_, h4⟩ := h4
    cases h4
    refine ⟨es, k', by rw [h3.chain]; exact List.mem_cons_self .., latestKeygen_iff.mp hk, ?_⟩
    split at h2
    · rename_i hx; obtain ⟨_, h2⟩ := h2; cases h2; exact hx
    · obtain ⟨_, h2⟩ := h2; cases h2
  · obtain ⟨_, h4⟩ := h4; cases h4

/-- the reads for the key used for encryption -/
theorem entry_path {hd : Str} {x : Option EncEntry} (h : (Access.entryForEncryption hd).Path l (.ok x)) :
    ∃ es, ReadAs l hd es ∧ ((∃ m, x = some (.inl m) ∧ UsableKey es m) ∨ x = (Peer.latestGossip es).map .inr) := by
  unfold Access.entryForEncryption at h
  simp only [bind_eq, pure_eq] at h
  obtain ⟨es, l1, l2, h1, h2, rfl⟩ := Prog.Path.bind_ok.mp h
  rw [h1.chain]
  have gos : ∀ {l2 : List Did}, ((Prog.chain hd).bind fun es => Prog.pure ((Peer.latestGossip es).map Sum.inr)).Path l2 (.ok x) →
      ∃ es', ReadAs ([Did.chain hd (.ok es)] ++ l2) hd es' ∧ ((∃ m, x = some (.inl m) ∧ UsableKey es' m) ∨ x = (Peer.latestGossip es').map .inr) := by
    intro l2 h2
    obtain ⟨es', l3, l4, h3, ⟨rfl, h4⟩, rfl⟩ := Prog.Path.bind_ok.mp h2
    rw [h3.chain]
    cases h4
    exact ⟨es', by simp [ReadAs], .inr rfl⟩
  split at h2
  · rename_i m hm
    split at h2
    · rename_i hk
      obtain ⟨rfl, h2⟩ := h2
      cases h2
      exact ⟨es, by simp [ReadAs], .inl ⟨m, rfl, latestAc_iff.mp hm, by intro h'; simp [h'] at hk⟩⟩
    · exact gos h2
  · exact gos h2

theorem handle_path {hd kh : Str} (h : (Access.publicKeyhandle hd).Path l (.ok kh)) :
    ∃ es, ReadAs l hd es ∧ ((∃ kd, KeyIn es kh kd) ∨ kh = []) ∧ (kh = [] → ¬ UsableGossip es) := by
  unfold Access.publicKeyhandle at h
  simp only [bind_eq, pure_eq] at h
  obtain ⟨x, l1, l2, h1, h2, rfl⟩ := Prog.Path.bind_ok.mp h
  obtain ⟨es, hr, hx⟩ := entry_path h1
  refine ⟨es, List.mem_append_left _ hr, ?_⟩
  have ug : ∀ g, Peer.latestGossip es = some g → g.keyhandle = [] → ¬ UsableGossip es := by
    rintro g hg hk ⟨g', hg', hk'⟩
    rw [latestGossip_iff.mpr hg'] at hg
    cases hg; exact hk' hk
  rcases hx with ⟨m, rfl, hm⟩ | rfl
  · obtain ⟨_, h2⟩ := h2
    cases h2
    exact ⟨.inl ⟨_, .inl ⟨m, hm, rfl, rfl⟩⟩, fun h' => absurd h' hm.2⟩
  · cases hg : Peer.latestGossip es with
    | none =>
      rw [hg] at h2
      obtain ⟨_, h2⟩ := h2
      cases h2
      refine ⟨.inr rfl, fun _ ⟨g', hg', _⟩ => ?_⟩
      rw [latestGossip_iff.mpr hg'] at hg; cases hg
    | some g =>
      rw [hg] at h2
      obtain ⟨_, h2⟩ := h2
      cases h2
      exact ⟨.inl ⟨_, .inr ⟨g, latestGossip_iff.mp hg, rfl, rfl⟩⟩, fun h' => ug g hg h'⟩

theorem keydata_path {hd : Str} {kd : Bytes} (h : (Access.publicKeydata hd).Path l (.ok kd)) :
    ∃ es kh, ReadAs l hd es ∧ (KeyIn es kh kd ∨ kd = []) := by
  unfold Access.publicKeydata at h
  simp only [bind_eq, pure_eq] at h
  obtain ⟨x, l1, l2, h1, h2, rfl⟩ := Prog.Path.bind_ok.mp h
  obtain ⟨es, hr, hx⟩ := entry_path h1
  have hr := List.mem_append_left l2 hr
  rcases hx with ⟨m, rfl, hm⟩ | rfl
  · obtain ⟨_, h2⟩ := h2
    cases h2
    exact ⟨es, _, hr, .inl (.inl ⟨m, hm, rfl, rfl⟩)⟩
  · cases hg : Peer.latestGossip es with
    | none =>
      rw [hg] at h2
      obtain ⟨_, h2⟩ := h2
      cases h2
      exact ⟨es, [], hr, .inr rfl⟩
    | some g =>
      rw [hg] at h2
      obtain ⟨_, h2⟩ := h2
      cases h2
      exact ⟨es, _, hr, .inl (.inr ⟨g, latestGossip_iff.mp hg, rfl, rfl⟩)⟩

/-- the loop over the addresses -/
theorem encLoop_path {env : Env} {n : Str} {as : List Str} {acc acc' : Account.EncAcc}
    (h : (Access.encLoop env n acc as).Path l (.ok acc')) :
    ∃ khs gs, acc'.keyhandles = acc.keyhandles ++ khs ∧ List.Forall₂ (RecipientKeyThen env l n) as khs ∧
      acc'.payload = .mk (acc.payload.headers ++ gs) acc.payload.payload ∧ ∀ x ∈ gs, ∃ a ∈ as, GossipThen env l n a x := by
  induction as generalizing acc l with
  | nil =>
    obtain ⟨rfl, h⟩ := h
    cases h
    exact ⟨[], [], by simp, .nil, by rw [List.append_nil]; cases acc'.payload; rfl, by simp⟩
  | cons a as ih =>
    unfold Access.encLoop at h
    simp only [bind_eq] at h
    obtain ⟨kh, l1, l2, h1, h2, rfl⟩ := Prog.Path.bind_ok.mp h
    obtain ⟨es, hr, hk, hne⟩ := handle_path h1
    split at h2
    · rename_i he
      have he : kh = [] := by cases kh <;> simp_all
      obtain ⟨c, l3, l4, h3, h4, rfl⟩ := Prog.Path.bind_ok.mp h2
      obtain ⟨mine, l5, l6, h5, h6, rfl⟩ := Prog.Path.bind_ok.mp h4
      obtain ⟨rfl, hmine⟩ := Prog.Path.ofExcept.mp h5
      split at h6
      · rename_i hm
        obtain ⟨own, l7, l8, h7, h8, rfl⟩ := Prog.Path.bind_ok.mp h6
        obtain ⟨ces, hcr, hcn⟩ := config_path h3
        obtain ⟨khs, gs, i1, i2, i3, i4⟩ := ih h8
        have hsub : l8 ⊆ l1 ++ (l3 ++ ([] ++ (l7 ++ l8))) := fun x hx => by simp [hx]
        refine ⟨own :: khs, gs, by rw [i1]; simp, .cons (.inr ⟨⟨es, ?_, hne he⟩, ⟨ces, c, ?_, hcn, ?_⟩, ?_⟩) (i2.imp fun _ _ h => h.mono hsub), i3, ?_⟩
        · exact List.mem_append_left _ hr
        · exact List.mem_append_right _ (List.mem_append_left _ hcr)
        · rw [← hmine, hm]
        · exact (ownKeyhandle_path h7).mono fun x hx => by simp [hx]
        · intro x hx
          obtain ⟨b, hb, hg⟩ := i4 x hx
          exact ⟨b, List.mem_cons_of_mem _ hb, hg.mono hsub⟩
      · obtain ⟨_, h6⟩ := h6; cases h6
    · rename_i he
      have he : kh ≠ [] := by intro h'; rw [h'] at he; exact he rfl
      obtain ⟨kd, l3, l4, h3, h4, rfl⟩ := Prog.Path.bind_ok.mp h2
      obtain ⟨kd', l5, l6, h5, h6, rfl⟩ := Prog.Path.bind_ok.mp h4
      obtain ⟨v, l7, l8, h7, h8, rfl⟩ := Prog.Path.bind_ok.mp h6
      obtain ⟨rfl, hv⟩ := Prog.Path.ofExcept.mp h7
      obtain ⟨kes, kh', hkr, hkd⟩ := keydata_path h5
      obtain ⟨khs, gs, i1, i2, i3, i4⟩ := ih h8
      have hsub : l8 ⊆ l1 ++ (l3 ++ (l5 ++ ([] ++ l8))) := fun x hx => by simp [hx]
      obtain ⟨kd0, hk⟩ := hk.resolve_right he
      have hkd := hkd.resolve_right fun h' => by rw [h'] at hv; simp [makeAcHeaderValue] at hv
      refine ⟨kh :: khs, (str!"Autocrypt-Gossip", v) :: gs, by rw [i1]; simp,
        .cons (.inl ⟨es, kd0, List.mem_append_left _ hr, hk, he⟩) (i2.imp fun _ _ h => h.mono hsub), ?_, ?_⟩
      · rw [i3]; simp [Msg.add, Msg.headers, Msg.payload]
      · intro x hx
        rcases List.mem_cons.mp hx with rfl | hx
        · exact ⟨a, List.mem_cons_self .., rfl, kes, kh', kd', hkr.mono fun x hx => by simp [hx], hkd, hv.symm⟩
        · obtain ⟨b, hb, hg⟩ := i4 x hx
          exact ⟨b, List.mem_cons_of_mem _ hb, hg.mono hsub⟩

/-! ### operations of the reads -/

theorem reads_ops {P : Op → Prop} (h : ∀ hd, P (.chain hd)) :
    (∀ hd, (Access.entryForEncryption hd).AllOps P) ∧ (∀ hd, (Access.publicKeyhandle hd).AllOps P) ∧
    (∀ hd, (Access.publicKeydata hd).AllOps P) ∧ (∀ hd, (Access.preferEncrypt hd).AllOps P) := by
  have hc : ∀ hd, (Prog.chain hd).AllOps P := fun hd => ⟨h hd, fun x => .ofExcept x⟩
  have he : ∀ hd, (Access.entryForEncryption hd).AllOps P := by
    intro hd
    refine .bind (hc hd) fun es => ?_
    split
    · split
      · trivial
      · exact .bind (hc hd) fun _ => trivial
    · exact .bind (hc hd) fun _ => trivial
  refine ⟨he, ?_, ?_, ?_⟩ <;> intro hd <;> refine .bind (he hd) fun x => ?_ <;> split <;> trivial

theorem peerUi_quiet (hd : Str) (pe : PE) (b : Bool) : (Access.peerUi hd pe b).AllOps Op.quiet := by
  obtain ⟨_, h1, _, h2⟩ := reads_ops (P := Op.quiet) fun _ => trivial
  have hc : ∀ hd, (Prog.chain hd).AllOps Op.quiet := fun hd => ⟨trivial, fun x => .ofExcept x⟩
  have hp : (Access.preliminary hd).AllOps Op.quiet := by
    refine .bind (h1 hd) fun _ => .bind (h1 hd) fun _ => ?_
    split
    · trivial
    · refine .bind (.bind (hc hd) fun _ => trivial) fun _ => ?_
      split
      · trivial
      · refine .bind (.bind (hc hd) fun _ => trivial) fun _ => .bind (.bind (hc hd) fun _ => trivial) fun _ => ?_
        split <;> trivial
  refine .bind hp fun _ => ?_
  split
  · trivial
  split
  · refine .bind (h2 hd) fun _ => ?_
    split
    · refine .bind (.bind (hc hd) fun _ => trivial) fun _ => ?_
      split
      · trivial
      · split <;> trivial
    · trivial
  · trivial

theorem recommendation_quiet (env : Env) (n : Str) (as : List Str) (b : Bool) (f : Option Str) :
    (Access.recommendation env n as b f).AllOps Op.quiet := by
  refine .bind (Account.config_quiet n) fun c => ?_
  have hu : ∀ l, (Access.peerUis c.pe b l).AllOps Op.quiet := by
    intro l
    induction l with
    | nil => trivial
    | cons x l ih => exact .bind (peerUi_quiet x c.pe b) fun _ => .bind ih fun _ => trivial
  refine .bind (hu _) fun rs => ?_
  split
  · split <;> trivial
  · split
    · trivial
    split
    · trivial
    split <;> trivial

theorem encLoop_quiet (env : Env) (n : Str) (acc : Account.EncAcc) (as : List Str) : (Access.encLoop env n acc as).AllOps Op.quiet := by
  obtain ⟨_, h1, h2, _⟩ := reads_ops (P := Op.quiet) fun _ => trivial
  induction as generalizing acc with
  | nil => trivial
  | cons a as ih =>
    refine .bind (h1 _) fun kh => ?_
    split
    · refine .bind (Account.config_quiet n) fun c => .bind (.ofExcept _) fun mine => ?_
      split
      · exact .bind (Account.ownKeyhandle_quiet n) fun _ => ih _
      · trivial
    · exact .bind (h2 _) fun _ => .bind (h2 _) fun _ => .bind (.ofExcept _) fun _ => ih _

/-! ### encryption -/

theorem nopassphrase_path {env : Env} {g : BinGPG} {np : List Str} (h : (BinGPG.nopassphrase env g).Path l (.ok np)) (args : List Str) :
    ∃ pre, GpgPrefix pre ∧ g.argv (np ++ args) = pre ++ args := by
  unfold BinGPG.nopassphrase at h
  simp only [bind_eq, pure_eq] at h
  obtain ⟨b, _, _, _, ⟨_, h⟩, _⟩ := Prog.Path.bind_ok.mp h
  simp only [Except.ok.injEq] at h
  refine ⟨_, ⟨g.path, g.homedirflags, (if b then [str!"--pinentry-mode=loopback"] else []), rfl, ?_, ?_⟩, ?_⟩
  · unfold BinGPG.homedirflags
    split
    · exact .inl rfl
    · rename_i hh _
      cases hh with
      | nil => exact .inl rfl
      | cons a b => exact .inr ⟨_, rfl⟩
  · split
    · exact .inr rfl
    · exact .inl rfl
  · rw [h]; simp [BinGPG.argv]

/-- the command and the data of an encryption -/
def EncryptGpg (khs : List Str) (own : Str) (data : Bytes) (d : Did) : Prop :=
  ∃ argv ret, d = Did.gpg argv (some data) ret ∧ EncryptArgs khs own argv

theorem encrypt_path {env : Env} {g : BinGPG} {data : Bytes} {khs : List Str} {own : Str} {r : Except Exc Bytes}
    (h : (BinGPG.encrypt env g data khs own true).Path l r) :
    (∀ d ∈ l, Op.quiet d.op ∨ EncryptGpg khs own data d) ∧
    ∀ b, r = .ok b → ∃ argv out, Did.gpg argv (some data) (.ok out) ∈ l ∧ EncryptArgs khs own argv ∧ out.ret = 0 ∧ b = out.out := by
  unfold BinGPG.encrypt at h
  simp only [bind_eq, pure_eq] at h
  rcases Prog.Path.bind.mp h with ⟨np, l1, l2, h1, h2, rfl⟩ | ⟨e, h1, rfl⟩
  swap
  · exact ⟨fun d hd => .inl (h1.ops (BinGPG.nopassphrase_quiet env g) d hd), by simp⟩
  have hq := h1.ops (BinGPG.nopassphrase_quiet env g)
  obtain ⟨pre, hpre, hargv⟩ := nopassphrase_path h1 ([str!"--encrypt", str!"--always-trust"] ++ khs.flatMap (fun r => [str!"-r", r]) ++
    (if own.isEmpty then [] else [str!"--sign", str!"-u", own]) ++ [str!"--armor"])
  have hopts : EncryptArgs khs own (g.argv (BinGPG.encryptOpts np khs own true)) := by
    refine ⟨pre, hpre, ?_⟩
    have e1 : BinGPG.encryptOpts np khs own true = np ++ ([str!"--encrypt", str!"--always-trust"] ++
      khs.flatMap (fun r => [str!"-r", r]) ++ (if own.isEmpty then [] else [str!"--sign", str!"-u", own]) ++ [str!"--armor"]) := by
      unfold BinGPG.encryptOpts; simp only [List.append_assoc, if_true]
    rw [e1, hargv]
    cases own <;> simp
  unfold BinGPG.gpgOuterr at h2
  simp only [bind_eq] at h2
  have hg : ∃ ret, l2 = [Did.gpg (g.argv (BinGPG.encryptOpts np khs own true)) (some data) ret] ∧
      ∀ b, r = .ok b → ∃ out, ret = .ok out ∧ out.ret = 0 ∧ b = out.out := by
    rcases Prog.Path.bind.mp h2 with ⟨x, l3, l4, h3, ⟨rfl, h4⟩, rfl⟩ | ⟨e, h3, rfl⟩
    · obtain ⟨out, l5, l6, h5, h6, rfl⟩ := Prog.Path.bind_ok.mp h3
      obtain ⟨rfl, hx⟩ := Prog.Path.ofExcept.mp h6
      rw [h5.gpg]
      refine ⟨.ok out, rfl, fun b hb => ?_⟩
      rw [h4] at hb
      cases hb
      obtain ⟨x1, x2⟩ := x
      obtain ⟨y1, y2⟩ := checkResult_ok hx.symm
      exact ⟨out, rfl, y1, y2.symm⟩
    · rcases Prog.Path.bind.mp h3 with ⟨out, l5, l6, h5, h6, rfl⟩ | ⟨e', h5, _⟩
      · obtain ⟨rfl, hx⟩ := Prog.Path.ofExcept.mp h6
        rw [h5.gpg]
        exact ⟨.ok out, rfl, by simp⟩
      · rw [h5.gpg]
        exact ⟨.error e', rfl, by simp⟩
  obtain ⟨ret, rfl, hret⟩ := hg
  refine ⟨fun d hd => ?_, fun b hb => ?_⟩
  · rcases List.mem_append.mp hd with hd | hd
    · exact .inl (hq d hd)
    · exact .inr ⟨_, ret, List.mem_singleton.mp hd, hopts⟩
  · obtain ⟨out, rfl, h5, h6⟩ := hret b hb
    exact ⟨_, out, List.mem_append_right _ (List.mem_cons_self ..), hopts, h5, h6⟩

/-- what a plugin is given when `m` is encrypted to `as` -/
def HookDid (env : Env) (n : Str) (m : Msg) (as : List Str) (l : List Did) (d : Did) : Prop :=
  ∃ s own r2k gs ret, d = Did.hook s own r2k (.mk ((makeContentMessage m).headers ++ gs) (makeContentMessage m).payload) ret ∧
    OwnKeyThen l n own ∧ ∀ x ∈ gs, ∃ a ∈ as, GossipThen env l n a x

/-- what gpg is given when a message is encrypted to `as` -/
def GpgDid (env : Env) (n : Str) (as : List Str) (l : List Did) (d : Did) : Prop :=
  ∃ khs own data, EncryptGpg khs own data d ∧ List.Forall₂ (RecipientKeyThen env l n) as khs ∧ OwnKeyThen l n own ∧
    ∃ s own' r2k p p', Did.hook s own' r2k p (.ok p') ∈ l ∧ env.msg2bytes p' = .ok data

theorem encryptMime_path {env : Env} {n : Str} {m : Msg} {tos : List Str} {r : Except Exc Account.EncryptResult}
    (h : (Access.encryptMime env n m tos).Path l r) :
    (∀ d ∈ l, Op.quiet d.op ∨ HookDid env n m (tos.map fun a => parseEmailAddr env (some a)) l d ∨
      GpgDid env n (tos.map fun a => parseEmailAddr env (some a)) l d) ∧
    ∀ res, r = .ok res → ∃ argv data out, Did.gpg argv (some data) (.ok out) ∈ l ∧ out.ret = 0 ∧ res.encMsg = Account.encMessage m out.out := by
  unfold Access.encryptMime at h
  simp only [bind_eq, pure_eq] at h
  rcases Prog.Path.bind.mp h with ⟨_, l0, l', h0, h', rfl⟩ | ⟨e, h0, rfl⟩
  swap
  · exact ⟨by rw [h0.assert.1]; simp, by simp⟩
  clear h
  rw [h0.assert.1, List.nil_append]
  clear h0
  rcases Prog.Path.bind.mp h' with ⟨acc, l1, l2, h1, h2, rfl⟩ | ⟨e, h1, rfl⟩
  swap
  · exact ⟨fun d hd => .inl (h1.ops (encLoop_quiet ..) d hd), by simp⟩
  have q1 := h1.ops (encLoop_quiet ..)
  obtain ⟨khs, gs, e1, e2, e3, e4⟩ := encLoop_path h1
  rw [List.nil_append] at e1
  clear h' h1
  rcases Prog.Path.bind.mp h2 with ⟨own, l3, l4, h3, h4, rfl⟩ | ⟨e, h3, rfl⟩
  swap
  · refine ⟨fun d hd => .inl ?_, by simp⟩
    rcases List.mem_append.mp hd with hd | hd
    · exact q1 d hd
    · exact h3.ops (Account.ownKeyhandle_quiet n) d hd
  have q3 := h3.ops (Account.ownKeyhandle_quiet n)
  have o3 := ownKeyhandle_path h3
  clear h2 h3
  have hk : ∀ {x : List Did} {ret : Except Exc Msg}, HookDid env n m (tos.map fun a => parseEmailAddr env (some a))
      (l1 ++ (l3 ++ (Did.hook (parseEmailAddr env (m.get (str!"From"))) own acc.recipient2keydata acc.payload ret :: x)))
      (Did.hook (parseEmailAddr env (m.get (str!"From"))) own acc.recipient2keydata acc.payload ret) := by
    intro x ret
    refine ⟨_, own, _, gs, ret, by rw [e3], o3.mono fun y hy => by simp [hy], fun y hy => ?_⟩
    obtain ⟨a, ha, hg⟩ := e4 y hy
    exact ⟨a, ha, hg.mono fun y hy => by simp [hy]⟩
  -- until the plugins: what comes after is `x`
  have front : ∀ {x : List Did} {ret : Except Exc Msg} {Q : Did → Prop},
      (∀ d ∈ x, Op.quiet d.op ∨ HookDid env n m (tos.map fun a => parseEmailAddr env (some a))
        (l1 ++ (l3 ++ (Did.hook (parseEmailAddr env (m.get (str!"From"))) own acc.recipient2keydata acc.payload ret :: x))) d ∨ Q d) →
      ∀ d ∈ l1 ++ (l3 ++ (Did.hook (parseEmailAddr env (m.get (str!"From"))) own acc.recipient2keydata acc.payload ret :: x)),
        Op.quiet d.op ∨ HookDid env n m (tos.map fun a => parseEmailAddr env (some a))
        (l1 ++ (l3 ++ (Did.hook (parseEmailAddr env (m.get (str!"From"))) own acc.recipient2keydata acc.payload ret :: x))) d ∨ Q d := by
    intro x ret Q hx d hd
    rcases List.mem_append.mp hd with hd | hd
    · exact .inl (q1 d hd)
    rcases List.mem_append.mp hd with hd | hd
    · exact .inl (q3 d hd)
    rcases List.mem_cons.mp hd with rfl | hd
    · exact .inr (.inl hk)
    · exact hx d hd
  rcases Prog.Path.bind.mp h4 with ⟨p', l5, l6, h5, h6, rfl⟩ | ⟨e, h5, rfl⟩
  swap
  · rw [h5.hook]
    exact ⟨front (by simp), by simp⟩
  rw [h5.hook, List.singleton_append]
  clear h4 h5
  rcases Prog.Path.bind.mp h6 with ⟨data, l7, l8, h7, h8, rfl⟩ | ⟨e, h7, rfl⟩
  swap
  · obtain ⟨rfl, _⟩ := Prog.Path.ofExcept.mp h7
    exact ⟨front (by simp), by simp⟩
  obtain ⟨rfl, hdata⟩ := Prog.Path.ofExcept.mp h7
  clear h6 h7
  rw [List.nil_append]
  rcases Prog.Path.bind.mp h8 with ⟨g, l9, l10, h9, h10, rfl⟩ | ⟨e, h9, rfl⟩
  swap
  · exact ⟨front (fun d hd => .inl (h9.ops (Account.bingpg_quiet env n) d hd)), by simp⟩
  have q9 := h9.ops (Account.bingpg_quiet env n)
  clear h8 h9
  rcases Prog.Path.bind.mp h10 with ⟨own2, l11, l12, h11, h12, rfl⟩ | ⟨e, h11, rfl⟩
  swap
  · refine ⟨front (fun d hd => .inl ?_), by simp⟩
    rcases List.mem_append.mp hd with hd | hd
    · exact q9 d hd
    · exact h11.ops (Account.ownKeyhandle_quiet n) d hd
  have q11 := h11.ops (Account.ownKeyhandle_quiet n)
  have o11 := ownKeyhandle_path h11
  clear h10 h11
  have fin : ∀ {x : List Did} {r' : Except Exc Bytes}, (BinGPG.encrypt env g data acc.keyhandles own2 true).Path x r' →
      ∀ d ∈ l1 ++ (l3 ++ (Did.hook (parseEmailAddr env (m.get (str!"From"))) own acc.recipient2keydata acc.payload (.ok p') :: (l9 ++ (l11 ++ x)))),
        Op.quiet d.op ∨ HookDid env n m (tos.map fun a => parseEmailAddr env (some a))
          (l1 ++ (l3 ++ (Did.hook (parseEmailAddr env (m.get (str!"From"))) own acc.recipient2keydata acc.payload (.ok p') :: (l9 ++ (l11 ++ x))))) d ∨
        GpgDid env n (tos.map fun a => parseEmailAddr env (some a))
          (l1 ++ (l3 ++ (Did.hook (parseEmailAddr env (m.get (str!"From"))) own acc.recipient2keydata acc.payload (.ok p') :: (l9 ++ (l11 ++ x))))) d := by
    intro x r' hx
    refine front fun d hd => ?_
    rcases List.mem_append.mp hd with hd | hd
    · exact .inl (q9 d hd)
    rcases List.mem_append.mp hd with hd | hd
    · exact .inl (q11 d hd)
    rcases (encrypt_path hx).1 d hd with hd | hd
    · exact .inl hd
    · rw [e1] at hd
      exact .inr (.inr ⟨khs, own2, data, hd, e2.imp fun _ _ h => h.mono fun y hy => by simp [hy], o11.mono fun y hy => by simp [hy],
        _, _, _, _, p', List.mem_append_right _ (List.mem_append_right _ (List.mem_cons_self ..)), hdata.symm⟩)
  rcases Prog.Path.bind.mp h12 with ⟨enc, l13, l14, h13, ⟨rfl, rfl⟩, rfl⟩ | ⟨e, h13, rfl⟩
  swap
  · exact ⟨fin h13, by simp⟩
  rw [List.append_nil]
  refine ⟨fin h13, fun res hr => ?_⟩
  cases hr
  obtain ⟨argv, out, h14, _, h15, rfl⟩ := (encrypt_path h13).2 _ rfl
  exact ⟨argv, data, out, by simp [h14], h15, rfl⟩

/-! ### outgoing messages -/

theorem _root_.Verif.HeaderThen.mono (h : l ⊆ l') {env : Env} {n a v : Str} : HeaderThen env l n a v → HeaderThen env l' n a v :=
  fun ⟨pre, kh, out, es, c, h1, h2, h3, h4, h5⟩ => ⟨pre, kh, out, es, c, h1.mono h, h h2, h3, h h4, h5⟩

theorem getPublicKeydata_path {env : Env} {g : BinGPG} {kh : Str} {kd : Bytes} (h : (BinGPG.getPublicKeydata env g kh).Path l (.ok kd)) :
    ∃ pre out, Did.gpg (pre ++ [str!"--export-options=export-minimal", str!"--export", kh]) none (.ok out) ∈ l ∧ out.ret = 0 ∧ kd = out.out := by
  unfold BinGPG.getPublicKeydata BinGPG.gpgOuterr at h
  simp only [bind_eq, pure_eq] at h
  obtain ⟨x, l1, l2, h1, ⟨rfl, h2⟩, rfl⟩ := Prog.Path.bind_ok.mp h
  cases h2
  obtain ⟨out, l3, l4, h3, h4, rfl⟩ := Prog.Path.bind_ok.mp h1
  obtain ⟨rfl, hx⟩ := Prog.Path.ofExcept.mp h4
  obtain ⟨x1, x2⟩ := x
  obtain ⟨y1, y2⟩ := checkResult_ok hx.symm
  refine ⟨[g.path, str!"--batch"] ++ g.homedirflags, out, ?_, y1, y2.symm⟩
  rw [h3.gpg]
  exact List.mem_cons_self ..

theorem makeAcHeader_path {env : Env} {n addr v : Str} (h : (Account.makeAcHeader env n addr).Path l (.ok v)) : HeaderThen env l n addr v := by
  unfold Account.makeAcHeader at h
  simp only [bind_eq] at h
  obtain ⟨g, l1, l2, h1, h2, rfl⟩ := Prog.Path.bind_ok.mp h
  obtain ⟨kh, l3, l4, h3, h4, rfl⟩ := Prog.Path.bind_ok.mp h2
  obtain ⟨kd, l5, l6, h5, h6, rfl⟩ := Prog.Path.bind_ok.mp h4
  obtain ⟨c, l7, l8, h7, h8, rfl⟩ := Prog.Path.bind_ok.mp h6
  obtain ⟨rfl, hv⟩ := Prog.Path.ofExcept.mp h8
  obtain ⟨pre, out, y1, y2, rfl⟩ := getPublicKeydata_path h5
  obtain ⟨es, y3, y4⟩ := config_path h7
  exact ⟨pre, kh, out, es, c, (ownKeyhandle_path h3).mono fun x hx => by simp [hx], by simp [y1], y2, y3.mono fun x hx => by simp [hx], y4, hv.symm⟩

/-- the message before the decision about encryption -/
def Prepared (env : Env) (l : List Did) (n : Str) (m m2 : Msg) (added : Option Str) : Prop :=
  (m.has (str!"Autocrypt") = true ∧ m2 = m.del (str!"ENCRYPT") ∧ added = none) ∨
  (m.has (str!"Autocrypt") = false ∧ ∃ v, m2 = (m.del (str!"ENCRYPT")).add (str!"Autocrypt") v ∧ added = some v ∧
    HeaderThen env l n (parseEmailAddr env (m.get (str!"From"))) v)

theorem Prepared.mono (h : l ⊆ l') {env : Env} {n : Str} {m m2 : Msg} {added : Option Str} :
    Prepared env l n m m2 added → Prepared env l' n m m2 added := by
  rintro (h1 | ⟨h1, v, h2, h3, h4⟩)
  · exact .inl h1
  · exact .inr ⟨h1, v, h2, h3, h4.mono h⟩

theorem Prepared.getAll {env : Env} {n : Str} {m m2 : Msg} {added : Option Str} (h : Prepared env l n m m2 added) {name : Str}
    (h1 : Py.lower (str!"ENCRYPT") ≠ Py.lower name) (h2 : Py.lower (str!"Autocrypt") ≠ Py.lower name) : m2.getAll name = m.getAll name := by
  rcases h with ⟨_, rfl, _⟩ | ⟨_, v, rfl, _⟩
  · exact getAll_del m h1
  · rw [getAll_add, getAll_del m h1, if_neg h2, List.append_nil]

theorem Prepared.payload {env : Env} {n : Str} {m m2 : Msg} {added : Option Str} (h : Prepared env l n m m2 added) : m2.payload = m.payload := by
  rcases h with ⟨_, rfl, _⟩ | ⟨_, v, rfl, _⟩ <;> rfl

theorem Prepared.no_encrypt {env : Env} {n : Str} {m m2 : Msg} {added : Option Str} (h : Prepared env l n m m2 added) :
    m2.getAll (str!"ENCRYPT") = [] := by
  rcases h with ⟨_, rfl, _⟩ | ⟨_, v, rfl, _⟩
  · exact getAll_del_self m _
  · rw [getAll_add, getAll_del_self, if_neg (by decide)]; rfl

theorem Prepared.content {env : Env} {n : Str} {m m2 : Msg} {added : Option Str} (h : Prepared env l n m m2 added) :
    m2.headers.filter (fun x => Py.lower x.1 = str!"content-transfer-encoding" ∨ Py.lower x.1 = str!"content-type") =
      m.headers.filter (fun x => Py.lower x.1 = str!"content-transfer-encoding" ∨ Py.lower x.1 = str!"content-type") := by
  have hd : ((m.del (str!"ENCRYPT")).headers).filter (fun x => Py.lower x.1 = str!"content-transfer-encoding" ∨ Py.lower x.1 = str!"content-type") =
      m.headers.filter (fun x => Py.lower x.1 = str!"content-transfer-encoding" ∨ Py.lower x.1 = str!"content-type") := by
    simp only [Msg.del, Msg.headers, List.filter_filter]
    apply List.filter_congr
    intro x _
    by_cases hx : Msg.nameEq x.1 (str!"ENCRYPT") = true
    · have hx' : Py.lower x.1 = Py.lower (str!"ENCRYPT") := by simpa [Msg.nameEq] using hx
      rw [hx']; simp [Py.lower, Py.lowerChar]
    · simp [hx]
  rcases h with ⟨_, rfl, _⟩ | ⟨_, v, rfl, _⟩
  · exact hd
  · show List.filter _ ((m.del (str!"ENCRYPT")).headers ++ [(str!"Autocrypt", v)]) = _
    rw [List.filter_append, hd, List.filter_cons_of_neg (by simp only [decide_eq_true_eq]; decide), List.filter_nil, List.append_nil]

theorem encHeader_eq {m : Msg} {enc : Option Str} (h : Account.encHeader m = .ok enc) : enc = encryptHeader m := by
  unfold Account.encHeader at h
  unfold encryptHeader
  cases hg : m.get (str!"ENCRYPT") with
  | none => rw [hg] at h; cases h; rfl
  | some v =>
    rw [hg] at h
    dsimp only at h
    split at h
    · cases h; rfl
    · cases h

/-- everything done on a path of `encrypt_mime`, and its result -/
def EncPath (env : Env) (n : Str) (m : Msg) (as : List Str) (l : List Did) (r : Except Exc Msg) : Prop :=
  (∀ d ∈ l, Op.quiet d.op ∨ HookDid env n m as l d ∨ GpgDid env n as l d) ∧
  ∀ m', r = .ok m' → ∃ argv data out, Did.gpg argv (some data) (.ok out) ∈ l ∧ out.ret = 0 ∧ m' = Account.encMessage m out.out

theorem outgoingBody_path {env : Env} {n : Str} {m : Msg} {enc : Option Str} {r : Except Exc Msg}
    (h : (Access.outgoingBody env n m enc).Path l r) :
    ((∀ d ∈ l, Op.quiet d.op) ∧ ∀ m', r = .ok m' → m' = m ∧ (isEncrypted m = .ok true ∨ enc ≠ some (str!"yes"))) ∨
    (isEncrypted m = .ok false ∧ enc ≠ some (str!"no") ∧ ∃ f l1 l2, m.getAll (str!"From") = [f] ∧ l = l1 ++ l2 ∧ (∀ d ∈ l1, Op.quiet d.op) ∧
      EncPath env n m ((encryptTo env m (parseEmailAddr env (some f))).map fun a => parseEmailAddr env (some a)) l2 r) := by
  unfold Access.outgoingBody at h
  simp only [bind_eq, pure_eq] at h
  rcases Prog.Path.bind.mp h with ⟨ie, l0, l', h0, h', rfl⟩ | ⟨e, h0, rfl⟩
  swap
  · obtain ⟨rfl, _⟩ := Prog.Path.ofExcept.mp h0
    exact .inl (by simp)
  obtain ⟨rfl, hie⟩ := Prog.Path.ofExcept.mp h0
  clear h h0
  rw [List.nil_append]
  cases ie with
  | true =>
    rw [if_pos rfl] at h'
    obtain ⟨rfl, rfl⟩ := h'
    exact .inl ⟨by simp, fun m' hm => by cases hm; exact ⟨rfl, .inl hie.symm⟩⟩
  | false =>
  rw [if_neg (by simp)] at h'
  split at h'
  swap
  · obtain ⟨rfl, rfl⟩ := h'
    exact .inl (by simp)
  rename_i f hf
  rcases Prog.Path.bind.mp h' with ⟨rec_, l1, l2, h1, h2, rfl⟩ | ⟨e, h1, rfl⟩
  swap
  · exact .inl ⟨fun d hd => h1.ops (recommendation_quiet ..) d hd, by simp⟩
  have q1 := h1.ops (recommendation_quiet ..)
  clear h' h1
  by_cases hno : enc = some (str!"no")
  · rw [if_neg (by simp [hno])] at h2
    obtain ⟨rfl, rfl⟩ := h2
    exact .inl ⟨by simpa using q1, fun m' hm => by cases hm; exact ⟨rfl, .inr (by rw [hno]; decide)⟩⟩
  rw [if_pos hno] at h2
  split at h2
  · right
    refine ⟨hie.symm, hno, f, l1, l2, hf, rfl, q1, ?_⟩
    have hto : (if (getTargetEmailadr env m).contains (parseEmailAddr env (some f)) = true then getTargetEmailadr env m
        else getTargetEmailadr env m ++ [parseEmailAddr env (some f)]) = encryptTo env m (parseEmailAddr env (some f)) := by
      unfold encryptTo
      rw [recipients_eq]
      by_cases hc : parseEmailAddr env (some f) ∈ getTargetEmailadr env m
      · rw [if_pos (by simpa using hc), if_pos hc]
      · rw [if_neg (by simpa using hc), if_neg hc]
    rw [hto] at h2
    rcases Prog.Path.bind.mp h2 with ⟨x, l3, l4, h3, ⟨rfl, rfl⟩, rfl⟩ | ⟨e, h3, rfl⟩
    · rw [List.append_nil]
      obtain ⟨y1, y2⟩ := encryptMime_path h3
      exact ⟨y1, fun m' hm => by cases hm; exact y2 x rfl⟩
    · exact ⟨(encryptMime_path h3).1, by simp⟩
  · left
    split at h2
    · obtain ⟨rfl, rfl⟩ := h2
      exact ⟨by simpa using q1, by simp⟩
    · rename_i hy
      obtain ⟨rfl, rfl⟩ := h2
      exact ⟨by simpa using q1, fun m' hm => by cases hm; exact ⟨rfl, .inr hy⟩⟩

theorem processOutgoing_path {env : Env} {n : Str} {m : Msg} {r : Except Exc Account.OutgoingResult}
    (h : (Access.processOutgoing env n m).Path l r) :
    ((∀ d ∈ l, Op.quiet d.op) ∧ ∀ res, r = .ok res → ∃ m2, Prepared env l n m m2 res.added ∧ res.msg = m2 ∧
      (isEncrypted m = .ok true ∨ encryptHeader m ≠ some (str!"yes"))) ∨
    (isEncrypted m = .ok false ∧ encryptHeader m ≠ some (str!"no") ∧ ∃ m2 added f l1 l2, Prepared env l1 n m m2 added ∧
      m.getAll (str!"From") = [f] ∧ l = l1 ++ l2 ∧ (∀ d ∈ l1, Op.quiet d.op) ∧
      ∃ r', EncPath env n m2 ((encryptTo env m (parseEmailAddr env (some f))).map fun a => parseEmailAddr env (some a)) l2 r' ∧
        ∀ res, r = .ok res → r' = .ok res.msg ∧ res.added = added) := by
  unfold Access.processOutgoing at h
  simp only [bind_eq, pure_eq] at h
  rcases Prog.Path.bind.mp h with ⟨enc, l0, l', h0, h', rfl⟩ | ⟨e, h0, rfl⟩
  swap
  · obtain ⟨rfl, _⟩ := Prog.Path.ofExcept.mp h0
    exact .inl (by simp)
  obtain ⟨rfl, henc⟩ := Prog.Path.ofExcept.mp h0
  have henc := encHeader_eq henc.symm
  clear h h0
  rw [List.nil_append]
  have hget : (m.del (str!"ENCRYPT")).get (str!"From") = m.get (str!"From") := by
    unfold Msg.get; rw [getAll_del m (by decide)]
  rw [has_del m (by decide), hget] at h'
  have hpq : (if m.has (str!"Autocrypt") = true then Prog.pure (m.del (str!"ENCRYPT"), none)
      else (Account.makeAcHeader env n (parseEmailAddr env (m.get (str!"From")))).bind fun v =>
        Prog.pure ((m.del (str!"ENCRYPT")).add (str!"Autocrypt") v, some v) : Prog (Msg × Option Str)).AllOps Op.quiet := by
    split
    · trivial
    · exact .bind (Account.makeAcHeader_quiet env n _) fun _ => trivial
  rcases Prog.Path.bind.mp h' with ⟨⟨m2, added⟩, l1, l2, h1, h2, rfl⟩ | ⟨e, h1, rfl⟩
  swap
  · exact .inl ⟨h1.ops hpq, by simp⟩
  have q1 := h1.ops hpq
  have hp : Prepared env l1 n m m2 added := by
    by_cases hh : m.has (str!"Autocrypt") = true
    · rw [if_pos hh] at h1
      obtain ⟨_, h1⟩ := h1
      cases h1
      exact .inl ⟨hh, rfl, rfl⟩
    · rw [if_neg hh] at h1
      obtain ⟨v, l3, l4, h3, ⟨rfl, h4⟩, rfl⟩ := Prog.Path.bind_ok.mp h1
      cases h4
      rw [List.append_nil]
      exact .inr ⟨by simpa using hh, v, rfl, rfl, makeAcHeader_path h3⟩
  clear h1 hpq h'
  dsimp only at h2
  have hie : isEncrypted m2 = isEncrypted m := isEncrypted_congr (hp.getAll (by decide) (by decide)) hp.payload
  have hto : ∀ f, encryptTo env m2 f = encryptTo env m f := by
    intro f
    unfold encryptTo
    rw [recipients_eq]
    unfold getTargetEmailadr
    rw [hp.getAll (by decide) (by decide), hp.getAll (by decide) (by decide)]
  have key : ∀ {l3 : List Did} {rb : Except Exc Msg}, (Access.outgoingBody env n m2 enc).Path l3 rb →
      (∀ res, r = .ok res → rb = .ok res.msg ∧ res.added = added) →
      ((∀ d ∈ l1 ++ l3, Op.quiet d.op) ∧ ∀ res, r = .ok res → ∃ m2, Prepared env (l1 ++ l3) n m m2 res.added ∧ res.msg = m2 ∧
        (isEncrypted m = .ok true ∨ encryptHeader m ≠ some (str!"yes"))) ∨
      (isEncrypted m = .ok false ∧ encryptHeader m ≠ some (str!"no") ∧ ∃ m2 added f l1' l2, Prepared env l1' n m m2 added ∧
        m.getAll (str!"From") = [f] ∧ l1 ++ l3 = l1' ++ l2 ∧ (∀ d ∈ l1', Op.quiet d.op) ∧
        ∃ r', EncPath env n m2 ((encryptTo env m (parseEmailAddr env (some f))).map fun a => parseEmailAddr env (some a)) l2 r' ∧
          ∀ res, r = .ok res → r' = .ok res.msg ∧ res.added = added) := by
    intro l3 rb hb hr
    rcases outgoingBody_path hb with ⟨q3, h3⟩ | ⟨y1, y2, f, l4, l5, y3, rfl, y4, y5⟩
    · refine .inl ⟨fun d hd => (List.mem_append.mp hd).elim (q1 d) (q3 d), fun res hres => ?_⟩
      obtain ⟨z1, z2⟩ := hr res hres
      obtain ⟨z3, z4⟩ := h3 _ z1
      exact ⟨m2, by rw [z2]; exact hp.mono (List.subset_append_left ..), z3, by rw [← hie, ← henc]; exact z4⟩
    · rw [hto] at y5
      refine .inr ⟨by rw [← hie]; exact y1, by rw [← henc]; exact y2, m2, added, f, l1 ++ l4, l5, hp.mono (List.subset_append_left ..), ?_, by simp,
        fun d hd => (List.mem_append.mp hd).elim (q1 d) (y4 d), rb, y5, hr⟩
      rw [← y3, hp.getAll (by decide) (by decide)]
  rcases Prog.Path.bind.mp h2 with ⟨m3, l3, l4, h3, ⟨rfl, rfl⟩, rfl⟩ | ⟨e, h3, rfl⟩
  · rw [List.append_nil]
    exact key h3 fun res hres => by cases hres; exact ⟨rfl, rfl⟩
  · exact key h3 (by simp)

end Anyhow

open Anyhow

/-! ## Properties -/

/-- C123: whatever the store, the clock, gpg and the plugins answer: an outgoing message with `ENCRYPT: yes` is only returned encrypted,
namely with its own body if it was encrypted, or else with what gpg gave out when it was given data to encrypt. -/
theorem C123_yes (env : Env) (n : Str) (m : Msg) (l : List Did) (res : Account.OutgoingResult)
    (h : (Access.processOutgoing env n m).Path l (.ok res)) (hy : encryptHeader m = some (str!"yes")) :
    PgpMime res.msg ∧ ((PgpMime m ∧ res.msg.payload = m.payload) ∨
      ∃ argv data out control part, Did.gpg argv (some data) (.ok out) ∈ l ∧ out.ret = 0 ∧
        res.msg.payload = .multi [control, part] ∧ part.payload = .text (Py.asciiDecode out.out)) := by
  spec_mail
  rcases processOutgoing_path h with ⟨_, h1⟩ | ⟨_, _, m2, added, f, l1, l2, _, _, rfl, _, r', ⟨_, h3⟩, h4⟩
  · obtain ⟨m2, hp, rfl, h2 | h2⟩ := h1 res rfl
    · exact ⟨by rw [isEncrypted_congr (hp.getAll (by decide) (by decide)) hp.payload]; exact h2, .inl ⟨h2, hp.payload⟩⟩
    · exact absurd hy h2
  · obtain ⟨argv, data, out, h5, h6, h7⟩ := h3 _ (h4 res rfl).1
    refine ⟨by rw [h7]; exact isEncrypted_encMessage _ _, .inr ⟨argv, data, out, _, _, List.mem_append_right _ h5, h6, by rw [h7]; rfl, rfl⟩⟩

/-- C123: with `ENCRYPT: no`, no data is passed to gpg, no plugin is called, and a returned message has body and content type of the input. -/
theorem C123_no (env : Env) (n : Str) (m : Msg) (l : List Did) (r : Except Exc Account.OutgoingResult)
    (h : (Access.processOutgoing env n m).Path l r) (hno : encryptHeader m = some (str!"no")) :
    (∀ d ∈ l, ¬ d.data) ∧ (∀ s kh r2k p ret, Did.hook s kh r2k p ret ∉ l) ∧
    ∀ res, r = .ok res → res.msg.payload = m.payload ∧ res.msg.getAll (str!"content-type") = m.getAll (str!"content-type") := by
  rcases processOutgoing_path h with ⟨hq, h1⟩ | ⟨_, h1, _⟩
  · refine ⟨?_, ?_, ?_⟩
    · rintro d hd ⟨argv, data, ret, rfl⟩
      exact absurd (hq _ hd : some data = none) (Option.some_ne_none data)
    · intro s kh r2k p ret hd
      exact (hq _ hd : False)
    · rintro res rfl
      obtain ⟨m2, hp, rfl, _⟩ := h1 res rfl
      exact ⟨hp.payload, hp.getAll (by decide) (by decide)⟩
  · exact absurd hno h1

/-- C123: no ENCRYPT header leaves: a returned message has none, and a message handed to plugins has none. -/
theorem C123_control_header (env : Env) (n : Str) (m : Msg) (l : List Did) (r : Except Exc Account.OutgoingResult)
    (h : (Access.processOutgoing env n m).Path l r) :
    (∀ res, r = .ok res → res.msg.getAll (str!"ENCRYPT") = []) ∧
    ∀ s kh r2k p ret, Did.hook s kh r2k p ret ∈ l → p.getAll (str!"ENCRYPT") = [] := by
  rcases processOutgoing_path h with ⟨hq, h1⟩ | ⟨_, _, m2, added, f, l1, l2, hp, _, rfl, hq, r', ⟨h2, h3⟩, h4⟩
  · refine ⟨?_, ?_⟩
    · rintro res rfl
      obtain ⟨m2, hp, rfl, _⟩ := h1 res rfl
      exact hp.no_encrypt
    · intro s kh r2k p ret hd
      exact (hq _ hd : False).elim
  · refine ⟨?_, ?_⟩
    · rintro res rfl
      obtain ⟨argv, data, out, h5, h6, h7⟩ := h3 _ (h4 res rfl).1
      rw [h7, getAll_encMessage _ _ (by decide)]
      exact hp.no_encrypt
    · intro s kh r2k p ret hd
      rcases List.mem_append.mp hd with hd | hd
      · exact (hq _ hd : False).elim
      rcases h2 _ hd with hd | ⟨s', own, r2k', gs, ret', heq, _, hg⟩ | ⟨_, _, _, ⟨_, _, heq, _⟩, _⟩
      · exact (hd : False).elim
      · have heq : p = .mk ((makeContentMessage m2).headers ++ gs) (makeContentMessage m2).payload := by
          unfold Did.hook at heq
          injection heq with h1 _
          injection h1 with h1
          injection h1
        rw [heq]
        simp only [Msg.getAll, Msg.headers, makeContentMessage, List.map_eq_nil_iff, List.filter_eq_nil_iff, List.mem_append, List.mem_filter,
          decide_eq_true_eq]
        rintro x (⟨_, hx⟩ | hx) hne
        · have hne : Py.lower x.1 = Py.lower (str!"ENCRYPT") := by simpa [Msg.nameEq] using hne
          rw [hne] at hx
          revert hx; decide
        · obtain ⟨a, _, ha⟩ := hg x hx
          rw [ha.1] at hne
          revert hne; decide
      · unfold Did.hook Did.gpg at heq
        injection heq with h1 _
        injection h1 with h1
        cases h1

/-- C123: whenever data is passed to gpg, the message was not encrypted already, and the command names exactly one key for each address in To
and Cc and for the sender, in order; each is a key of that address, or, for an own address, the account's own key, according to what was
read during the call. The data is signed with what was the account's own key, and is a message which plugins gave back. -/
theorem C123_keys (env : Env) (n : Str) (m : Msg) (l : List Did) (r : Except Exc Account.OutgoingResult)
    (h : (Access.processOutgoing env n m).Path l r) (argv : List Str) (data : Bytes) (ret : Except Exc GpgOut)
    (hd : Did.gpg argv (some data) ret ∈ l) :
    ¬ PgpMime m ∧ ∃ f khs own, m.getAll (str!"From") = [f] ∧ OwnKeyThen l n own ∧ EncryptArgs khs own argv ∧
      List.Forall₂ (RecipientKeyThen env l n) ((encryptTo env m (address env (some f))).map fun a => address env (some a)) khs ∧
      ∃ s own' r2k p p', Did.hook s own' r2k p (.ok p') ∈ l ∧ env.msg2bytes p' = .ok data := by
  spec_mail
  rcases processOutgoing_path h with ⟨hq, h1⟩ | ⟨he, _, m2, added, f, l1, l2, hp, hf, rfl, hq, r', ⟨h2, h3⟩, h4⟩
  · exact absurd (hq _ hd : some data = none) (Option.some_ne_none data)
  · refine ⟨by rw [he]; simp, ?_⟩
    rcases List.mem_append.mp hd with hd | hd
    · exact absurd (hq _ hd : some data = none) (Option.some_ne_none data)
    rcases h2 _ hd with hd | ⟨s', own, r2k', gs, ret', heq, _, hg⟩ | ⟨khs, own, data', ⟨argv', ret', heq, ha⟩, y1, y2, s, own', r2k, p, p', y3, y4⟩
    · exact absurd (hd : some data = none) (Option.some_ne_none data)
    · unfold Did.hook Did.gpg at heq
      injection heq with h1 _
      injection h1 with h1
      cases h1
    · have hx : argv = argv' ∧ data = data' := by
        unfold Did.gpg at heq
        injection heq with h1 _
        injection h1 with h1
        injection h1 with h1 h2
        injection h2 with h2
        exact ⟨h1, h2⟩
      obtain ⟨rfl, rfl⟩ := hx
      have hsub : l2 ⊆ l1 ++ l2 := List.subset_append_right ..
      exact ⟨f, khs, own, hf, y2.mono hsub, ha, y1.imp fun _ _ h => h.mono hsub, s, own', r2k, p, p', hsub y3, y4⟩

/-- C123: what plugins are given before encryption: the body of the message with its content headers, and gossip for addresses in To and Cc and
of the sender, with keys which were theirs according to what was read during the call. -/
theorem C123_plugins (env : Env) (n : Str) (m : Msg) (l : List Did) (r : Except Exc Account.OutgoingResult)
    (h : (Access.processOutgoing env n m).Path l r) (s kh : Str) (r2k : List (Str × Bytes)) (p : Msg) (ret : Except Exc Msg)
    (hd : Did.hook s kh r2k p ret ∈ l) :
    ¬ PgpMime m ∧ OwnKeyThen l n kh ∧ p.payload = m.payload ∧ ∃ f gs, m.getAll (str!"From") = [f] ∧
      p.headers = m.headers.filter (fun x => Py.lower x.1 = str!"content-transfer-encoding" ∨ Py.lower x.1 = str!"content-type") ++ gs ∧
      ∀ x ∈ gs, ∃ a ∈ (encryptTo env m (address env (some f))).map fun a => address env (some a), GossipThen env l n a x := by
  spec_mail
  rcases processOutgoing_path h with ⟨hq, h1⟩ | ⟨he, _, m2, added, f, l1, l2, hp, hf, rfl, hq, r', ⟨h2, h3⟩, h4⟩
  · exact (hq _ hd : False).elim
  · refine ⟨by rw [he]; simp, ?_⟩
    rcases List.mem_append.mp hd with hd | hd
    · exact (hq _ hd : False).elim
    rcases h2 _ hd with hd | ⟨s', own, r2k', gs, ret', heq, ho, hg⟩ | ⟨_, _, _, ⟨_, _, heq, _⟩, _⟩
    · exact (hd : False).elim
    · have heq : p = .mk ((makeContentMessage m2).headers ++ gs) (makeContentMessage m2).payload ∧ kh = own := by
        unfold Did.hook at heq
        injection heq with h1 _
        injection h1 with h1
        injection h1 with _ h1 _ h2
        exact ⟨h2, h1⟩
      obtain ⟨rfl, rfl⟩ := heq
      have hsub : l2 ⊆ l1 ++ l2 := List.subset_append_right ..
      refine ⟨ho.mono hsub, hp.payload, f, gs, hf, ?_, fun x hx => ?_⟩
      · rw [← hp.content]; rfl
      · obtain ⟨a, ha, hgt⟩ := hg x hx
        exact ⟨a, ha, hgt.mono hsub⟩
    · unfold Did.hook Did.gpg at heq
      injection heq with h1 _
      injection h1 with h1
      cases h1

/-- C123: existing Autocrypt headers are kept and none is added; without one exactly one is added, with the key which gpg exported for what was
the account's own key, and what was the account's preference. -/
theorem C123_own_header (env : Env) (n : Str) (m : Msg) (l : List Did) (res : Account.OutgoingResult)
    (h : (Access.processOutgoing env n m).Path l (.ok res)) :
    (m.getAll (str!"Autocrypt") ≠ [] ∧ res.added = none ∧ res.msg.getAll (str!"Autocrypt") = m.getAll (str!"Autocrypt")) ∨
    (m.getAll (str!"Autocrypt") = [] ∧ ∃ v, res.added = some v ∧ res.msg.getAll (str!"Autocrypt") = [v] ∧
      HeaderThen env l n (address env (m.get (str!"From"))) v) := by
  spec_mail
  have key : ∃ m2, Anyhow.Prepared env l n m m2 res.added ∧ res.msg.getAll (str!"Autocrypt") = m2.getAll (str!"Autocrypt") := by
    rcases processOutgoing_path h with ⟨_, h1⟩ | ⟨_, _, m2, added, f, l1, l2, hp, _, rfl, _, r', ⟨_, h3⟩, h4⟩
    · obtain ⟨m2, hp, rfl, _⟩ := h1 res rfl
      exact ⟨_, hp, rfl⟩
    · obtain ⟨argv, data, out, h5, h6, h7⟩ := h3 _ (h4 res rfl).1
      refine ⟨m2, by rw [(h4 res rfl).2]; exact hp.mono (List.subset_append_left ..), ?_⟩
      rw [h7, getAll_encMessage _ _ (by decide)]
  obtain ⟨m2, hp, hm⟩ := key
  rw [hm]
  rcases hp with ⟨hh, rfl, h3⟩ | ⟨hh, v, rfl, h3, h4⟩
  · left
    refine ⟨?_, h3, getAll_del m (by decide)⟩
    obtain ⟨x, hx1, hx2⟩ := List.any_eq_true.mp hh
    intro h'
    have : x.2 ∈ m.getAll (str!"Autocrypt") := List.mem_map.mpr ⟨x, List.mem_filter.mpr ⟨hx1, hx2⟩, rfl⟩
    rw [h'] at this; cases this
  · right
    have hn : m.getAll (str!"Autocrypt") = [] := by
      rw [Msg.has, List.any_eq_false] at hh
      rw [Msg.getAll, List.map_eq_nil_iff, List.filter_eq_nil_iff]
      exact hh
    exact ⟨hn, v, h3, by rw [getAll_add, getAll_del m (by decide), hn, if_pos rfl]; rfl, h4⟩

/-- C123: sending changes no log. -/
theorem C123_store (env : Env) (n : Str) (m : Msg) (l : List Did) (r : Except Exc Account.OutgoingResult)
    (h : (Access.processOutgoing env n m).Path l r) : ∀ d ∈ l, d.op.readOnly := by
  rcases processOutgoing_path h with ⟨hq, h1⟩ | ⟨he, _, m2, added, f, l1, l2, hp, hf, rfl, hq, r', ⟨h2, h3⟩, h4⟩
  · exact fun d hd => (hq d hd).readOnly
  · intro d hd
    rcases List.mem_append.mp hd with hd | hd
    · exact (hq d hd).readOnly
    rcases h2 _ hd with hd | ⟨s', own, r2k', gs, ret', rfl, ho, hg⟩ | ⟨_, _, _, ⟨_, _, rfl, _⟩, _⟩
    · exact hd.readOnly
    · trivial
    · trivial

/-- C123 covers every run: with any store, any gpg and any plugins, and while other processes do whatever they like between any two operations;
the operations of such a run, with the answers it got, are a path. -/
theorem C123_runs {σ K : Type} (S : StoreImpl σ) (O : Oracle K) (env : Env) (n : Str) (m : Msg) (w : World σ K) :
    (∃ l, (Access.processOutgoing env n m).Path l (run S O (Access.processOutgoing env n m) w).1 ∧
      ∃ evs, (run S O (Access.processOutgoing env n m) w).2.trace = evs ++ w.trace ∧ ∀ ev, ev ∈ evs ↔ (⟨.ext ev.op, ev.ret⟩ : Did) ∈ l) ∧
    ∀ others k, ∃ l, (Access.processOutgoing env n m).Path l (runAmid S O others (Access.processOutgoing env n m) k w).1 :=
  ⟨run_path S O _ w, fun others k => runAmid_path S O others _ k w⟩

/-! ## Examples -/

/-- the letter sent by way of single accesses -/
def sentThen (e : Str) : Except Exc Account.OutgoingResult × World Store Unit :=
  exec Concrete.oracle (Access.processOutgoing Concrete.env (str!"a") (letter e)) recWorld

theorem sentThen_eq (e : Str) : sentThen e = sent e := (C121_messages Concrete.oracle Concrete.env (str!"a") (letter e) recWorld).2.1

/-- with "yes" there is a path on which gpg is given data, a plugin is called, and the message is returned -/
example : ∃ l res, (Access.processOutgoing Concrete.env (str!"a") (letter (str!"yes"))).Path l (.ok res) ∧
    encryptHeader (letter (str!"yes")) = some (str!"yes") ∧ (∃ d ∈ l, d.data) ∧ ∃ s kh r2k p ret, Did.hook s kh r2k p ret ∈ l := by
  obtain ⟨l, hl, evs, htr, hev⟩ := run_path Store.impl Concrete.oracle (Access.processOutgoing Concrete.env (str!"a") (letter (str!"yes"))) recWorld
  have hs : run Store.impl Concrete.oracle (Access.processOutgoing Concrete.env (str!"a") (letter (str!"yes"))) recWorld = sent (str!"yes") := sentThen_eq (str!"yes")
  rw [hs] at hl htr
  have hok : (sent (str!"yes")).1.toOption.isSome = true := by decide +kernel
  cases hr : (sent (str!"yes")).1 with
  | error e => rw [hr] at hok; cases hok
  | ok res =>
  rw [hr] at hl
  refine ⟨l, res, hl, by decide +kernel, ?_, ?_⟩
  · have hx : (evs.any fun e => match e.op with | .gpg _ (some _) => true | _ => false) = true := by
      have : ((sent (str!"yes")).2.trace.take ((sent (str!"yes")).2.trace.length - recWorld.trace.length)).any
          (fun e => match e.op with | .gpg _ (some _) => true | _ => false) = true := by decide +kernel
      rw [htr] at this
      simpa using this
    obtain ⟨ev, h1, h2⟩ := List.any_eq_true.mp hx
    have h3 := (hev ev).mp h1
    obtain ⟨op, ret⟩ := ev
    cases op with
    | gpg argv stdin =>
      cases stdin with
      | none => cases h2
      | some data => exact ⟨_, h3, argv, data, ret, rfl⟩
    | _ => cases h2
  · have hx : (evs.any fun e => match e.op with | .hookBeforeEnc .. => true | _ => false) = true := by
      have : ((sent (str!"yes")).2.trace.take ((sent (str!"yes")).2.trace.length - recWorld.trace.length)).any
          (fun e => match e.op with | .hookBeforeEnc .. => true | _ => false) = true := by decide +kernel
      rw [htr] at this
      simpa using this
    obtain ⟨ev, h1, h2⟩ := List.any_eq_true.mp hx
    have h3 := (hev ev).mp h1
    obtain ⟨op, ret⟩ := ev
    cases op with
    | hookBeforeEnc s kh r2k p => exact ⟨s, kh, r2k, p, ret, h3⟩
    | _ => cases h2

/-- with "no" there is a path on which the message is returned; no Autocrypt header was there -/
example : ∃ l res, (Access.processOutgoing Concrete.env (str!"a") (letter (str!"no"))).Path l (.ok res) ∧
    encryptHeader (letter (str!"no")) = some (str!"no") ∧ (letter (str!"no")).getAll (str!"Autocrypt") = [] := by
  obtain ⟨l, hl, _⟩ := run_path Store.impl Concrete.oracle (Access.processOutgoing Concrete.env (str!"a") (letter (str!"no"))) recWorld
  have hs : run Store.impl Concrete.oracle (Access.processOutgoing Concrete.env (str!"a") (letter (str!"no"))) recWorld = sent (str!"no") := sentThen_eq (str!"no")
  rw [hs] at hl
  have hok : (sent (str!"no")).1.toOption.isSome = true := by decide +kernel
  cases hr : (sent (str!"no")).1 with
  | error e => rw [hr] at hok; cases hok
  | ok res =>
  rw [hr] at hl
  exact ⟨l, res, hl, by decide +kernel, by decide +kernel⟩

end Verif
