import Verif.Props.GpgOps
import Verif.Props.GpgHome
import Verif.Props.Encrypt
import Verif.Lemmas.Composed
import Verif.Lemmas.Provenance
/-!
# Where key handles come from (C107)

Traces are lists of what was done outside, newest first. `t0 <:+ t` says that `t0` was the trace at an earlier time.
-/
namespace Verif
open BinGPG Mime

variable {σ K : Type} {α β : Type}

/-! ## Specification -/

/-- a gpg which uses the key ring of the account or the one of the user -/
def HomeOf (env : Env) (n : Str) (g : BinGPG) : Prop := g.home = some (gpgHome env n) ∨ g.home = none

/-- `k` is the first key named in messages which gpg wrote in the end of `t0`. If it is named by at most 8 digits then `k` is
an id which gpg listed for these in the next step. -/
def TellsKey (env : Env) (g : BinGPG) (msgs : Bytes) (k : Str) (t0 t : List Event) : Prop :=
  ∃ text x, env.utf8Decode msgs = .ok text ∧ FirstKey text x ∧ (8 < x.length ∧ k = x ∨
    x.length ≤ 8 ∧ (EndsWith k x ∨ EndsWith x k) ∧ k ≠ [] ∧ ∃ out listing,
      Gpg (commandLine g [str!"--skip-verify", str!"--with-colons", str!"--list-public-keys", x]) none out :: t0 <:+ t ∧ out.ret = 0 ∧
      env.utf8Decode out.out = .ok listing ∧ ∃ l ∈ Py.splitlines listing, (tag l = str!"pub" ∨ tag l = str!"sub") ∧ (fields l)[4]? = some k)

/-- gpg imported `kd` into the key ring for account `n` and named the key `k` -/
def ImportedAs (env : Env) (n : Str) (t : List Event) (kd : Bytes) (k : Str) : Prop :=
  ∃ g out t0, HomeOf env n g ∧ Gpg (commandLine g [str!"--skip-verify", str!"--import"]) (some kd) out :: t0 <:+ t ∧ out.ret = 0 ∧
    TellsKey env g out.err k (Gpg (commandLine g [str!"--skip-verify", str!"--import"]) (some kd) out :: t0) t

/-- gpg exported `kd` from the key ring for account `n` as the public key `k` -/
def ExportedAs (env : Env) (n : Str) (t : List Event) (kd : Bytes) (k : Str) : Prop :=
  ∃ g out t0, HomeOf env n g ∧ Gpg (commandLine g [str!"--export-options=export-minimal", str!"--export", k]) none out :: t0 <:+ t ∧
    out.ret = 0 ∧ out.out = kd

/-- gpg knows the key of a peer under this handle: it imported the key, or it exported it after it had imported a key under this handle -/
def PeerSource (env : Env) (n : Str) (t : List Event) (kd : Bytes) (k : Str) : Prop :=
  ImportedAs env n t kd k ∨ ((∃ kd', ImportedAs env n t kd' k) ∧ ExportedAs env n t kd k)

/-- gpg generated a key and named it `k` -/
def GeneratedAs (env : Env) (n : Str) (t : List Event) (k : Str) : Prop :=
  ∃ g name opts out t0, HomeOf env n g ∧
    ⟨.rmTemp name, (.ok () : Except Exc Unit)⟩ :: Gpg (commandLine g (opts ++ [str!"--gen-key", name])) none out :: t0 <:+ t ∧ out.ret = 0 ∧
    TellsKey env g out.err k (⟨.rmTemp name, (.ok () : Except Exc Unit)⟩ :: Gpg (commandLine g (opts ++ [str!"--gen-key", name])) none out :: t0) t

/-- gpg listed the secret key `k` when asked for `asked` -/
def ListedSecret (env : Env) (n : Str) (t : List Event) (asked k : Str) : Prop :=
  ∃ g out text t0, HomeOf env n g ∧
    Gpg (commandLine g [str!"--skip-verify", str!"--with-colons", str!"--list-secret-keys", asked]) none out :: t0 <:+ t ∧ out.ret = 0 ∧
    env.utf8Decode out.out = .ok text ∧ ∃ l ∈ Py.splitlines text, (tag l = str!"sec" ∨ tag l = str!"ssb") ∧ (fields l)[4]? = some k

/-- `kd` is what gpg exported as the secret key `k`, which it had generated or listed as a secret key before -/
def OwnSource (env : Env) (n : Str) (t : List Event) (kd : Bytes) (k : Str) : Prop :=
  ∃ g opts out t0, HomeOf env n g ∧
    Gpg (commandLine g (opts ++ [str!"--export-options=export-minimal", str!"--export-secret-key", k])) none out :: t0 <:+ t ∧
    out.ret = 0 ∧ out.out = kd ∧ (GeneratedAs env n t0 k ∨ ∃ asked, ListedSecret env n t0 asked k)

/-- where the keys in an entry come from -/
def Sourced (env : Env) (t : List Event) (h : Str) : Entry → Prop
  | .msg e => ∃ n a, env.isalnum n = true ∧ h = peerHead n a ∧ (e.keyhandle = [] ∨ PeerSource env n t e.keydata e.keyhandle)
  | .gossip e => ∃ n a, env.isalnum n = true ∧ h = peerHead n a ∧ ImportedAs env n t e.keydata e.keyhandle
  | .keygen e => ∃ n k kd, env.isalnum n = true ∧ h = ownHead n ∧ e.keyhandle = some k ∧ e.keydata = some kd ∧ OwnSource env n t kd k
  | _ => True

/-! ## Traces grow -/

theorem TellsKey.mono {env : Env} {g : BinGPG} {msgs : Bytes} {k : Str} {t0 t t' : List Event} (h : TellsKey env g msgs k t0 t) (hs : t <:+ t') :
    TellsKey env g msgs k t0 t' := by
  obtain ⟨text, x, h1, h2, h3⟩ := h
  refine ⟨text, x, h1, h2, h3.imp id ?_⟩
  rintro ⟨a, b, c, out, l, d, e⟩
  exact ⟨a, b, c, out, l, d.trans hs, e⟩

theorem ImportedAs.mono {env : Env} {n : Str} {t t' : List Event} {kd : Bytes} {k : Str} (h : ImportedAs env n t kd k) (hs : t <:+ t') :
    ImportedAs env n t' kd k := by
  obtain ⟨g, out, t0, h1, h2, h3, h4⟩ := h
  exact ⟨g, out, t0, h1, h2.trans hs, h3, h4.mono hs⟩

theorem ExportedAs.mono {env : Env} {n : Str} {t t' : List Event} {kd : Bytes} {k : Str} (h : ExportedAs env n t kd k) (hs : t <:+ t') :
    ExportedAs env n t' kd k := by
  obtain ⟨g, out, t0, h1, h2, h3⟩ := h
  exact ⟨g, out, t0, h1, h2.trans hs, h3⟩

theorem PeerSource.mono {env : Env} {n : Str} {t t' : List Event} {kd : Bytes} {k : Str} (h : PeerSource env n t kd k) (hs : t <:+ t') :
    PeerSource env n t' kd k :=
  h.imp (·.mono hs) fun ⟨⟨kd', h1⟩, h2⟩ => ⟨⟨kd', h1.mono hs⟩, h2.mono hs⟩

theorem GeneratedAs.mono {env : Env} {n : Str} {t t' : List Event} {k : Str} (h : GeneratedAs env n t k) (hs : t <:+ t') :
    GeneratedAs env n t' k := by
  obtain ⟨g, name, opts, out, t0, h1, h2, h3, h4⟩ := h
  exact ⟨g, name, opts, out, t0, h1, h2.trans hs, h3, h4.mono hs⟩

theorem ListedSecret.mono {env : Env} {n : Str} {t t' : List Event} {a k : Str} (h : ListedSecret env n t a k) (hs : t <:+ t') :
    ListedSecret env n t' a k := by
  obtain ⟨g, out, text, t0, h1, h2, h3⟩ := h
  exact ⟨g, out, text, t0, h1, h2.trans hs, h3⟩

theorem OwnSource.mono {env : Env} {n : Str} {t t' : List Event} {kd : Bytes} {k : Str} (h : OwnSource env n t kd k) (hs : t <:+ t') :
    OwnSource env n t' kd k := by
  obtain ⟨g, opts, out, t0, h1, h2, h3⟩ := h
  exact ⟨g, opts, out, t0, h1, h2.trans hs, h3⟩

theorem Sourced.mono {env : Env} {t t' : List Event} {h : Str} {e : Entry} (hs : Sourced env t h e) (ht : t <:+ t') : Sourced env t' h e := by
  cases e with
  | msg e => obtain ⟨n, a, h1, h2, h3⟩ := hs; exact ⟨n, a, h1, h2, h3.imp id (·.mono ht)⟩
  | gossip e => obtain ⟨n, a, h1, h2, h3⟩ := hs; exact ⟨n, a, h1, h2, h3.mono ht⟩
  | keygen e => obtain ⟨n, k, kd, h1, h2, h3, h4, h5⟩ := hs; exact ⟨n, k, kd, h1, h2, h3, h4, h5.mono ht⟩
  | cfg _ | oob _ | acfg _ => trivial

/-! ## What gpg said -/

theorem NamedKey.tells {env : Env} {g : BinGPG} {msgs : Bytes} {k : Str} {w w' : World σ K} (h : NamedKey env g msgs k w w') :
    TellsKey env g msgs k w.trace w'.trace := by
  obtain ⟨text, x, h1, h2, h3⟩ := h
  refine ⟨text, x, h1, h2, h3.imp (fun h => ⟨h.1, h.2.1⟩) ?_⟩
  rintro ⟨a, b, c, out, l, d, e⟩
  exact ⟨a, b, c, out, l, by rw [d]; exact List.suffix_rfl, e⟩

theorem findKeyhandle_tells {S : StoreImpl σ} {O : Oracle K} {env : Env} {g : BinGPG} {msgs : Bytes} {text k : Str} {w w' : World σ K}
    (he : env.utf8Decode msgs = .ok text) (h : run S O (findKeyhandle env g text) w = (.ok k, w')) :
    TellsKey env g msgs k w.trace w'.trace := by
  obtain ⟨x, hx, hc⟩ := C60_handle_partial h
  exact NamedKey.tells ⟨text, x, he, hx, hc⟩

theorem run_le {S : StoreImpl σ} {O : Oracle K} {p : Prog α} {w w' : World σ K} {r : Except Exc α} (h : run S O p w = (r, w')) :
    w.trace <:+ w'.trace := by
  have := run_trace (S := S) (O := O) p w
  rw [h] at this; exact this

theorem importKeydata_tells {S : StoreImpl σ} {O : Oracle K} {env : Env} {n : Str} {g : BinGPG} (hg : HomeOf env n g) {kd : Bytes} {mini : Bool} {k : Str}
    {w w' : World σ K} (h : run S O (importKeydata env g kd mini) w = (.ok k, w')) : ImportedAs env n w'.trace kd k := by
  unfold importKeydata at h
  simp only [bind_eq, pure_eq] at h
  obtain ⟨r, w1, h1, h⟩ := run_bind_ok.mp h
  obtain ⟨kh, w2, h2, h⟩ := run_bind_ok.mp h
  obtain ⟨out, t1, z1, -, e1⟩ := gpgOuterr_said h1
  have key : kh = k := by
    cases mini with
    | false => cases h; rfl
    | true =>
      rw [if_pos rfl] at h
      obtain ⟨_, _, _, h⟩ := run_bind_ok.mp h
      obtain ⟨_, _, _, h⟩ := run_bind_ok.mp h
      obtain ⟨_, _, _, h⟩ := run_bind_ok.mp h
      obtain ⟨_, _, _, h⟩ := run_bind_ok.mp h
      obtain ⟨_, _, _, h⟩ := run_bind_ok.mp h
      cases h; rfl
  subst key
  have hl := run_le h
  have ht := findKeyhandle_tells e1 h2
  rw [t1] at ht
  refine ⟨g, out, w.trace, hg, ?_, z1, ht.mono hl⟩
  rw [← t1]; exact (run_le h2).trans hl

theorem getPublicKeydata_tells {S : StoreImpl σ} {O : Oracle K} {env : Env} {n : Str} {g : BinGPG} (hg : HomeOf env n g) {kd : Bytes} {k : Str}
    {w w' : World σ K} (h : run S O (getPublicKeydata env g k) w = (.ok kd, w')) : ExportedAs env n w'.trace kd k := by
  unfold getPublicKeydata at h
  simp only [bind_eq, pure_eq] at h
  obtain ⟨r, w1, h1, h⟩ := run_bind_ok.mp h
  obtain ⟨out, t1, z1, o1, -⟩ := gpgOuterr_said h1
  cases h
  exact ⟨g, out, w.trace, hg, by rw [t1]; exact List.suffix_rfl, z1, o1⟩

theorem genSecretKey_tells {S : StoreImpl σ} {O : Oracle K} {env : Env} {n : Str} {g : BinGPG} (hg : HomeOf env n g) {addr k : Str}
    {w w' : World σ K} (h : run S O (genSecretKey env g addr) w = (.ok k, w')) : GeneratedAs env n w'.trace k := by
  unfold genSecretKey at h
  simp only [bind_eq] at h
  obtain ⟨r, w3, h1, h2⟩ := run_bind_ok.mp h
  rcases run_withTempFile S O (env.utf8Encode (keySpec addr)) (fun fn => (nopassphrase env g).bind fun np =>
      gpgOuterr env g (np ++ [str!"--gen-key", fn])) w with ⟨e, v, hv, -⟩ | ⟨name, v1, rr, v3, ht1, ht3, hr⟩
  · rw [hv] at h1; cases h1
  · rw [hr] at h1
    obtain ⟨g1, g2⟩ := Prod.mk.inj h1
    cases rr with
    | error e => cases g1
    | ok u =>
      dsimp only at g1 ht3
      rcases hb : run S O ((nopassphrase env g).bind fun np => gpgOuterr env g (np ++ [str!"--gen-key", name])) v1 with ⟨x, v2⟩
      rw [hb] at g1 ht3
      dsimp only at g1 ht3
      subst g1
      obtain ⟨np, w4, h3, h4⟩ := run_bind_ok.mp hb
      obtain ⟨out, t, h0, -, he⟩ := gpgOuterr_said h4
      have ht := findKeyhandle_tells he h2
      have e3 : w3.trace = ⟨.rmTemp name, (.ok () : Except Exc Unit)⟩ :: Gpg (commandLine g (np ++ [str!"--gen-key", name])) none out :: w4.trace := by
        rw [← g2, ht3, t]
      rw [e3] at ht
      exact ⟨g, name, np, out, w4.trace, hg, by rw [← e3]; exact run_le h2, h0, ht⟩

theorem getSecretKeyhandle_tells {S : StoreImpl σ} {O : Oracle K} {env : Env} {n : Str} {g : BinGPG} (hg : HomeOf env n g) {asked k : Str}
    {w w' : World σ K} (h : run S O (getSecretKeyhandle env g asked) w = (.ok (some k), w')) : ListedSecret env n w'.trace asked k := by
  unfold getSecretKeyhandle listSecretKeyinfos parseList at h
  simp only [bind_eq, pure_eq] at h
  obtain ⟨infos, w1, h1, h2⟩ := run_bind_ok.mp h
  obtain ⟨t, w2, h3, h4⟩ := run_bind_ok.mp h1
  rw [run_ofExcept] at h4
  obtain ⟨hp, hw⟩ := Prod.mk.inj h4
  obtain ⟨hk, hw'⟩ := Prod.mk.inj h2
  have hl := C61_listing_partial (Or.inr rfl) _ _ hp
  obtain ⟨out, htr, h0, hdec, -⟩ := gpgOutText_ok h3
  have hk : selectSecret asked infos = some k := by simpa using hk
  unfold selectSecret at hk
  obtain ⟨ki, hf, hid⟩ := Option.map_eq_some_iff.mp hk
  obtain ⟨l, hlm, ht, hi⟩ := hl.line (List.mem_of_find?_eq_some hf)
  refine ⟨g, out, t, w.trace, hg, ?_, h0, hdec, l, hlm, ht, by rw [hi, hid]⟩
  rw [← hw', ← hw, htr, argv_eq]; exact List.suffix_rfl

theorem bingpg_homeOf (env : Env) (n : Str) : (Account.bingpg env n).Returns (HomeOf env n) := by
  unfold Account.bingpg
  simp only [bind_eq]
  refine .bind (.trivially _) fun c _ => ?_
  split
  · trivial
  · unfold BinGPG.create
    simp only [bind_eq, pure_eq]
    refine .bind (.trivially _) fun p _ => ?_
    cases p with
    | none => trivial
    | some p =>
      refine .bind (.trivially _) fun _ _ => ?_
      show HomeOf env n _
      unfold HomeOf gpgHome
      cases c.gpgmode
      · exact Or.inr rfl
      · exact Or.inl rfl

theorem importKey_tells {S : StoreImpl σ} {O : Oracle K} {env : Env} {n : Str} {kd : Bytes} {k : Str} {w w' : World σ K}
    (h : run S O (Account.importKey env n kd) w = (.ok (some k), w')) : ImportedAs env n w'.trace kd k := by
  unfold Account.importKey at h
  simp only [bind_eq, pure_eq] at h
  obtain ⟨x, w1, h1, h⟩ := run_bind_ok.mp h
  rw [run_attempt] at h1
  cases x with
  | error e =>
    dsimp only at h
    obtain ⟨_, _, _, h⟩ := run_bind_ok.mp h
    split at h <;> cases h
  | ok g =>
    dsimp only at h
    obtain ⟨y, w2, h2, h⟩ := run_bind_ok.mp h
    rw [run_attempt] at h2
    have hg : HomeOf env n g := by
      obtain ⟨e1, e2⟩ := Prod.mk.inj h1
      exact (bingpg_homeOf env n).of_run (Prod.ext (Except.ok.inj e1) e2)
    cases y with
    | error e =>
      dsimp only at h
      split at h <;> cases h
    | ok kh =>
      cases h
      obtain ⟨e1, e2⟩ := Prod.mk.inj h2
      exact importKeydata_tells hg (Prod.ext (Except.ok.inj e1) e2)

/-! ## The invariant -/

/-- all keys which are stored have their source in what was done -/
def AllSourced (env : Env) (w : World Store K) : Prop := ∀ h, ∀ e ∈ w.log h, Sourced env w.trace h e

theorem AllSourced.quiet {env : Env} {w w' : World Store K} (hq : Safe.Quiet w w') (hw : AllSourced env w) : AllSourced env w' := by
  obtain ⟨h1, -, -, l, h4⟩ := hq
  intro h e he
  unfold World.log at he
  rw [h1] at he
  exact (hw h e he).mono (by rw [h4]; exact List.suffix_append _ _)

theorem AllSourced.act {O : Oracle K} {env : Env} {w : World Store K} (hw : AllSourced env w) (a : Act)
    (ha : ∀ h e, a.Adds h e → Sourced env w.trace h e) : AllSourced env (exec O a.prog w).2 := by
  have ht : w.trace <:+ (exec O a.prog w).2.trace := run_trace _ _
  intro h e he
  rcases act_new O a w h e he with h1 | h1
  · exact (hw h e h1).mono ht
  · exact (ha h e h1).mono ht

/-- the invariant holds wherever the program is interrupted -/
def Kept (O : Oracle K) (env : Env) (p : Prog α) (w : World Store K) : Prop := ∀ n, AllSourced env (runFor Store.impl O n p w)

namespace Kept
variable {O : Oracle K} {env : Env} {w : World Store K}

theorem done {p : Prog α} (h : Kept O env p w) : AllSourced env (run Store.impl O p w).2 := by
  obtain ⟨n, hn⟩ := runFor_run Store.impl O p w
  rw [← hn]; exact h n

theorem ro {p : Prog α} (hp : p.AllOps Op.readOnly) (hw : AllSourced env w) : Kept O env p w := fun n =>
  hw.quiet (Safe.runFor_ro hp n w)

theorem pure (a : α) (hw : AllSourced env w) : Kept O env (.pure a) w := ro trivial hw
theorem raise (e : Exc) (hw : AllSourced env w) : Kept O env (.raise e : Prog α) w := ro trivial hw

theorem bind {p : Prog α} {f : α → Prog β} (hp : Kept O env p w)
    (hf : ∀ a w1, run Store.impl O p w = (.ok a, w1) → AllSourced env w1 → Kept O env (f a) w1) : Kept O env (p.bind f) w := by
  intro n
  rcases Safe.runFor_bind Store.impl O n p f w with h | ⟨a, w1, m, h1, h⟩
  · rw [h]; exact hp n
  · rw [h]
    have := hp.done
    rw [h1] at this
    exact hf a w1 h1 this m

theorem attempt {p : Prog α} (hp : Kept O env p w) : Kept O env p.attempt w := fun n => by
  rw [Safe.runFor_attempt]; exact hp n

theorem void {p : Prog α} (hp : Kept O env p w) : Kept O env p.void w := fun n => by
  rw [runFor_void]; exact hp n

theorem act (a : Act) (hw : AllSourced env w) (ha : ∀ h e, a.Adds h e → Sourced env w.trace h e) : Kept O env a.prog w := fun n => by
  rcases (Safe.late_act a).runFor (O := O) n w with hq | he
  · exact hw.quiet hq
  · rw [he]; exact hw.act a ha

/-- updates which add no keys -/
theorem safe {A : Act → Prop} {p : Prog α} (hp : Safe A p) (hA : ∀ a, A a → ∀ h e, a.Adds h e → ∀ t, Sourced env t h e)
    (hw : AllSourced env w) : Kept O env p w := fun n =>
  hp.respects_killed (R := fun w w' : World Store K => AllSourced env w → AllSourced env w') (fun _ _ _ h h' x => h' (h x))
    (fun _ _ h1 h2 h3 h4 x => x.quiet ⟨h1, h2, h3, h4⟩) (fun a ha _ x => x.act a fun h e he => hA a ha h e he _) n w hw

/-- a call on an account -/
theorem onAccount {p : Prog α} {n : Str} (hw : AllSourced env w) (hp : env.isalnum n = true → Kept O env p w) :
    Kept O env (Verif.onAccount env n p) w := by
  unfold Verif.onAccount Manager.account
  rw [Prog.assert_bind]
  split
  · rename_i hn; exact (hp hn).void
  · exact raise _ hw

end Kept

/-! ## Calls -/

section calls
variable {O : Oracle K} {env : Env} {w : World Store K} {n : Str}

theorem kept_updateMsg (hn : env.isalnum n = true) (a : Str) (u : Peer.MsgUpdate) (hw : AllSourced env w)
    (hu : ∀ k kd, u.keyhandle = some k → u.keydata = some kd → PeerSource env n w.trace kd k) :
    Kept O env (Peer.updateFromMsg (peerHead n a) u) w := by
  refine Kept.act (.msg n a u) hw fun h e he => ?_
  cases e <;> simp only [Act.Adds] at he
  rename_i e
  obtain ⟨h1, -, -, h2⟩ := he
  refine ⟨n, a, hn, h1, ?_⟩
  rcases h2 with ⟨-, h2, -⟩ | ⟨-, h3, -, h4⟩
  · exact Or.inl h2
  · cases hk : u.keyhandle with
    | none => rw [hk] at h4; exact Or.inl h4
    | some k =>
      rw [hk] at h4
      have h4 : e.keyhandle = k := h4
      rw [h4]
      exact Or.inr (hu k _ hk h3)

theorem kept_updateGossip (hn : env.isalnum n = true) (a : Str) (u : Peer.GossipUpdate) (hw : AllSourced env w)
    (hu : ∀ k kd, u.keyhandle = some k → u.keydata = some kd → ImportedAs env n w.trace kd k) :
    Kept O env (Peer.updateFromGossip (peerHead n a) u) w := by
  refine Kept.act (.gossip n a u) hw fun h e he => ?_
  cases e <;> simp only [Act.Adds] at he
  obtain ⟨h1, -, -, h2, h3, -⟩ := he
  exact ⟨n, a, hn, h1, hu _ _ h3 h2⟩

theorem importPah_tells {S : StoreImpl σ} {O : Oracle K} {pah : ACResult} {r : Option Str × ACResult} {w w' : World σ K}
    (h : run S O (Account.importPah env n pah) w = (.ok r, w')) :
    r.2.keydata = pah.keydata ∧ ∀ k, r.1 = some k → ImportedAs env n w'.trace (pah.keydata.getD []) k := by
  unfold Account.importPah at h
  simp only [bind_eq, pure_eq] at h
  obtain ⟨x, w1, h1, h⟩ := run_bind_ok.mp h
  cases x with
  | none => cases h; exact ⟨rfl, fun k hk => by cases hk⟩
  | some k =>
    cases h
    exact ⟨rfl, fun k' hk => by cases hk; exact importKey_tells h1⟩

theorem kept_header (hn : env.isalnum n = true) (m : Msg) (f a : Str) (d : Time) (i : Str) (hw : AllSourced env w) :
    Kept O env (Account.processAutocryptHeader env n m f (peerHead n a) d i) w := by
  unfold Account.processAutocryptHeader
  simp only [bind_eq, pure_eq]
  refine .bind (.ro (.ofExcept _) hw) fun pah w1 _ hw => ?_
  refine .bind (.ro ?_ hw) fun r w2 h2 hw => ?_
  · split
    · trivial
    · exact Account.importPah_ops permissive_readOnly env n pah
  refine .bind (kept_updateMsg hn a _ hw ?_) fun _ _ _ hw => .pure _ hw
  intro k kd hk hd
  dsimp only at hk hd
  split at h2
  · cases h2; cases hk
  · obtain ⟨e1, e2⟩ := importPah_tells h2
    rw [e1] at hd
    have := e2 k hk
    rw [hd] at this
    exact Or.inl this

theorem kept_gossipLoop (hn : env.isalnum n = true) (l : List (Str × ACResult)) (d : Time) (i : Str) (rs : List Str) :
    ∀ (w : World Store K) (acc : List (Str × ACResult)), AllSourced env w → Kept O env (Account.gossipLoop env n l d i acc rs) w := by
  induction rs with
  | nil => exact fun w acc hw => .pure _ hw
  | cons r rs ih =>
    intro w acc hw
    unfold Account.gossipLoop
    split
    · exact ih w acc hw
    · simp only [bind_eq]
      refine .bind (.ro (Account.importPah_ops permissive_readOnly env n _) hw) fun x w2 h2 hw => ?_
      refine .bind (kept_updateGossip hn _ _ hw ?_) fun _ _ _ hw => ih _ _ hw
      intro k kd hk hd
      obtain ⟨e1, e2⟩ := importPah_tells h2
      dsimp only at hk hd
      rw [e1] at hd
      have := e2 k hk
      rw [hd] at this
      exact this

theorem kept_incoming (hn : env.isalnum n = true) (m : Msg) (ig nd : Bool) (hw : AllSourced env w) :
    Kept O env (Account.processIncoming env n m ig nd) w := by
  unfold Account.processIncoming Account.processGossipHeaders effectiveDate
  simp only [bind_eq, pure_eq]
  refine .bind (.ro (.ofExcept _) hw) fun d w1 _ hw => .bind (.ro (by allops) hw) fun date w2 _ hw => .bind (.ro (by allops) hw) fun known w3 _ hw => ?_
  split
  · exact .pure _ hw
  refine .bind (kept_header hn m _ _ _ _ hw) fun pah w4 _ hw => .bind (.ro (by allops) hw) fun enc w5 _ hw =>
    .bind ?_ fun _ _ _ hw => .pure _ hw
  split
  · refine .bind (.ro (Account.decryptMime_ops permissive_readOnly env n m) hw) fun r w6 _ hw => .bind (.bind (.ro (.ofExcept _) hw) fun _ _ _ hw =>
      kept_gossipLoop hn _ _ _ _ _ _ hw) fun g w7 _ hw => .bind (.ro (Account.ownKeyhandle_ops permissive_readOnly n) hw) fun _ _ _ hw => .bind (.ro (by allops) hw) fun _ _ _ hw => .pure _ hw
  · exact .pure _ hw

theorem kept_importLoop (hn : env.isalnum n = true) (pe k : Str) (as : List Str) :
    ∀ w : World Store K, AllSourced env w → (∃ kd, ImportedAs env n w.trace kd k) → Kept O env (Account.importLoop env n pe k as) w := by
  induction as with
  | nil => exact fun w hw _ => .pure _ hw
  | cons a as ih =>
    intro w hw ⟨kd0, hi⟩
    unfold Account.importLoop
    simp only [bind_eq]
    refine .bind (.ro (by allops) hw) fun t w1 h1 hw => .bind (.ro (Account.bingpg_ops permissive_readOnly env n) hw) fun g w2 h2 hw =>
      .bind (.ro (BinGPG.getPublicKeydata_ops permissive_readOnly.2.2.2 env g k false) hw) fun kd w3 h3 hw => ?_
    have hl := (run_le h1).trans ((run_le h2).trans (run_le h3))
    have hx := getPublicKeydata_tells ((bingpg_homeOf env n).of_run h2) h3
    refine .bind (kept_updateMsg hn _ _ hw ?_) fun _ w4 h4 hw => ih w4 hw ⟨kd0, hi.mono (hl.trans (run_le h4))⟩
    intro k' kd' hk hd
    cases hk; cases hd
    exact Or.inr ⟨⟨kd0, hi.mono hl⟩, hx⟩

theorem kept_import (hn : env.isalnum n = true) (a : Option Str) (kd : Bytes) (pe : Str) (hw : AllSourced env w) :
    Kept O env (Account.importKeydataAsAutocrypt env n a kd pe) w := by
  have hb : ∀ w : World Store K, AllSourced env w → Kept O env (Account.bingpg env n) w := fun w hw => .ro (Account.bingpg_ops permissive_readOnly env n) hw
  unfold Account.importKeydataAsAutocrypt
  simp only [bind_eq, pure_eq]
  refine .bind (hb _ hw) fun g w1 h1 hw => .bind (.ro (BinGPG.importKeydata_ops permissive_readOnly.2.2.2 env g kd false) hw) fun kh w2 h2 hw => ?_
  refine .bind (.ro ?_ hw) fun addrs w3 _ hw => .bind (hb _ hw) fun g' w4 h4 hw =>
    .bind (.ro (BinGPG.importKeydata_ops permissive_readOnly.2.2.2 env g' kd true) hw) fun kh' w5 h5 hw => ?_
  · split
    · trivial
    · exact .bind (Account.bingpg_ops permissive_readOnly env n) fun g => .bind (BinGPG.listPublicKeyinfos_ops permissive_readOnly.2.2.2 env g _) fun _ => trivial
  refine .bind (kept_importLoop hn _ _ _ _ hw ⟨kd, importKeydata_tells ((bingpg_homeOf env n).of_run h4) h5⟩) fun _ _ _ hw =>
    .bind (hb _ hw) fun g w8 _ hw => .bind (.ro (BinGPG.getPublicKeydata_ops permissive_readOnly.2.2.2 env g _ false) hw) fun _ _ _ hw => .pure _ hw

theorem createKey_tells {S : StoreImpl σ} {O : Oracle K} {kh : Option Str} {k : Str} {w w' : World σ K}
    (h : run S O (Account.createKey env n kh) w = (.ok k, w')) :
    GeneratedAs env n w'.trace k ∨ ∃ asked, ListedSecret env n w'.trace asked k := by
  unfold Account.createKey at h
  cases kh with
  | none =>
    simp only [bind_eq] at h
    obtain ⟨_, _, _, h⟩ := run_bind_ok.mp h
    obtain ⟨g, w1, h1, h⟩ := run_bind_ok.mp h
    exact Or.inl (genSecretKey_tells ((bingpg_homeOf env n).of_run h1) h)
  | some a =>
    simp only [bind_eq, pure_eq] at h
    obtain ⟨g, w1, h1, h⟩ := run_bind_ok.mp h
    obtain ⟨x, w2, h2, h⟩ := run_bind_ok.mp h
    cases x with
    | none => cases h
    | some k' => cases h; exact Or.inr ⟨a, getSecretKeyhandle_tells ((bingpg_homeOf env n).of_run h1) h2⟩

theorem kept_create (hn : env.isalnum n = true) (r : Str) (kh : Option Str) (b m : Str) (hw : AllSourced env w) :
    Kept O env (Account.create env n r kh b m) w := by
  unfold Account.create Own.newConfig Own.appendKeygen
  simp only [bind_eq, pure_eq]
  refine .bind (.ro (by allops) hw) fun md w1 _ hw => .bind (Kept.act (.cfg n _) hw ?_) fun _ w2 _ hw =>
    .bind (.ro (Account.createKey_ops permissive_readOnly env n kh) hw) fun k w3 h3 hw => .bind (.ro (Account.bingpg_ops permissive_readOnly env n) hw) fun g w4 h4 hw =>
    .bind (.ro (BinGPG.getSecretKeydata_ops permissive_readOnly.2.2.2 env g k false) hw) fun kd w5 h5 hw => Kept.act (.keygen n _) hw ?_
  · intro h e he
    cases e <;> simp only [Act.Adds] at he
    trivial
  · intro h e he
    cases e <;> simp only [Act.Adds] at he
    obtain ⟨rfl, rfl⟩ := he
    obtain ⟨v, out, opts, t, h0, ho, -⟩ := C94_export h5
    refine ⟨n, k, kd, hn, rfl, rfl, rfl, g, opts, out, Gpg (commandLine g [str!"--version"]) none v :: w4.trace,
      (bingpg_homeOf env n).of_run h4, ?_, h0, ho, ?_⟩
    · rw [t]; exact List.suffix_rfl
    · have hl := (run_le h4).trans (List.suffix_cons (Gpg (commandLine g [str!"--version"]) none v) _)
      exact (createKey_tells h3).imp (·.mono hl) fun ⟨a, h⟩ => ⟨a, h.mono hl⟩

/-- the calls with which a program records a key itself -/
def ApiCall.Records : ApiCall → Prop
  | .peerMsg .. | .peerGossip .. => True
  | _ => False

theorem kept_call (c : ApiCall) (hc : ¬ c.Records) (hw : AllSourced env w) : Kept O env (c.prog env) w := by
  cases c with
  | addAccount n r k b m =>
    show Kept O env (Prog.void (Manager.addAccount env n r k b m)) w
    refine .void ?_
    unfold Manager.addAccount
    simp only [bind_eq, pure_eq]
    refine .bind (.safe (Manager.safe_getAccount (A := InitAct) env trivial n false) ?_ hw) fun a w1 h1 hw => ?_
    · intro a ha h e he t
      cases a <;> simp only [InitAct] at ha
      cases e <;> simp only [Act.Adds] at he
      trivial
    have hn : env.isalnum n = true ∧ a = n := by
      unfold Manager.getAccount Manager.account at h1
      simp only [bind_eq, pure_eq] at h1
      obtain ⟨_, _, _, h1⟩ := run_bind_ok.mp h1
      rw [Prog.assert_bind] at h1
      split at h1
      · rename_i hn
        obtain ⟨_, _, _, h1⟩ := run_bind_ok.mp h1
        split at h1
        · obtain ⟨_, _, _, h1⟩ := run_bind_ok.mp h1
          cases h1; exact ⟨hn, rfl⟩
        · cases h1
      · cases h1
    obtain ⟨hn, rfl⟩ := hn
    refine .bind (.ro (Account.exists_ops permissive_readOnly _) hw) fun ex w2 _ hw => ?_
    split
    · exact .raise _ hw
    · exact .bind (kept_create hn _ _ _ _ hw) fun _ _ _ hw => .pure _ hw
  | processIncoming n m i d => exact .onAccount hw fun hn => kept_incoming hn m i d hw
  | importKey n a k p => exact .onAccount hw fun hn => kept_import hn a k p hw
  | peerMsg | peerGossip => exact (hc trivial).elim
  | _ =>
    refine .safe (safe_call env _) (fun a ha h e he t => ?_) hw
    cases a <;> cases e <;> simp_all [ApiCall.acts, InitAct, CfgAct, Act.Adds, Sourced]

end calls

theorem history_sourced (O : Oracle K) (env : Env) (hist : List (Happening K)) (hh : ∀ c ∈ callsMade hist, ¬ c.Records)
    (w : World Store K) (hw : w.store = []) : AllSourced env (runHistory Store.impl O env hist w) := by
  refine runHistory_ind (P := AllSourced env) hist (fun _ _ hq h => h.quiet hq) (fun c hc n w h => kept_call c (hh c hc) h n) w ?_
  intro h e he
  unfold World.log at he
  rw [hw] at he
  cases he

/-! ## C107 -/

/-- C107: wherever a program which doesn't record keys itself was interrupted, a key of a peer is recorded with a handle only if gpg
reported this handle, for the key ring of the account, when it imported the key. For import-public-key, the data recorded are
what gpg exported under the handle. -/
theorem C107_peers (O : Oracle K) (env : Env) (hist : List (Happening K)) (hh : ∀ c ∈ callsMade hist, ¬ c.Records)
    (w0 : World Store K) (h0 : w0.store = []) (w : World Store K) (hw : w = runHistory Store.impl O env hist w0)
    (n a : Str) (hn : env.isalnum n = true) :
    (∀ e, .msg e ∈ w.log (peerHead n a) → e.keyhandle ≠ [] → PeerSource env n w.trace e.keydata e.keyhandle) ∧
    (∀ e, .gossip e ∈ w.log (peerHead n a) → ImportedAs env n w.trace e.keydata e.keyhandle) := by
  subst hw
  have key := history_sourced O env hist hh w0 h0
  constructor
  · intro e he hk
    obtain ⟨n', a', hn', h1, h2⟩ := key _ _ he
    obtain ⟨rfl, rfl⟩ := (peerHead_inj (colon_not_mem_of_isalnum hn) (colon_not_mem_of_isalnum hn')).mp h1
    exact h2.resolve_left hk
  · intro e he
    obtain ⟨n', a', hn', h1, h2⟩ := key _ _ he
    obtain ⟨rfl, rfl⟩ := (peerHead_inj (colon_not_mem_of_isalnum hn) (colon_not_mem_of_isalnum hn')).mp h1
    exact h2

/-- C107: the own key of an account is one which gpg generated or listed as a secret key, and the data recorded are what gpg exported
as this secret key afterwards. -/
theorem C107_own (O : Oracle K) (env : Env) (hist : List (Happening K)) (hh : ∀ c ∈ callsMade hist, ¬ c.Records)
    (w0 : World Store K) (h0 : w0.store = []) (w : World Store K) (hw : w = runHistory Store.impl O env hist w0) (n : Str) (e : KeygenEntry)
    (he : .keygen e ∈ w.log (ownHead n)) :
    ∃ k kd, e.keyhandle = some k ∧ e.keydata = some kd ∧ OwnSource env n w.trace kd k := by
  subst hw
  obtain ⟨n', k, kd, -, h1, h2, h3, h4⟩ := history_sourced O env hist hh w0 h0 _ _ he
  cases ownHead_inj.mp h1
  exact ⟨k, kd, h2, h3, h4⟩

/-- the source of a key to which something is encrypted -/
def RecipientSource (env : Env) (w : World Store K) (n a k : Str) : Prop :=
  (∃ kd, PeerSource env n w.trace kd k) ∨ (OwnAddress env w n a ∧ ∃ kd, OwnSource env n w.trace kd k)

theorem recipientKey_source {O : Oracle K} {env : Env} {hist : List (Happening K)} (hh : ∀ c ∈ callsMade hist, ¬ c.Records)
    {w0 : World Store K} (h0 : w0.store = []) {w : World Store K} (hw : w = runHistory Store.impl O env hist w0) {n : Str}
    (hn : env.isalnum n = true) {a k : Str} (h : RecipientKey env w n a k) : RecipientSource env w n a k := by
  rcases h with ⟨kd, h⟩ | ⟨-, h1, e, h2, h3⟩
  · left
    have hp := C107_peers O env hist hh w0 h0 w hw n (Mime.parseEmailAddr env (some a)) hn
    rcases h with ⟨m, h1, rfl, rfl⟩ | ⟨-, g, h1, -, rfl, rfl⟩
    · exact ⟨_, hp.1 m h1.1.mem h1.2⟩
    · exact ⟨_, Or.inl (hp.2 g h1.mem)⟩
  · right
    obtain ⟨k', kd, e1, -, e2⟩ := C107_own O env hist hh w0 h0 w hw n e h2.mem
    rw [h3] at e1; cases e1
    exact ⟨h1, kd, e2⟩

/-- C107: whatever is encrypted for an address is encrypted to a key which gpg imported, under the handle which gpg reported
then, or to the own key for an own address. It is signed with the own key. -/
theorem C107_encrypted (O : Oracle K) (env : Env) (hist : List (Happening K)) (hh : ∀ c ∈ callsMade hist, ¬ c.Records)
    (w0 : World Store K) (h0 : w0.store = []) (w w' : World Store K) (hw : w = runHistory Store.impl O env hist w0) (n : Str)
    (hn : env.isalnum n = true) (m : Msg) (toaddrs : List Str)
    (r : Except Exc Account.EncryptResult) (h : exec O (Account.encryptMime env n m toaddrs) w = (r, w'))
    (new : List Event) (ht : w'.trace = new ++ w.trace) (argv : List Str) (data : Bytes) (ret : Except Exc GpgOut)
    (hev : Event.gpg argv (some data) ret ∈ new) :
    ∃ khs own, List.Forall₂ (RecipientSource env w n) (toaddrs.map fun a => address env (some a)) khs ∧
      (∃ kd, OwnSource env n w.trace kd own) ∧ EncryptArgs khs own argv := by
  spec_mail
  obtain ⟨khs, own, h1, ⟨e, h2, h3⟩, h4⟩ := C37_recipients O env w w' n m toaddrs r h new ht argv data ret hev
  refine ⟨khs, own, h1.imp fun a k hk => recipientKey_source hh h0 hw hn hk, ?_, h4⟩
  obtain ⟨k', kd, e1, -, e2⟩ := C107_own O env hist hh w0 h0 w hw n e h2.mem
  rw [h3] at e1; cases e1
  exact ⟨kd, e2⟩

/-- C107 for `process_outgoing` -/
theorem C107_outgoing (O : Oracle K) (env : Env) (hist : List (Happening K)) (hh : ∀ c ∈ callsMade hist, ¬ c.Records)
    (w0 : World Store K) (h0 : w0.store = []) (w w' : World Store K) (hw : w = runHistory Store.impl O env hist w0) (n : Str)
    (hn : env.isalnum n = true) (m : Msg)
    (r : Except Exc Account.OutgoingResult) (h : exec O (Account.processOutgoing env n m) w = (r, w'))
    (new : List Event) (ht : w'.trace = new ++ w.trace) (argv : List Str) (data : Bytes) (ret : Except Exc GpgOut)
    (hev : Event.gpg argv (some data) ret ∈ new) :
    ∃ f khs own, m.getAll (str!"From") = [f] ∧ (∃ kd, OwnSource env n w.trace kd own) ∧ EncryptArgs khs own argv ∧
      List.Forall₂ (RecipientSource env w n)
        ((encryptTo env m (address env (some f))).map fun a => address env (some a)) khs := by
  spec_mail
  obtain ⟨f, khs, own, hf, ⟨e, h2, h3⟩, h4, h1⟩ := C37_outgoing O env w w' n m r h new ht argv data ret hev
  refine ⟨f, khs, own, hf, ?_, h4, h1.imp fun a k hk => recipientKey_source hh h0 hw hn hk⟩
  obtain ⟨k', kd, e1, -, e2⟩ := C107_own O env hist hh w0 h0 w hw n e h2.mem
  rw [h3] at e1; cases e1
  exact ⟨kd, e2⟩

namespace Concrete

/-- an account, a message with a key, an interrupted import, a whole import and gossip -/
def keyHistory : List (Happening Unit) :=
  [.call addA, .call (recv bob (str!"m1") (str!"100") [1, 2]), .killed (.importKey (str!"a") (some (str!"dave@x.org")) [3, 4] (str!"mutual")) 60,
   .call (.importKey (str!"a") (some (str!"eve@x.org")) [5, 6] (str!"mutual")),
   .call (recvEnc (str!"m2") (str!"200") [] [gossipField carol [7, 8]])]

end Concrete

/-- `C107_peers`, `C107_own`, `C107_encrypted`: keys are recorded in these ways and used -/
example : (∀ c ∈ callsMade Concrete.keyHistory, ¬ c.Records) ∧ Concrete.world0.store = [] ∧ Concrete.env.isalnum (str!"a") = true ∧
    let w := runHistory Store.impl Concrete.oracle Concrete.env Concrete.keyHistory Concrete.world0
    (Peer.msgs (w.log (peerHead (str!"a") Concrete.bob))).map (·.keyhandle) = [[], str!"AAAAAAAAAAAA0102"] ∧
    (Peer.msgs (w.log (peerHead (str!"a") (str!"eve@x.org")))).map (·.keyhandle) = [str!"AAAAAAAAAAAA0506"] ∧
    (Peer.gossips (w.log (peerHead (str!"a") Concrete.carol))).map (·.keyhandle) = [str!"AAAAAAAAAAAA0708"] ∧
    (Own.latestKeygen (w.log (ownHead (str!"a")))).map (·.keyhandle) = some (some (str!"BBBBBBBBBBBBBBBB")) ∧
    (exec Concrete.oracle (Account.encryptMime Concrete.env (str!"a") (Concrete.mail (str!"a@x.org") (str!"m3") (str!"300") [])
      [Concrete.bob, str!"eve@x.org", Concrete.carol, str!"a@x.org"]) w).1.toOption.map (·.keyhandles) =
        some [str!"AAAAAAAAAAAA0102", str!"AAAAAAAAAAAA0506", str!"AAAAAAAAAAAA0708", str!"BBBBBBBBBBBBBBBB"] := by
  refine ⟨?_, rfl, by decide +kernel, ?_, ?_, ?_, ?_, ?_⟩
  · rintro c ⟨h, hh, hm⟩
    simp only [Concrete.keyHistory, List.mem_cons, List.not_mem_nil, or_false] at hh
    rcases hh with rfl | rfl | rfl | rfl | rfl <;> cases hm <;> exact id
  all_goals decide +kernel

end Verif
