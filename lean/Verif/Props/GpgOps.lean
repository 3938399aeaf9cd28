import Verif.Props.Gpg
import Verif.Props.Listing
import Verif.Spec.Concrete
import Verif.Model.Api
/-!
# Signatures, minimised keys and secret keys (C92 - C94)
-/
namespace Verif
open BinGPG

variable {σ K : Type}

/-- gpg ran and exited with 0 -/
def Gpg (argv : List Str) (stdin : Option Bytes) (out : GpgOut) : Event := ⟨.gpg argv stdin, (.ok out : Except Exc GpgOut)⟩

theorem gpgOuterr_said {S : StoreImpl σ} {O : Oracle K} {env : Env} {g : BinGPG} {args : List Str} {input : Option Bytes} {s d : Bool}
    {w w' : World σ K} {r : Bytes × Str} (h : run S O (gpgOuterr env g args input s d) w = (.ok r, w')) :
    ∃ out, w'.trace = Gpg (commandLine g args) input out :: w.trace ∧ out.ret = 0 ∧ out.out = r.1 ∧ env.utf8Decode out.err = .ok r.2 := by
  obtain ⟨ret, w1, h1, htr, -⟩ := run_gpgOuterr S O env g args input s d w
  rw [h1] at h
  cases ret with
  | error e => cases h
  | ok out =>
    have hc : checkResult env s d out = .ok r := congrArg Prod.fst h
    have hw : w1 = w' := congrArg Prod.snd h
    obtain ⟨h0, ho, he, -⟩ := checkResult_returns hc
    exact ⟨out, by rw [← hw, htr, argv_eq]; rfl, h0, ho.symm, he⟩

/-- the options which keep gpg from asking for the passphrase of a secret key, for a gpg which told its version: since gpg 2.1
the passphrase option alone has no effect -/
def Unlocks (env : Env) (version : GpgOut) (opts : List Str) : Prop :=
  ∃ text b, env.utf8Decode version.out = .ok text ∧ versionGe env text (str!"2.1") = .ok b ∧
    opts = [str!"--passphrase", str!"123"] ++ if b = true then [str!"--pinentry-mode=loopback"] else []

theorem nopassphrase_said {S : StoreImpl σ} {O : Oracle K} {env : Env} {g : BinGPG} {w w' : World σ K} {np : List Str}
    (h : run S O (nopassphrase env g) w = (.ok np, w')) :
    ∃ v, w'.trace = Gpg (commandLine g [str!"--version"]) none v :: w.trace ∧ v.ret = 0 ∧ Unlocks env v np := by
  unfold nopassphrase versionAtLeast versionInfo at h
  simp only [bind_eq, pure_eq] at h
  obtain ⟨b, w1, h1, h2⟩ := run_bind_ok.mp h
  obtain ⟨text, w2, h3, h4⟩ := run_bind_ok.mp h1
  rw [run_ofExcept] at h4
  obtain ⟨v, htr, h0, hdec, -⟩ := gpgOutText_ok h3
  cases h2
  obtain ⟨h5, h6⟩ := Prod.mk.inj h4
  exact ⟨v, by rw [← h6, htr, argv_eq]; rfl, h0, text, b, hdec, h5, rfl⟩

/-- gpg found the key `k` in messages which it wrote, between `w` and `w'`: it is the first one named; if it has at most 8 digits
then the id of a key which gpg lists for it -/
def NamedKey (env : Env) (g : BinGPG) (msgs : Bytes) (k : Str) (w w' : World σ K) : Prop :=
  ∃ text x, env.utf8Decode msgs = .ok text ∧ FirstKey text x ∧ (8 < x.length ∧ k = x ∧ w' = w ∨
    x.length ≤ 8 ∧ (EndsWith k x ∨ EndsWith x k) ∧ k ≠ [] ∧ ListedFor env g x k w w')

/-! ## C92 -/

/-- C92: a signature is what gpg wrote when it was told to sign exactly these data with exactly this key -/
theorem C92_sign {S : StoreImpl σ} {O : Oracle K} {env : Env} {g : BinGPG} {data s : Bytes} {kh : Str} {w w' : World σ K}
    (h : run S O (sign env g data kh) w = (.ok s, w')) :
    ∃ v out opts, w'.trace = Gpg (commandLine g (opts ++ [str!"--detach-sign", str!"-u", kh])) (some data) out ::
        Gpg (commandLine g [str!"--version"]) none v :: w.trace ∧
      out.ret = 0 ∧ out.out = s ∧ Unlocks env v opts := by
  unfold sign at h
  simp only [bind_eq, pure_eq] at h
  obtain ⟨np, w1, h1, h⟩ := run_bind_ok.mp h
  obtain ⟨r, w2, h2, h⟩ := run_bind_ok.mp h
  obtain ⟨v, t1, -, hu⟩ := nopassphrase_said h1
  obtain ⟨out, t2, h0, ho, -⟩ := gpgOuterr_said h2
  cases h
  exact ⟨v, out, np, by rw [t2, t1], h0, ho, hu⟩

/-- C92: a signature is only accepted if gpg, told to verify exactly this signature and these data, exits with 0. The key reported is
the one which gpg names. -/
theorem C92_verify {S : StoreImpl σ} {O : Oracle K} {env : Env} {g : BinGPG} {data sig : Bytes} {k : Str} {w w' : World σ K}
    (h : run S O (verify env g data sig) w = (.ok k, w')) :
    ∃ name out w1, w1.trace = ⟨.rmTemp name, (.ok () : Except Exc Unit)⟩ :: Gpg (commandLine g [str!"--verify", name, str!"-"]) (some data) out ::
        ⟨.writeTemp name sig, (.ok () : Except Exc Unit)⟩ :: ⟨.mkTemp, (.ok name : Except Exc Str)⟩ :: w.trace ∧
      out.ret = 0 ∧ NamedKey env g out.err k w1 w' := by
  unfold verify at h
  simp only [bind_eq] at h
  obtain ⟨r, w3, h1, h2⟩ := run_bind_ok.mp h
  rcases run_withTempFile S O sig (fun fn => gpgOuterr env g [str!"--verify", fn, str!"-"] (some data)) w with
    ⟨e, v, hv, -⟩ | ⟨name, v1, rr, v3, ht1, ht3, hr⟩
  · rw [hv] at h1; cases h1
  · rw [hr] at h1
    obtain ⟨g1, g2⟩ := Prod.mk.inj h1
    cases rr with
    | error e => cases g1
    | ok u =>
      dsimp only at g1 ht3
      rcases hb : run S O (gpgOuterr env g [str!"--verify", name, str!"-"] (some data)) v1 with ⟨x, v2⟩
      rw [hb] at g1 ht3
      dsimp only at g1 ht3
      subst g1
      obtain ⟨out, t, h0, -, he⟩ := gpgOuterr_said hb
      obtain ⟨x, hx, hcase⟩ := C60_handle_partial h2
      exact ⟨name, out, w3, by rw [← g2, ht3, t, ht1], h0, r.2, x, he, hx, hcase⟩

/-! ## C93 -/

/-- C93: after a minimised import, the last thing that gpg did with the key ring was to import the minimal form of the key, which
it had exported just before it deleted the key: nothing of the data imported first remains but what the minimal form has. The key
is the same. -/
theorem C93_minimize {S : StoreImpl σ} {O : Oracle K} {env : Env} {g : BinGPG} {kd : Bytes} {k : Str} {w w' : World σ K}
    (h : run S O (importKeydata env g kd true) w = (.ok k, w')) :
    ∃ (first small del second : GpgOut) (w1 w2 : World σ K), first.ret = 0 ∧ small.ret = 0 ∧ del.ret = 0 ∧ second.ret = 0 ∧
      (∃ v : World σ K, v.trace = Gpg (commandLine g [str!"--skip-verify", str!"--import"]) (some kd) first :: w.trace ∧
        NamedKey env g first.err k v w1) ∧
      w2.trace = Gpg (commandLine g [str!"--skip-verify", str!"--import"]) (some small.out) second ::
        Gpg (commandLine g [str!"--yes", str!"--delete-key", k]) none del ::
        Gpg (commandLine g [str!"--export-options=export-minimal", str!"--export", k]) none small :: w1.trace ∧
      NamedKey env g second.err k w2 w' := by
  unfold importKeydata at h
  simp only [bind_eq, pure_eq, if_true] at h
  obtain ⟨r, w1, h1, h⟩ := run_bind_ok.mp h
  obtain ⟨kh, w2, h2, h⟩ := run_bind_ok.mp h
  obtain ⟨small, w3, h3, h⟩ := run_bind_ok.mp h
  obtain ⟨r4, w4, h4, h⟩ := run_bind_ok.mp h
  obtain ⟨r5, w5, h5, h⟩ := run_bind_ok.mp h
  obtain ⟨kh2, w6, h6, h⟩ := run_bind_ok.mp h
  obtain ⟨_, w7, h7, h⟩ := run_bind_ok.mp h
  unfold getPublicKeydata at h3
  simp only [bind_eq, pure_eq] at h3
  obtain ⟨r3, w3', h3, h3'⟩ := run_bind_ok.mp h3
  obtain ⟨out1, t1, z1, -, e1⟩ := gpgOuterr_said h1
  obtain ⟨out3, t3, z3, o3, -⟩ := gpgOuterr_said h3
  obtain ⟨out4, t4, z4, -, -⟩ := gpgOuterr_said h4
  obtain ⟨out5, t5, z5, -, e5⟩ := gpgOuterr_said h5
  obtain ⟨x, hx, hc⟩ := C60_handle_partial h2
  obtain ⟨y, hy, hd⟩ := C60_handle_partial h6
  rw [run_assert] at h7
  cases h3'
  split at h7
  · rename_i heq
    cases h7
    cases h
    have heq : kh2 = k := by simpa using heq
    subst heq
    refine ⟨out1, out3, out4, out5, w2, w5, z1, z3, z4, z5, ⟨w1, t1, r.2, x, e1, hx, hc⟩, ?_, r5.2, y, e5, hy, hd⟩
    rw [t5, t4, t3, o3]; rfl
  · cases h7

/-! ## C94 -/

/-- C94: a secret key is exported without a dialog, and only if gpg reports success -/
theorem C94_export {S : StoreImpl σ} {O : Oracle K} {env : Env} {g : BinGPG} {kh : Str} {armor : Bool} {kd : Bytes} {w w' : World σ K}
    (h : run S O (getSecretKeydata env g kh armor) w = (.ok kd, w')) :
    ∃ v out opts, w'.trace = Gpg (commandLine g ((if armor then [str!"-a"] else []) ++ opts ++
          [str!"--export-options=export-minimal", str!"--export-secret-key", kh])) none out ::
        Gpg (commandLine g [str!"--version"]) none v :: w.trace ∧ out.ret = 0 ∧ out.out = kd ∧ Unlocks env v opts := by
  unfold getSecretKeydata at h
  simp only [bind_eq, pure_eq] at h
  obtain ⟨np, w1, h1, h⟩ := run_bind_ok.mp h
  obtain ⟨r, w2, h2, h⟩ := run_bind_ok.mp h
  obtain ⟨v, t1, -, hu⟩ := nopassphrase_said h1
  obtain ⟨out, t2, h0, ho, -⟩ := gpgOuterr_said h2
  cases h
  exact ⟨v, out, np, by rw [t2, t1], h0, ho, hu⟩

/-- C94: data are encrypted, and signed, without a dialog, and only if gpg reports success -/
theorem C94_encrypt {S : StoreImpl σ} {O : Oracle K} {env : Env} {g : BinGPG} {data enc : Bytes} {rs : List Str} {kh : Str} {text : Bool}
    (hk : kh ≠ []) {w w' : World σ K} (h : run S O (encrypt env g data rs kh text) w = (.ok enc, w')) :
    ∃ v out opts, w'.trace = Gpg (commandLine g (opts ++ [str!"--encrypt", str!"--always-trust"] ++ (rs.map fun r => [str!"-r", r]).flatten ++
          [str!"--sign", str!"-u", kh] ++ (if text then [str!"--armor"] else []))) (some data) out ::
        Gpg (commandLine g [str!"--version"]) none v :: w.trace ∧ out.ret = 0 ∧ out.out = enc ∧ Unlocks env v opts := by
  unfold encrypt at h
  simp only [bind_eq, pure_eq] at h
  obtain ⟨np, w1, h1, h⟩ := run_bind_ok.mp h
  obtain ⟨r, w2, h2, h⟩ := run_bind_ok.mp h
  obtain ⟨v, t1, -, hu⟩ := nopassphrase_said h1
  obtain ⟨out, t2, h0, ho, -⟩ := gpgOuterr_said h2
  cases h
  have : kh.isEmpty = false := by cases kh <;> simp_all
  refine ⟨v, out, np, ?_, h0, ho, hu⟩
  rw [t2, t1, encryptOpts, this, ← List.flatMap_def]
  rfl

/-- C94: data are decrypted without a dialog, and only if gpg reports success -/
theorem C94_decrypt {S : StoreImpl σ} {O : Oracle K} {env : Env} {g : BinGPG} {enc data : Bytes} {infos : List KeyInfo} {w w' : World σ K}
    (h : run S O (decrypt env g enc) w = (.ok (data, infos), w')) :
    ∃ v out opts, w'.trace = Gpg (commandLine g (opts ++ [str!"--with-colons", str!"--decrypt"])) (some enc) out ::
        Gpg (commandLine g [str!"--version"]) none v :: w.trace ∧ out.ret = 0 ∧ out.out = data ∧ Unlocks env v opts := by
  unfold decrypt at h
  simp only [bind_eq, pure_eq] at h
  obtain ⟨np, w1, h1, h⟩ := run_bind_ok.mp h
  obtain ⟨r, w2, h2, h⟩ := run_bind_ok.mp h
  obtain ⟨i, w3, h3, h⟩ := run_bind_ok.mp h
  obtain ⟨v, t1, -, hu⟩ := nopassphrase_said h1
  obtain ⟨out, t2, h0, ho, -⟩ := gpgOuterr_said h2
  rw [run_ofExcept] at h3
  obtain ⟨-, g2⟩ := Prod.mk.inj h3
  cases h
  exact ⟨v, out, np, by rw [← g2, t2, t1], h0, ho, hu⟩

/-- a request for a key, as gpg reads it in batch mode: an RSA key for signatures and a subkey for encryption, both of 3072 bits, for
this address, which don't expire -/
def KeyRequest (addr text : Str) : Prop :=
  Py.splitlines text = [str!"Key-Type: RSA", str!"Key-Length: 3072", str!"Key-Usage: sign", str!"Subkey-Type: RSA", str!"Subkey-Length: 3072",
    str!"Subkey-Usage: encrypt", str!"Name-Email: " ++ addr, str!"Expire-Date: 0", str!"%commit"]

theorem splitlinesAux_append (l : Str) (hl : ∀ c ∈ l, Py.isLineBreak c = false) (rest acc : Str) :
    Py.splitlinesAux false acc (l ++ '\n' :: rest) = (acc.reverse ++ l) :: Py.splitlinesAux false [] rest := by
  induction l generalizing acc with
  | nil => simp [Py.splitlinesAux, Py.isLineBreak]
  | cons c cs ih =>
    rw [List.cons_append, Py.splitlinesAux, if_neg (by simp), if_neg (by rw [hl c (List.mem_cons_self ..)]; simp),
      ih fun x hx => hl x (List.mem_cons_of_mem _ hx)]
    simp

theorem keySpec_request {addr : Str} (ha : ∀ c ∈ addr, Py.isLineBreak c = false) : KeyRequest addr (keySpec addr) := by
  have h2 : Py.splitlinesAux false [] (str!"Expire-Date: 0\n%commit") = [str!"Expire-Date: 0", str!"%commit"] := by decide +kernel
  have h1 : Py.splitlinesAux false [] (str!"Name-Email: " ++ addr ++ str!"\nExpire-Date: 0\n%commit") =
      [str!"Name-Email: " ++ addr, str!"Expire-Date: 0", str!"%commit"] := by
    rw [← h2]
    refine splitlinesAux_append (str!"Name-Email: " ++ addr) (fun c hc => ?_) _ []
    rcases List.mem_append.mp hc with h | h
    · exact (by decide : ∀ c ∈ str!"Name-Email: ", Py.isLineBreak c = false) c h
    · exact ha c h
  have step : ∀ (l r : Str), (∀ c ∈ l, Py.isLineBreak c = false) →
      Py.splitlinesAux false [] (l ++ '\n' :: r) = l :: Py.splitlinesAux false [] r := fun l r h => splitlinesAux_append l h r []
  unfold KeyRequest
  rw [← h1, ← step (str!"Subkey-Usage: encrypt") _ (by decide), ← step (str!"Subkey-Length: 3072") _ (by decide),
    ← step (str!"Subkey-Type: RSA") _ (by decide), ← step (str!"Key-Usage: sign") _ (by decide),
    ← step (str!"Key-Length: 3072") _ (by decide), ← step (str!"Key-Type: RSA") _ (by decide)]
  unfold Py.splitlines keySpec
  simp only [List.cons_append, List.nil_append]

/-- C94: a new key is made from a request for this address, without a dialog, and only if gpg reports success; the file with the request
is removed. The key reported is the one which gpg names. -/
theorem C94_generate {S : StoreImpl σ} {O : Oracle K} {env : Env} {g : BinGPG} {addr k : Str} (ha : ∀ c ∈ addr, Py.isLineBreak c = false)
    {w w' : World σ K} (h : run S O (genSecretKey env g addr) w = (.ok k, w')) :
    ∃ request name v out opts w1, KeyRequest addr request ∧
      w1.trace = ⟨.rmTemp name, (.ok () : Except Exc Unit)⟩ :: Gpg (commandLine g (opts ++ [str!"--gen-key", name])) none out ::
        Gpg (commandLine g [str!"--version"]) none v :: ⟨.writeTemp name (env.utf8Encode request), (.ok () : Except Exc Unit)⟩ ::
        ⟨.mkTemp, (.ok name : Except Exc Str)⟩ :: w.trace ∧
      out.ret = 0 ∧ Unlocks env v opts ∧ NamedKey env g out.err k w1 w' := by
  unfold genSecretKey at h
  simp only [bind_eq] at h
  obtain ⟨r, w3, h1, h2⟩ := run_bind_ok.mp h
  rcases run_withTempFile S O (env.utf8Encode (keySpec addr)) (fun fn => (nopassphrase env g).bind fun np =>
      gpgOuterr env g (np ++ [str!"--gen-key", fn])) w with ⟨e, v, hv, -⟩ | ⟨name, v1, rr, v3, ht1, ht3, hr⟩
  · rw [hv] at h1; cases h1
  · rw [hr] at h1
    obtain ⟨g1, g2⟩ := Prod.mk.inj h1
    cases rr with
    | error e => cases g1
    | ok u =>
      dsimp only at g1 ht3
      rcases hb : run S O ((nopassphrase env g).bind fun np => gpgOuterr env g (np ++ [str!"--gen-key", name])) v1 with ⟨x, v2⟩
      rw [hb] at g1 ht3
      dsimp only at g1 ht3
      subst g1
      obtain ⟨np, v4, h3, h4⟩ := run_bind_ok.mp hb
      obtain ⟨v, t1, -, hu⟩ := nopassphrase_said h3
      obtain ⟨out, t, h0, -, he⟩ := gpgOuterr_said h4
      obtain ⟨x, hx, hcase⟩ := C60_handle_partial h2
      exact ⟨keySpec addr, name, v, out, np, w3, keySpec_request ha, by rw [← g2, ht3, t, t1, ht1], h0, hu, r.2, x, he, hx, hcase⟩

/-- C94: a new account for which no key is chosen gets a new key, for an address made from a random identifier, not for an address of
the user -/
theorem C94_account {S : StoreImpl σ} {O : Oracle K} {env : Env} {n : Str} {regex : Option Str} {bin mode : Str} {w w' : World σ K} {a : Str}
    (h : run S O (Manager.addAccount env n regex none bin mode) w = (.ok a, w')) :
    ∃ (g : BinGPG) (id k : Str) (w1 w2 w3 : World σ K), w.trace <:+ w1.trace ∧ w3.trace <:+ w'.trace ∧
      run S O Prog.uuid w1 = (.ok id, w2) ∧ w2.trace = ⟨.uuid, id⟩ :: w1.trace ∧
      ((∀ c ∈ id, Py.isLineBreak c = false) → ∃ request name v out opts old, KeyRequest (id ++ str!"@random.muacrypt.org") request ∧
        w2.trace <:+ old ∧ ∃ w4 : World σ K,
        w4.trace = ⟨.rmTemp name, (.ok () : Except Exc Unit)⟩ :: Gpg (commandLine g (opts ++ [str!"--gen-key", name])) none out ::
          Gpg (commandLine g [str!"--version"]) none v :: ⟨.writeTemp name (env.utf8Encode request), (.ok () : Except Exc Unit)⟩ ::
        ⟨.mkTemp, (.ok name : Except Exc Str)⟩ :: old ∧
        out.ret = 0 ∧ Unlocks env v opts ∧ NamedKey env g out.err k w4 w3) := by
  have le : ∀ {α : Type} {p : Prog α} {v v' : World σ K} {r : Except Exc α}, run S O p v = (r, v') → v.trace <:+ v'.trace := by
    intro α p v v' r h
    have := run_trace (S := S) (O := O) p v
    rw [h] at this; exact this
  unfold Manager.addAccount at h
  simp only [bind_eq, pure_eq] at h
  obtain ⟨a1, w1, h1, h⟩ := run_bind_ok.mp h
  obtain ⟨ex, w2, h2, h⟩ := run_bind_ok.mp h
  cases ex with
  | true => cases h
  | false =>
    rw [if_neg (by simp)] at h
    obtain ⟨u, w3, h3, h⟩ := run_bind_ok.mp h
    unfold Account.create at h3
    simp only [bind_eq] at h3
    obtain ⟨md, w4, h4, h3⟩ := run_bind_ok.mp h3
    obtain ⟨u5, w5, h5, h3⟩ := run_bind_ok.mp h3
    obtain ⟨k, w6, h6, h3⟩ := run_bind_ok.mp h3
    unfold Account.createKey at h6
    simp only [bind_eq] at h6
    obtain ⟨id, w7, h7, h6⟩ := run_bind_ok.mp h6
    obtain ⟨g, w8, h8, h6⟩ := run_bind_ok.mp h6
    refine ⟨g, id, k, w5, w7, w6, (le h1).trans ((le h2).trans ((le h4).trans (le h5))), (le h3).trans (le h), h7, ?_, fun hid => ?_⟩
    · simp only [Prog.uuid, run, step] at h7
      obtain ⟨e1, e2⟩ := Prod.mk.inj h7
      cases e1
      rw [← e2]
    · obtain ⟨request, name, v, out, opts, w4, g1, g2, g3, g4, g5⟩ := C94_generate (addr := id ++ str!"@random.muacrypt.org") (fun c hc => by
        rcases List.mem_append.mp hc with hc | hc
        · exact hid c hc
        · exact (by decide : ∀ c ∈ str!"@random.muacrypt.org", Py.isLineBreak c = false) c hc) h6
      exact ⟨request, name, v, out, opts, w8.trace, g1, le h8, w4, g2, g3, g4, g5⟩

namespace Concrete

/-- a gpg for which the key BBBBBBBBBBBBBBBB made all signatures which begin with 1 -/
def signGpg (argv : List Str) (stdin : Option Bytes) (sig : Bytes) : GpgOut :=
  if str!"--verify" ∈ argv then
    if sig.headD 0 = 1 then ⟨0, [], bs (str!"gpg: using RSA key BBBBBBBBBBBBBBBB")⟩ else ⟨1, [], bs (str!"gpg: BAD signature")⟩
  else if str!"--detach-sign" ∈ argv then ⟨0, 1 :: stdin.getD [], []⟩
  else gpg argv stdin

/-- an environment in which the hidden state is the temporary file -/
def signing : Oracle Bytes where
  step o k := match o with
    | .gpg a i => (.ok (signGpg a i k), k)
    | .writeTemp _ d => (.ok (), d)
    | o => ((oracle.step o ()).1, k)

/-- the start -/
def signWorld : World Store Bytes := { store := [], clock := fun i => sec (1000 + i), tick := 0, env := [], trace := [] }

/-- `C92_sign`, `C92_verify`: a signature is made and accepted, another one isn't -/
example : (run Store.impl signing (sign env ⟨none, str!"gpg"⟩ [7, 8] (str!"BBBB")) signWorld).1.toOption = some [1, 7, 8] ∧
    (run Store.impl signing (verify env ⟨none, str!"gpg"⟩ [7, 8] [1, 7, 8]) signWorld).1.toOption = some (str!"BBBBBBBBBBBBBBBB") ∧
    (run Store.impl signing (verify env ⟨none, str!"gpg"⟩ [7, 8] [2, 7, 8]) signWorld).1.exc? = some .invocationFailure := by
  decide +kernel

/-- `C93_minimize`: a key is imported and minimised -/
example : (exec oracle (importKeydata env ⟨none, str!"gpg"⟩ [1, 2] true) world0).1.toOption = some (str!"AAAAAAAAAAAA0102") := by
  decide +kernel

/-- `C94_export`, `C94_encrypt`, `C94_decrypt`, `C94_generate` and `C94_account`: these return -/
example : (exec oracle (getSecretKeydata env ⟨none, str!"gpg"⟩ (str!"BBBB") true) world0).1.toOption = some (bs (str!"secret")) ∧
    (exec oracle (encrypt env ⟨none, str!"gpg"⟩ [1, 2] [str!"CCCC"] (str!"BBBB") true) world0).1.toOption = some [1, 2] ∧
    ((exec oracle (decrypt env ⟨none, str!"gpg"⟩ [1, 2]) world0).1.toOption.map (·.1)) = some [1, 2] ∧
    (exec oracle (genSecretKey env ⟨none, str!"gpg"⟩ (str!"u1@random.muacrypt.org")) world0).1.toOption = some (str!"BBBBBBBBBBBBBBBB") ∧
    (exec oracle (Manager.addAccount env (str!"a") none none (str!"gpg") (str!"own")) world0).1.toOption = some (str!"a") := by
  decide +kernel

end Concrete

end Verif
