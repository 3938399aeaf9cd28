import Verif.Props.Recommendation
import Verif.Lemmas.Events
import Verif.Lemmas.Mime
import Mathlib.Data.List.Forall2
/-!
# What `encrypt_mime` does

Specification of the keys used for encryption, and the possible courses of `encrypt_mime`.
-/
namespace Verif
open Mime

variable {K : Type}

/-! ## Specification -/

/-- handle and data of the key which a peer's state gives for encryption: of the newest message with a key if it was
imported, otherwise of the newest gossip -/
def PeerKey (es : List Entry) (kh : Str) (kd : Bytes) : Prop :=
  (∃ m, UsableKey es m ∧ kh = m.keyhandle ∧ kd = m.keydata) ∨
  ((¬ ∃ m, UsableKey es m) ∧
    ∃ g, Newest Entry.IsGossip es (.gossip g) ∧ g.keyhandle ≠ [] ∧ kh = g.keyhandle ∧ kd = g.keydata)

/-- the account's own key: the newest key generation entry -/
def OwnKey (w : World Store K) (n kh : Str) : Prop :=
  ∃ k, Newest (fun e => ∃ k, e = Entry.keygen k) (w.log (ownHead n)) (.keygen k) ∧ k.keyhandle = some kh

/-- the account's newest configuration -/
def OwnConf (w : World Store K) (n : Str) (c : OwnConfig) : Prop :=
  Newest (fun e => ∃ c, e = Entry.cfg c) (w.log (ownHead n)) (.cfg c)

/-- the entries known about the peer with an address -/
def peerLog (env : Env) (w : World Store K) (n a : Str) : List Entry := w.log (peerHead n (address env (some a)))

/-- the address matches the account's pattern -/
def OwnAddress (env : Env) (w : World Store K) (n a : Str) : Prop :=
  ∃ c, OwnConf w n c ∧ env.reMatch c.emailRegex a = .ok true

/-- `kh` is the key to encrypt to for address `a` -/
def RecipientKey (env : Env) (w : World Store K) (n a kh : Str) : Prop :=
  (∃ kd, PeerKey (peerLog env w n a) kh kd) ∨
  (¬ KnownKey (peerLog env w n a) ∧ OwnAddress env w n a ∧ OwnKey w n kh)

/-- the header field with the gossip for one address -/
def GossipField (env : Env) (w : World Store K) (n a : Str) (h : Str × Str) : Prop :=
  h.1 = str!"Autocrypt-Gossip" ∧ ∃ kh kd, PeerKey (peerLog env w n a) kh kd ∧
    makeAcHeaderValue env (some a) kd (str!"nopreference") = .ok h.2

open Classical in
/-- the addresses with a known key -/
noncomputable def knownAddrs (env : Env) (w : World Store K) (n : Str) (as : List Str) : List Str :=
  as.filter fun a => KnownKey (peerLog env w n a)

/-! ## Lemmas -/

theorem peerKey_iff {es : List Entry} {kh : Str} {kd : Bytes} :
    PeerKey es kh kd ↔ Peer.publicKeyhandle es = kh ∧ Peer.publicKeydata es = kd ∧ kh ≠ [] := by
  unfold PeerKey UsableKey
  simp only [← latestAc_iff, ← latestGossip_iff]
  unfold Peer.publicKeyhandle Peer.publicKeydata Peer.entryForEncryption
  cases h1 : Peer.latestAc es with
  | none =>
    cases h2 : Peer.latestGossip es with
    | none => simp; intro h; exact fun _ => h
    | some g =>
      simp only [reduceCtorEq, false_and, exists_false, not_false_eq_true, true_and, false_or, Option.map_some, Option.some.injEq,
        exists_eq_left', ne_eq]
      constructor
      · rintro ⟨h, rfl, rfl⟩; exact ⟨rfl, rfl, h⟩
      · rintro ⟨rfl, rfl, h⟩; exact ⟨h, rfl, rfl⟩
  | some m =>
    cases h3 : m.keyhandle with
    | nil =>
      cases h2 : Peer.latestGossip es with
      | none => simp [h3]; intro h; exact fun _ => h
      | some g =>
        simp [h3]
        constructor
        · rintro ⟨h, rfl, rfl⟩; exact ⟨rfl, rfl, h⟩
        · rintro ⟨rfl, rfl, h⟩; exact ⟨h, rfl, rfl⟩
    | cons c t =>
      simp [h3]
      constructor
      · rintro ⟨rfl, rfl⟩; exact ⟨rfl, rfl, by simp⟩
      · rintro ⟨rfl, rfl, h⟩; exact ⟨rfl, rfl⟩

theorem PeerKey.known {es : List Entry} {kh : Str} {kd : Bytes} (h : PeerKey es kh kd) : KnownKey es := by
  rw [← knownKey_iff]
  obtain ⟨h1, _, h2⟩ := peerKey_iff.mp h
  rw [h1]
  cases kh <;> simp_all

theorem known_peerKey {es : List Entry} (h : KnownKey es) : ∃ kh kd, PeerKey es kh kd := by
  refine ⟨_, _, peerKey_iff.mpr ⟨rfl, rfl, ?_⟩⟩
  intro h'
  have := knownKey_iff.mpr h
  rw [h'] at this; cases this

theorem PeerKey.unique {es : List Entry} {kh kh' : Str} {kd kd' : Bytes} (h : PeerKey es kh kd) (h' : PeerKey es kh' kd') :
    kh = kh' ∧ kd = kd' := by
  rw [peerKey_iff] at h h'
  exact ⟨h.1.symm.trans h'.1, h.2.1.symm.trans h'.2.1⟩

theorem latestKeygen_iff {es : List Entry} {k : KeygenEntry} :
    Own.latestKeygen es = some k ↔ Newest (fun e => ∃ k, e = Entry.keygen k) es (.keygen k) := by
  have h := newest_find Entry.keygen? (fun _ => true) Entry.keygen (fun x c => by cases x <;> simp [Entry.keygen?]) es k
  have h2 : (es.filterMap Entry.keygen?).find? (fun _ => true) = Own.latestKeygen es := by
    rw [Own.latestKeygen]
    cases es.filterMap Entry.keygen? <;> rfl
  rw [h2] at h
  exact h.trans (Newest.congr fun x => by simp)

theorem exec_config (O : Oracle K) (n : Str) (w : World Store K) :
    exec O (Own.config n) w =
      (match Own.latestConfig (w.log (ownHead n)) with | some c => .ok c | none => .error .attributeError, w) := by
  simp only [Own.config, bind_eq, pure_eq, exec, run_bind]
  rw [show run Store.impl O (Prog.chain (ownHead n)) w = (.ok (w.store.get (ownHead n)), w) from rfl]
  dsimp only [World.log]
  cases Own.latestConfig (w.store.get (ownHead n)) <;> rfl

theorem exec_ownKeyhandle (O : Oracle K) (n : Str) (w : World Store K) :
    exec O (Account.ownKeyhandle n) w =
      (match Own.latestKeygen (w.log (ownHead n)) with
        | some k => (match k.keyhandle with | some kh => .ok kh | none => .error .typeError)
        | none => .error .attributeError, w) := by
  simp only [Account.ownKeyhandle, Own.keyhandle, bind_eq, pure_eq, exec, run_bind]
  rw [show run Store.impl O (Prog.chain (ownHead n)) w = (.ok (w.store.get (ownHead n)), w) from rfl]
  dsimp only [World.log]
  cases Own.latestKeygen (w.store.get (ownHead n)) with
  | none => rfl
  | some k => dsimp only [run]; cases k.keyhandle <;> rfl

theorem exec_config_ok {O : Oracle K} {n : Str} {w w' : World Store K} {c : OwnConfig} (h : exec O (Own.config n) w = (.ok c, w')) :
    OwnConf w n c ∧ w' = w := by
  rw [exec_config] at h
  refine ⟨latestConfig_iff.mp ?_, (congrArg Prod.snd h).symm⟩
  have h1 := congrArg Prod.fst h
  dsimp only at h1
  split at h1
  · rename_i c' hc; cases h1; exact hc
  · cases h1

theorem exec_ownKeyhandle_ok {O : Oracle K} {n : Str} {w w' : World Store K} {kh : Str}
    (h : exec O (Account.ownKeyhandle n) w = (.ok kh, w')) : OwnKey w n kh ∧ w' = w := by
  rw [exec_ownKeyhandle] at h
  refine ⟨?_, (congrArg Prod.snd h).symm⟩
  have h1 := congrArg Prod.fst h
  dsimp only at h1
  split at h1
  · rename_i k hk
    split at h1
    · rename_i kh' hkh; cases h1; exact ⟨k, latestKeygen_iff.mp hk, hkh⟩
    · cases h1
  · cases h1

theorem exec_ownKeyhandle_store {O : Oracle K} {n kh : Str} {w w' : World Store K} (hst : w'.store = w.store)
    (h : exec O (Account.ownKeyhandle n) w = (.ok kh, w)) : exec O (Account.ownKeyhandle n) w' = (.ok kh, w') := by
  rw [exec_ownKeyhandle] at h ⊢
  unfold World.log at h ⊢
  rw [hst]
  exact Prod.ext (congrArg Prod.fst h :) rfl

theorem OwnKey.unique {w : World Store K} {n kh kh' : Str} (h : OwnKey w n kh) (h' : OwnKey w n kh') : kh = kh' := by
  obtain ⟨k, h1, h2⟩ := h
  obtain ⟨k', h1', h2'⟩ := h'
  have := h1.unique h1'
  cases this
  rw [h2] at h2'; exact Option.some.inj h2'

theorem OwnConf.unique {w : World Store K} {n : Str} {c c' : OwnConfig} (h : OwnConf w n c) (h' : OwnConf w n c') : c = c' := by
  have := Newest.unique h h'
  cases this; rfl

/-- a program which reads only the store has no other effects -/
def Op.storeRead : Op → Prop
  | .chain _ | .heads => True
  | _ => False

theorem run_storeRead {O : Oracle K} {α : Type} {p : Prog α} (hp : p.AllOps Op.storeRead) (w : World Store K) :
    (exec O p w).2 = w :=
  run_invariant (I := fun w' => w' = w) (P := Op.storeRead)
    (fun o w' ho hw => by cases o <;> first | exact ho.elim | exact hw) hp rfl

theorem encLoop_storeRead (env : Env) (n : Str) (acc : Account.EncAcc) (l : List Str) :
    (Account.encLoop env n acc l).AllOps Op.storeRead := by
  induction l generalizing acc with
  | nil => trivial
  | cons a l ih =>
    unfold Account.encLoop Own.config Account.ownKeyhandle Own.keyhandle
    simp only [bind_eq, pure_eq]
    allops <;> exact ih _

/-- the loop over the addresses -/
theorem encLoop_ok {O : Oracle K} {env : Env} {n : Str} {w w' : World Store K} {as : List Str} {acc acc' : Account.EncAcc}
    (h : exec O (Account.encLoop env n acc as) w = (.ok acc', w')) :
    ∃ khs gs, acc'.keyhandles = acc.keyhandles ++ khs ∧ List.Forall₂ (RecipientKey env w n) as khs ∧
      acc'.payload = .mk (acc.payload.headers ++ gs) acc.payload.payload ∧
      List.Forall₂ (GossipField env w n) (knownAddrs env w n as) gs ∧
      ∀ a kd, dictGet acc'.recipient2keydata a = some kd ↔
        (a ∈ as ∧ ∃ kh, PeerKey (peerLog env w n a) kh kd) ∨
        ((a ∉ as ∨ ¬ KnownKey (peerLog env w n a)) ∧ dictGet acc.recipient2keydata a = some kd) := by
  induction as generalizing acc with
  | nil =>
    cases h
    exact ⟨[], [], by simp, .nil, by cases acc'.payload; simp [Msg.headers, Msg.payload], .nil, by simp⟩
  | cons a as ih =>
    simp only [Account.encLoop, bind_eq, exec] at h
    rw [run_bind] at h
    rw [show run Store.impl O (Prog.chain (Account.peerHeadOf env n a)) w = (.ok (peerLog env w n a), w) from rfl] at h
    dsimp only at h
    cases hk : (Peer.publicKeyhandle (peerLog env w n a)).isEmpty with
    | true =>
      have hnk : ¬ KnownKey (peerLog env w n a) := by rw [← knownKey_iff, hk]; simp
      rw [hk, if_pos rfl] at h
      obtain ⟨c, w1, h1, h⟩ := run_bind_ok.mp h
      obtain ⟨hc, hw1⟩ := exec_config_ok h1
      rw [hw1] at h
      obtain ⟨mine, w2, h2, h⟩ := run_bind_ok.mp h
      rw [run_ofExcept] at h2
      rw [← show w = w2 from congrArg Prod.snd h2] at h
      cases mine with
      | false => rw [if_neg (by simp)] at h; cases h
      | true =>
        rw [if_pos rfl] at h
        obtain ⟨own, w3, h3, h⟩ := run_bind_ok.mp h
        obtain ⟨ho, hw3⟩ := exec_ownKeyhandle_ok h3
        rw [hw3] at h
        obtain ⟨khs, gs, i1, i2, i3, i4, i5⟩ := ih h
        have hfil : knownAddrs env w n (a :: as) = knownAddrs env w n as := by
          unfold knownAddrs; rw [List.filter_cons_of_neg (by simpa using hnk)]
        refine ⟨own :: khs, gs, by rw [i1]; simp, .cons (.inr ⟨hnk, ⟨c, hc, congrArg Prod.fst h2⟩, ho⟩) i2, i3, by rw [hfil]; exact i4, ?_⟩
        intro x kd
        rw [i5]
        dsimp only
        by_cases hx : x = a
        · subst hx
          have : ∀ kh, ¬ PeerKey (peerLog env w n x) kh kd := fun kh hp => hnk hp.known
          simp [this, hnk]
        · simp [hx]
    | false =>
      have hkn := knownKey_iff.mp hk
      have hpk : PeerKey (peerLog env w n a) (Peer.publicKeyhandle (peerLog env w n a)) (Peer.publicKeydata (peerLog env w n a)) :=
        peerKey_iff.mpr ⟨rfl, rfl, by intro h'; rw [h'] at hk; cases hk⟩
      rw [hk, if_neg (by simp)] at h
      obtain ⟨v, w1, h1, h⟩ := run_bind_ok.mp h
      rw [run_ofExcept] at h1
      rw [← show w = w1 from congrArg Prod.snd h1] at h
      obtain ⟨khs, gs, i1, i2, i3, i4, i5⟩ := ih h
      have hfil : knownAddrs env w n (a :: as) = a :: knownAddrs env w n as := by
        unfold knownAddrs; rw [List.filter_cons_of_pos (by simpa using hkn)]
      refine ⟨_ :: khs, (str!"Autocrypt-Gossip", v) :: gs, by rw [i1]; simp, .cons (.inl ⟨_, hpk⟩) i2, ?_, ?_, ?_⟩
      · rw [i3]; simp [Msg.add, Msg.headers, Msg.payload]
      · rw [hfil]; exact .cons ⟨rfl, _, _, hpk, congrArg Prod.fst h1⟩ i4
      · intro x kd
        rw [i5]
        dsimp only
        rw [dictGet_dictSet]
        by_cases hx : x = a
        · subst hx
          have h2 : (∃ kh, PeerKey (peerLog env w n x) kh kd) ↔ kd = Peer.publicKeydata (peerLog env w n x) := by
            constructor
            · rintro ⟨kh, hp⟩; exact (hp.unique hpk).2
            · rintro rfl; exact ⟨_, hpk⟩
          simp only [h2, hkn]
          by_cases hm : x ∈ as
          · simp [hm]
          · simp [hm, eq_comm]
        · simp [hx]

/-- the message payload and arguments which are given to plugins before encryption -/
structure EncPrepared (env : Env) (w : World Store K) (n : Str) (m : Msg) (as : List Str) (khs : List Str) (own : Str)
    (r2k : List (Str × Bytes)) (payload : Msg) : Prop where
  addrs : as ≠ []
  keys : List.Forall₂ (RecipientKey env w n) as khs
  ownKey : OwnKey w n own
  gossip : ∃ gs, payload = .mk ((makeContentMessage m).headers ++ gs) m.payload ∧
    List.Forall₂ (GossipField env w n) (knownAddrs env w n as) gs
  dict : ∀ a kd, dictGet r2k a = some kd ↔ a ∈ as ∧ ∃ kh, PeerKey (peerLog env w n a) kh kd

/-- `pre` are the leading arguments of a gpg command for which a passphrase may be needed -/
def GpgPrefix (pre : List Str) : Prop :=
  ∃ path home mode, pre = [path, str!"--batch"] ++ home ++ [str!"--passphrase", str!"123"] ++ mode ∧
    (home = [] ∨ ∃ h, home = [str!"--homedir", h]) ∧ (mode = [] ∨ mode = [str!"--pinentry-mode=loopback"])

/-- the arguments for encrypting to `khs` and signing with `own` -/
def EncryptArgs (khs : List Str) (own : Str) (argv : List Str) : Prop :=
  ∃ pre, GpgPrefix pre ∧ argv = pre ++ [str!"--encrypt", str!"--always-trust"] ++ khs.flatMap (fun k => [str!"-r", k]) ++
    (if own = [] then [] else [str!"--sign", str!"-u", own]) ++ [str!"--armor"]

/-- the event of a gpg run -/
def Event.gpg (argv : List Str) (stdin : Option Bytes) (ret : Except Exc GpgOut) : Event := ⟨.gpg argv stdin, ret⟩
/-- the event of the plugin hook before encryption -/
def Event.hook (sender kh : Str) (r2k : List (Str × Bytes)) (m : Msg) (ret : Except Exc Msg) : Event := ⟨.hookBeforeEnc sender kh r2k m, ret⟩

/-- an event without data for gpg or plugins -/
def Event.quiet (ev : Event) : Prop := Op.quiet (.ext ev.op)

/-- the possible courses of `encrypt_mime` for the message `m` and the normalised addresses `as` -/
inductive EncCourse (env : Env) (w : World Store K) (n : Str) (m : Msg) (as : List Str) :
    Except Exc Account.EncryptResult → World Store K → Prop
  /-- it fails before anything else happens -/
  | early (e : Exc) (w' : World Store K) : w'.trace = w.trace → EncCourse env w n m as (.error e) w'
  /-- it fails after the plugins were called -/
  | hooked (e : Exc) (w' : World Store K) (khs own r2k payload ret q) : EncPrepared env w n m as khs own r2k payload →
      w'.trace = q ++ Event.hook (parseEmailAddr env (m.get (str!"From"))) own r2k payload ret :: w.trace →
      (∀ ev ∈ q, ev.quiet) → EncCourse env w n m as (.error e) w'
  /-- gpg is asked to encrypt -/
  | encrypted (r) (w' : World Store K) (khs own r2k payload payload' data argv gret q) :
      EncPrepared env w n m as khs own r2k payload →
      env.msg2bytes payload' = .ok data → EncryptArgs khs own argv →
      w'.trace = Event.gpg argv (some data) gret :: (q ++
        Event.hook (parseEmailAddr env (m.get (str!"From"))) own r2k payload (.ok payload') :: w.trace) →
      (∀ ev ∈ q, ev.quiet) →
      (∀ res, r = .ok res → ∃ out, gret = .ok out ∧ out.ret = 0 ∧ res.encMsg = Account.encMessage m out.out ∧ res.keyhandles = khs) →
      EncCourse env w n m as r w'

theorem nopassphrase_ok {O : Oracle K} {env : Env} {g : BinGPG} {w w' : World Store K} {np : List Str}
    (h : exec O (BinGPG.nopassphrase env g) w = (.ok np, w')) (args : List Str) :
    ∃ pre, GpgPrefix pre ∧ g.argv (np ++ args) = pre ++ args := by
  unfold BinGPG.nopassphrase at h
  simp only [bind_eq, pure_eq, exec] at h
  obtain ⟨b, w1, _, h⟩ := run_bind_ok.mp h
  have h := congrArg Prod.fst h
  simp only [run_pure, Except.ok.injEq] at h
  refine ⟨_, ⟨g.path, g.homedirflags, (if b then [str!"--pinentry-mode=loopback"] else []), rfl, ?_, ?_⟩, ?_⟩
  · unfold BinGPG.homedirflags
    split
    · exact .inl rfl
    · rename_i hh _
      split
      · exact .inl rfl
      · exact .inr ⟨hh, rfl⟩
  · cases b
    · exact .inl rfl
    · exact .inr rfl
  · rw [← h]; simp [BinGPG.argv]

theorem Events.eq_append {E : Event → Prop} {w w' : World Store K} (h : Events E w w') :
    ∃ q, w'.trace = q ++ w.trace ∧ ∀ ev ∈ q, E ev := h

theorem run_quiet' {O : Oracle K} {α : Type} {p : Prog α} (hp : p.AllOps Op.quiet) {w w' : World Store K} {r : Except Exc α}
    (h : exec O p w = (r, w')) : Events Event.quiet w w' ∧ w'.store = w.store := by
  have h1 := run_quiet (S := Store.impl) (O := O) hp w
  have h2 := quiet_store (O := O) hp w
  simp only [exec] at h h2
  rw [h] at h1 h2
  exact ⟨h1, h2⟩

/-- what checking the result of gpg lets through -/
theorem checkResult_ok {env : Env} {s d : Bool} {out : GpgOut} {o : Bytes} {er : Str}
    (h : BinGPG.checkResult env s d out = .ok (o, er)) : out.ret = 0 ∧ out.out = o := by
  unfold BinGPG.checkResult at h
  split at h
  · cases h
  split at h
  · cases h
  split at h
  · cases h
  split at h
  · cases h
  · rename_i h1
    cases h
    exact ⟨Classical.byContradiction fun h2 => h1 (.inl h2), rfl⟩

theorem run_hookBeforeEnc (O : Oracle K) (s k : Str) (r2k : List (Str × Bytes)) (m : Msg) (w : World Store K) :
    ∃ (ret : Except Exc Msg) (w' : World Store K), exec O (Prog.hookBeforeEnc s k r2k m) w = (ret, w') ∧
      w'.trace = Event.hook s k r2k m ret :: w.trace ∧ w'.store = w.store :=
  ⟨(O.step (.hookBeforeEnc s k r2k m) w.env).1,
   { w with env := (O.step (.hookBeforeEnc s k r2k m) w.env).2,
            trace := Event.hook s k r2k m (O.step (.hookBeforeEnc s k r2k m) w.env).1 :: w.trace },
   run_ofExcept .., rfl, rfl⟩

theorem encryptMime_course {O : Oracle K} {env : Env} {n : Str} {m : Msg} {toaddrs : List Str} {w w' : World Store K}
    {r : Except Exc Account.EncryptResult} (h : exec O (Account.encryptMime env n m toaddrs) w = (r, w')) :
    EncCourse env w n m (toaddrs.map fun a => parseEmailAddr env (some a)) r w' ∧ w'.store = w.store := by
  constructor
  swap
  · have := (run_ro (O := O) (Account.encryptMime_ops permissive_readOnly env n m toaddrs) w).1
    rw [h] at this; exact this
  generalize has : (toaddrs.map fun a => parseEmailAddr env (some a)) = as
  simp only [Account.encryptMime, bind_eq, pure_eq, exec, has] at h
  rw [run_bind, run_assert] at h
  cases hemp : toaddrs.isEmpty with
  | true => rw [hemp] at h; cases h; exact .early _ _ rfl
  | false =>
  have hne : as ≠ [] := by rw [← has]; intro h'; rw [List.map_eq_nil_iff] at h'; rw [h'] at hemp; cases hemp
  rw [hemp] at h
  simp only [Bool.not_false, if_true] at h
  -- the loop
  rw [run_bind] at h
  have hsr := run_storeRead (O := O) (encLoop_storeRead env n { keyhandles := [], recipient2keydata := [], payload := makeContentMessage m } as) w
  simp only [exec] at hsr
  rcases hloop : run Store.impl O (Account.encLoop env n { keyhandles := [], recipient2keydata := [], payload := makeContentMessage m } as) w with ⟨e | acc, w1⟩
  · rw [hloop] at h hsr; cases h; cases hsr; exact .early _ _ rfl
  rw [hloop] at h hsr
  dsimp only at hsr h
  subst hsr
  obtain ⟨khs, gs, i1, i2, i3, i4, i5⟩ := encLoop_ok hloop
  simp only [List.nil_append] at i1
  -- own key
  rw [run_bind] at h
  rcases hown : run Store.impl O (Account.ownKeyhandle n) w1 with ⟨e | own, w2⟩
  · have := exec_ownKeyhandle O n w1
    simp only [exec] at this
    rw [hown] at h
    rw [hown] at this
    cases h; exact .early _ _ (congrArg (fun x => x.2.trace) this)
  obtain ⟨hok, rfl⟩ := exec_ownKeyhandle_ok hown
  rw [hown] at h
  dsimp only at h
  have hprep : EncPrepared env w2 n m as khs own acc.recipient2keydata acc.payload := by
    refine ⟨hne, i2, hok, ⟨gs, i3, i4⟩, ?_⟩
    intro a kd
    rw [i5]
    simp [dictGet]
  -- the hook
  rw [run_bind] at h
  obtain ⟨ret, w3, hhook, htr, hst⟩ := run_hookBeforeEnc O (parseEmailAddr env (m.get (str!"From"))) own acc.recipient2keydata acc.payload w2
  simp only [exec] at hhook
  rw [hhook] at h
  have hown3 := exec_ownKeyhandle_store hst hown
  cases ret with
  | error e => cases h; exact .hooked _ _ khs own _ _ _ [] hprep htr (by simp)
  | ok payload' =>
  dsimp only at h
  rw [run_bind, run_ofExcept] at h
  cases hb : env.msg2bytes payload' with
  | error e => rw [hb] at h; cases h; exact .hooked _ _ khs own _ _ _ [] hprep htr (by simp)
  | ok data =>
  rw [hb] at h
  dsimp only at h
  -- opening gpg
  rw [run_bind] at h
  rcases hg : run Store.impl O (Account.bingpg env n) w3 with ⟨e | g, w4⟩
  · obtain ⟨⟨q, hq1, hq2⟩, _⟩ := run_quiet' (Account.bingpg_quiet env n) hg
    rw [hg] at h; cases h
    exact .hooked _ _ khs own _ _ _ q hprep (by rw [hq1, htr]) hq2
  obtain ⟨⟨q4, hq4, hqq4⟩, hst4⟩ := run_quiet' (Account.bingpg_quiet env n) hg
  rw [hg] at h
  dsimp only at h
  rw [run_bind] at h
  have hown4 := exec_ownKeyhandle_store hst4 hown3
  simp only [exec] at hown4
  rw [hown4] at h
  dsimp only [BinGPG.encrypt] at h
  simp only [bind_eq, pure_eq] at h
  rw [run_bind, run_bind] at h
  rcases hnp : run Store.impl O (BinGPG.nopassphrase env g) w4 with ⟨e | np, w5⟩
  · obtain ⟨⟨q, hq1, hq2⟩, _⟩ := run_quiet' (BinGPG.nopassphrase_quiet env g) hnp
    rw [hnp] at h; cases h
    refine .hooked _ _ khs own _ _ (.ok payload') (q ++ q4) hprep (by rw [hq1, hq4, htr]; simp) ?_
    intro ev hev
    rcases List.mem_append.mp hev with h | h
    · exact hq2 ev h
    · exact hqq4 ev h
  obtain ⟨⟨q5, hq5, hqq5⟩, _⟩ := run_quiet' (BinGPG.nopassphrase_quiet env g) hnp
  rw [hnp] at h
  dsimp only at h
  obtain ⟨pre, hpre, hargv⟩ := nopassphrase_ok hnp ([str!"--encrypt", str!"--always-trust"] ++ khs.flatMap (fun r => [str!"-r", r]) ++
    (if own.isEmpty then [] else [str!"--sign", str!"-u", own]) ++ [str!"--armor"])
  have hopts : g.argv (BinGPG.encryptOpts np acc.keyhandles own true) = pre ++ [str!"--encrypt", str!"--always-trust"] ++
      khs.flatMap (fun r => [str!"-r", r]) ++ (if own = [] then [] else [str!"--sign", str!"-u", own]) ++ [str!"--armor"] := by
    have e1 : BinGPG.encryptOpts np acc.keyhandles own true = np ++ ([str!"--encrypt", str!"--always-trust"] ++
      khs.flatMap (fun r => [str!"-r", r]) ++ (if own.isEmpty then [] else [str!"--sign", str!"-u", own]) ++ [str!"--armor"]) := by
      unfold BinGPG.encryptOpts; rw [i1]; simp only [List.append_assoc, if_true]
    rw [e1, hargv]
    cases own <;> simp
  rw [BinGPG.gpgOuterr] at h
  simp only [bind_eq] at h
  rw [run_bind, run_bind, run_gpg] at h
  generalize hgret : (O.step (.gpg (g.argv (BinGPG.encryptOpts np acc.keyhandles own true)) (some data)) w5.env).1 = gret at h
  change Except Exc GpgOut at gret
  clear hgret
  have hq : ∀ ev ∈ q5 ++ q4, Event.quiet ev := by
    intro ev hev
    rcases List.mem_append.mp hev with h | h
    · exact hqq5 ev h
    · exact hqq4 ev h
  cases gret with
  | error e =>
    cases h
    refine .encrypted _ _ khs own _ _ payload' data _ (.error e) (q5 ++ q4) hprep hb ⟨pre, hpre, hopts⟩ ?_ hq (by simp)
    rw [hq5, hq4, htr]; simp [Event.gpg]
  | ok out =>
    dsimp only at h
    rw [run_ofExcept] at h
    cases hc : BinGPG.checkResult env false false out with
    | error e =>
      rw [hc] at h; cases h
      refine .encrypted _ _ khs own _ _ payload' data _ (.ok out) (q5 ++ q4) hprep hb ⟨pre, hpre, hopts⟩ ?_ hq (by simp)
      rw [hq5, hq4, htr]; simp [Event.gpg]
    | ok oe =>
      rw [hc] at h; cases h
      refine .encrypted _ _ khs own _ _ payload' data _ (.ok out) (q5 ++ q4) hprep hb ⟨pre, hpre, hopts⟩ ?_ hq ?_
      · rw [hq5, hq4, htr]; simp [Event.gpg]
      · intro res hres
        cases hres
        obtain ⟨o, er⟩ := oe
        obtain ⟨h1, h2⟩ := checkResult_ok hc
        exact ⟨out, rfl, h1, by rw [h2], i1⟩

end Verif
