import Verif.Model.Accesses
import Verif.Lemmas.Composed
import Verif.Spec.Concrete
/-!
# C121: reading the chain anew for each property makes no difference to a process which is alone
-/
namespace Verif
namespace Access

variable {σ K : Type} {α β : Type} (S : StoreImpl σ) (O : Oracle K)

/-- the program gives `f` of the log, or the error of reading it, and changes nothing -/
def Reads (p : Prog α) (h : Str) (f : List Entry → Except Exc α) : Prop :=
  ∀ w : World σ K, run S O p w = match S.chain w.store h with
    | .ok es => (f es, w)
    | .error e => (.error e, w)

variable {S O}

theorem Reads.chain (h : Str) : Reads S O (Prog.chain h) h .ok := by
  intro w
  show run S O (Prog.ofExcept (S.chain w.store h)) w = _
  rw [run_ofExcept]
  cases S.chain w.store h <;> rfl

/-- a read followed by what depends on it only -/
theorem Reads.bind {p : Prog α} {h : Str} {f : List Entry → Except Exc α} {q : α → Prog β}
    {g : List Entry → Except Exc β} (hp : Reads S O p h f)
    (hq : ∀ w es a, S.chain w.store h = .ok es → f es = .ok a → run S O (q a) w = (g es, w))
    (he : ∀ es e, f es = .error e → g es = .error e) : Reads S O (p.bind q) h g := by
  intro w
  rw [run_bind, hp w]
  rcases hc : S.chain w.store h with e | es
  · rfl
  · dsimp only
    rcases hf : f es with e | a
    · dsimp only; rw [he es e hf]
    · dsimp only; exact hq w es a hc hf

theorem Reads.run_eq {p : Prog α} {h : Str} {f : List Entry → Except Exc α} (hp : Reads S O p h f)
    {w : World σ K} {es} (hc : S.chain w.store h = .ok es) : run S O p w = (f es, w) := by
  rw [hp w, hc]

theorem Reads.map {h : Str} (f : List Entry → α) :
    Reads S O ((Prog.chain h).bind fun es => .pure (f es)) h (fun es => .ok (f es)) :=
  (Reads.chain h).bind (fun _ _ _ _ h => by cases h; rfl) (fun _ _ h => by cases h)

theorem lastSeen_reads (h) : Reads S O (lastSeen h) h (fun es => .ok (Peer.lastSeen es)) := Reads.map _
theorem acTimestamp_reads (h) : Reads S O (acTimestamp h) h (fun es => .ok (Peer.acTimestamp es)) := Reads.map _
theorem hasDirectKey_reads (h) : Reads S O (hasDirectKey h) h (fun es => .ok (Peer.hasDirectKey es)) := Reads.map _
theorem latestMsg_reads (h) : Reads S O (latestMsg h) h (fun es => .ok (Peer.latestMsg es)) := Reads.map _

theorem entryForEncryption_reads (h) :
    Reads S O (entryForEncryption h) h (fun es => .ok (Peer.entryForEncryption es)) := by
  unfold entryForEncryption
  simp only [bind_eq, pure_eq]
  refine (Reads.chain h).bind ?_ (fun _ _ h => by cases h)
  intro w es a hc ha
  cases ha
  unfold Peer.entryForEncryption
  cases Peer.latestAc es with
  | none => exact (Reads.map _).run_eq hc
  | some m =>
    dsimp only
    split
    · rfl
    · exact (Reads.map _).run_eq hc

theorem publicKeyhandle_reads (h) :
    Reads S O (publicKeyhandle h) h (fun es => .ok (Peer.publicKeyhandle es)) := by
  refine (entryForEncryption_reads h).bind ?_ (fun _ _ h => by cases h)
  intro w es a _ ha
  unfold Peer.publicKeyhandle
  cases ha
  rcases Peer.entryForEncryption es with _ | _ | _ <;> rfl

theorem publicKeydata_reads (h) :
    Reads S O (publicKeydata h) h (fun es => .ok (Peer.publicKeydata es)) := by
  refine (entryForEncryption_reads h).bind ?_ (fun _ _ h => by cases h)
  intro w es a _ ha
  unfold Peer.publicKeydata
  cases ha
  rcases Peer.entryForEncryption es with _ | _ | _ <;> rfl

theorem preferEncrypt_reads (h) :
    Reads S O (preferEncrypt h) h (fun es => .ok (Peer.preferEncrypt es)) := by
  refine (entryForEncryption_reads h).bind ?_ (fun _ _ h => by cases h)
  intro w es a _ ha
  unfold Peer.preferEncrypt
  cases ha
  rcases Peer.entryForEncryption es with _ | _ | _ <;> rfl

theorem run_bind_eq {p : Prog α} {f : α → Prog β} {w : World σ K} {a : α} (h : run S O p w = (.ok a, w)) :
    run S O (p.bind f) w = run S O (f a) w := by rw [run_bind, h]

theorem preliminary_reads (h) : Reads S O (preliminary h) h (fun es => .ok (Rec.preliminary es)) := by
  unfold preliminary
  simp only [bind_eq, pure_eq]
  refine (publicKeyhandle_reads h).bind ?_ (fun _ _ h => by cases h)
  intro w es a hc _
  rw [run_bind_eq ((publicKeyhandle_reads h).run_eq hc)]
  unfold Rec.preliminary
  split
  · rfl
  · rw [run_bind_eq ((hasDirectKey_reads h).run_eq hc)]
    split
    · rfl
    · rw [run_bind_eq ((lastSeen_reads h).run_eq hc), run_bind_eq ((acTimestamp_reads h).run_eq hc)]
      split <;> rfl

theorem peerUi_reads (h own r) : Reads S O (peerUi h own r) h (fun es => Rec.peerUi es own r) := by
  unfold peerUi
  simp only [bind_eq, pure_eq]
  refine (preliminary_reads h).bind ?_ (fun _ _ h => by cases h)
  intro w es a hc ha
  cases ha
  unfold Rec.peerUi
  dsimp only
  split
  · rfl
  · by_cases h1 : Rec.preliminary es = .available ∧ own = .mutual
    · rw [if_pos h1, run_bind_eq ((preferEncrypt_reads h).run_eq hc)]
      by_cases h2 : Peer.preferEncrypt es = str!"mutual"
      · rw [if_pos h2, if_pos ⟨h1.1, h1.2, h2⟩, run_bind_eq ((latestMsg_reads h).run_eq hc)]
        cases Peer.latestMsg es with
        | none => rfl
        | some m => dsimp only; split <;> rfl
      · rw [if_neg h2, if_neg (fun h => h2 h.2.2)]; rfl
    · rw [if_neg h1, if_neg (fun h => h1 ⟨h.1, h.2.1⟩)]; rfl

theorem reads_run {p : Prog α} {h : Str} {f : List Entry → Except Exc α} (hp : Reads S O p h f) (w : World σ K) :
    run S O p w = run S O ((Prog.chain h).bind fun es => Prog.ofExcept (f es)) w := by
  rw [hp w, run_bind, Reads.chain h w]
  cases S.chain w.store h with
  | error e => rfl
  | ok es => dsimp only; rw [run_ofExcept]

theorem updateFromMsg_run (h u) (w : World σ K) :
    run S O (updateFromMsg h u) w = run S O (Peer.updateFromMsg h u) w := by
  unfold updateFromMsg Peer.updateFromMsg
  simp only [bind_eq, pure_eq]
  rw [run_bind, run_bind, acTimestamp_reads h w, Reads.chain h w]
  rcases hc : S.chain w.store h with e | es
  · rfl
  · dsimp only
    unfold Peer.updateEntry
    split
    · rfl
    · rw [run_bind_eq ((Reads.chain h).run_eq hc)]
      show run S O (if Peer.isRecorded es u = true then _ else _) w = _
      split
      · rfl
      · split
        · rw [run_bind_eq ((lastSeen_reads h).run_eq hc)]
          split <;> rfl
        · cases Peer.peArg u.pe <;> rfl

theorem updateFromGossip_run (h u) (w : World σ K) :
    run S O (updateFromGossip h u) w = run S O (Peer.updateFromGossip h u) w := by
  unfold updateFromGossip Peer.updateFromGossip
  simp only [bind_eq, pure_eq]
  rw [run_bind, run_bind, acTimestamp_reads h w, Reads.chain h w]
  rcases hc : S.chain w.store h with e | es
  · rfl
  · dsimp only
    unfold Peer.gossipEntry
    split
    · rfl
    · split
      · rfl
      · rw [run_bind_eq ((Reads.chain h).run_eq hc)]
        show run S O (if Peer.isRecordedGossip es u = true then _ else _) w = _
        split
        · rfl
        · cases u.keyhandle <;> rfl

theorem isConfigured_reads (h) : Reads S O (isConfigured h) h (fun es => .ok (Own.isConfigured es)) := by
  unfold isConfigured
  simp only [bind_eq, pure_eq]
  refine (Reads.chain h).bind ?_ (fun _ _ h => by cases h)
  intro w es a hc ha
  cases ha
  unfold Own.isConfigured
  cases (Own.latestConfig es).isSome with
  | false => rfl
  | true => exact (Reads.map _).run_eq hc

theorem encLoop_run (env : Env) (name : Str) (acc : Account.EncAcc) (addrs : List Str) (w : World σ K) :
    run S O (encLoop env name acc addrs) w = run S O (Account.encLoop env name acc addrs) w := by
  induction addrs generalizing acc w with
  | nil => rfl
  | cons a as ih =>
    unfold encLoop Account.encLoop
    simp only [bind_eq, pure_eq]
    rw [run_bind, run_bind, publicKeyhandle_reads _ w, Reads.chain _ w]
    rcases hc : S.chain w.store (Account.peerHeadOf env name a) with e | es
    · rfl
    · dsimp only
      split
      · rw [run_bind, run_bind]
        rcases run S O (Own.config name) w with ⟨_ | c, w1⟩
        · rfl
        · dsimp only
          rw [run_bind, run_bind]
          rcases run S O (Prog.ofExcept (env.reMatch c.emailRegex a)) w1 with ⟨_ | mine, w2⟩
          · rfl
          · dsimp only
            split
            · rw [run_bind, run_bind]
              rcases run S O (Account.ownKeyhandle name) w2 with ⟨_ | own, w3⟩
              · rfl
              · exact ih _ _
            · rfl
      · rw [run_bind_eq ((publicKeydata_reads _).run_eq hc), run_bind_eq ((publicKeydata_reads _).run_eq hc),
          run_bind, run_bind]
        rcases run S O (Prog.ofExcept (Mime.makeAcHeaderValue env (some a) (Peer.publicKeydata es)
          (str!"nopreference"))) w with ⟨_ | v, w1⟩
        · rfl
        · exact ih _ _

theorem peerUis_run (O : Oracle K) (env : Env) (name : Str) (own : PE) (r : Bool) (addrs : List Str)
    (w : World Store K) :
    exec O (peerUis own r (addrs.map (Account.peerHeadOf env name))) w =
      (Rec.peerUis own r (addrs.map fun a => w.store.get (Account.peerHeadOf env name a)), w) := by
  induction addrs with
  | nil => rfl
  | cons a as ih =>
    simp only [List.map_cons, peerUis, Rec.peerUis, bind_eq, pure_eq, exec] at ih ⊢
    rw [run_bind, (peerUi_reads _ _ _).run_eq (S := Store.impl) (es := w.store.get (Account.peerHeadOf env name a)) rfl]
    rcases Rec.peerUi (w.store.get (Account.peerHeadOf env name a)) own r with e | x
    · rfl
    · dsimp only
      rw [run_bind, ih]
      rcases Rec.peerUis own r (as.map fun a => w.store.get (Account.peerHeadOf env name a)) with e | xs <;> rfl

theorem readPeers_run (O : Oracle K) (env : Env) (name : Str) (addrs : List Str) (w : World Store K) :
    exec O (Account.readPeers env name addrs) w =
      (.ok (addrs.map fun a => w.store.get (Account.peerHeadOf env name a)), w) := by
  induction addrs with
  | nil => rfl
  | cons a as ih =>
    simp only [Account.readPeers, bind_eq, pure_eq, exec] at ih ⊢
    rw [run_bind, show run Store.impl O (Prog.chain _) w = _ from exec_chain O _ w]
    dsimp only
    rw [run_bind, ih]; rfl

theorem recommendation_run (O : Oracle K) (env : Env) (name : Str) (addrs : List Str) (r : Bool)
    (from_ : Option Str) (w : World Store K) :
    exec O (recommendation env name addrs r from_) w = exec O (Account.recommendation env name addrs r from_) w := by
  unfold recommendation Account.recommendation ui
  simp only [bind_eq, pure_eq, exec]
  rw [run_bind, run_bind]
  have hc : (run Store.impl O (Own.config name) w).2 = w := by
    simp only [Own.config, bind_eq, run_bind]
    rw [show run Store.impl O (Prog.chain _) w = _ from exec_chain O _ w]
    dsimp only
    split <;> rfl
  rcases h : run Store.impl O (Own.config name) w with ⟨_ | c, w1⟩
  · rfl
  · rw [h] at hc
    dsimp only at hc ⊢
    subst hc
    rw [run_bind, run_bind, show run Store.impl O (peerUis _ _ _) w1 = _ from peerUis_run O ..,
      show run Store.impl O (Account.readPeers _ _ _) w1 = _ from readPeers_run O ..]
    dsimp only
    rw [run_ofExcept]
    unfold Rec.ui
    rcases Rec.peerUis c.pe r ((Account.peerAddrs env addrs from_).map fun a =>
      w1.store.get (Account.peerHeadOf env name a)) with e | rs
    · rfl
    · cases rs with
      | nil => cases c.pe <;> rfl
      | cons x xs =>
        dsimp only
        split
        · rfl
        · split
          · rfl
          · split <;> rfl

theorem bind_run {p p' : Prog α} {f f' : α → Prog β} (hp : ∀ w : World σ K, run S O p w = run S O p' w)
    (hf : ∀ a (w : World σ K), run S O (f a) w = run S O (f' a) w) (w : World σ K) :
    run S O (p.bind f) w = run S O (p'.bind f') w := by
  rw [run_bind, run_bind, hp]
  rcases run S O p' w with ⟨_ | a, w1⟩
  · rfl
  · exact hf a w1

theorem encryptMime_run (env : Env) (name : Str) (m : Msg) (toaddrs : List Str) (w : World σ K) :
    run S O (encryptMime env name m toaddrs) w = run S O (Account.encryptMime env name m toaddrs) w := by
  unfold encryptMime Account.encryptMime
  simp only [bind_eq, pure_eq]
  exact bind_run (fun _ => rfl) (fun _ => bind_run (encLoop_run env name _ _) fun _ _ => rfl) w

theorem processOutgoing_run (O : Oracle K) (env : Env) (name : Str) (m : Msg) (w : World Store K) :
    run Store.impl O (processOutgoing env name m) w = run Store.impl O (Account.processOutgoing env name m) w := by
  unfold processOutgoing Account.processOutgoing outgoingBody Account.outgoingBody
  simp only [bind_eq, pure_eq]
  refine bind_run (fun _ => rfl) (fun enc => bind_run (fun _ => rfl) fun x => bind_run (bind_run (fun _ => rfl) ?_) fun _ _ => rfl) w
  intro ie w
  split
  · rfl
  · rcases x.1.getAll (str!"From") with _ | ⟨f, _ | ⟨_, _⟩⟩
    · rfl
    · refine bind_run (recommendation_run O env name _ _ _) ?_ w
      intro r w
      split
      · split
        · exact bind_run (encryptMime_run env name _ _) (fun _ _ => rfl) w
        · rfl
      · rfl
    · rfl

theorem gossipLoop_run (env : Env) (name : Str) (d : List (Str × Mime.ACResult)) (date : Time) (msgId : Str)
    (done : List (Str × Mime.ACResult)) (l : List Str) (w : World σ K) :
    run S O (gossipLoop env name d date msgId done l) w = run S O (Account.gossipLoop env name d date msgId done l) w := by
  induction l generalizing done w with
  | nil => rfl
  | cons r rs ih =>
    unfold gossipLoop Account.gossipLoop
    cases Mime.dictGet d r with
    | none => exact ih done w
    | some pah =>
      simp only [bind_eq]
      exact bind_run (fun _ => rfl) (fun x => bind_run (updateFromGossip_run _ _) fun _ => ih _) w

theorem processIncoming_run (env : Env) (name : Str) (m : Msg) (i nd : Bool) (w : World σ K) :
    run S O (processIncoming env name m i nd) w = run S O (Account.processIncoming env name m i nd) w := by
  unfold processIncoming Account.processIncoming processAutocryptHeader Account.processAutocryptHeader
    processGossipHeaders Account.processGossipHeaders
  simp only [bind_eq, pure_eq]
  refine bind_run (fun _ => rfl) (fun d => bind_run (fun _ => rfl) fun date => bind_run (fun _ => rfl) fun known => ?_) w
  intro w
  split
  · rfl
  · refine bind_run (bind_run (fun _ => rfl) fun pah => bind_run (fun _ => rfl) fun x => bind_run (updateFromMsg_run _ _) fun _ _ => rfl)
      (fun pah => bind_run (fun _ => rfl) fun enc => bind_run ?_ fun _ _ => rfl) w
    intro w
    split
    · exact bind_run (fun _ => rfl) (fun r => bind_run (bind_run (fun _ => rfl) fun d => gossipLoop_run env name d date _ [] _)
        fun _ _ => rfl) w
    · rfl

end Access

open Access

/-- C121: a process which is alone gets the same from methods which read the chain for each access to a property as
from methods which read it once: recommendations, updates from messages and from gossip, the keys for encryption,
and whether an account is configured. The first five for every store, also if it cannot be read. -/
theorem C121_accesses {σ K : Type} (S : StoreImpl σ) (O : Oracle K) (w : World σ K) (h : Str) :
    (∀ own r, run S O (Access.peerUi h own r) w =
      run S O ((Prog.chain h).bind fun es => Prog.ofExcept (Rec.peerUi es own r)) w) ∧
    (∀ u, run S O (Access.updateFromMsg h u) w = run S O (Peer.updateFromMsg h u) w) ∧
    (∀ u, run S O (Access.updateFromGossip h u) w = run S O (Peer.updateFromGossip h u) w) ∧
    (∀ name, run S O (Access.isConfigured (ownHead name)) w = run S O (Account.exists_ name) w) ∧
    (∀ env name acc addrs,
      run S O (Access.encLoop env name acc addrs) w = run S O (Account.encLoop env name acc addrs) w) :=
  ⟨fun own r => reads_run (peerUi_reads h own r) w, fun u => updateFromMsg_run h u w,
    fun u => updateFromGossip_run h u w,
    fun name => (reads_run (isConfigured_reads _) w), fun env name acc addrs => encLoop_run env name acc addrs w⟩

theorem C121_recommendation {K : Type} (O : Oracle K) (env : Env) (name : Str) (addrs : List Str) (r : Bool)
    (from_ : Option Str) (w : World Store K) :
    exec O (Access.recommendation env name addrs r from_) w =
      exec O (Account.recommendation env name addrs r from_) w :=
  recommendation_run O env name addrs r from_ w

/-- C121 for whole messages: processing an incoming or an outgoing message, and encrypting, with one read for each access gives the
same result and the same world -/
theorem C121_messages {K : Type} (O : Oracle K) (env : Env) (name : Str) (m : Msg) (w : World Store K) :
    (∀ i nd, exec O (Access.processIncoming env name m i nd) w = exec O (Account.processIncoming env name m i nd) w) ∧
    exec O (Access.processOutgoing env name m) w = exec O (Account.processOutgoing env name m) w ∧
    ∀ toaddrs, exec O (Access.encryptMime env name m toaddrs) w = exec O (Account.encryptMime env name m toaddrs) w :=
  ⟨fun i nd => processIncoming_run env name m i nd w, processOutgoing_run O env name m w,
    fun toaddrs => encryptMime_run env name m toaddrs w⟩

/-- more reads than one, and a recommendation which depends on them -/
example :
    (exec Concrete.oracle (Access.recommendation Concrete.env (str!"a") [Concrete.bob] false none)
      (Concrete.after [Concrete.addA, Concrete.recv Concrete.bob (str!"m1") (str!"100") [1, 2]])).1.toOption =
        some .available ∧
    (exec Concrete.oracle (Access.recommendation Concrete.env (str!"a") [Concrete.carol] false none)
      (Concrete.after [Concrete.addA, Concrete.recv Concrete.bob (str!"m1") (str!"100") [1, 2]])).1.toOption =
        some .disable := by decide +kernel

end Verif
