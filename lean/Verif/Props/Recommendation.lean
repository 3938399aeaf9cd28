import Verif.Props.PeerState
import Verif.Spec.Concrete
/-!
# Recommendations: C30 – C32
-/
namespace Verif
open Mime Rec

variable {K : Type}

/-! ## Specification -/

/-- `x` is the newest element of the log with `P` (logs have the newest entry first) -/
def Newest {α : Type} (P : α → Prop) (l : List α) (x : α) : Prop :=
  ∃ newer older, l = newer ++ x :: older ∧ P x ∧ ∀ y ∈ newer, ¬ P y

/-- an entry for a message -/
def Entry.IsMsg (e : Entry) : Prop := ∃ m, e = .msg m
/-- an entry for a message with a key -/
def Entry.IsKeyMsg (e : Entry) : Prop := ∃ m, e = .msg m ∧ m.keydata ≠ []
/-- an entry for gossip -/
def Entry.IsGossip (e : Entry) : Prop := ∃ g, e = .gossip g

/-- the newest message with a key was imported as key `m.keyhandle` -/
def UsableKey (es : List Entry) (m : MsgEntry) : Prop := Newest Entry.IsKeyMsg es (.msg m) ∧ m.keyhandle ≠ []
/-- the newest gossip has a key handle -/
def UsableGossip (es : List Entry) : Prop := ∃ g, Newest Entry.IsGossip es (.gossip g) ∧ g.keyhandle ≠ []
/-- some key of the peer is known -/
def KnownKey (es : List Entry) : Prop := (∃ m, UsableKey es m) ∨ UsableGossip es

/-- the newest message is more than 35 days newer than the direct key `m` -/
def Stale (es : List Entry) (m : MsgEntry) : Prop :=
  ∃ l, Newest Entry.IsMsg es (.msg l) ∧ l.date > m.date + sec (35 * 24 * 60 * 60)

/-- the peer's last message had a key, and this is the direct key, with preference `mutual` -/
def PeerWantsEncryption (es : List Entry) (m : MsgEntry) : Prop := Newest Entry.IsMsg es (.msg m) ∧ m.pe = .mutual

open Classical in
/-- what the recommendation for one peer should be -/
noncomputable def recSpec (es : List Entry) (own : PE) (reply : Bool) : Rec :=
  if ¬ KnownKey es then .disable
  else if reply then .encrypt
  else if (¬ ∃ m, UsableKey es m) ∨ (∃ m, UsableKey es m ∧ Stale es m) then .discourage
  else if own = .mutual ∧ ∃ m, UsableKey es m ∧ PeerWantsEncryption es m then .encrypt
  else .available

/-- order of recommendations -/
def Rec.Rec.rank : Rec → Nat
  | .disable => 0
  | .discourage => 1
  | .available => 2
  | .encrypt => 3

/-! ## lemmas -/

theorem Newest.unique {α : Type} {P : α → Prop} {l : List α} {x y : α} (hx : Newest P l x) (hy : Newest P l y) : x = y := by
  obtain ⟨n1, o1, h1, hp1, hn1⟩ := hx
  obtain ⟨n2, o2, h2, hp2, hn2⟩ := hy
  rw [h1, List.append_eq_append_iff] at h2
  rcases h2 with ⟨t, h3, h4⟩ | ⟨t, h3, h4⟩
  · cases t with
    | nil => simp at h4; exact h4.1
    | cons z t =>
      simp at h4
      exact absurd hp1 (by rw [h4.1]; exact hn2 z (by rw [h3]; simp))
  · cases t with
    | nil => simp at h4; exact h4.1.symm
    | cons z t =>
      simp at h4
      exact absurd hp2 (by rw [h4.1]; exact hn1 z (by rw [h3]; simp))

theorem Newest.cons_of {α : Type} {P : α → Prop} {l : List α} {x : α} (h : P x) : Newest P (x :: l) x :=
  ⟨[], l, rfl, h, by simp⟩

theorem Newest.cons_skip {α : Type} {P : α → Prop} {l : List α} {x y : α} (hy : ¬ P y) :
    Newest P (y :: l) x ↔ Newest P l x := by
  constructor
  · rintro ⟨n, o, h, hp, hn⟩
    cases n with
    | nil => cases h; exact absurd hp hy
    | cons z n =>
      simp at h
      exact ⟨n, o, h.2, hp, fun w hw => hn w (List.mem_cons_of_mem _ hw)⟩
  · rintro ⟨n, o, h, hp, hn⟩
    refine ⟨y :: n, o, by rw [h]; rfl, hp, ?_⟩
    intro z hz
    rcases List.mem_cons.mp hz with rfl | hz
    · exact hy
    · exact hn z hz

theorem newest_find {α β : Type} (f : α → Option β) (g : β → Bool) (mk : β → α) (hf : ∀ x b, f x = some b ↔ x = mk b)
    (l : List α) (b : β) : (l.filterMap f).find? g = some b ↔ Newest (fun x => ∃ b, x = mk b ∧ g b = true) l (mk b) := by
  have hinj : ∀ b b', mk b = mk b' → b = b' := by
    intro b b' h
    have h1 := (hf (mk b) b).mpr rfl
    have h2 := (hf (mk b) b').mpr h
    rw [h1] at h2; exact Option.some.inj h2
  induction l with
  | nil =>
    simp only [List.filterMap_nil, List.find?_nil]
    constructor
    · intro h; cases h
    · rintro ⟨n, o, h, _⟩; simp at h
  | cons x l ih =>
    cases hx : f x with
    | none =>
      rw [List.filterMap_cons_none hx]
      refine ih.trans (Newest.cons_skip ?_).symm
      rintro ⟨b', hb', _⟩
      rw [(hf x b').mpr hb'] at hx; cases hx
    | some b' =>
      have hxb := (hf x b').mp hx
      rw [List.filterMap_cons_some hx, List.find?_cons]
      cases hg : g b' with
      | true =>
        have hn : Newest (fun x => ∃ b, x = mk b ∧ g b = true) (x :: l) x := Newest.cons_of ⟨b', hxb, hg⟩
        constructor
        · intro h; cases h; rw [hxb] at hn ⊢; exact hn
        · intro h
          have := hn.unique h
          rw [hxb] at this
          rw [hinj _ _ this]
      | false =>
        rw [Newest.cons_skip]
        · exact ih
        · rintro ⟨b'', hb'', hg''⟩
          rw [hxb] at hb''
          rw [hinj _ _ hb'', hg''] at hg
          cases hg

theorem msg?_iff (x : Entry) (m : MsgEntry) : Entry.msg? x = some m ↔ x = .msg m := by
  cases x <;> simp [Entry.msg?]

theorem gossip?_iff (x : Entry) (g : GossipEntry) : Entry.gossip? x = some g ↔ x = .gossip g := by
  cases x <;> simp [Entry.gossip?]

theorem Newest.congr {α : Type} {P Q : α → Prop} (h : ∀ x, P x ↔ Q x) {l : List α} {x : α} : Newest P l x ↔ Newest Q l x := by
  have : P = Q := funext fun x => propext (h x)
  rw [this]

theorem latestAc_iff {es : List Entry} {m : MsgEntry} : Peer.latestAc es = some m ↔ Newest Entry.IsKeyMsg es (.msg m) := by
  refine (newest_find _ _ Entry.msg msg?_iff es m).trans (Newest.congr fun x => ?_)
  simp [Entry.IsKeyMsg]

theorem latestMsg_iff {es : List Entry} {m : MsgEntry} : Peer.latestMsg es = some m ↔ Newest Entry.IsMsg es (.msg m) := by
  have h := newest_find Entry.msg? (fun _ => true) Entry.msg msg?_iff es m
  have h2 : (es.filterMap Entry.msg?).find? (fun _ => true) = Peer.latestMsg es := by
    rw [Peer.latestMsg, Peer.msgs]
    cases es.filterMap Entry.msg? <;> rfl
  rw [h2] at h
  exact h.trans (Newest.congr fun x => by simp [Entry.IsMsg])

theorem latestGossip_iff {es : List Entry} {g : GossipEntry} :
    Peer.latestGossip es = some g ↔ Newest Entry.IsGossip es (.gossip g) := by
  have h := newest_find Entry.gossip? (fun _ => true) Entry.gossip gossip?_iff es g
  have h2 : (es.filterMap Entry.gossip?).find? (fun _ => true) = Peer.latestGossip es := by
    rw [Peer.latestGossip, Peer.gossips]
    cases es.filterMap Entry.gossip? <;> rfl
  rw [h2] at h
  exact h.trans (Newest.congr fun x => by simp [Entry.IsGossip])

theorem hasDirectKey_iff {es : List Entry} : Peer.hasDirectKey es = true ↔ ∃ m, UsableKey es m := by
  unfold Peer.hasDirectKey UsableKey
  simp only [← latestAc_iff]
  cases Peer.latestAc es with
  | none => simp
  | some m => simp

theorem knownKey_iff {es : List Entry} : (Peer.publicKeyhandle es).isEmpty = false ↔ KnownKey es := by
  unfold KnownKey UsableGossip
  simp only [← latestGossip_iff, ← hasDirectKey_iff]
  unfold Peer.publicKeyhandle Peer.entryForEncryption Peer.hasDirectKey
  cases h1 : Peer.latestAc es with
  | none => cases h2 : Peer.latestGossip es <;> simp
  | some m =>
    cases h3 : m.keyhandle with
    | nil => cases h2 : Peer.latestGossip es <;> simp [h3]
    | cons c t => simp [h3]

/-- the chain has a message if it has one with a key -/
theorem latestMsg_of_latestAc {es : List Entry} {m : MsgEntry} (h : Peer.latestAc es = some m) :
    ∃ l, Peer.latestMsg es = some l := by
  unfold Peer.latestAc at h
  unfold Peer.latestMsg
  cases hm : Peer.msgs es with
  | nil => rw [hm] at h; cases h
  | cons l t => exact ⟨l, rfl⟩

/-- if the newest message has a key it is the newest message with a key -/
theorem latestAc_of_latestMsg {es : List Entry} {m l : MsgEntry} (h : Peer.latestAc es = some m) (hl : Peer.latestMsg es = some l)
    (hk : l.keydata ≠ []) : l = m := by
  unfold Peer.latestAc at h
  unfold Peer.latestMsg at hl
  cases hm : Peer.msgs es with
  | nil => rw [hm] at hl; cases hl
  | cons x t =>
    rw [hm] at h hl
    cases hl
    rw [List.find?_cons] at h
    have : l.keydata.isEmpty = false := by cases hk' : l.keydata <;> simp_all
    rw [this] at h
    exact Option.some.inj h

/-- the cases of `recSpec` -/
inductive PeerRec (es : List Entry) (own : PE) (reply : Bool) : Rec → Prop
  | disable : ¬ KnownKey es → PeerRec es own reply .disable
  | reply : KnownKey es → reply = true → PeerRec es own reply .encrypt
  | noDirect : KnownKey es → reply = false → (¬ ∃ m, UsableKey es m) → PeerRec es own reply .discourage
  | stale (m : MsgEntry) : reply = false → UsableKey es m → Stale es m → PeerRec es own reply .discourage
  | wanted (m : MsgEntry) : reply = false → UsableKey es m → ¬ Stale es m → own = .mutual → PeerWantsEncryption es m →
      PeerRec es own reply .encrypt
  | available (m : MsgEntry) : reply = false → UsableKey es m → ¬ Stale es m → ¬ (own = .mutual ∧ PeerWantsEncryption es m) →
      PeerRec es own reply .available

theorem peerUi_cases (es : List Entry) (own : PE) (reply : Bool) : ∃ r, peerUi es own reply = .ok r ∧ PeerRec es own reply r := by
  unfold peerUi preliminary
  cases hk : (Peer.publicKeyhandle es).isEmpty with
  | true =>
    refine ⟨.disable, by simp, .disable ?_⟩
    rw [← knownKey_iff, hk]; simp
  | false =>
    have hkn := knownKey_iff.mp hk
    cases hd : Peer.hasDirectKey es with
    | false =>
      have hnd : ¬ ∃ m, UsableKey es m := by rw [← hasDirectKey_iff, hd]; simp
      cases reply with
      | true => exact ⟨.encrypt, by simp, .reply hkn rfl⟩
      | false => exact ⟨.discourage, by simp, .noDirect hkn rfl hnd⟩
    | true =>
      obtain ⟨m, hm⟩ := hasDirectKey_iff.mp hd
      have hac := latestAc_iff.mpr hm.1
      obtain ⟨l, hl⟩ := latestMsg_of_latestAc hac
      have hstale : Stale es m ↔ Peer.lastSeen es - Peer.acTimestamp es > timeout := by
        unfold Stale Peer.lastSeen Peer.acTimestamp timeout
        simp only [← latestMsg_iff, hac, hl, Option.some.injEq, exists_eq_left']
        omega
      cases reply with
      | true =>
        refine ⟨.encrypt, ?_, .reply hkn rfl⟩
        by_cases ht : Peer.lastSeen es - Peer.acTimestamp es > timeout <;> simp [ht]
      | false =>
        by_cases ht : Peer.lastSeen es - Peer.acTimestamp es > timeout
        · exact ⟨.discourage, by simp [ht], .stale m rfl hm (hstale.mpr ht)⟩
        · have hns : ¬ Stale es m := fun h => ht (hstale.mp h)
          have hpe : Peer.preferEncrypt es = m.pe.toStr := by
            unfold Peer.preferEncrypt Peer.entryForEncryption
            rw [hac]
            have : m.keyhandle.isEmpty = false := by
              have := hm.2; cases hkh : m.keyhandle <;> simp_all
            simp [this]
          have hw : PeerWantsEncryption es m ↔ m.pe = .mutual ∧ l.keydata ≠ [] := by
            unfold PeerWantsEncryption
            rw [← latestMsg_iff, hl]
            constructor
            · rintro ⟨h1, h2⟩
              cases h1
              obtain ⟨_, _, _, ⟨m', h1, h3⟩, _⟩ := hm.1
              cases h1
              exact ⟨h2, h3⟩
            · rintro ⟨h1, h2⟩
              exact ⟨by rw [latestAc_of_latestMsg hac hl h2], h1⟩
          have hmut : m.pe.toStr = str!"mutual" ↔ m.pe = .mutual := by cases m.pe <;> decide
          simp only [if_neg ht, hpe, hl, Bool.false_eq_true, and_false, if_false, Bool.not_true, true_and, hmut]
          by_cases h : own = .mutual ∧ m.pe = .mutual
          · rw [if_pos h]
            by_cases hlk : l.keydata = []
            · refine ⟨.available, by simp [hlk], .available m rfl hm hns ?_⟩
              rw [hw]; simp [hlk]
            · refine ⟨.encrypt, ?_, .wanted m rfl hm hns h.1 (hw.mpr ⟨h.2, hlk⟩)⟩
              have : l.keydata.isEmpty = false := by cases hk' : l.keydata <;> simp_all
              simp [this]
          · rw [if_neg h]
            refine ⟨.available, rfl, .available m rfl hm hns ?_⟩
            rw [hw]
            exact fun h' => h ⟨h'.1, h'.2.1⟩

theorem PeerRec.eq {es : List Entry} {own : PE} {reply : Bool} {r : Rec} (h : PeerRec es own reply r) :
    r = recSpec es own reply := by
  have hun : ∀ {m m'}, UsableKey es m → UsableKey es m' → m = m' := by
    intro m m' h1 h2
    have := h1.1.unique h2.1
    cases this; rfl
  unfold recSpec
  cases h with
  | disable h => rw [if_pos h]
  | reply h1 h2 => rw [if_neg (fun h => h h1), if_pos h2]
  | noDirect h1 h2 h3 => rw [if_neg (fun h => h h1), if_neg (by simp [h2]), if_pos (.inl h3)]
  | stale m h1 h2 h3 => rw [if_neg (fun h => h (.inl ⟨m, h2⟩)), if_neg (by simp [h1]), if_pos (.inr ⟨m, h2, h3⟩)]
  | wanted m h1 h2 h3 h4 h5 =>
    rw [if_neg (fun h => h (.inl ⟨m, h2⟩)), if_neg (by simp [h1]), if_neg, if_pos ⟨h4, m, h2, h5⟩]
    rintro (h | ⟨m', h, h'⟩)
    · exact h ⟨m, h2⟩
    · rw [hun h h2] at h'; exact h3 h'
  | available m h1 h2 h3 h4 =>
    rw [if_neg (fun h => h (.inl ⟨m, h2⟩)), if_neg (by simp [h1]), if_neg, if_neg]
    · rintro ⟨h, m', h', h''⟩
      rw [hun h' h2] at h''
      exact h4 ⟨h, h''⟩
    · rintro (h | ⟨m', h, h'⟩)
      · exact h ⟨m, h2⟩
      · rw [hun h h2] at h'; exact h3 h'

theorem peerUi_eq (es : List Entry) (own : PE) (reply : Bool) : peerUi es own reply = .ok (recSpec es own reply) := by
  obtain ⟨r, h1, h2⟩ := peerUi_cases es own reply
  rw [h1, h2.eq]

theorem peerUis_eq (own : PE) (reply : Bool) (l : List (List Entry)) :
    peerUis own reply l = .ok (l.map fun es => recSpec es own reply) := by
  induction l with
  | nil => rfl
  | cons es l ih => simp [peerUis, peerUi_eq, ih]

theorem mem_dedup (l acc : List Str) (a : Str) :
    a ∈ l.foldl (fun acc a => if acc.contains a then acc else acc ++ [a]) acc ↔ a ∈ acc ∨ a ∈ l := by
  induction l generalizing acc with
  | nil => simp
  | cons x l ih =>
    rw [List.foldl_cons, ih]
    split
    · rename_i h
      have : x ∈ acc := by simpa using h
      constructor
      · rintro (h | h)
        · exact .inl h
        · exact .inr (List.mem_cons_of_mem _ h)
      · rintro (h | h)
        · exact .inl h
        · rcases List.mem_cons.mp h with rfl | h
          · exact .inl this
          · exact .inr h
    · simp only [List.mem_append, List.mem_cons, List.not_mem_nil, or_false]
      constructor
      · rintro ((h | h) | h)
        · exact .inl h
        · exact .inr (.inl h)
        · exact .inr (.inr h)
      · rintro (h | h | h)
        · exact .inl (.inl h)
        · exact .inl (.inr h)
        · exact .inr h

theorem mem_peerAddrs {env : Env} {addrs : List Str} {f : Option Str} {a : Str} :
    a ∈ Account.peerAddrs env addrs f ↔ ∃ x ∈ addrs, a = parseEmailAddr env (some x) ∧ f ≠ some a := by
  unfold Account.peerAddrs
  rw [mem_dedup]
  simp only [List.not_mem_nil, false_or, List.mem_filter, List.mem_map, decide_eq_true_eq]
  constructor
  · rintro ⟨⟨x, hx, rfl⟩, h⟩; exact ⟨x, hx, rfl, fun h' => h h'.symm⟩
  · rintro ⟨x, hx, rfl, h⟩; exact ⟨⟨x, hx, rfl⟩, fun h' => h h'.symm⟩

theorem exec_readPeers (O : Oracle K) (env : Env) (n : Str) (l : List Str) (w : World Store K) :
    exec O (Account.readPeers env n l) w = (.ok (l.map fun a => w.log (Account.peerHeadOf env n a)), w) := by
  induction l with
  | nil => rfl
  | cons a l ih =>
    simp only [Account.readPeers, bind_eq, exec, run_bind]
    rw [show run Store.impl O (Prog.chain (Account.peerHeadOf env n a)) w = (.ok (w.store.get (Account.peerHeadOf env n a)), w) from rfl]
    simp only [exec] at ih
    dsimp only
    rw [ih]
    rfl

/-- the recommendation of a group -/
noncomputable def groupRec (l : List Rec) (own : PE) : Rec :=
  if l = [] then (match own with | .mutual => .encrypt | .nopreference => .available)
  else if .disable ∈ l then .disable else if .discourage ∈ l then .discourage else if .available ∈ l then .available else .encrypt

theorem exec_recommendation (O : Oracle K) (env : Env) (n : Str) (addrs : List Str) (reply : Bool) (f : Option Str)
    (w : World Store K) (c : OwnConfig) (hc : Own.latestConfig (w.log (ownHead n)) = some c) :
    exec O (Account.recommendation env n addrs reply f) w =
      (.ok (groupRec ((Account.peerAddrs env addrs f).map fun a => recSpec (w.log (Account.peerHeadOf env n a)) c.pe reply) c.pe), w) := by
  have h1 : exec O (Own.config n) w = (.ok c, w) := by
    simp only [Own.config, bind_eq, exec, run_bind]
    rw [show run Store.impl O (Prog.chain (ownHead n)) w = (.ok (w.store.get (ownHead n)), w) from rfl]
    have : Own.latestConfig (w.store.get (ownHead n)) = some c := hc
    simp only [this]
    rfl
  have h2 := exec_readPeers O env n (Account.peerAddrs env addrs f) w
  simp only [exec] at h1 h2 ⊢
  simp only [Account.recommendation, bind_eq, run_bind, h1, h2, run_ofExcept]
  congr 1
  unfold Rec.ui groupRec
  rw [peerUis_eq, List.map_map]
  generalize (Account.peerAddrs env addrs f) = l
  cases l with
  | nil => cases c.pe <;> rfl
  | cons a l =>
    have hcomp : ((fun es => recSpec es c.pe reply) ∘ fun a => w.log (Account.peerHeadOf env n a)) =
      fun a => recSpec (w.log (Account.peerHeadOf env n a)) c.pe reply := rfl
    rw [hcomp, List.map_cons]
    dsimp only
    rw [if_neg (List.cons_ne_nil _ _)]
    generalize (_ :: _ : List Rec) = l'
    split
    · rfl
    split
    · rfl
    split <;> rfl

/-! ## The properties -/

/-- the account has a configuration with preference `pe` (the newest one counts) -/
def OwnPreference (w : World Store K) (n : Str) (pe : PE) : Prop :=
  ∃ c, Newest (fun e => ∃ c, e = Entry.cfg c) (w.log (ownHead n)) (.cfg c) ∧ c.pe = pe

theorem latestConfig_iff {es : List Entry} {c : OwnConfig} :
    Own.latestConfig es = some c ↔ Newest (fun e => ∃ c, e = Entry.cfg c) es (.cfg c) := by
  have h := newest_find Entry.cfg? (fun _ => true) Entry.cfg (fun x c => by cases x <;> simp [Entry.cfg?]) es c
  have h2 : (es.filterMap Entry.cfg?).find? (fun _ => true) = Own.latestConfig es := by
    rw [Own.latestConfig]
    cases es.filterMap Entry.cfg? <;> rfl
  rw [h2] at h
  exact h.trans (Newest.congr fun x => by simp)

/-- C30: the recommendation for one peer (which is not the sender) is the one of the specification, in every state. -/
theorem C30_single_peer (O : Oracle K) (env : Env) (w : World Store K) (n a : Str) (reply : Bool) (f : Option Str) (own : PE)
    (hown : OwnPreference w n own) (hf : f ≠ some (address env (some a))) :
    (exec O (Account.recommendation env n [a] reply f) w).1 =
      .ok (recSpec (w.log (peerHead n (address env (some (address env (some a)))))) own reply) := by
  spec_mail
  change _ = Except.ok (recSpec (w.log (Account.peerHeadOf env n (parseEmailAddr env (some a)))) own reply)
  obtain ⟨c, hc, rfl⟩ := hown
  rw [exec_recommendation O env n [a] reply f w c (latestConfig_iff.mpr hc)]
  have : Account.peerAddrs env [a] f = [parseEmailAddr env (some a)] := by
    unfold Account.peerAddrs
    have : some (parseEmailAddr env (some a)) ≠ f := fun h => hf h.symm
    simp [this]
  rw [this, List.map_singleton]
  congr 1
  unfold groupRec
  cases recSpec (w.log (Account.peerHeadOf env n (parseEmailAddr env (some a)))) c.pe reply <;> simp

/-- C31: for several recipients the recommendation is the weakest of the single ones, and the account's own setting
decides if there are none. Addresses equal to the sender's do not count. -/
theorem C31_weakest (O : Oracle K) (env : Env) (w : World Store K) (n : Str) (addrs : List Str) (reply : Bool) (f : Option Str)
    (own : PE) (hown : OwnPreference w n own) :
    ∃ r, (exec O (Account.recommendation env n addrs reply f) w).1 = .ok r ∧
      ((∀ a ∈ addrs, f = some (address env (some a))) → r = if own = .mutual then .encrypt else .available) ∧
      (∀ a ∈ addrs, f ≠ some (address env (some a)) →
        ∃ r1, (exec O (Account.recommendation env n [a] reply f) w).1 = .ok r1 ∧ r.rank ≤ r1.rank) ∧
      ((∃ a ∈ addrs, f ≠ some (address env (some a))) →
        ∃ a ∈ addrs, f ≠ some (address env (some a)) ∧
          (exec O (Account.recommendation env n [a] reply f) w).1 = .ok r) := by
  spec_mail
  have h30 : ∀ a, f ≠ some (parseEmailAddr env (some a)) → (exec O (Account.recommendation env n [a] reply f) w).1 =
      .ok (recSpec (w.log (Account.peerHeadOf env n (parseEmailAddr env (some a)))) own reply) :=
    fun a hf => C30_single_peer O env w n a reply f own hown hf
  obtain ⟨c, hc, rfl⟩ := hown
  rw [exec_recommendation O env n addrs reply f w c (latestConfig_iff.mpr hc)]
  refine ⟨_, rfl, ?_, ?_, ?_⟩
  · intro h
    have : Account.peerAddrs env addrs f = [] := by
      rw [List.eq_nil_iff_forall_not_mem]
      intro a ha
      obtain ⟨x, hx, rfl, hne⟩ := mem_peerAddrs.mp ha
      exact hne (h x hx)
    rw [this]
    cases c.pe <;> rfl
  · intro a ha hne
    refine ⟨_, h30 a hne, ?_⟩
    generalize hl : (Account.peerAddrs env addrs f).map (fun a => recSpec (w.log (Account.peerHeadOf env n a)) c.pe reply) = l
    have hmem : recSpec (w.log (Account.peerHeadOf env n (parseEmailAddr env (some a)))) c.pe reply ∈ l := by
      rw [← hl]; exact List.mem_map.mpr ⟨_, mem_peerAddrs.mpr ⟨a, ha, rfl, hne⟩, rfl⟩
    generalize recSpec (w.log (Account.peerHeadOf env n (parseEmailAddr env (some a)))) c.pe reply = x at hmem
    unfold groupRec
    rw [if_neg (List.ne_nil_of_mem hmem)]
    split
    · simp [Rec.rank]
    split
    · cases x <;> simp_all [Rec.rank]
    split
    · cases x <;> simp_all [Rec.rank]
    · cases x <;> simp_all [Rec.rank]
  · rintro ⟨a, ha, hne⟩
    generalize hl : (Account.peerAddrs env addrs f).map (fun a => recSpec (w.log (Account.peerHeadOf env n a)) c.pe reply) = l
    have hmem : recSpec (w.log (Account.peerHeadOf env n (parseEmailAddr env (some a)))) c.pe reply ∈ l := by
      rw [← hl]; exact List.mem_map.mpr ⟨_, mem_peerAddrs.mpr ⟨a, ha, rfl, hne⟩, rfl⟩
    have hin : groupRec l c.pe ∈ l := by
      unfold groupRec
      rw [if_neg (List.ne_nil_of_mem hmem)]
      split
      · assumption
      split
      · assumption
      split
      · assumption
      · generalize recSpec (w.log (Account.peerHeadOf env n (parseEmailAddr env (some a)))) c.pe reply = x at hmem
        cases x <;> simp_all
    rw [← hl] at hin
    obtain ⟨b, hb, hb'⟩ := List.mem_map.mp hin
    obtain ⟨x, hx, rfl, hxne⟩ := mem_peerAddrs.mp hb
    refine ⟨x, hx, hxne, ?_⟩
    rw [h30 x hxne, hb', hl]

/-- C31: order, repetition, display names and letter case do not matter: lists with the same set of normal forms have
the same recommendation. -/
theorem C31_set_of_addresses (O : Oracle K) (env : Env) (w : World Store K) (n : Str) (l1 l2 : List Str) (reply : Bool)
    (f : Option Str) (own : PE) (hown : OwnPreference w n own)
    (h : ∀ a, a ∈ l1.map (fun x => address env (some x)) ↔ a ∈ l2.map (fun x => address env (some x))) :
    (exec O (Account.recommendation env n l1 reply f) w).1 = (exec O (Account.recommendation env n l2 reply f) w).1 := by
  spec_mail
  obtain ⟨c, hc, rfl⟩ := hown
  rw [exec_recommendation O env n l1 reply f w c (latestConfig_iff.mpr hc),
    exec_recommendation O env n l2 reply f w c (latestConfig_iff.mpr hc)]
  have hset : ∀ a, a ∈ Account.peerAddrs env l1 f ↔ a ∈ Account.peerAddrs env l2 f := by
    intro a
    simp only [mem_peerAddrs]
    have := h a
    simp only [List.mem_map] at this
    constructor
    · rintro ⟨x, hx, rfl, hne⟩
      obtain ⟨y, hy, he⟩ := this.mp ⟨x, hx, rfl⟩
      exact ⟨y, hy, he.symm, hne⟩
    · rintro ⟨x, hx, rfl, hne⟩
      obtain ⟨y, hy, he⟩ := this.mpr ⟨x, hx, rfl⟩
      exact ⟨y, hy, he.symm, hne⟩
  have hmap : ∀ r, (r ∈ (Account.peerAddrs env l1 f).map fun a => recSpec (w.log (Account.peerHeadOf env n a)) c.pe reply) ↔
      r ∈ (Account.peerAddrs env l2 f).map fun a => recSpec (w.log (Account.peerHeadOf env n a)) c.pe reply := by
    intro r; simp only [List.mem_map, hset]
  dsimp only
  generalize (Account.peerAddrs env l1 f).map (fun a => recSpec (w.log (Account.peerHeadOf env n a)) c.pe reply) = m1 at hmap
  generalize (Account.peerAddrs env l2 f).map (fun a => recSpec (w.log (Account.peerHeadOf env n a)) c.pe reply) = m2 at hmap
  have hnil : m1 = [] ↔ m2 = [] := by
    simp only [List.eq_nil_iff_forall_not_mem, hmap]
  unfold groupRec
  simp only [hnil, hmap]

/-- C32: a recommendation can always be computed for an account with a configuration, and computing it changes
nothing at all. -/
theorem C32_always_computable (O : Oracle K) (env : Env) (w : World Store K) (n : Str) (addrs : List Str) (reply : Bool)
    (f : Option Str) (own : PE) (hown : OwnPreference w n own) :
    ∃ r, exec O (Account.recommendation env n addrs reply f) w = (.ok r, w) := by
  obtain ⟨c, hc, rfl⟩ := hown
  exact ⟨_, exec_recommendation O env n addrs reply f w c (latestConfig_iff.mpr hc)⟩

/-! ## Non-vacuity -/

open Concrete

/-- an account with preference `mutual` which has a key from Bob (with preference `mutual`), one from Carol
(without preference), and nothing from others -/
def recWorld : World Store Unit :=
  after [addA, .modAccount (str!"a") none none none (some (str!"mutual")),
    .processIncoming (str!"a") (.mk [(str!"From", bob), (str!"To", str!"a@x.org"), (str!"Message-Id", str!"1"), (str!"Date", str!"100"),
      (str!"Autocrypt", str!"addr=bob@x.org; prefer-encrypt=mutual; keydata=AQI=")] (.text [])) false false,
    recv carol (str!"2") (str!"100") [3, 4]]

theorem recWorld_pref : OwnPreference recWorld (str!"a") .mutual := by
  have h : (Own.latestConfig (recWorld.log (ownHead (str!"a")))).map (·.pe) = some .mutual := by decide +kernel
  obtain ⟨c, h1, h2⟩ := Option.map_eq_some_iff.mp h
  exact ⟨c, latestConfig_iff.mp h1, h2⟩

/-- the recommendations differ between peers, groups and reply flags -/
example : OwnPreference recWorld (str!"a") .mutual ∧
    (exec oracle (Account.recommendation env (str!"a") [bob] false none) recWorld).1.toOption = some .encrypt ∧
    (exec oracle (Account.recommendation env (str!"a") [carol] false none) recWorld).1.toOption = some .available ∧
    (exec oracle (Account.recommendation env (str!"a") [carol] true none) recWorld).1.toOption = some .encrypt ∧
    (exec oracle (Account.recommendation env (str!"a") [bob, carol, str!"Bob <BOB@x.org>"] false none) recWorld).1.toOption = some .available ∧
    (exec oracle (Account.recommendation env (str!"a") [bob, carol, str!"x@x.org"] false none) recWorld).1.toOption = some .disable ∧
    (exec oracle (Account.recommendation env (str!"a") [carol] false (some carol)) recWorld).1.toOption = some .encrypt :=
  ⟨recWorld_pref, by decide +kernel, by decide +kernel, by decide +kernel, by decide +kernel, by decide +kernel, by decide +kernel⟩

end Verif
