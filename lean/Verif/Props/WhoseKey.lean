import Verif.Props.OwnKept
import Verif.Props.Message
import Verif.Props.Unaffected
import Verif.Props.OutgoingExamples

/-!
C143: whose key it is. Every key which is recorded for an address was sent from it, or for it by somebody who wrote to it as well, or was given by the
user for it (`account.py:321-394`, `states.py:175-229`).
-/
namespace Verif
open Mime

variable {K : Type} {α β : Type}

/-! ## What holds wherever a program is interrupted -/

/-- `I` holds wherever the program is interrupted -/
def Always (O : Oracle K) (I : World Store K → Prop) (p : Prog α) (w : World Store K) : Prop := ∀ i, I (runFor Store.impl O i p w)

namespace Always
variable {O : Oracle K} {I : World Store K → Prop} {w : World Store K}

theorem done {p : Prog α} (h : Always O I p w) : I (run Store.impl O p w).2 := by
  obtain ⟨i, hi⟩ := runFor_run Store.impl O p w
  rw [← hi]; exact h i

theorem ro (hI : ∀ w w', Safe.Quiet w w' → I w → I w') {p : Prog α} (hp : p.AllOps Op.readOnly) (hw : I w) : Always O I p w :=
  fun i => hI _ _ (Safe.runFor_ro hp i w) hw

theorem bind {p : Prog α} {f : α → Prog β} (hp : Always O I p w)
    (hf : ∀ a w1, run Store.impl O p w = (.ok a, w1) → I w1 → Always O I (f a) w1) : Always O I (p.bind f) w := by
  intro i
  rcases Safe.runFor_bind Store.impl O i p f w with he | ⟨a, w1, j, h1, he⟩
  · rw [he]; exact hp i
  · rw [he]
    have := hp.done
    rw [h1] at this
    exact hf a w1 h1 this j

theorem safe {A : Act → Prop} {p : Prog α} (hp : Safe A p) (hI : ∀ w w', Safe.Quiet w w' → I w → I w')
    (hA : ∀ a, A a → ∀ w1 : World Store K, w.trace <:+ w1.trace → I w1 → I (exec O a.prog w1).2) (hw : I w) : Always O I p w := by
  intro i
  refine (hp.respects_killed (O := O) (R := fun a b => w.trace <:+ a.trace ∧ I a → w.trace <:+ b.trace ∧ I b) (fun _ _ _ h1 h2 h => h2 (h1 h)) ?_ ?_ i w
    ⟨List.suffix_refl _, hw⟩).2
  · rintro a b h1 h2 h3 h4 ⟨h5, h6⟩
    obtain ⟨l, hl⟩ := h4
    exact ⟨h5.trans ⟨l, hl.symm⟩, hI _ _ ⟨h1, h2, h3, l, hl⟩ h6⟩
  · rintro act ha a ⟨h1, h2⟩
    exact ⟨h1.trans (trace_le (O := O) (p := act.prog) (w := a) rfl), hA act ha a h1 h2⟩

end Always

/-! ## Interrupted processing of a mail -/

/-- where an entry comes from which is added by processing a mail that began in `w` and went on to `w'` -/
def FromMail (env : Env) (n : Str) (m : Msg) (nd : Bool) (w w' : World Store K) (h : Str) (e : Entry) : Prop :=
  (∃ d a, Account.HeaderAct env n m (fromAddr env m) d a ∧ a.Adds h e) ∨
  (nd = false ∧ isEncrypted m = .ok true ∧ ∃ dec, DecryptedTo w w' m dec ∧
    ∃ d a, Account.GossipAct env n (transferNonContentHeaders m (env.messageFromBytes dec)) (messageId m) d a ∧ a.Adds h e)

theorem FromMail.mono {env : Env} {n : Str} {m : Msg} {nd : Bool} {w w1 w2 : World Store K} {h : Str} {e : Entry}
    (hf : FromMail env n m nd w w1 h e) (hs : w1.trace <:+ w2.trace) : FromMail env n m nd w w2 h e :=
  hf.imp id fun ⟨h1, h2, dec, h3, h4⟩ => ⟨h1, h2, dec, h3.mono (List.suffix_refl _) hs, h4⟩

theorem incoming_killed (O : Oracle K) (env : Env) (w : World Store K) (n : Str) (m : Msg) (ig nd : Bool) (i : Nat) (h : Str) (e : Entry)
    {w' : World Store K} (hw' : w' = runFor Store.impl O i (Account.processIncoming env n m ig nd) w) (he : e ∈ w'.log h) :
    e ∈ w.log h ∨ FromMail env n m nd w w' h e := by
  let I : World Store K → Prop := fun w1 => w.trace <:+ w1.trace ∧ ∀ h, ∀ e ∈ w1.log h, e ∈ w.log h ∨ FromMail env n m nd w w1 h e
  have hI : ∀ w1 w2, Safe.Quiet w1 w2 → I w1 → I w2 := by
    rintro w1 w2 ⟨hs, -, -, l, hl⟩ ⟨h1, h2⟩
    refine ⟨h1.trans ⟨l, hl.symm⟩, fun h e he => ?_⟩
    have he' : e ∈ w1.log h := by simpa only [World.log, hs] using he
    exact (h2 h e he').imp id (·.mono ⟨l, hl.symm⟩)
  have hact : ∀ (a : Act) (w1 : World Store K), (∀ h e, a.Adds h e → FromMail env n m nd w w1 h e) → I w1 → I (exec O a.prog w1).2 := by
    rintro a w1 ha ⟨h1, h2⟩
    have ht : w1.trace <:+ (exec O a.prog w1).2.trace := trace_le (O := O) (p := a.prog) (w := w1) rfl
    refine ⟨h1.trans ht, fun h e he => ?_⟩
    rcases act_new O a w1 h e he with h3 | h3
    · exact (h2 h e h3).imp id (·.mono ht)
    · exact .inr ((ha h e h3).mono ht)
  have key : Always O I (Account.processIncoming env n m ig nd) w := by
    have hw : I w := ⟨List.suffix_refl _, fun h e he => .inl he⟩
    unfold Account.processIncoming effectiveDate
    simp only [bind_eq, pure_eq]
    refine .bind (.ro hI (.ofExcept _) hw) fun d w1 _ hw => .bind (.ro hI (by allops) hw) fun date w2 _ hw =>
      .bind (.ro hI (by allops) hw) fun known w3 _ hw => ?_
    split
    · exact .ro hI trivial hw
    refine .bind (.safe (Account.safe_processAutocryptHeader env n m (fromAddr env m) date
      (A := Account.HeaderAct env n m (fromAddr env m) date) fun a ha => ha) hI
        (fun a ha w1 _ h1 => hact a w1 (fun h e h2 => .inl ⟨_, a, ha, h2⟩) h1) hw) fun pah w4 _ hw => ?_
    refine .bind (.ro hI (by allops) hw) fun enc w5 henc hw => .bind ?_ fun _ _ _ hw => .ro hI trivial hw
    split
    · rename_i hE
      have hne : nd = false ∧ isEncrypted m = .ok true := by
        cases nd with
        | true => cases henc; cases hE
        | false =>
          refine ⟨rfl, ?_⟩
          rw [if_neg (by simp), run_ofExcept] at henc
          cases hx : isEncrypted m with
          | error e => rw [hx] at henc; cases henc
          | ok b => rw [hx] at henc; cases henc; rw [hE]
      refine .bind (.ro hI (Account.decryptMime_ops permissive_readOnly env n m) hw) fun r w6 h6 hw6 => ?_
      obtain ⟨dec, hdec, hD⟩ := decryptMime_ok h6
      refine .bind (.safe (Account.safe_processGossipHeaders env n r.decMsg date (messageId m)
        (A := Account.GossipAct env n r.decMsg (messageId m) date) fun a ha => ha) hI (fun a ha w1 ht h1 => hact a w1 (fun h e h2 => ?_) h1) hw6) fun _ _ _ hw =>
        .bind (.ro hI (Account.ownKeyhandle_ops permissive_readOnly n) hw) fun _ _ _ hw => .bind (.ro hI (by allops) hw) fun _ _ _ hw => .ro hI trivial hw
      exact .inr ⟨hne.1, hne.2, dec, hD.mono hw.1 ht, date, a, by rw [← hdec]; exact ha, h2⟩
    · exact .ro hI trivial hw
  rw [hw'] at he ⊢
  exact (key i).2 h e he

/-! ## Where recorded keys come from -/

/-- the key `k` was given for the address `a` directly by one of the calls: it is in the one valid Autocrypt header of a mail from `a`, or the user
imported a key, for this address or for those which the key names, or a program recorded it for `a` -/
def DirectSource (env : Env) (calls : Set ApiCall) (n a : Str) (k : Bytes) : Prop :=
  (∃ m i nd pe, .processIncoming n m i nd ∈ calls ∧ CarriesKey env m a k pe) ∨
  (∃ x kd pe, .importKey n x kd pe ∈ calls ∧ ∀ y, x = some y → a = address env (some (address env (some y)))) ∨
  ∃ x u, .peerMsg n x u ∈ calls ∧ a = address env (some x) ∧ u.keydata = some k

/-- the key `k` was in gossip about the address `a`: one of the mails was encrypted, and was decrypted between `w` and `w'`; it went to `a` as well, and
`k` is in the last valid gossip header for `a`. Or a program recorded it as gossip. -/
def GossipSource (env : Env) (calls : Set ApiCall) (w w' : World Store K) (n a : Str) (k : Bytes) : Prop :=
  (∃ m i dec r v res, .processIncoming n m i false ∈ calls ∧ PgpMime m ∧ DecryptedTo w w' m dec ∧ r ∈ decRecipients env m dec ∧
    a = address env (some r) ∧ LastOne (fun v => ∃ res, ValidFor env r v res) (innerOuter env m dec (str!"Autocrypt-Gossip")) v ∧
    ValidFor env r v res ∧ res.keydata = some k) ∨
  ∃ x u, .peerGossip n x u ∈ calls ∧ a = address env (some x) ∧ u.keydata = some k

theorem GossipSource.mono {env : Env} {calls : Set ApiCall} {w w1 w2 : World Store K} {n a : Str} {k : Bytes}
    (h : GossipSource env calls w w1 n a k) (hs : w1.trace <:+ w2.trace) : GossipSource env calls w w2 n a k := by
  refine h.imp ?_ id
  rintro ⟨m, i, dec, r, v, res, h1, h2, h3, h4⟩
  exact ⟨m, i, dec, r, v, res, h1, h2, h3.mono (List.suffix_refl _) hs, h4⟩

/-- all keys recorded for peers of the account have a source -/
def Sources (env : Env) (calls : Set ApiCall) (n : Str) (w0 w : World Store K) : Prop :=
  w0.trace <:+ w.trace ∧ ∀ a, (∀ e, .msg e ∈ w.log (peerHead n a) → e.keydata ≠ [] → DirectSource env calls n a e.keydata) ∧
    ∀ e, .gossip e ∈ w.log (peerHead n a) → GossipSource env calls w0 w n a e.keydata

theorem call_sources {O : Oracle K} {env : Env} {n : Str} (hn : env.isalnum n = true) {calls : Set ApiCall} {c : ApiCall} (hc : c ∈ calls)
    {w0 w : World Store K} (i : Nat) (hw : Sources env calls n w0 w) : Sources env calls n w0 (runFor Store.impl O i (c.prog env) w) := by
  have hcol := colon_not_mem_of_isalnum hn
  obtain ⟨ht0, hs⟩ := hw
  have ht : w.trace <:+ (runFor Store.impl O i (c.prog env) w).trace :=
    (safe_call env c).respects_killed (O := O) (R := fun w w' : World Store K => w.trace <:+ w'.trace) (fun _ _ _ => List.IsSuffix.trans)
      (fun _ _ _ _ _ ⟨l, hl⟩ => ⟨l, hl.symm⟩) (fun a _ w => trace_le (O := O) (p := a.prog) (w := w) rfl) i w
  refine ⟨ht0.trans ht, fun a => ?_⟩
  -- it is enough to look at what is new
  suffices hnew : ∀ e, e ∈ (runFor Store.impl O i (c.prog env) w).log (peerHead n a) → e ∈ w.log (peerHead n a) ∨
      (∀ x, e = .msg x → x.keydata ≠ [] → DirectSource env calls n a x.keydata) ∧
      ∀ x, e = .gossip x → GossipSource env calls w0 (runFor Store.impl O i (c.prog env) w) n a x.keydata by
    refine ⟨fun e he hk => ?_, fun e he => ?_⟩
    · rcases hnew _ he with h | h
      · exact (hs a).1 e h hk
      · exact h.1 e rfl hk
    · rcases hnew _ he with h | h
      · exact ((hs a).2 e h).mono ht
      · exact h.2 e rfl
  intro e he
  rcases ((safe_call env c).new_killed (O := O) i w).2.2 _ e he with hold | ⟨act, hact, had⟩
  · exact .inl hold
  have hal := isalnum_of_act hact
  cases c with
  | processIncoming n' m ig nd =>
    rcases runFor_onAccount (O := O) (env := env) (n := n') (Account.processIncoming env n' m ig nd) i w with h1 | h1
    · left
      have h2 : runFor Store.impl O i ((ApiCall.processIncoming n' m ig nd).prog env) w = w := h1
      rw [h2] at he; exact he
    have h2 : runFor Store.impl O i ((ApiCall.processIncoming n' m ig nd).prog env) w =
      runFor Store.impl O i (Account.processIncoming env n' m ig nd) w := h1
    rw [h2] at he ht ⊢
    rcases incoming_killed O env w n' m ig nd i _ e rfl he with h3 | ⟨d, a', ha', had'⟩ | ⟨rfl, h4, dec, h5, d, a', ha', had'⟩
    · exact .inl h3
    · right
      cases a' <;> simp only [Account.HeaderAct] at ha'
      rename_i n'' ad u
      obtain ⟨rfl, rfl, _, _, r, k1, k2, k3, _⟩ := ha'
      cases e <;> simp only [Act.Adds] at had'
      rename_i x
      refine ⟨?_, by rintro y ⟨⟩⟩
      rintro y ⟨⟩ hk
      obtain ⟨k4, _, _, k5⟩ := had'
      rcases k5 with ⟨k5, _⟩ | ⟨_, k5, k6, _⟩
      · exact absurd k5 hk
      obtain ⟨rfl, rfl⟩ := (peerHead_inj hcol (colon_not_mem_of_isalnum hact.1)).mp k4
      obtain ⟨k7, k8, v, k9, k10⟩ := parseOne_key k1 (by rw [← k2, k5])
      exact .inl ⟨m, ig, nd, x.pe, hc, rfl, hk, k7, k8, v, r, k9, k10, by rw [← k2, k5], by rw [← k3, k6]⟩
    · right
      obtain ⟨u, r, v, res, rfl, k4, k5, k6, k7, k8, k9⟩ := gossipAct_spec ha'
      cases e <;> simp only [Act.Adds] at had'
      rename_i x
      refine ⟨by rintro y ⟨⟩, ?_⟩
      rintro y ⟨⟩
      obtain ⟨k10, _, _, k11, _⟩ := had'
      obtain ⟨rfl, rfl⟩ := (peerHead_inj hcol (colon_not_mem_of_isalnum hact.1)).mp k10
      exact .inl ⟨m, ig, dec, r, v, res, hc, pgpMime_iff.mpr h4, h5.mono ht0 (List.suffix_refl _), k7, rfl, k9, k8, by rw [← k6, k11]⟩
  | importKey n' x kd pe =>
    by_cases hi : (ApiCall.importKey n' x kd pe).Informs O env n a
    · right
      cases act <;> simp only [ApiCall.acts, Account.ImportAct, and_false] at hact
      cases e <;> simp only [Act.Adds] at had
      refine ⟨?_, by rintro y ⟨⟩⟩
      rintro y ⟨⟩ hk
      cases x with
      | none => cases hi; exact .inr (.inl ⟨none, kd, pe, hc, by rintro y ⟨⟩⟩)
      | some x =>
        obtain ⟨rfl, h2⟩ := hi
        exact .inr (.inl ⟨some x, kd, pe, hc, by rintro y ⟨⟩; exact h2⟩)
    · left
      rw [(call_frame O hn _ i w).2 a (by simp [ApiCall.Sets]) hi] at he; exact he
  | peerMsg n' x u =>
    right
    obtain ⟨h1, rfl⟩ := hact
    cases e <;> simp only [Act.Adds] at had
    refine ⟨?_, by rintro y ⟨⟩⟩
    rintro y ⟨⟩ hk
    obtain ⟨h2, -, -, h3⟩ := had
    obtain ⟨rfl, rfl⟩ := (peerHead_inj hcol (colon_not_mem_of_isalnum h1)).mp h2
    rcases h3 with ⟨h3, -⟩ | ⟨-, h3, -⟩
    · exact absurd h3 hk
    · exact .inr (.inr ⟨x, u, hc, rfl, h3⟩)
  | peerGossip n' x u =>
    right
    obtain ⟨h1, rfl⟩ := hact
    cases e <;> simp only [Act.Adds] at had
    refine ⟨by rintro y ⟨⟩, ?_⟩
    rintro y ⟨⟩
    obtain ⟨h2, -, -, h3, -⟩ := had
    obtain ⟨rfl, rfl⟩ := (peerHead_inj hcol (colon_not_mem_of_isalnum h1)).mp h2
    exact .inr ⟨x, u, hc, rfl, h3⟩
  | _ =>
    right
    refine ⟨?_, ?_⟩ <;> rintro y rfl <;> exfalso <;> cases act <;> simp_all [Act.Adds, ApiCall.acts, InitAct, OwnAct, CfgAct]

/-- C143: after any history of calls and commands, interrupted or not, every key recorded for an address has a source which concerns this very address -/
theorem C143_recorded (O : Oracle K) (env : Env) (hist : List (Happening K)) {w0 w : World Store K} (h0 : w0.store = [])
    (hw : w = runHistory Store.impl O env hist w0) {n : Str} (hn : env.isalnum n = true) (a : Str) :
    (∀ e, .msg e ∈ w.log (peerHead n a) → e.keydata ≠ [] → DirectSource env (callsMade hist) n a e.keydata) ∧
    ∀ e, .gossip e ∈ w.log (peerHead n a) → GossipSource env (callsMade hist) w0 w n a e.keydata := by
  subst hw
  have h : Sources env (callsMade hist) n w0 (runHistory Store.impl O env hist w0) :=
    runHistory_ind (P := Sources env (callsMade hist) n w0) hist
      (by
        rintro w1 w2 ⟨hs, -, -, l, hl⟩ ⟨h1, h2⟩
        refine ⟨h1.trans ⟨l, hl.symm⟩, fun a => ⟨fun e he => (h2 a).1 e ?_, fun e he => ((h2 a).2 e ?_).mono ⟨l, hl.symm⟩⟩⟩ <;>
          simpa only [World.log, hs] using he)
      (fun c hc i w1 h1 => call_sources hn hc i h1) w0
      ⟨List.suffix_refl _, fun a => by
        have : w0.log (peerHead n a) = [] := by simp only [World.log, h0]; rfl
        rw [this]; exact ⟨by simp, by simp⟩⟩
  exact h.2 a

/-- the key with the handle `kh` was sent by `a`, by others as gossip about `a`, or given by the user for `a`; or it is the own key, and `a` an own address -/
def KeyConcerns (env : Env) (calls : Set ApiCall) (w0 w : World Store K) (n a kh : Str) : Prop :=
  (∃ k, PeerKey (peerLog env w n a) kh k ∧
    (DirectSource env calls n (address env (some a)) k ∨ GossipSource env calls w0 w n (address env (some a)) k)) ∨
  (OwnAddress env w n a ∧ OwnKey w n kh)

theorem recipientKey_concerns (O : Oracle K) (env : Env) (hist : List (Happening K)) {w0 w : World Store K} (h0 : w0.store = [])
    (hw : w = runHistory Store.impl O env hist w0) {n : Str} (hn : env.isalnum n = true) {a kh : Str} (h : RecipientKey env w n a kh) :
    KeyConcerns env (callsMade hist) w0 w n a kh := by
  have hr := C143_recorded O env hist h0 hw hn (address env (some a))
  rcases h with ⟨kd, h⟩ | ⟨-, h1, h2⟩
  · refine .inl ⟨kd, h, ?_⟩
    rcases h with ⟨m, h1, -, rfl⟩ | ⟨-, g, h1, -, -, rfl⟩
    · obtain ⟨_, _, _, ⟨m', e, hk⟩, _⟩ := h1.1
      cases e
      exact .inl (hr.1 m h1.1.mem hk)
    · exact .inr (hr.2 g h1.mem)
  · exact .inr ⟨h1, h2⟩

/-- C143: whenever mail is encrypted, each key to which it is encrypted concerns the recipient for whom it is used. -/
theorem C143_encrypted (O : Oracle K) (env : Env) (hist : List (Happening K)) {w0 w : World Store K} (h0 : w0.store = [])
    (hw : w = runHistory Store.impl O env hist w0) {n : Str} (hn : env.isalnum n = true) {m : Msg} {r : Except Exc Account.OutgoingResult}
    {w' : World Store K} (h : exec O (Account.processOutgoing env n m) w = (r, w')) {new : List Event} (ht : w'.trace = new ++ w.trace)
    {argv : List Str} {data : Bytes} {ret : Except Exc GpgOut} (hev : Event.gpg argv (some data) ret ∈ new) :
    ∃ f khs own, m.getAll (str!"From") = [f] ∧ OwnKey w n own ∧ EncryptArgs khs own argv ∧
      List.Forall₂ (KeyConcerns env (callsMade hist) w0 w n) ((encryptTo env m (address env (some f))).map fun a => address env (some a)) khs := by
  obtain ⟨f, khs, own, h1, h2, h3, h4⟩ := C37_outgoing O env w w' n m r h new ht argv data ret hev
  exact ⟨f, khs, own, h1, h2, h3, h4.imp fun a kh hk => recipientKey_concerns O env hist h0 hw hn hk⟩

section
open Concrete

/-- an encrypted mail from Bob brings gossip about Carol, the process dies in a second one, and Bob sends a key -/
def keysCome : List (Happening Unit) :=
  [.call addA, .call (.processIncoming (str!"a") (encMail (str!"1") (str!"100") [] [gossipField carol [7]]) false false),
    .killed (.processIncoming (str!"a") (encMail (str!"2") (str!"200") [] [gossipField carol [8]]) false false) 9,
    .call (.processIncoming (str!"a") (mail bob (str!"3") (str!"300") [9]) false false)]

/-- the history of the example gives keys of both kinds, so that the theorems say something about it -/
example : let w := runHistory Store.impl oracle Concrete.env keysCome { store := [], clock := fun i => sec (1000 * i + 1000), tick := 0, env := (), trace := [] }
    (∃ e, .msg e ∈ w.log (peerHead (str!"a") bob) ∧ e.keydata = [9]) ∧ ∃ e, .gossip e ∈ w.log (peerHead (str!"a") carol) ∧ e.keydata = [7] :=
  ⟨⟨⟨str!"3", sec 300, .nopreference, [9], str!"AAAAAAAAAAAA09"⟩, by decide +kernel, rfl⟩,
    ⟨⟨str!"1", sec 100, [7], str!"AAAAAAAAAAAA07"⟩, by decide +kernel, rfl⟩⟩

/-- mail to Bob is encrypted afterwards -/
example : ((exec oracle (Account.processOutgoing Concrete.env (str!"a") (letter (str!"yes")))
    (runHistory Store.impl oracle Concrete.env keysCome { store := [], clock := fun i => sec (1000 * i + 1000), tick := 0, env := (), trace := [] })).2.trace.any
      fun ev => match ev with | ⟨.gpg argv (some _), _⟩ => argv.contains (str!"--encrypt") | _ => false) = true := by decide +kernel

end

end Verif
