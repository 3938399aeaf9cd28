import Verif.Props.IncomingScope
import Verif.Spec.ConcreteCodec
/-!
# What of a message matters (C116)
-/
namespace Verif
open Mime

variable {σ K : Type}

/-! ## Specification -/

/-- the messages have the same values in the fields with these names, in the same order for each name -/
def SameFields (names : List Str) (m m' : Msg) : Prop := ∀ x ∈ names, m.getAll x = m'.getAll x

/-- fields which are read in every message -/
def readFields : List Str := [str!"From", str!"Date", str!"Message-ID", str!"Autocrypt", str!"Content-Type"]

/-- fields which are read after decryption; the outer ones are added to those within -/
def gossipFields : List Str := [str!"To", str!"Cc", str!"Autocrypt-Gossip"]

/-- fields which tell the account -/
def routingFields : List Str := [str!"To", str!"Cc", str!"Delivered-To"]

/-- the plugins do not look at the decrypted message -/
def PluginsBlind (O : Oracle K) : Prop := ∀ a k d d' s,
  (O.step (.hookIncomingGossip a k d) s : Except Exc Unit × K) = (O.step (.hookIncomingGossip a k d') s : Except Exc Unit × K)

/-- the same step of the environment, apart from the message which plugins get -/
inductive AlikeEvents : List Event → List Event → Prop
  | nil : AlikeEvents [] []
  | same (e : Event) {l l' : List Event} : AlikeEvents l l' → AlikeEvents (e :: l) (e :: l')
  | hook (a : List Str) (k : Str) (d d' : Msg) (r : Except Exc Unit) {l l' : List Event} : AlikeEvents l l' →
      AlikeEvents (⟨.hookIncomingGossip a k d, r⟩ :: l) (⟨.hookIncomingGossip a k d', r⟩ :: l')

/-- the same state, apart from the messages which plugins got -/
structure AlikeWorlds (w w' : World σ K) : Prop where
  store : w.store = w'.store
  clock : w.clock = w'.clock
  tick : w.tick = w'.tick
  env : w.env = w'.env
  trace : AlikeEvents w.trace w'.trace

/-! ## Lemmas -/

theorem AlikeEvents.refl : ∀ l, AlikeEvents l l
  | [] => .nil
  | e :: l => .same e (refl l)

theorem AlikeWorlds.refl (w : World σ K) : AlikeWorlds w w := ⟨rfl, rfl, rfl, rfl, .refl _⟩

/-- programs which differ only in the message for plugins -/
inductive AlikeProgs {α : Type} : Prog α → Prog α → Prop
  | pure (a : α) : AlikeProgs (.pure a) (.pure a)
  | raise (e : Exc) : AlikeProgs (.raise e) (.raise e)
  | op (o : Op) {k k' : o.Ret → Prog α} : (∀ r, AlikeProgs (k r) (k' r)) → AlikeProgs (.op o k) (.op o k')
  | hook (a : List Str) (key : Str) (d d' : Msg) {k k' : Except Exc Unit → Prog α} : (∀ r, AlikeProgs (k r) (k' r)) →
      AlikeProgs (.op (.ext (.hookIncomingGossip a key d)) k) (.op (.ext (.hookIncomingGossip a key d')) k')

theorem AlikeProgs.refl {α : Type} (p : Prog α) : AlikeProgs p p := by
  induction p with
  | pure a => exact .pure a
  | raise e => exact .raise e
  | op o k ih => exact .op o ih

theorem AlikeProgs.bind {α β : Type} {p p' : Prog α} {f f' : α → Prog β} (hp : AlikeProgs p p') (hf : ∀ a, AlikeProgs (f a) (f' a)) :
    AlikeProgs (p.bind f) (p'.bind f') := by
  induction hp with
  | pure a => exact hf a
  | raise e => exact .raise e
  | op o _ ih => exact .op o ih
  | hook a key d d' _ ih => exact .hook a key d d' ih

theorem alike_run {S : StoreImpl σ} {O : Oracle K} (hO : PluginsBlind O) {α : Type} {p p' : Prog α} (hp : AlikeProgs p p')
    {w w' : World σ K} (hw : AlikeWorlds w w') :
    (run S O p w).1 = (run S O p' w').1 ∧ AlikeWorlds (run S O p w).2 (run S O p' w').2 := by
  induction hp generalizing w w' with
  | pure a => exact ⟨rfl, hw⟩
  | raise e => exact ⟨rfl, hw⟩
  | op o _ ih =>
    have hs : (step S O o w).1 = (step S O o w').1 ∧ AlikeWorlds (step S O o w).2 (step S O o w').2 := by
      obtain ⟨s, c, t, e, tr⟩ := w
      obtain ⟨s', c', t', e', tr'⟩ := w'
      obtain ⟨h1, h2, h3, h4, h5⟩ := hw
      dsimp only at h1 h2 h3 h4 h5
      subst h1; subst h2; subst h3; subst h4
      cases o with
      | ext o => exact ⟨rfl, ⟨rfl, rfl, rfl, rfl, .same _ h5⟩⟩
      | _ => exact ⟨rfl, ⟨rfl, rfl, rfl, rfl, h5⟩⟩
    rw [run, run, hs.1]
    exact ih _ hs.2
  | @hook a key d d' k k' _ ih =>
    obtain ⟨s, c, t, e, tr⟩ := w
    obtain ⟨s', c', t', e', tr'⟩ := w'
    obtain ⟨h1, h2, h3, h4, h5⟩ := hw
    dsimp only at h1 h2 h3 h4 h5
    subst h1; subst h2; subst h3; subst h4
    have key : ∀ x y : Except Exc Unit × K, x = y →
        (run S O (k x.1) ⟨s, c, t, x.2, ⟨.hookIncomingGossip a key d, x.1⟩ :: tr⟩).1 =
          (run S O (k' y.1) ⟨s, c, t, y.2, ⟨.hookIncomingGossip a key d', y.1⟩ :: tr'⟩).1 ∧
        AlikeWorlds (run S O (k x.1) ⟨s, c, t, x.2, ⟨.hookIncomingGossip a key d, x.1⟩ :: tr⟩).2
          (run S O (k' y.1) ⟨s, c, t, y.2, ⟨.hookIncomingGossip a key d', y.1⟩ :: tr'⟩).2 := by
      rintro x _ rfl
      exact ih _ ⟨rfl, rfl, rfl, rfl, .hook a key d d' _ h5⟩
    exact key _ _ (hO a _ d d' e)

theorem get_same {m m' : Msg} {x : Str} (h : m.getAll x = m'.getAll x) : m.get x = m'.get x := by
  unfold Msg.get; rw [h]

theorem SameFields.mono {a b : List Str} {m m' : Msg} (h : SameFields a m m') (hs : ∀ x ∈ b, x ∈ a) : SameFields b m m' :=
  fun x hx => h x (hs x hx)

section
variable {m m' : Msg} (h : SameFields readFields m m')
include h

theorem contentType_same : m.contentType = m'.contentType := by
  have : m.getAll (str!"content-type") = m'.getAll (str!"content-type") := by
    rw [getAll_congr m (b := str!"Content-Type") (by decide), getAll_congr m' (b := str!"Content-Type") (by decide)]
    exact h _ (by decide)
  unfold Msg.contentType; rw [get_same this]

theorem messageId_same : messageId m = messageId m' := by
  have : m.getAll (str!"Message-Id") = m'.getAll (str!"Message-Id") := by
    rw [getAll_congr m (b := str!"Message-ID") (by decide), getAll_congr m' (b := str!"Message-ID") (by decide)]
    exact h _ (by decide)
  unfold messageId; rw [get_same this]

theorem processAutocryptHeader_same (env : Env) (n f hd : Str) (d : Time) (i : Str) :
    Account.processAutocryptHeader env n m f hd d i = Account.processAutocryptHeader env n m' f hd d i := by
  unfold Account.processAutocryptHeader parseOneAcHeaderFromMsg
  rw [contentType_same h, h (str!"From") (by decide), h (str!"Autocrypt") (by decide)]

/-- without decryption the message is read only in a few fields -/
theorem processIncoming_same (env : Env) (n : Str) (i nd : Bool) (hnd : nd = true ∨ m.contentType ≠ str!"multipart/encrypted") :
    Account.processIncoming env n m i nd = Account.processIncoming env n m' i nd := by
  unfold Account.processIncoming
  rw [get_same (h (str!"From") (by decide)), get_same (h (str!"Date") (by decide)), messageId_same h]
  simp only [processAutocryptHeader_same h]
  rcases hnd with rfl | hnd
  · rfl
  · have h1 : isEncrypted m = .ok false := by unfold isEncrypted; rw [if_neg hnd]
    have h2 : isEncrypted m' = .ok false := by unfold isEncrypted; rw [if_neg (by rw [← contentType_same h]; exact hnd)]
    rw [h1, h2]
    cases nd <;> rfl

end

theorem alike_decrypted {m m' : Msg} (h : SameFields gossipFields m m') (new : Msg) (env : Env) (n : Str) (d : Time) (i : Str) :
    Account.processGossipHeaders env n (transferNonContentHeaders m new) d i =
      Account.processGossipHeaders env n (transferNonContentHeaders m' new) d i := by
  have ht : ∀ m : Msg, (transferNonContentHeaders m new).getAll (str!"to") = new.getAll (str!"to") ++ m.getAll (str!"To") := fun m => by
    rw [getAll_transfer m new (by decide), getAll_congr m (a := str!"to") (b := str!"To") (by decide)]
  have hc : ∀ m : Msg, (transferNonContentHeaders m new).getAll (str!"cc") = new.getAll (str!"cc") ++ m.getAll (str!"Cc") := fun m => by
    rw [getAll_transfer m new (by decide), getAll_congr m (a := str!"cc") (b := str!"Cc") (by decide)]
  unfold Account.processGossipHeaders getGossipHeadersFromMsg getTargetEmailadr
  rw [ht, ht, hc, hc, getAll_transfer m new (by decide), getAll_transfer m' new (by decide), h (str!"To") (by decide), h (str!"Cc") (by decide),
    h (str!"Autocrypt-Gossip") (by decide)]

theorem alike_incoming {m m' : Msg} (h : SameFields (readFields ++ gossipFields) m m') (hp : m.payload = m'.payload) (env : Env) (n : Str)
    (i nd : Bool) : AlikeProgs (Account.processIncoming env n m i nd) (Account.processIncoming env n m' i nd) := by
  have hr : SameFields readFields m m' := h.mono fun x hx => List.mem_append_left _ hx
  have hg : SameFields gossipFields m m' := h.mono fun x hx => List.mem_append_right _ hx
  have he : isEncrypted m = isEncrypted m' := by unfold isEncrypted; rw [contentType_same hr, hp]
  have hd : Account.encData m = Account.encData m' := by unfold Account.encData; rw [he, hp]
  unfold Account.processIncoming
  simp only [bind_eq, pure_eq]
  rw [get_same (hr (str!"From") (by decide)), get_same (hr (str!"Date") (by decide)), messageId_same hr, he]
  simp only [processAutocryptHeader_same hr]
  refine .bind (.refl _) fun _ => .bind (.refl _) fun _ => .bind (.refl _) fun b => ?_
  split
  · exact .refl _
  · refine .bind (.refl _) fun _ => .bind (.refl _) fun e => .bind ?_ fun _ => .refl _
    split
    · unfold Account.decryptMime
      simp only [bind_eq, pure_eq, hd, Prog.bind_assoc]
      refine .bind (.refl _) fun _ => .bind (.refl _) fun _ => .bind (.refl _) fun x => ?_
      simp only [Prog.bind]
      rw [alike_decrypted hg]
      refine .bind (.refl _) fun _ => .bind (.refl _) fun _ => .bind ?_ fun _ => .refl _
      exact .hook _ _ _ _ fun _ => .refl _
    · exact .refl _

/-! ## The property -/

/-- C116: a message which is not decrypted, because of `--no-decrypt` or because it is not encrypted, is processed like every other one which
has the same values in From, Date, Message-ID, Autocrypt and Content-Type: the result, the state and all that is run are the same. Neither
the body nor any other field matters, nor the order of fields with different names. -/
theorem C116_clear (S : StoreImpl σ) (O : Oracle K) (env : Env) (n : Str) (m m' : Msg) (i nd : Bool) (w : World σ K)
    (h : SameFields readFields m m') (hnd : nd = true ∨ m.contentType ≠ str!"multipart/encrypted") :
    run S O (Account.processIncoming env n m i nd) w = run S O (Account.processIncoming env n m' i nd) w := by
  rw [processIncoming_same h env n i nd hnd]

/-- C116 for all messages: if the bodies are the same and the fields To, Cc and Autocrypt-Gossip, too, then the results and the states are
the same, unless a plugin looks at the decrypted message; only the message which plugins get may differ. -/
theorem C116_encrypted (S : StoreImpl σ) (O : Oracle K) (hO : PluginsBlind O) (env : Env) (n : Str) (m m' : Msg) (i nd : Bool) (w : World σ K)
    (h : SameFields (readFields ++ gossipFields) m m') (hp : m.payload = m'.payload) :
    (run S O (Account.processIncoming env n m i nd) w).1 = (run S O (Account.processIncoming env n m' i nd) w).1 ∧
    AlikeWorlds (run S O (Account.processIncoming env n m i nd) w).2 (run S O (Account.processIncoming env n m' i nd) w).2 :=
  alike_run hO (alike_incoming h hp env n i nd) (.refl w)

/-- C116: the account is found by To, Cc and Delivered-To alone. -/
theorem C116_routing (S : StoreImpl σ) (O : Oracle K) (env : Env) (m m' : Msg) (w : World σ K) (h : SameFields routingFields m m') :
    run S O (Manager.getMatchingAccount env m) w = run S O (Manager.getMatchingAccount env m') w := by
  have ht : ∀ m : Msg, m.getAll (str!"to") = m.getAll (str!"To") := fun m => getAll_congr m (by decide)
  have hc : ∀ m : Msg, m.getAll (str!"cc") = m.getAll (str!"Cc") := fun m => getAll_congr m (by decide)
  unfold Manager.getMatchingAccount getTargetEmailadr getDeliveredTo
  rw [ht, ht, hc, hc, h (str!"To") (by decide), h (str!"Cc") (by decide), get_same (h (str!"Delivered-To") (by decide))]

/-- fields with other names, anywhere -/
theorem C116_other_fields (names : List Str) (hs l : List (Str × Str)) (x v : Str) (p p' : Payload Msg)
    (hx : ∀ y ∈ names, Py.lower x ≠ Py.lower y) : SameFields names (.mk (hs ++ l) p) (.mk (hs ++ (x, v) :: l) p') := by
  intro y hy
  have : Msg.nameEq x y = false := by simpa [Msg.nameEq] using hx y hy
  simp [Msg.getAll, Msg.headers, List.filter_append, List.filter_cons, this]

/-- the order of two fields with different names which stand beside each other -/
theorem C116_order (names : List Str) (hs l : List (Str × Str)) (a b : Str × Str) (p p' : Payload Msg)
    (hab : Py.lower a.1 ≠ Py.lower b.1) : SameFields names (.mk (hs ++ a :: b :: l) p) (.mk (hs ++ b :: a :: l) p') := by
  intro y _
  simp only [Msg.getAll, Msg.headers, List.filter_append, List.filter_cons, Msg.nameEq]
  by_cases h1 : Py.lower a.1 = Py.lower y <;> by_cases h2 : Py.lower b.1 = Py.lower y <;> simp [h1, h2]
  exact absurd (h1.trans h2.symm) hab

/-- upper and lower case of field names -/
theorem C116_case (names : List Str) (hs l : List (Str × Str)) (x x' v : Str) (p p' : Payload Msg)
    (hx : Py.lower x = Py.lower x') : SameFields names (.mk (hs ++ (x, v) :: l) p) (.mk (hs ++ (x', v) :: l) p') := by
  intro y _
  simp only [Msg.getAll, Msg.headers, List.filter_append, List.filter_cons, Msg.nameEq, hx]
  split <;> simp

section examples
open Concrete

/-- Bob's message with a subject, another body and other names of fields -/
def otherMail : Msg :=
  .mk [(str!"Subject", str!"news"), (str!"date", str!"100"), (str!"FROM", bob), (str!"To", carol), (str!"message-ID", str!"1"),
    (str!"AutoCrypt", str!"addr=" ++ bob ++ str!"; keydata=" ++ Py.b64encode [7])] (.text (str!"what a day"))

/-- it is the same for `process_incoming`, and has a key -/
example : SameFields readFields (mail bob (str!"1") (str!"100") [7]) otherMail ∧ otherMail.contentType ≠ str!"multipart/encrypted" ∧
    (bobs (run Store.impl oracle (Account.processIncoming env (str!"a") otherMail false false) (after [addA])).2).length = 1 := by
  unfold SameFields
  decide +kernel

/-- an encrypted message with a key for Carol within, and the same one with a subject outside -/
example : PluginsBlind oracle ∧
    SameFields (readFields ++ gossipFields) (encMail (str!"1") (str!"100") [] [gossipField carol [9]])
      (encMail (str!"1") (str!"100") [(str!"Subject", str!"...")] [gossipField carol [9]]) ∧
    (carols (run Store.impl oracle (Account.processIncoming env (str!"a") (encMail (str!"1") (str!"100") [] [gossipField carol [9]]) false false)
      (after [addA])).2).length = 1 := by
  refine ⟨fun _ _ _ _ _ => rfl, ?_⟩
  unfold SameFields
  decide +kernel

/-- the fields in the lists are read: without any one of them the message of the first example is processed differently -/
example : ∀ x ∈ [str!"From", str!"Date", str!"Message-ID", str!"Autocrypt"],
    bobs (run Store.impl oracle (Account.processIncoming env (str!"a") (otherMail.del x) false false) (after [addA])).2 ≠
    bobs (run Store.impl oracle (Account.processIncoming env (str!"a") otherMail false false) (after [addA])).2 := by
  decide +kernel

/-- two messages to the same address -/
example : SameFields routingFields (mail bob (str!"1") (str!"100") []) (mail carol (str!"2") (str!"200") [8]) ∧
    (run Store.impl oracle (Manager.getMatchingAccount env (mail bob (str!"1") (str!"100") [])) (after [addA])).1.toOption = some (some (str!"a")) := by
  unfold SameFields
  decide +kernel

end examples

end Verif
