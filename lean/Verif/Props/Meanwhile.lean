import Verif.Props.Accesses
/-!
# C122: several processes at the same time, one operation at a time

`C04` and `C109` treat processes which write the same files at the same time. Here each operation on the store, the
reading of a chain or the append of an entry, is done at once, and the operations of other processes come between.
-/
namespace Verif
namespace Meanwhile

variable {K : Type} {α β : Type}

/-! ## processes which work on other chains -/

/-- the operation reads or extends one of the chains `H` -/
def Within (H : Str → Prop) : Op → Prop
  | .chain h => H h
  | .append h _ => H h
  | _ => False

/-- the operation leaves the chains `H` as they are -/
def Outside (H : Str → Prop) : Op → Prop
  | .append h _ => ¬ H h
  | .removeIf _ => False
  | .wipe => False
  | _ => True

theorem others_outside {O : Oracle K} {H : Str → Prop} {p : Prog Unit} (hp : p.AllOps (Outside H))
    (w : World Store K) {h : Str} (hh : H h) : (exec O p w).2.store.get h = w.store.get h := by
  refine run_invariant (S := Store.impl) (O := O) (I := fun v => v.store.get h = w.store.get h) ?_ hp rfl
  intro o v ho hv
  cases o with
  | append h' e =>
    show Store.get (v.store.push h' e) h = _
    rw [Store.get_push]
    split
    · next hx => subst hx; exact absurd hh ho
    · exact hv
  | removeIf p => exact ho.elim
  | wipe => exact ho.elim
  | _ => exact hv

theorem apart {O : Oracle K} {H : Str → Prop} {others : Nat → Prog Unit}
    (ho : ∀ n, (others n).AllOps (Outside H)) {p : Prog α} (hp : p.AllOps (Within H)) (n : Nat)
    (w v : World Store K) (hw : ∀ h, H h → w.store.get h = v.store.get h) :
    (runAmid Store.impl O others p n w).1 = (exec O p v).1 ∧
      ∀ h, H h → (runAmid Store.impl O others p n w).2.store.get h = (exec O p v).2.store.get h := by
  induction p generalizing n w v with
  | pure a => exact ⟨rfl, hw⟩
  | raise e => exact ⟨rfl, hw⟩
  | op o k ih =>
    have h1 : ∀ h, H h → (exec O (others n) w).2.store.get h = v.store.get h := fun h hh =>
      (others_outside (ho n) w hh).trans (hw h hh)
    have hin := hp.1
    cases o with
    | chain h =>
      have h2 : (step Store.impl O (.chain h) (exec O (others n) w).2).1 =
          (step Store.impl O (.chain h) v).1 := congrArg Except.ok (h1 h hin)
      simp only [runAmid, exec, run] at ih ⊢
      rw [h2]
      exact ih _ (hp.2 _) _ _ _ h1
    | append h e =>
      simp only [runAmid, exec, run] at ih ⊢
      refine ih _ (hp.2 _) _ _ _ ?_
      intro h' hh'
      show Store.get (Store.push _ h e) h' = Store.get (v.store.push h e) h'
      rw [Store.get_push, Store.get_push]
      split
      · exact congrArg (e :: ·) (h1 h' hh')
      · exact h1 h' hh'
    | _ => exact hin.elim

/-! ## what was true at some moment -/

/-- the state after the others did their first `n` pieces of work -/
def moment (O : Oracle K) (others : Nat → Prog Unit) (w : World Store K) : Nat → World Store K
  | 0 => w
  | n + 1 => (exec O (others n) (moment O others w n)).2

/-- the program only reads the chain `h`, and if all logs which it reads satisfy `M` then its result satisfies `Q` -/
def Sound (h : Str) (M : List Entry → Prop) (Q : α → Prop) : Prog α → Prop
  | .pure a => Q a
  | .raise _ => True
  | .op (.chain h') k => h' = h ∧ ∀ es, M es → Sound h M Q (k (.ok es))
  | .op _ _ => False

variable {h : Str} {M : List Entry → Prop}

theorem Sound.bind {Q : α → Prop} {R : β → Prop} {p : Prog α} {f : α → Prog β} (hp : Sound h M Q p)
    (hf : ∀ a, Q a → Sound h M R (f a)) : Sound h M R (p.bind f) := by
  induction p with
  | pure a => exact hf a hp
  | raise e => trivial
  | op o k ih =>
    cases o with
    | chain h' => exact ⟨hp.1, fun es hes => ih _ (hp.2 es hes)⟩
    | _ => exact hp.elim

theorem Sound.chain : Sound h M M (Prog.chain h) := ⟨rfl, fun _ hes => hes⟩

theorem Sound.run {O : Oracle K} {others : Nat → Prog Unit} {w : World Store K} {Q : α → Prop} {p : Prog α}
    (hM : ∀ n, M ((moment O others w n).store.get h)) (hp : Sound h M Q p) (n : Nat) {a : α}
    (hr : (runAmid Store.impl O others p n (moment O others w n)).1 = .ok a) : Q a := by
  induction p generalizing n with
  | pure b => cases hr; exact hp
  | raise e => cases hr
  | op o k ih =>
    cases o with
    | chain h' =>
      obtain ⟨rfl, hk⟩ := hp
      exact ih _ (hk _ (hM (n + 1))) (n + 1) hr
    | _ => exact hp.elim

open Access

theorem entry_sound : Sound h M (fun e => (∃ es m, M es ∧ e = some (.inl m) ∧ Peer.entryForEncryption es = e) ∨
      (e = none ∨ ∃ g, e = some (.inr g))) (Access.entryForEncryption h) := by
  unfold Access.entryForEncryption
  simp only [bind_eq, pure_eq]
  refine .bind .chain fun es hes => ?_
  have hg : ∀ e : Option GossipEntry, (e.map Sum.inr : Option EncEntry) = none ∨
      ∃ g, (e.map Sum.inr : Option EncEntry) = some (.inr g) := by
    intro e; cases e
    · exact .inl rfl
    · exact .inr ⟨_, rfl⟩
  cases hl : Peer.latestAc es with
  | none => exact .bind .chain fun es' _ => .inr (hg _)
  | some m =>
    dsimp only
    split
    · next hk => exact .inl ⟨es, m, hes, rfl, by unfold Peer.entryForEncryption; rw [hl]; simp only [hk, if_true]⟩
    · exact .bind .chain fun es' _ => .inr (hg _)

theorem anyhandle_sound : Sound h M (fun _ => True) (Access.publicKeyhandle h) := by
  unfold Access.publicKeyhandle
  simp only [bind_eq, pure_eq]
  refine .bind entry_sound fun e _ => ?_
  rcases e with _ | _ | _ <;> trivial

theorem preferEncrypt_sound : Sound h M (fun s => s = str!"mutual" → ∃ es, M es ∧ Peer.preferEncrypt es = str!"mutual")
    (Access.preferEncrypt h) := by
  unfold Access.preferEncrypt
  simp only [bind_eq, pure_eq]
  refine .bind entry_sound fun e he => ?_
  rcases he with ⟨es, m, hes, rfl, he⟩ | rfl | ⟨g, rfl⟩
  · intro hm
    exact ⟨es, hes, by unfold Peer.preferEncrypt; rw [he]; exact hm⟩
  · intro hm; cases hm
  · intro hm; cases hm

theorem preliminary_sound : Sound h M (fun r => r ≠ .encrypt ∧
      (r = .available → ∃ es, M es ∧ Peer.hasDirectKey es = true)) (Access.preliminary h) := by
  unfold Access.preliminary
  simp only [bind_eq, pure_eq]
  refine .bind anyhandle_sound fun _ _ => .bind anyhandle_sound fun kh _ => ?_
  split
  · exact ⟨by simp, by simp⟩
  · refine .bind (Q := fun b => b = true → ∃ es, M es ∧ Peer.hasDirectKey es = true)
      (.bind .chain fun es hes hb => ⟨es, hes, hb⟩) fun b hb => ?_
    split
    · exact ⟨by simp, by simp⟩
    · next hnb =>
      have hb' : b = true := by cases b <;> simp_all
      refine .bind (Q := fun _ => True) (.bind .chain fun _ _ => trivial) fun _ _ =>
        .bind (Q := fun _ => True) (.bind .chain fun _ _ => trivial) fun _ _ => ?_
      split
      · exact ⟨by simp, by simp⟩
      · exact ⟨by simp, fun _ => hb hb'⟩

theorem peerUi_sound (own : PE) : Sound h M (fun r => r = .encrypt → own = .mutual ∧
      (∃ es, M es ∧ Peer.hasDirectKey es = true) ∧
      (∃ es, M es ∧ Peer.preferEncrypt es = str!"mutual") ∧
      (∃ es m, M es ∧ Peer.latestMsg es = some m ∧ m.keydata ≠ [])) (Access.peerUi h own false) := by
  unfold Access.peerUi
  simp only [bind_eq, pure_eq]
  refine .bind preliminary_sound fun pre hpre => ?_
  simp only [Bool.false_eq_true, and_false, if_false]
  split
  · next hav =>
    refine .bind preferEncrypt_sound fun pe hpe => ?_
    split
    · next hm =>
      refine .bind (Q := fun l => ∃ es, M es ∧ Peer.latestMsg es = l) (.bind .chain fun es hes => ⟨es, hes, rfl⟩)
        fun l hl => ?_
      cases l with
      | none => trivial
      | some m =>
        dsimp only
        split
        · next hk =>
          intro _
          obtain ⟨es, hes, hes'⟩ := hl
          exact ⟨hav.2, hpre.2 hav.1, hpe hm, es, m, hes, hes', by intro h; rw [h] at hk; simp at hk⟩
        · exact fun h => absurd h hpre.1
    · exact fun h => absurd h hpre.1
  · exact fun h => absurd h hpre.1

/-! ## the programs work on one chain -/

theorem updateFromMsg_within (h u) : (Access.updateFromMsg h u).AllOps (Within (· = h)) := by
  unfold Access.updateFromMsg Access.acTimestamp Access.lastSeen
  simp only [bind_eq, pure_eq]
  allops <;> first | rfl | exact .append rfl

theorem updateFromGossip_within (h u) : (Access.updateFromGossip h u).AllOps (Within (· = h)) := by
  unfold Access.updateFromGossip Access.acTimestamp
  simp only [bind_eq, pure_eq]
  allops <;> first | rfl | exact .append rfl

theorem entry_within (h) : (Access.entryForEncryption h).AllOps (Within (· = h)) := by
  unfold Access.entryForEncryption
  simp only [bind_eq, pure_eq]
  allops <;> rfl

theorem peerUi_within (h own r) : (Access.peerUi h own r).AllOps (Within (· = h)) := by
  have h1 := entry_within h
  unfold Access.peerUi Access.preliminary Access.publicKeyhandle Access.preferEncrypt Access.acTimestamp
    Access.lastSeen Access.hasDirectKey Access.latestMsg
  simp only [bind_eq, pure_eq]
  allops <;> rfl

/-! ## a concrete race -/

open Concrete

/-- a message from Bob, who prefers encryption -/
def mutualMail (id date : Str) (k : Bytes) : Msg :=
  .mk [(str!"From", bob), (str!"To", str!"a@x.org"), (str!"Message-Id", id), (str!"Date", date),
    (str!"Autocrypt", str!"addr=" ++ bob ++ str!"; prefer-encrypt=mutual; keydata=" ++ Py.b64encode k)]
    (.text (str!"hi"))

/-- another process does something once -/
def once (n : Nat) (c : ApiCall) : Nat → Prog Unit := fun i => if i = n then c.prog env else .pure ()

/-- an account which prefers encryption; Bob preferred it too, and wrote a message without key afterwards -/
def history : List ApiCall :=
  [addA, .modAccount (str!"a") none none none (some (str!"mutual")),
    .processIncoming (str!"a") (mutualMail (str!"m1") (str!"100") [1, 2]) false false,
    recv bob (str!"m2") (str!"200") []]

end Meanwhile

open Meanwhile Concrete

/-- C122: other processes which work on other chains make no difference: a program which reads and extends only the
chains `H` gives the same result and leaves the same in these chains, whatever other processes do between its
operations, if they do not extend these chains and remove none. -/
theorem C122_apart_partial {K : Type} {O : Oracle K} {H : Str → Prop} {others : Nat → Prog Unit}
    (ho : ∀ n, (others n).AllOps (Outside H)) {α : Type} {p : Prog α} (hp : p.AllOps (Within H))
    (w : World Store K) :
    (runAmid Store.impl O others p 0 w).1 = (exec O p w).1 ∧
      ∀ h, H h → (runAmid Store.impl O others p 0 w).2.store.get h = (exec O p w).2.store.get h :=
  apart ho hp 0 w w fun _ _ => rfl

/-- C122: so updates of a peer and its recommendation are not disturbed by work on other peers. -/
theorem C122_peers_partial {K : Type} {O : Oracle K} {others : Nat → Prog Unit} (h : Str)
    (ho : ∀ n, (others n).AllOps (Outside (· = h))) (w : World Store K) :
    (∀ u, (runAmid Store.impl O others (Access.updateFromMsg h u) 0 w).2.store.get h =
      (exec O (Peer.updateFromMsg h u) w).2.store.get h) ∧
    (∀ u, (runAmid Store.impl O others (Access.updateFromGossip h u) 0 w).2.store.get h =
      (exec O (Peer.updateFromGossip h u) w).2.store.get h) ∧
    (∀ own r, (runAmid Store.impl O others (Access.peerUi h own r) 0 w).1 =
      Rec.peerUi (w.store.get h) own r) := by
  refine ⟨fun u => ?_, fun u => ?_, fun own r => ?_⟩
  · rw [(C122_apart_partial ho (updateFromMsg_within h u) w).2 h rfl]
    exact congrArg (fun x => x.2.store.get h) ((C121_accesses Store.impl O w h).2.1 u)
  · rw [(C122_apart_partial ho (updateFromGossip_within h u) w).2 h rfl]
    exact congrArg (fun x => x.2.store.get h) ((C121_accesses Store.impl O w h).2.2.1 u)
  · rw [(C122_apart_partial ho (peerUi_within h own r) w).1]
    exact congrArg Prod.fst (Access.Reads.run_eq (Access.peerUi_reads (S := Store.impl) (O := O) h own r) rfl)

/-- C122: whatever other processes do meanwhile, encryption is recommended (if not for a reply) only if we prefer it, at
some moment there was a key from the peer itself, at some moment the peer preferred it, and at some moment the newest
message of the peer had a key. These may be different moments. -/
theorem C122_moments_partial {K : Type} {O : Oracle K} {others : Nat → Prog Unit} (h : Str) (own : PE)
    (w : World Store K) (hr : (runAmid Store.impl O others (Access.peerUi h own false) 0 w).1 = .ok .encrypt) :
    own = .mutual ∧
    (∃ n, Peer.hasDirectKey ((moment O others w n).store.get h) = true) ∧
    (∃ n, Peer.preferEncrypt ((moment O others w n).store.get h) = str!"mutual") ∧
    (∃ n m, Peer.latestMsg ((moment O others w n).store.get h) = some m ∧ m.keydata ≠ []) := by
  have := Sound.run (M := fun es => ∃ n, es = (moment O others w n).store.get h) (w := w) (fun n => ⟨n, rfl⟩)
    (peerUi_sound own) 0 hr rfl
  obtain ⟨h1, ⟨_, ⟨n2, rfl⟩, h2⟩, ⟨_, ⟨n3, rfl⟩, h3⟩, ⟨_, m, ⟨n4, rfl⟩, h4⟩⟩ := this
  exact ⟨h1, ⟨n2, h2⟩, ⟨n3, h3⟩, ⟨n4, m, h4⟩⟩

/-- C122 refuted: two processes receive messages from Bob at the same time, an older one and a newer one with another
key. In either order the newer key is the one which is used. If the newer message is processed between the check of
the older one and its recording (states.py:177 and 195), then the older key is used from now on. -/
theorem C122_refuted :
    Reachable oracle env (after [addA]) ∧
    (let old := recv bob (str!"m1") (str!"100") [1, 2]
     let new := recv bob (str!"m2") (str!"900") [3, 4]
     let at_once := (runAmid Store.impl oracle (once 8 new) (old.prog env) 0 (after [addA])).2
     Peer.acTimestamp (bobs (after [addA, old, new])) = sec 900 ∧
     Peer.acTimestamp (bobs (after [addA, new, old])) = sec 900 ∧
     Peer.acTimestamp (bobs at_once) = sec 100 ∧ Peer.publicKeydata (bobs at_once) = [1, 2] ∧
     (bobs at_once).length = 2) :=
  ⟨after_reachable _, by decide +kernel⟩

/-- C122 refuted for recommendations: Bob preferred encryption and has written without key since; a message in which
Bob has no preference is processed while the recommendation is computed. Before and after it encryption is available
but not recommended; the recommendation computed meanwhile is to encrypt. -/
theorem C122_refuted_recommendation :
    Reachable oracle env (after history) ∧
    (let new := recv bob (str!"m3") (str!"300") [3, 4]
     let rec_ := Access.recommendation env (str!"a") [bob] false none
     (exec oracle rec_ (after history)).1.toOption = some .available ∧
     (exec oracle rec_ (after (history ++ [new]))).1.toOption = some .available ∧
     (runAmid Store.impl oracle (once 7 new) rec_ 0 (after history)).1.toOption = some .encrypt) :=
  ⟨after_reachable _, by decide +kernel⟩

/-- C122 refuted for encryption: if a message with another key of Bob is processed while a message to Bob is
encrypted, then it is encrypted to the old key, and its gossip header tells the new one (account.py:498-508). -/
theorem C122_refuted_encryption :
    (let new := recv bob (str!"m3") (str!"300") [3, 4]
     let r := (runAmid Store.impl oracle (once 1 new)
       (Access.encLoop env (str!"a") ⟨[], [], .mk [] (.text [])⟩ [bob]) 0 (after history)).1.toOption
     r.map (·.keyhandles) = some [keyId [1, 2]] ∧
     r.map (·.recipient2keydata) = some [(bob, [3, 4])] ∧
     r.map (·.payload.headers) =
       some [(str!"Autocrypt-Gossip", str!"addr=bob@x.org; keydata=\n  " ++ Py.b64encode [3, 4])]) := by
  decide +kernel

/-- work on Carol's chain leaves Bob's alone -/
example (u : Peer.MsgUpdate) :
    (Peer.updateFromMsg (peerHead (str!"a") carol) u).AllOps (Outside (· = peerHead (str!"a") bob)) := by
  unfold Peer.updateFromMsg
  simp only [bind_eq, pure_eq]
  allops
  exact .append (show ¬ (peerHead (str!"a") carol = peerHead (str!"a") bob) by decide)

/-- others do something, and encryption is recommended -/
example : (runAmid Store.impl oracle (once 7 (recv bob (str!"m3") (str!"300") [3, 4]))
    (Access.peerUi (peerHead (str!"a") bob) .mutual false) 0
    (after [addA, .processIncoming (str!"a") (mutualMail (str!"m1") (str!"100") [1, 2]) false false])).1.toOption =
      some .encrypt := by decide +kernel

end Verif
