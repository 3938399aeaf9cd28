import Verif.Lemmas.Reach
import Verif.Spec.Concrete
/-!
# C06: names of distinct peers and accounts never collide
-/
namespace Verif

variable {K : Type}

/-- C06: two peers share a head name only if account and address are the same; own, out-of-band and manager
heads are all different from each other and from peer heads. -/
theorem C06_head_names (env : Env) {n n' : Str} (hn : env.isalnum n = true) (hn' : env.isalnum n' = true)
    (a a' : Str) :
    (peerHead n a = peerHead n' a' ↔ n = n' ∧ a = a') ∧ (ownHead n = ownHead n' ↔ n = n') ∧
    (oobHead n = oobHead n' ↔ n = n') ∧
    List.Pairwise (· ≠ ·) [managerHead, ownHead n, oobHead n', peerHead n a] := by
  refine ⟨peerHead_inj (colon_not_mem_of_isalnum hn) (colon_not_mem_of_isalnum hn'), ownHead_inj, oobHead_inj, ?_⟩
  simp only [List.pairwise_cons, List.mem_cons, List.not_mem_nil, or_false, List.Pairwise.nil, and_true,
    forall_eq_or_imp, forall_eq, false_implies, implies_true]
  exact ⟨⟨(ownHead_ne_managerHead n).symm, (oobHead_ne_managerHead n').symm, managerHead_ne_peerHead n a⟩,
    ⟨ownHead_ne_oobHead n n', ownHead_ne_peerHead n n a⟩, oobHead_ne_peerHead n' n a⟩

example : Concrete.env.isalnum (str!"a1") = true ∧ Concrete.env.isalnum (str!"a") = true ∧
    peerHead (str!"a1") (str!"x") ≠ peerHead (str!"a") (str!"1:x") := by decide +kernel

/-- C06: an update of one peer's state leaves every other peer, of the same or of another account, and all
own, out-of-band and manager state as it is. -/
theorem C06_update_touches_one_peer (O : Oracle K) (env : Env) (w : World Store K) {n : Str}
    (hn : env.isalnum n = true) (a : Str) (u : Peer.MsgUpdate) (g : Peer.GossipUpdate) (w' : World Store K)
    (hw' : w' = (exec O (Peer.updateFromMsg (peerHead n a) u) w).2 ∨
           w' = (exec O (Peer.updateFromGossip (peerHead n a) g) w).2) :
    (∀ n' a', env.isalnum n' = true → (n', a') ≠ (n, a) →
      w'.store.get (peerHead n' a') = w.store.get (peerHead n' a')) ∧
    (∀ n', w'.store.get (ownHead n') = w.store.get (ownHead n')) ∧
    (∀ n', w'.store.get (oobHead n') = w.store.get (oobHead n')) ∧
    w'.store.get managerHead = w.store.get managerHead := by
  have key : ∀ h, h ≠ peerHead n a → w'.store.get h = w.store.get h := by
    intro h hh
    rcases hw' with rfl | rfl
    · rw [Peer.get_updateFromMsg, if_neg hh]
    · rw [Peer.get_updateFromGossip, if_neg hh]
  refine ⟨?_, ?_, ?_, ?_⟩
  · intro n' a' hn' hne
    apply key
    rw [Ne, peerHead_inj (colon_not_mem_of_isalnum hn') (colon_not_mem_of_isalnum hn)]
    rintro ⟨rfl, rfl⟩; exact hne rfl
  · intro n'; exact key _ (ownHead_ne_peerHead _ _ _)
  · intro n'; exact key _ (oobHead_ne_peerHead _ _ _)
  · exact key _ (managerHead_ne_peerHead _ _)

/-- C06: listing an account's peers gives, sorted and without repetition, exactly the addresses under which
something is recorded, and changes nothing. -/
theorem C06_peer_listing (O : Oracle K) (env : Env) (w : World Store K) (hw : Reachable O env w) (n : Str) :
    ∃ l, exec O (getPeernameList n) w = (.ok l, w) ∧ l.Nodup ∧ l.Pairwise (fun a b => Py.strLe a b = true) ∧
      ∀ a, a ∈ l ↔ w.store.get (peerHead n a) ≠ [] := by
  refine ⟨Py.sorted (stripPrefix (peerHead n []) w.store.names), rfl, ?_, pairwise_sorted _, ?_⟩
  · exact nodup_sorted.mpr (nodup_stripPrefix hw.wf.1)
  · intro a
    rw [mem_sorted, mem_stripPrefix, ← hw.wf.2]
    simp [peerHead]

/-- C06: the address shown for a peer is the one it was stored under. -/
theorem C06_addr (env : Env) {n : Str} (hn : env.isalnum n = true) (a : Str) :
    Peer.addrOfHead (peerHead n a) = a := by
  simp [Peer.addrOfHead, split1_peerHead, split1_append (colon_not_mem_of_isalnum hn)]

example : (exec Concrete.oracle (getPeernameList (str!"a"))
      (Concrete.after [Concrete.addA, Concrete.recv (str!"b:c@x") (str!"1") (str!"100") [7, 8],
        Concrete.recv Concrete.bob (str!"2") (str!"100") []])).1.toOption = some [str!"b:c@x", Concrete.bob] ∧
    Peer.addrOfHead (peerHead (str!"a") (str!"b:c@x")) = str!"b:c@x" := by decide +kernel

end Verif
