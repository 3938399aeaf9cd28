import Verif.Props.PeerState
import Verif.Spec.Concrete
/-!
# Calls which do not change stored state: C43
-/
namespace Verif

variable {K : Type}

/-- sending, encrypting, decrypting, making headers, exporting, listing and reading recommendations and verifications -/
def ApiCall.reads : ApiCall → Prop
  | .processOutgoing .. | .encryptMime .. | .decryptMime .. | .makeAcHeader .. | .exportPublicKey .. | .exportSecretKey ..
  | .recommendation .. | .peernames .. | .listAccountNames | .getVerification .. => True
  | _ => False

/-- looking up an account -/
def ApiCall.looksUp : ApiCall → Prop
  | .getAccount .. | .accountFromEmailadr .. | .matchingAccount .. => True
  | _ => False

/-- the manager has been initialised -/
def Initialised (w : World Store K) : Prop := ∃ v, Entry.acfg v ∈ w.log managerHead

theorem version_isSome {es : List Entry} {v : Str} (h : Entry.acfg v ∈ es) : (Mgr.version es).isNone = false := by
  unfold Mgr.version
  cases hf : es.filterMap Entry.acfg? with
  | nil =>
    have := (List.filterMap_eq_nil_iff.mp hf) _ h
    cases this
  | cons a l => rfl

theorem setVersion_initialised (O : Oracle K) (w : World Store K) (h : Initialised w) :
    (exec O (Mgr.setVersion (str!"0.1")) w).2.store = w.store := by
  obtain ⟨v, hv⟩ := h
  have hv := version_isSome hv
  have := store_act O .setVersion w
  dsimp only at this
  unfold World.log at hv
  rw [hv] at this
  exact this

theorem setVersion_other (O : Oracle K) (w : World Store K) (h : Str) (hne : h ≠ managerHead) :
    (exec O (Mgr.setVersion (str!"0.1")) w).2.log h = w.log h := by
  unfold World.log
  have := get_act O .setVersion w h
  dsimp only at this
  rw [if_neg (fun h' => hne h'.1)] at this
  exact this

/-- C43: calls which send, encrypt, decrypt, export, list or read leave the store as it is, for every environment, also if they
raise. -/
theorem C43_reads (O : Oracle K) (env : Env) (w : World Store K) (c : ApiCall) (hc : c.reads) :
    (exec O (c.prog env) w).2.store = w.store := by
  refine (safe_call env c).respects (R := fun w w' => w'.store = w.store) (fun _ _ _ h1 h2 => h2.trans h1)
    (fun _ _ h _ _ _ => h) ?_ w
  intro a ha
  cases c <;> first | exact hc.elim | exact ha.elim

/-- C43: looking up an account leaves the store as it is once the manager is initialised. Before, the only change is that the
manager gets initialised. -/
theorem C43_lookup (O : Oracle K) (env : Env) (w : World Store K) (c : ApiCall) (hc : c.looksUp) :
    (Initialised w → (exec O (c.prog env) w).2.store = w.store) ∧
    ∀ h, h ≠ managerHead → (exec O (c.prog env) w).2.log h = w.log h := by
  have hinit : ∀ a, c.acts env a → a = .setVersion := by
    intro a ha
    cases c <;> first | exact hc.elim | (cases a <;> first | rfl | exact ha.elim)
  constructor
  · refine (safe_call env c).respects (R := fun w w' => Initialised w → w'.store = w.store) ?_ (fun _ _ h _ _ _ _ => h) ?_ w
    · intro a b c h1 h2 hi
      have := h1 hi
      rw [h2 (by unfold Initialised World.log at hi ⊢; rw [this]; exact hi), this]
    · intro a ha w hi
      rw [hinit a ha]
      exact setVersion_initialised O w hi
  · intro h hne
    refine (safe_call env c).respects (R := fun w w' => w'.log h = w.log h) (fun _ _ _ h1 h2 => h2.trans h1)
      (fun _ _ h _ _ _ => by unfold World.log; rw [h]) ?_ w
    intro a ha w
    rw [hinit a ha]
    exact setVersion_other O w h hne

open Concrete in
/-- in a world with an account, sending and looking up are calls with results -/
example : (ApiCall.processOutgoing (str!"a") (mail bob [] [] [])).reads ∧ (ApiCall.getAccount (str!"a") true).looksUp ∧
    Initialised (after [addA]) ∧ (after [addA]).store ≠ [] ∧
    (exec oracle ((ApiCall.processOutgoing (str!"a") (mail bob [] [] [])).prog env) (after [addA])).1.toOption = some () ∧
    (exec oracle ((ApiCall.getAccount (str!"a") true).prog env) (after [addA])).1.toOption = some () :=
  ⟨trivial, trivial, ⟨str!"0.1", by decide +kernel⟩, by decide +kernel, by decide +kernel, by decide +kernel⟩

end Verif
