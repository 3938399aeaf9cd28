import Verif.Spec.Mail
import Verif.Lemmas.Run
import Verif.Lemmas.Store
import Verif.Model.States
/-!
# Lemmas about peer state updates
-/
namespace Verif.Peer

/-- entries after `update_from_msg` -/
def applyMsg (es : List Entry) (u : MsgUpdate) : List Entry :=
  match updateEntry es u with
  | .ok (some e) => .msg e :: es
  | _ => es

/-- entries after `update_from_msg_gossip` -/
def applyGossip (es : List Entry) (u : GossipUpdate) : List Entry :=
  match gossipEntry es u with
  | .ok (some e) => .gossip e :: es
  | _ => es

section simps
variable (es : List Entry) (m : MsgEntry) (g : GossipEntry)

@[simp] theorem msgs_nil : msgs [] = [] := rfl
@[simp] theorem msgs_msg : msgs (.msg m :: es) = m :: msgs es := rfl
@[simp] theorem msgs_gossip : msgs (.gossip g :: es) = msgs es := rfl
@[simp] theorem gossips_msg : gossips (.msg m :: es) = gossips es := rfl
@[simp] theorem gossips_gossip : gossips (.gossip g :: es) = g :: gossips es := rfl

@[simp] theorem latestMsg_msg : latestMsg (.msg m :: es) = some m := rfl
@[simp] theorem latestMsg_gossip : latestMsg (.gossip g :: es) = latestMsg es := rfl
@[simp] theorem latestGossip_msg : latestGossip (.msg m :: es) = latestGossip es := rfl
@[simp] theorem latestGossip_gossip : latestGossip (.gossip g :: es) = some g := rfl
@[simp] theorem latestAc_gossip : latestAc (.gossip g :: es) = latestAc es := rfl

theorem latestAc_msg : latestAc (.msg m :: es) = if m.keydata.isEmpty then latestAc es else some m := by
  simp only [latestAc, msgs_msg, List.find?]
  cases m.keydata.isEmpty <;> rfl

theorem latestAc_key {m : MsgEntry} (h : m.keydata.isEmpty = false) : latestAc (.msg m :: es) = some m := by
  simp [latestAc_msg, h]
theorem latestAc_nokey {m : MsgEntry} (h : m.keydata.isEmpty = true) :
    latestAc (.msg m :: es) = latestAc es := by simp [latestAc_msg, h]

@[simp] theorem lastSeen_msg : lastSeen (.msg m :: es) = m.date := rfl
@[simp] theorem lastSeen_gossip : lastSeen (.gossip g :: es) = lastSeen es := rfl
@[simp] theorem acTimestamp_gossip : acTimestamp (.gossip g :: es) = acTimestamp es := rfl
@[simp] theorem hasDirectKey_gossip : hasDirectKey (.gossip g :: es) = hasDirectKey es := rfl

theorem acTimestamp_key {m : MsgEntry} (h : m.keydata.isEmpty = false) :
    acTimestamp (.msg m :: es) = m.date := by simp [acTimestamp, latestAc_key es h]
theorem acTimestamp_nokey {m : MsgEntry} (h : m.keydata.isEmpty = true) :
    acTimestamp (.msg m :: es) = acTimestamp es := by simp [acTimestamp, latestAc_nokey es h]
end simps

theorem latestAc_keydata {es : List Entry} {m : MsgEntry} (h : latestAc es = some m) :
    m.keydata.isEmpty = false := by
  have := List.find?_some h
  simpa using this

/-- what an accepted update with a key looks like -/
theorem updateEntry_some {es : List Entry} {u : MsgUpdate} {e : MsgEntry}
    (h : updateEntry es u = .ok (some e)) :
    acTimestamp es ≤ u.date ∧ e.msgId = u.msgId ∧ e.date = u.date ∧
    ((noKey u.keydata = true ∧ lastSeen es < u.date ∧ e.keydata = [] ∧ e.keyhandle = [] ∧ e.pe = .nopreference) ∨
     (noKey u.keydata = false ∧ u.keydata = some e.keydata ∧ e.keyhandle = orEmpty u.keyhandle ∧
       peArg u.pe = .ok e.pe)) := by
  unfold updateEntry at h
  split at h
  · cases h
  rename_i hd
  split at h
  · cases h
  split at h
  · rename_i hk
    split at h
    · cases h; exact ⟨by omega, rfl, rfl, Or.inl ⟨hk, by assumption, rfl, rfl, rfl⟩⟩
    · cases h
  · rename_i hk
    split at h
    · cases h
    · rename_i pe hpe
      cases h
      refine ⟨by omega, rfl, rfl, Or.inr ⟨by simpa using hk, ?_, rfl, hpe⟩⟩
      cases hkd : u.keydata with
      | none => simp [hkd, noKey] at hk
      | some k => rfl

theorem gossipEntry_some {es : List Entry} {u : GossipUpdate} {e : GossipEntry}
    (h : gossipEntry es u = .ok (some e)) :
    acTimestamp es ≤ u.date ∧ e.msgId = u.msgId ∧ e.date = u.date ∧ u.keydata = some e.keydata ∧
    u.keyhandle = some e.keyhandle ∧ e.keydata.isEmpty = false := by
  unfold gossipEntry at h
  split at h
  · cases h
  split at h
  · cases h
  rename_i hk
  split at h
  · cases h
  split at h
  · cases h
  · rename_i kh hkh
    cases h
    cases hkd : u.keydata with
    | none => simp [hkd, noKey] at hk
    | some k => exact ⟨by omega, rfl, rfl, rfl, hkh, by simpa [hkd, noKey] using hk⟩

/-- case analysis of `applyMsg` -/
theorem applyMsg_cases (es : List Entry) (u : MsgUpdate) :
    applyMsg es u = es ∨ ∃ e, updateEntry es u = .ok (some e) ∧ applyMsg es u = .msg e :: es := by
  unfold applyMsg
  split
  · rename_i e h; exact Or.inr ⟨e, h, rfl⟩
  · exact Or.inl rfl

theorem applyGossip_cases (es : List Entry) (u : GossipUpdate) :
    applyGossip es u = es ∨ ∃ e, gossipEntry es u = .ok (some e) ∧ applyGossip es u = .gossip e :: es := by
  unfold applyGossip
  split
  · rename_i e h; exact Or.inr ⟨e, h, rfl⟩
  · exact Or.inl rfl

/-! ## running the updates -/
variable {K : Type}

theorem exec_updateFromMsg (O : Oracle K) (head : Str) (u : MsgUpdate) (w : World Store K) :
    exec O (updateFromMsg head u) w =
      match updateEntry (w.store.get head) u with
      | .error e => (.error e, w)
      | .ok none => (.ok (), w)
      | .ok (some e) => (.ok (), { w with store := w.store.push head (.msg e), tick := w.tick + 1 }) := by
  simp only [updateFromMsg, bind_eq, exec, run_bind]
  rw [show run Store.impl O (Prog.chain head) w = (.ok (w.store.get head), w) from rfl]
  simp only [run_ofExcept]
  rcases updateEntry (w.store.get head) u with e | (_ | e) <;> rfl

theorem exec_updateFromGossip (O : Oracle K) (head : Str) (u : GossipUpdate) (w : World Store K) :
    exec O (updateFromGossip head u) w =
      match gossipEntry (w.store.get head) u with
      | .error e => (.error e, w)
      | .ok none => (.ok (), w)
      | .ok (some e) => (.ok (), { w with store := w.store.push head (.gossip e), tick := w.tick + 1 }) := by
  simp only [updateFromGossip, bind_eq, exec, run_bind]
  rw [show run Store.impl O (Prog.chain head) w = (.ok (w.store.get head), w) from rfl]
  simp only [run_ofExcept]
  rcases gossipEntry (w.store.get head) u with e | (_ | e) <;> rfl

theorem get_updateFromMsg (O : Oracle K) (head h : Str) (u : MsgUpdate) (w : World Store K) :
    (exec O (updateFromMsg head u) w).2.store.get h =
      if h = head then applyMsg (w.store.get head) u else w.store.get h := by
  rw [exec_updateFromMsg]
  unfold applyMsg
  rcases updateEntry (w.store.get head) u with e | (_ | e)
  · dsimp only; split
    · next hh => rw [hh]
    · rfl
  · dsimp only; split
    · next hh => rw [hh]
    · rfl
  · dsimp only; rw [Store.get_push]; split
    · next hh => rw [hh]
    · rfl

theorem get_updateFromGossip (O : Oracle K) (head h : Str) (u : GossipUpdate) (w : World Store K) :
    (exec O (updateFromGossip head u) w).2.store.get h =
      if h = head then applyGossip (w.store.get head) u else w.store.get h := by
  rw [exec_updateFromGossip]
  unfold applyGossip
  rcases gossipEntry (w.store.get head) u with e | (_ | e)
  · dsimp only; split
    · next hh => rw [hh]
    · rfl
  · dsimp only; split
    · next hh => rw [hh]
    · rfl
  · dsimp only; rw [Store.get_push]; split
    · next hh => rw [hh]
    · rfl

end Verif.Peer
