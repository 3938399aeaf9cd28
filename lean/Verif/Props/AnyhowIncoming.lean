import Verif.Props.Anyhow
import Verif.Props.Incoming
import Verif.Props.Import
import Verif.Props.PeerOrder
/-!
# C124: what holds for incoming mail whatever happens meanwhile
-/
namespace Verif
open Mime

/-! ## Specification -/

/-- some time during the call gpg was run to decrypt the encrypted part of `m` and gave `dec` -/
def DecryptedThen (l : List Did) (m : Msg) (dec : Bytes) : Prop :=
  ∃ argv enc out, Did.gpg argv (some enc) (.ok out) ∈ l ∧ str!"--decrypt" ∈ argv ∧ EncryptedData m enc ∧ out.ret = 0 ∧ out.out = dec

/-- some time during the call gpg was given the key to import -/
def ImportedThen (l : List Did) (kd : Bytes) : Prop := ∃ argv ret, Did.gpg argv (some kd) ret ∈ l ∧ str!"--import" ∈ argv

/-- the date of the message, or the time of processing if that is earlier -/
def DateThen (env : Env) (l : List Did) (m : Msg) (t : Time) : Prop := ∃ d now, DateOf env m d ∧ Did.now now ∈ l ∧ t = min d now

/-- some time during the call, no direct key of the peer was newer than `t` -/
def NoNewerKeyThen (l : List Did) (h : Str) (t : Time) : Prop :=
  ∃ es, ReadAs l h es ∧ ∀ x, Newest Entry.IsKeyMsg es (.msg x) → x.date ≤ t

/-- what may be written about the sender -/
def DirectThen (env : Env) (l : List Did) (n : Str) (m : Msg) (h : Str) (e : MsgEntry) : Prop :=
  h = peerHead n (senderAddr env m) ∧ e.msgId = mailId m ∧ DateThen env l m e.date ∧ NoNewerKeyThen l h e.date ∧
  ((e.keydata = [] ∧ e.keyhandle = [] ∧ e.pe = .nopreference ∧
      ∃ es, ReadAs l h es ∧ ∀ x, Newest Entry.IsMsg es (.msg x) → x.date < e.date) ∨
   (e.keydata ≠ [] ∧ m.contentType ≠ str!"multipart/report" ∧ (env.getaddresses (m.getAll (str!"From"))).length ≤ 1 ∧
    (∃ v r, OnlyOne (fun v => ∃ r, ValidFor env (senderAddr env m) v r) (m.getAll (str!"Autocrypt")) v ∧
      ValidFor env (senderAddr env m) v r ∧ r.keydata = some e.keydata ∧ r.pe = some e.pe.toStr) ∧
    (e.keyhandle ≠ [] → ImportedThen l e.keydata)))

/-- what may be written about others -/
def GossipedThen (env : Env) (l : List Did) (n : Str) (m : Msg) (h : Str) (e : GossipEntry) : Prop :=
  e.msgId = mailId m ∧ DateThen env l m e.date ∧ NoNewerKeyThen l h e.date ∧ e.keydata ≠ [] ∧ ImportedThen l e.keydata ∧
  PgpMime m ∧ ∃ dec r v res, DecryptedThen l m dec ∧ r ∈ decRecipients env m dec ∧ h = peerHead n (address env (some r)) ∧
    LastOne (fun v => ∃ res, ValidFor env r v res) (innerOuter env m dec (str!"Autocrypt-Gossip")) v ∧
    ValidFor env r v res ∧ res.keydata = some e.keydata

/-! ## Lemmas -/
namespace Anyhow

variable {l l' : List Did}

theorem _root_.Verif.DecryptedThen.mono (h : l ⊆ l') {m : Msg} {dec : Bytes} : DecryptedThen l m dec → DecryptedThen l' m dec :=
  fun ⟨a, e, o, h1, h2⟩ => ⟨a, e, o, h h1, h2⟩
theorem _root_.Verif.ImportedThen.mono (h : l ⊆ l') {kd : Bytes} : ImportedThen l kd → ImportedThen l' kd :=
  fun ⟨a, e, h1, h2⟩ => ⟨a, e, h h1, h2⟩
theorem _root_.Verif.DateThen.mono (h : l ⊆ l') {env : Env} {m : Msg} {t : Time} : DateThen env l m t → DateThen env l' m t :=
  fun ⟨a, e, h1, h2, h3⟩ => ⟨a, e, h1, h h2, h3⟩
theorem _root_.Verif.NoNewerKeyThen.mono (h : l ⊆ l') {hd : Str} {t : Time} : NoNewerKeyThen l hd t → NoNewerKeyThen l' hd t :=
  fun ⟨a, h1, h2⟩ => ⟨a, h h1, h2⟩

/-- an entry which a direct update appends -/
def MsgDid (l : List Did) (h : Str) (u : Peer.MsgUpdate) (e : MsgEntry) : Prop :=
  e.msgId = u.msgId ∧ e.date = u.date ∧ NoNewerKeyThen l h e.date ∧
  ((e.keydata = [] ∧ e.keyhandle = [] ∧ e.pe = .nopreference ∧
      ∃ es, ReadAs l h es ∧ ∀ x, Newest Entry.IsMsg es (.msg x) → x.date < e.date) ∨
   (e.keydata ≠ [] ∧ u.keydata = some e.keydata ∧ u.pe = some e.pe.toStr ∧ e.keyhandle = Peer.orEmpty u.keyhandle))

theorem path_ite {α : Type} {c : Prop} [Decidable c] {p q : Prog α} {r : Except Exc α} (h : (if c then p else q).Path l r) :
    (c ∧ p.Path l r) ∨ (¬ c ∧ q.Path l r) := by
  by_cases hc : c
  · rw [if_pos hc] at h; exact .inl ⟨hc, h⟩
  · rw [if_neg hc] at h; exact .inr ⟨hc, h⟩

theorem acTimestamp_path {h : Str} {r : Except Exc Time} (hp : (Access.acTimestamp h).Path l r) :
    (∀ d ∈ l, d.op.readOnly) ∧ ∀ t, r = .ok t → ∃ es, ReadAs l h es ∧ t = Peer.acTimestamp es := by
  unfold Access.acTimestamp at hp
  simp only [bind_eq, pure_eq] at hp
  rcases Prog.Path.bind.mp hp with ⟨es, l1, l2, h1, ⟨rfl, rfl⟩, rfl⟩ | ⟨e, h1, rfl⟩
  · rw [h1.chain]
    exact ⟨by simp [Did.chain, Op.readOnly], fun t ht => by cases ht; exact ⟨es, by simp [ReadAs], rfl⟩⟩
  · rw [h1.chain]
    exact ⟨by simp [Did.chain, Op.readOnly], by simp⟩

theorem noNewer {h : Str} {es : List Entry} {t : Time} (hr : ReadAs l h es) (ht : ¬ t < Peer.acTimestamp es) : NoNewerKeyThen l h t := by
  refine ⟨es, hr, fun x hx => ?_⟩
  unfold Peer.acTimestamp at ht
  rw [latestAc_iff.mpr hx] at ht
  exact Int.not_lt.mp ht

theorem updateFromMsg_path {h : Str} {u : Peer.MsgUpdate} {r : Except Exc Unit} (hp : (Access.updateFromMsg h u).Path l r) :
    ∀ d ∈ l, d.op.readOnly ∨ ∃ e ret, d = Did.append h (.msg e) ret ∧ MsgDid l h u e := by
  unfold Access.updateFromMsg at hp
  simp only [bind_eq, pure_eq] at hp
  rcases Prog.Path.bind.mp hp with ⟨ac, l1, l2, h1, h2, rfl⟩ | ⟨e, h1, rfl⟩
  swap
  · exact fun d hd => .inl ((acTimestamp_path h1).1 d hd)
  obtain ⟨q1, h1⟩ := acTimestamp_path h1
  obtain ⟨es1, r1, rfl⟩ := h1 _ rfl
  split at h2
  · obtain ⟨rfl, _⟩ := h2
    intro d hd
    exact .inl (q1 d (by simpa using hd))
  rename_i hac
  rcases Prog.Path.bind.mp h2 with ⟨es2, l3, l4, h3, h4, rfl⟩ | ⟨e, h3, rfl⟩
  swap
  · rw [h3.chain]
    intro d hd
    rcases List.mem_append.mp hd with hd | hd
    · exact .inl (q1 d hd)
    · rw [List.mem_singleton.mp hd]; exact .inl trivial
  rw [h3.chain]
  have front : ∀ {x : List Did} {Q : Did → Prop}, (∀ d ∈ x, d.op.readOnly ∨ Q d) →
      ∀ d ∈ l1 ++ ([Did.chain h (.ok es2)] ++ x), d.op.readOnly ∨ Q d := by
    intro x Q hx d hd
    rcases List.mem_append.mp hd with hd | hd
    · exact .inl (q1 d hd)
    rcases List.mem_append.mp hd with hd | hd
    · rw [List.mem_singleton.mp hd]; exact .inl trivial
    · exact hx d hd
  rcases path_ite h4 with ⟨_, h4⟩ | ⟨_, h4⟩
  · obtain ⟨rfl, _⟩ := h4; exact front (by simp)
  split at h4
  · rename_i hnk
    rcases Prog.Path.bind.mp h4 with ⟨seen, l5, l6, h5, h6, rfl⟩ | ⟨e, h5, rfl⟩
    swap
    · unfold Access.lastSeen at h5
      simp only [bind_eq, pure_eq] at h5
      refine front fun d hd => .inl ?_
      have ho : ((Prog.chain h).bind fun es => Prog.pure (Peer.lastSeen es)).AllOps Op.readOnly := .bind (.chain trivial) fun _ => trivial
      exact h5.ops ho d hd
    unfold Access.lastSeen at h5
    simp only [bind_eq, pure_eq] at h5
    obtain ⟨es3, l7, l8, h7, ⟨rfl, h8⟩, rfl⟩ := Prog.Path.bind_ok.mp h5
    cases h8
    rw [h7.chain]
    split at h6
    · rename_i hseen
      rw [h6.append]
      refine front fun d hd => ?_
      simp only [List.append_nil, List.mem_append, List.mem_singleton] at hd
      rcases hd with rfl | rfl
      · exact .inl trivial
      · refine .inr ⟨_, _, rfl, rfl, rfl, noNewer (by unfold ReadAs at r1 ⊢; simp [r1]) hac, .inl ⟨rfl, rfl, rfl, es3, by simp [ReadAs], fun x hx => ?_⟩⟩
        unfold Peer.lastSeen at hseen
        rw [latestMsg_iff.mpr hx] at hseen
        exact hseen
    · obtain ⟨rfl, _⟩ := h6
      refine front fun d hd => ?_
      simp only [List.append_nil, List.mem_singleton] at hd
      rw [hd]; exact .inl trivial
  · rename_i hnk
    rcases Prog.Path.bind.mp h4 with ⟨pe, l5, l6, h5, h6, rfl⟩ | ⟨e, h5, rfl⟩
    swap
    · obtain ⟨rfl, _⟩ := Prog.Path.ofExcept.mp h5
      exact front (by simp)
    obtain ⟨rfl, hpe⟩ := Prog.Path.ofExcept.mp h5
    rw [h6.append, List.nil_append]
    refine front fun d hd => ?_
    rw [List.mem_singleton.mp hd]
    refine .inr ⟨_, _, rfl, rfl, rfl, noNewer (by unfold ReadAs at r1 ⊢; simp [r1]) hac, .inr ⟨?_, ?_, peArg_ok.mp hpe.symm, rfl⟩⟩
    · cases hk : u.keydata with
      | none => rw [hk] at hnk; exact absurd rfl hnk
      | some k => rw [hk] at hnk; intro h'; dsimp at h'; rw [h'] at hnk; exact hnk rfl
    · cases hk : u.keydata with
      | none => rw [hk] at hnk; exact absurd rfl hnk
      | some k => rfl

/-- an entry which a gossip update appends -/
def GosDid (l : List Did) (h : Str) (u : Peer.GossipUpdate) (e : GossipEntry) : Prop :=
  e.msgId = u.msgId ∧ e.date = u.date ∧ NoNewerKeyThen l h e.date ∧ e.keydata ≠ [] ∧ u.keydata = some e.keydata ∧ u.keyhandle = some e.keyhandle

theorem updateFromGossip_path {h : Str} {u : Peer.GossipUpdate} {r : Except Exc Unit} (hp : (Access.updateFromGossip h u).Path l r) :
    ∀ d ∈ l, d.op.readOnly ∨ ∃ e ret, d = Did.append h (.gossip e) ret ∧ GosDid l h u e := by
  unfold Access.updateFromGossip at hp
  simp only [bind_eq, pure_eq] at hp
  rcases Prog.Path.bind.mp hp with ⟨ac, l1, l2, h1, h2, rfl⟩ | ⟨e, h1, rfl⟩
  swap
  · exact fun d hd => .inl ((acTimestamp_path h1).1 d hd)
  obtain ⟨q1, h1⟩ := acTimestamp_path h1
  obtain ⟨es1, r1, rfl⟩ := h1 _ rfl
  split at h2
  · obtain ⟨rfl, _⟩ := h2
    intro d hd
    exact .inl (q1 d (by simpa using hd))
  rename_i hac
  split at h2
  · obtain ⟨rfl, _⟩ := h2
    intro d hd
    exact .inl (q1 d (by simpa using hd))
  rename_i hnk
  rcases Prog.Path.bind.mp h2 with ⟨es2, l3, l4, h3, h4, rfl⟩ | ⟨e, h3, rfl⟩
  swap
  · rw [h3.chain]
    intro d hd
    rcases List.mem_append.mp hd with hd | hd
    · exact .inl (q1 d hd)
    · rw [List.mem_singleton.mp hd]; exact .inl trivial
  rw [h3.chain]
  have front : ∀ {x : List Did} {Q : Did → Prop}, (∀ d ∈ x, d.op.readOnly ∨ Q d) →
      ∀ d ∈ l1 ++ ([Did.chain h (.ok es2)] ++ x), d.op.readOnly ∨ Q d := by
    intro x Q hx d hd
    rcases List.mem_append.mp hd with hd | hd
    · exact .inl (q1 d hd)
    rcases List.mem_append.mp hd with hd | hd
    · rw [List.mem_singleton.mp hd]; exact .inl trivial
    · exact hx d hd
  rcases path_ite h4 with ⟨_, h4⟩ | ⟨_, h4⟩
  · obtain ⟨rfl, _⟩ := h4; exact front (by simp)
  split at h4
  · obtain ⟨rfl, _⟩ := h4; exact front (by simp)
  · rename_i kh hkh
    rw [h4.append]
    refine front fun d hd => ?_
    rw [List.mem_singleton.mp hd]
    refine .inr ⟨_, _, rfl, rfl, rfl, noNewer (by unfold ReadAs at r1 ⊢; simp [r1]) hac, ?_, ?_, hkh⟩
    · cases hk : u.keydata with
      | none => rw [hk] at hnk; exact absurd rfl hnk
      | some k => rw [hk] at hnk; intro h'; dsimp at h'; rw [h'] at hnk; exact hnk rfl
    · cases hk : u.keydata with
      | none => rw [hk] at hnk; exact absurd rfl hnk
      | some k => rfl

theorem importKeydata_path {env : Env} {g : BinGPG} {kd : Bytes} {b : Bool} {kh : Str} (h : (BinGPG.importKeydata env g kd b).Path l (.ok kh)) :
    ImportedThen l kd := by
  unfold BinGPG.importKeydata at h
  simp only [bind_eq, pure_eq] at h
  obtain ⟨x, l1, l2, h1, h2, rfl⟩ := Prog.Path.bind_ok.mp h
  unfold BinGPG.gpgOuterr at h1
  simp only [bind_eq] at h1
  obtain ⟨out, l3, l4, h3, h4, rfl⟩ := Prog.Path.bind_ok.mp h1
  rw [h3.gpg]
  exact ⟨_, _, by simp; exact .inl rfl, by simp [BinGPG.argv]⟩

theorem importPah_path {env : Env} {n : Str} {pah pah' : ACResult} {kh : Option Str} (h : (Account.importPah env n pah).Path l (.ok (kh, pah'))) :
    pah'.keydata = pah.keydata ∧ pah'.pe = pah.pe ∧ (kh ≠ none → ImportedThen l (pah.keydata.getD [])) := by
  have hr := h.returns (Account.importPah_returns env n pah)
  refine ⟨hr.1, hr.2, fun hk => ?_⟩
  unfold Account.importPah at h
  simp only [bind_eq, pure_eq] at h
  obtain ⟨x, l1, l2, h1, h2, rfl⟩ := Prog.Path.bind_ok.mp h
  refine ImportedThen.mono (List.subset_append_left ..) ?_
  have hx : x ≠ none := by
    rintro rfl
    obtain ⟨_, h2⟩ := h2
    cases h2
    exact hk rfl
  unfold Account.importKey at h1
  simp only [bind_eq, pure_eq] at h1
  obtain ⟨y, l3, l4, h3, h4, rfl⟩ := Prog.Path.bind_ok.mp h1
  refine ImportedThen.mono (List.subset_append_right ..) ?_
  cases y with
  | ok g =>
    obtain ⟨z, l5, l6, h5, h6, rfl⟩ := Prog.Path.bind_ok.mp h4
    cases z with
    | ok kh' =>
      obtain ⟨z', hz, h7⟩ := Prog.Path.attempt.mp h5
      cases h7
      exact (importKeydata_path hz).mono (List.subset_append_left ..)
    | error e =>
      dsimp only at h6
      split at h6
      · obtain ⟨_, h6⟩ := h6; cases h6; exact absurd rfl hx
      · obtain ⟨_, h6⟩ := h6; cases h6
  | error e =>
    obtain ⟨z, l5, l6, h5, h6, rfl⟩ := Prog.Path.bind_ok.mp h4
    split at h6
    · obtain ⟨_, h6⟩ := h6; cases h6; exact absurd rfl hx
    · obtain ⟨_, h6⟩ := h6; cases h6

theorem processAutocryptHeader_path {env : Env} {n : Str} {m : Msg} {from_ head : Str} {date : Time} {id : Str} {r : Except Exc ACResult}
    (h : (Access.processAutocryptHeader env n m from_ head date id).Path l r) :
    ∀ d ∈ l, d.op.readOnly ∨ ∃ e ret, d = Did.append head (.msg e) ret ∧ ∃ pah u, parseOneAcHeaderFromMsg env m [from_] = .ok pah ∧
      MsgDid l head u e ∧ u.msgId = id ∧ u.date = date ∧ u.keydata = pah.keydata ∧ u.pe = pah.pe ∧
      (u.keyhandle ≠ none → ImportedThen l (pah.keydata.getD [])) := by
  unfold Access.processAutocryptHeader at h
  simp only [bind_eq, pure_eq] at h
  rcases Prog.Path.bind.mp h with ⟨pah, l1, l2, h1, h2, rfl⟩ | ⟨e, h1, rfl⟩
  swap
  · obtain ⟨rfl, _⟩ := Prog.Path.ofExcept.mp h1
    simp
  obtain ⟨rfl, hpah⟩ := Prog.Path.ofExcept.mp h1
  rw [List.nil_append]
  have ho : (if pah.error.isSome = true then Prog.pure (none, pah) else Account.importPah env n pah).AllOps Op.readOnly := by
    split
    · trivial
    · exact Account.importPah_ops permissive_readOnly env n pah
  rcases Prog.Path.bind.mp h2 with ⟨⟨kh, pah'⟩, l3, l4, h3, h4, rfl⟩ | ⟨e, h3, rfl⟩
  swap
  · exact fun d hd => .inl (h3.ops ho d hd)
  have q3 := h3.ops ho
  have himp : pah'.keydata = pah.keydata ∧ pah'.pe = pah.pe ∧ (kh ≠ none → ImportedThen l3 (pah.keydata.getD [])) := by
    rcases path_ite h3 with ⟨_, _, h3⟩ | ⟨_, h3⟩
    · cases h3; exact ⟨rfl, rfl, fun h => absurd rfl h⟩
    · exact importPah_path h3
  dsimp only at h4
  have key : ∀ {l5 : List Did} {r' : Except Exc Unit},
      (Access.updateFromMsg head { msgId := id, date, pe := pah'.pe, keydata := pah'.keydata, keyhandle := kh }).Path l5 r' →
      ∀ d ∈ l3 ++ l5, d.op.readOnly ∨ ∃ e ret, d = Did.append head (.msg e) ret ∧ ∃ pah u, parseOneAcHeaderFromMsg env m [from_] = .ok pah ∧
        MsgDid (l3 ++ l5) head u e ∧ u.msgId = id ∧ u.date = date ∧ u.keydata = pah.keydata ∧ u.pe = pah.pe ∧
        (u.keyhandle ≠ none → ImportedThen (l3 ++ l5) (pah.keydata.getD [])) := by
    intro l5 r' h5 d hd
    rcases List.mem_append.mp hd with hd | hd
    · exact .inl (q3 d hd)
    rcases updateFromMsg_path h5 d hd with hd | ⟨e, ret, rfl, y1, y2, y3, y4⟩
    · exact .inl hd
    · have hsub : l5 ⊆ l3 ++ l5 := List.subset_append_right ..
      refine .inr ⟨e, ret, rfl, pah, _, hpah.symm, ⟨y1, y2, y3.mono hsub, ?_⟩, rfl, rfl, himp.1, himp.2.1,
        fun hk => (himp.2.2 hk).mono (List.subset_append_left ..)⟩
      rcases y4 with ⟨z1, z2, z3, es, z4, z5⟩ | y4
      · exact .inl ⟨z1, z2, z3, es, z4.mono hsub, z5⟩
      · exact .inr y4
  rcases Prog.Path.bind.mp h4 with ⟨_, l5, l6, h5, ⟨rfl, _⟩, rfl⟩ | ⟨e, h5, rfl⟩
  · rw [List.append_nil]; exact key h5
  · exact key h5

theorem gossipLoop_path {env : Env} {n : Str} {dict : List (Str × ACResult)} {date : Time} {id : Str} {pr : List (Str × ACResult)} {rs : List Str}
    {r : Except Exc (List (Str × ACResult))} (h : (Access.gossipLoop env n dict date id pr rs).Path l r) :
    ∀ d ∈ l, d.op.readOnly ∨ ∃ a e ret, d = Did.append (Account.peerHeadOf env n a) (.gossip e) ret ∧ a ∈ rs ∧ ∃ pah, dictGet dict a = some pah ∧
      e.msgId = id ∧ e.date = date ∧ NoNewerKeyThen l (Account.peerHeadOf env n a) e.date ∧ e.keydata ≠ [] ∧ pah.keydata = some e.keydata ∧
      ImportedThen l e.keydata := by
  induction rs generalizing pr l with
  | nil => obtain ⟨rfl, _⟩ := h; simp
  | cons a rs ih =>
    unfold Access.gossipLoop at h
    split at h
    · intro d hd
      rcases ih h d hd with h1 | ⟨b, e, ret, h1, h2, h3⟩
      · exact .inl h1
      · exact .inr ⟨b, e, ret, h1, List.mem_cons_of_mem _ h2, h3⟩
    rename_i pah hpah
    simp only [bind_eq] at h
    have ho := Account.importPah_ops permissive_readOnly env n pah
    rcases Prog.Path.bind.mp h with ⟨⟨kh, pah'⟩, l1, l2, h1, h2, rfl⟩ | ⟨e, h1, rfl⟩
    swap
    · exact fun d hd => .inl (h1.ops ho d hd)
    have q1 := h1.ops ho
    have himp := importPah_path h1
    dsimp only at h2
    have key : ∀ {l3 x : List Did} {r' : Except Exc Unit},
        (Access.updateFromGossip (Account.peerHeadOf env n a) { msgId := id, date, keydata := pah'.keydata, keyhandle := kh }).Path l3 r' →
        ∀ d ∈ l1 ++ l3, d.op.readOnly ∨ ∃ b e ret, d = Did.append (Account.peerHeadOf env n b) (.gossip e) ret ∧ b ∈ a :: rs ∧
          ∃ pah, dictGet dict b = some pah ∧ e.msgId = id ∧ e.date = date ∧ NoNewerKeyThen (l1 ++ (l3 ++ x)) (Account.peerHeadOf env n b) e.date ∧
          e.keydata ≠ [] ∧ pah.keydata = some e.keydata ∧ ImportedThen (l1 ++ (l3 ++ x)) e.keydata := by
      intro l3 x r' h3 d hd
      rcases List.mem_append.mp hd with hd | hd
      · exact .inl (q1 d hd)
      rcases updateFromGossip_path h3 d hd with hd | ⟨e, ret, rfl, y1, y2, y3, y4, y5, y6⟩
      · exact .inl hd
      · have hk : pah.keydata = some e.keydata := himp.1 ▸ y5
        refine .inr ⟨a, e, ret, rfl, List.mem_cons_self .., pah, hpah, y1, y2, y3.mono fun z hz => by simp [hz], y4, hk, ?_⟩
        have := himp.2.2 (by dsimp only at y6; rw [y6]; simp)
        rw [hk] at this
        exact this.mono fun z hz => by simp [hz]
    rcases Prog.Path.bind.mp h2 with ⟨_, l3, l4, h3, h4, rfl⟩ | ⟨e, h3, rfl⟩
    swap
    · have := key (x := []) h3
      rw [List.append_nil] at this
      exact this
    intro d hd
    rw [← List.append_assoc] at hd
    rcases List.mem_append.mp hd with hd | hd
    · exact key h3 d hd
    · rcases ih h4 d hd with h1 | ⟨b, e, ret, h1, h2, pah, y1, y2, y3, y4, y5, y6, y7⟩
      · exact .inl h1
      · have hsub : l4 ⊆ l1 ++ (l3 ++ l4) := fun z hz => by simp [hz]
        exact .inr ⟨b, e, ret, h1, List.mem_cons_of_mem _ h2, pah, y1, y2, y3, y4.mono hsub, y5, y6, y7.mono hsub⟩

theorem decryptMime_path {env : Env} {n : Str} {m : Msg} {r : Account.DecryptResult} (h : (Account.decryptMime env n m).Path l (.ok r)) :
    ∃ dec, r.decMsg = transferNonContentHeaders m (env.messageFromBytes dec) ∧ DecryptedThen l m dec := by
  unfold Account.decryptMime at h
  simp only [bind_eq, pure_eq] at h
  obtain ⟨enc, l1, l2, h1, h2, rfl⟩ := Prog.Path.bind_ok.mp h
  obtain ⟨g, l3, l4, h3, h4, rfl⟩ := Prog.Path.bind_ok.mp h2
  obtain ⟨⟨dec, infos⟩, l5, l6, h5, ⟨rfl, h6⟩, rfl⟩ := Prog.Path.bind_ok.mp h4
  obtain ⟨rfl, henc⟩ := Prog.Path.ofExcept.mp h1
  cases h6
  refine ⟨dec, rfl, ?_⟩
  unfold BinGPG.decrypt BinGPG.gpgOuterr at h5
  simp only [bind_eq, pure_eq] at h5
  obtain ⟨np, l7, l8, h7, h8, rfl⟩ := Prog.Path.bind_ok.mp h5
  obtain ⟨x, l9, l10, h9, h10, rfl⟩ := Prog.Path.bind_ok.mp h8
  obtain ⟨inf, l11, l12, h11, ⟨rfl, h12⟩, rfl⟩ := Prog.Path.bind_ok.mp h10
  obtain ⟨out, l13, l14, h13, h14, rfl⟩ := Prog.Path.bind_ok.mp h9
  obtain ⟨rfl, hx⟩ := Prog.Path.ofExcept.mp h14
  obtain ⟨x1, x2⟩ := x
  obtain ⟨y1, y2⟩ := checkResult_ok hx.symm
  cases h12
  rw [h13.gpg]
  refine ⟨_, enc, out, by simp; exact .inr (.inr (.inl rfl)), by simp [BinGPG.argv], encryptedData_iff.mpr henc.symm, y1, y2⟩

/-- what may be done -/
def Good (env : Env) (l : List Did) (n : Str) (m : Msg) (nd : Bool) (d : Did) : Prop :=
  d.op.readOnly ∨ (∃ hd e ret, d = Did.append hd (.msg e) ret ∧ DirectThen env l n m hd e) ∨
    ∃ hd e ret, d = Did.append hd (.gossip e) ret ∧ nd = false ∧ GossipedThen env l n m hd e

theorem header_good {env : Env} {n : Str} {m : Msg} {nd : Bool} {date : Time} {r : Except Exc ACResult} {L : List Did}
    (h : (Access.processAutocryptHeader env n m (parseEmailAddr env (m.get (str!"From")))
      (Account.peerHeadOf env n (parseEmailAddr env (m.get (str!"From")))) date (messageId m)).Path l r)
    (hL : l ⊆ L) (hd : DateThen env L m date) : ∀ d ∈ l, Good env L n m nd d := by
  intro d hdl
  rcases processAutocryptHeader_path h d hdl with h1 | ⟨e, ret, rfl, pah, u, h1, ⟨y1, y2, y3, y4⟩, h2, h3, h4, h5, h6⟩
  · exact .inl h1
  · refine .inr (.inl ⟨_, e, ret, rfl, rfl, by rw [y1, h2, mailId_eq], by rw [y2, h3]; exact hd, y3.mono hL, ?_⟩)
    rcases y4 with ⟨z1, z2, z3, es, z4, z5⟩ | ⟨z1, z2, z3, z4⟩
    · exact .inl ⟨z1, z2, z3, es, z4.mono hL, z5⟩
    · have hk : pah.keydata = some e.keydata := by rw [← h4, z2]
      obtain ⟨p1, p2, v, p3, p4⟩ := parseOne_key h1 hk
      refine .inr ⟨z1, p1, p2, ⟨v, pah, p3, p4, hk, by rw [← h5, z3]⟩, fun hkh => ?_⟩
      rw [hk] at h6
      refine (h6 ?_).mono hL
      intro h'
      rw [h'] at z4
      exact hkh z4

theorem gossip_good {env : Env} {n : Str} {m : Msg} {nd : Bool} {date : Time} {dec : Bytes} {r : Except Exc (List (Str × ACResult))} {L : List Did}
    (h : (Access.processGossipHeaders env n (transferNonContentHeaders m (env.messageFromBytes dec)) date (messageId m)).Path l r)
    (hL : l ⊆ L) (hd : DateThen env L m date) (hdec : DecryptedThen L m dec) (he : PgpMime m) (hnd : nd = false) :
    ∀ d ∈ l, Good env L n m nd d := by
  unfold Access.processGossipHeaders at h
  simp only [bind_eq] at h
  rcases Prog.Path.bind.mp h with ⟨dict, l1, l2, h1, h2, rfl⟩ | ⟨e, h1, rfl⟩
  swap
  · obtain ⟨rfl, _⟩ := Prog.Path.ofExcept.mp h1
    simp
  obtain ⟨rfl, hdict⟩ := Prog.Path.ofExcept.mp h1
  rw [List.nil_append] at hL ⊢
  intro d hdl
  rcases gossipLoop_path h2 d hdl with h1 | ⟨a, e, ret, rfl, ha, pah, y1, y2, y3, y4, y5, y6, y7⟩
  · exact .inl h1
  · have hact : Account.GossipAct env n (transferNonContentHeaders m (env.messageFromBytes dec)) (messageId m) date
        (.gossip n (parseEmailAddr env (some a)) ⟨messageId m, date, pah.keydata, none⟩) :=
      ⟨rfl, rfl, rfl, dict, a, pah, hdict.symm, ha, y1, rfl, rfl⟩
    obtain ⟨u, r', v, res, z1, z2, z3, z4, z5, z6, z7⟩ := gossipAct_spec hact
    injection z1 with _ z8 z9
    rw [← z9] at z4
    refine .inr (.inr ⟨_, e, ret, rfl, hnd, by rw [y2, mailId_eq], by rw [y3]; exact hd, y4.mono hL, y5, y7.mono hL, he, dec, r', v, res, hdec, z5, ?_, z7, z6, ?_⟩)
    · show peerHead n (parseEmailAddr env (some a)) = peerHead n (parseEmailAddr env (some r'))
      rw [z8]
    · rw [← z4]; exact y6

/-- the rest of a call is good if its parts are -/
theorem good_append {env : Env} {L : List Did} {n : Str} {m : Msg} {nd : Bool} {l1 l2 : List Did} (h1 : ∀ d ∈ l1, Good env L n m nd d)
    (h2 : ∀ d ∈ l2, Good env L n m nd d) : ∀ d ∈ l1 ++ l2, Good env L n m nd d :=
  fun d hd => (List.mem_append.mp hd).elim (h1 d) (h2 d)

theorem incoming_good {env : Env} {n : Str} {m : Msg} {i nd : Bool} {r : Except Exc (Option Account.IncomingResult)}
    (h : (Access.processIncoming env n m i nd).Path l r) : ∀ L, l ⊆ L → ∀ d ∈ l, Good env L n m nd d := by
  intro L hL
  unfold Access.processIncoming at h
  simp only [bind_eq, pure_eq] at h
  rcases Prog.Path.bind.mp h with ⟨dt, l1, l2, h1, h2, rfl⟩ | ⟨e, h1, rfl⟩
  swap
  · obtain ⟨rfl, _⟩ := Prog.Path.ofExcept.mp h1
    simp
  obtain ⟨rfl, hdt⟩ := Prog.Path.ofExcept.mp h1
  have hdt := parseDateToFloat_ok.mp hdt.symm
  rw [List.nil_append] at hL ⊢
  clear h h1
  rcases Prog.Path.bind.mp h2 with ⟨date, l3, l4, h3, h4, rfl⟩ | ⟨e, h3, rfl⟩
  swap
  · obtain ⟨t, l', rfl, ⟨rfl, h3⟩⟩ := h3
    cases h3
  obtain ⟨t, l', rfl, ⟨rfl, h3⟩⟩ := h3
  cases h3
  have hdate : DateThen env L m (min dt t) := ⟨dt, t, hdt, hL (List.mem_append_left _ (List.mem_cons_self ..)), rfl⟩
  refine good_append (fun d hd => by rw [List.mem_singleton.mp hd]; exact .inl trivial) ?_
  have hL := (List.append_subset.mp hL).2
  clear h2
  have ho : (if i = true then (Prog.chain (Account.peerHeadOf env n (parseEmailAddr env (m.get (str!"From"))))).bind fun es =>
      Prog.pure (Peer.hasMessage es (messageId m)) else Prog.pure false).AllOps Op.readOnly := by
    split
    · exact .bind (.chain trivial) fun _ => trivial
    · trivial
  rcases Prog.Path.bind.mp h4 with ⟨known, l5, l6, h5, h6, rfl⟩ | ⟨e, h5, rfl⟩
  swap
  · exact fun d hd => .inl (h5.ops ho d hd)
  refine good_append (fun d hd => .inl (h5.ops ho d hd)) ?_
  have hL := (List.append_subset.mp hL).2
  clear h4 h5
  rcases path_ite h6 with ⟨_, rfl, _⟩ | ⟨_, h6⟩
  · simp
  rcases Prog.Path.bind.mp h6 with ⟨pah, l7, l8, h7, h8, rfl⟩ | ⟨e, h7, rfl⟩
  swap
  · exact header_good h7 hL hdate
  refine good_append (header_good h7 (List.append_subset.mp hL).1 hdate) ?_
  have hL := (List.append_subset.mp hL).2
  clear h6 h7
  rcases Prog.Path.bind.mp h8 with ⟨enc, l9, l10, h9, h10, rfl⟩ | ⟨e, h9, rfl⟩
  swap
  · rcases path_ite h9 with ⟨_, rfl, _⟩ | ⟨_, h9⟩
    · simp
    · obtain ⟨rfl, _⟩ := Prog.Path.ofExcept.mp h9; simp
  have henc : l9 = [] ∧ (enc = true → nd = false ∧ PgpMime m) := by
    rcases path_ite h9 with ⟨_, rfl, h9'⟩ | ⟨hnd, h9'⟩
    · cases h9'; exact ⟨rfl, by simp⟩
    · obtain ⟨rfl, h9''⟩ := Prog.Path.ofExcept.mp h9'
      exact ⟨rfl, fun h' => ⟨by simpa using hnd, pgpMime_iff.mpr (by rw [← h9'', h'])⟩⟩
  obtain ⟨rfl, henc⟩ := henc
  rw [List.nil_append] at hL ⊢
  clear h8 h9
  have key : ∀ {l11 : List Did} {r' : Except Exc (List (Str × ACResult))},
      (if enc = true then (Account.decryptMime env n m).bind fun x =>
          (Access.processGossipHeaders env n x.decMsg (min dt t) (messageId m)).bind fun gossip =>
            (Account.ownKeyhandle n).bind fun key =>
              (Prog.hookIncomingGossip (gossip.map (·.1)) key x.decMsg).bind fun _ => Prog.pure gossip
        else Prog.pure []).Path l11 r' → l11 ⊆ L → ∀ d ∈ l11, Good env L n m nd d := by
    intro l11 r' h11 hL
    rcases path_ite h11 with ⟨he, h11⟩ | ⟨_, rfl, _⟩
    swap
    · simp
    obtain ⟨hnd, hpgp⟩ := henc he
    have ho := Account.decryptMime_ops permissive_readOnly env n m
    rcases Prog.Path.bind.mp h11 with ⟨x, l12, l13, h12, h13, rfl⟩ | ⟨e, h12, rfl⟩
    swap
    · exact fun d hd => .inl (h12.ops ho d hd)
    refine good_append (fun d hd => .inl (h12.ops ho d hd)) ?_
    obtain ⟨dec, hdec, hdt⟩ := decryptMime_path h12
    rw [hdec] at h13
    have hdt := hdt.mono (List.append_subset.mp hL).1
    have hL := (List.append_subset.mp hL).2
    rcases Prog.Path.bind.mp h13 with ⟨gossip, l14, l15, h14, h15, rfl⟩ | ⟨e, h14, rfl⟩
    swap
    · exact gossip_good h14 hL hdate hdt hpgp hnd
    refine good_append (gossip_good h14 (List.append_subset.mp hL).1 hdate hdt hpgp hnd) ?_
    have ho : ((Account.ownKeyhandle n).bind fun key =>
        (Prog.hookIncomingGossip (gossip.map (·.1)) key (transferNonContentHeaders m (env.messageFromBytes dec))).bind fun _ => Prog.pure gossip).AllOps
          Op.readOnly :=
      .bind (Account.ownKeyhandle_ops permissive_readOnly n) fun _ => .bind ⟨trivial, fun _ => .ofExcept _⟩ fun _ => trivial
    exact fun d hd => .inl (h15.ops ho d hd)
  rcases Prog.Path.bind.mp h10 with ⟨gossip, l11, l12, h11, ⟨rfl, _⟩, rfl⟩ | ⟨e, h11, rfl⟩
  · rw [List.append_nil] at hL ⊢
    exact key h11 hL
  · exact key h11 hL

end Anyhow

open Anyhow

/-! ## Properties -/

/-- C124: whatever the store, the clock, gpg and the plugins answer: processing an incoming message removes nothing, and each entry it
appends is what the message says about its sender, or what gossip in the encrypted message says about its recipients. -/
theorem C124_learned (env : Env) (n : Str) (m : Msg) (i nd : Bool) (l : List Did) (r : Except Exc (Option Account.IncomingResult))
    (h : (Access.processIncoming env n m i nd).Path l r) :
    ∀ d ∈ l, d.op.readOnly ∨ (∃ hd e ret, d = Did.append hd (.msg e) ret ∧ DirectThen env l n m hd e) ∨
      ∃ hd e ret, d = Did.append hd (.gossip e) ret ∧ nd = false ∧ GossipedThen env l n m hd e :=
  incoming_good h l (List.Subset.refl l)

/-- C124: if a message is left out, as one with this id is known, then a read of the sender's chain gave such a message, and nothing is
written and gpg is not run. -/
theorem C124_known (env : Env) (n : Str) (m : Msg) (i nd : Bool) (l : List Did)
    (h : (Access.processIncoming env n m i nd).Path l (.ok none)) :
    i = true ∧ (∀ d ∈ l, d.op = .now ∨ d.op = .chain (peerHead n (senderAddr env m))) ∧
    ∃ es x, ReadAs l (peerHead n (senderAddr env m)) es ∧ Entry.msg x ∈ es ∧ x.msgId = mailId m := by
  unfold Access.processIncoming at h
  simp only [bind_eq, pure_eq] at h
  obtain ⟨dt, l1, l2, h1, h2, rfl⟩ := Prog.Path.bind_ok.mp h
  obtain ⟨rfl, _⟩ := Prog.Path.ofExcept.mp h1
  obtain ⟨date, l3, l4, h3, h4, rfl⟩ := Prog.Path.bind_ok.mp h2
  obtain ⟨t, l', rfl, ⟨rfl, h3⟩⟩ := h3
  cases h3
  obtain ⟨known, l5, l6, h5, h6, rfl⟩ := Prog.Path.bind_ok.mp h4
  rcases path_ite h6 with ⟨hk, rfl, _⟩ | ⟨_, h6⟩
  · rcases path_ite h5 with ⟨hi, h5⟩ | ⟨_, _, h5⟩
    swap
    · cases h5; cases hk
    obtain ⟨es, l7, l8, h7, ⟨rfl, h8⟩, rfl⟩ := Prog.Path.bind_ok.mp h5
    rw [h7.chain]
    cases h8
    unfold Peer.hasMessage at hk
    cases hg : Peer.getMessageEntry es (messageId m) with
    | none => rw [hg] at hk; cases hk
    | some x =>
      have hmem : Entry.msg x ∈ es ∧ x.msgId = mailId m :=
        ⟨Peer.getMessageEntry_mem hg, by rw [mailId_eq]; simpa using List.find?_some hg⟩
      refine ⟨hi, ?_, es, x, ?_, hmem⟩
      · simp only [List.nil_append, List.append_nil, List.mem_append, List.mem_singleton]
        rintro d (rfl | rfl)
        · exact .inl rfl
        · exact .inr rfl
      · simp [ReadAs]; exact .inr rfl
  · obtain ⟨pah, l7, l8, h7, h8, rfl⟩ := Prog.Path.bind_ok.mp h6
    obtain ⟨enc, l9, l10, h9, h10, rfl⟩ := Prog.Path.bind_ok.mp h8
    obtain ⟨g, l11, l12, h11, ⟨_, h12⟩, rfl⟩ := Prog.Path.bind_ok.mp h10
    cases h12

/-- C124 covers every run -/
theorem C124_runs {σ K : Type} (S : StoreImpl σ) (O : Oracle K) (env : Env) (n : Str) (m : Msg) (i nd : Bool) (w : World σ K) :
    (∃ l, (Access.processIncoming env n m i nd).Path l (run S O (Access.processIncoming env n m i nd) w).1 ∧
      ∃ evs, (run S O (Access.processIncoming env n m i nd) w).2.trace = evs ++ w.trace ∧ ∀ ev, ev ∈ evs ↔ (⟨.ext ev.op, ev.ret⟩ : Did) ∈ l) ∧
    ∀ others k, ∃ l, (Access.processIncoming env n m i nd).Path l (runAmid S O others (Access.processIncoming env n m i nd) k w).1 :=
  ⟨run_path S O _ w, fun others k => runAmid_path S O others _ k w⟩

/-! ## Examples -/

/-- the operations of a run, with their answers -/
def didsOf {σ K α : Type} (S : StoreImpl σ) (O : Oracle K) : Prog α → World σ K → List Did
  | .pure _, _ => []
  | .raise _, _ => []
  | .op o k, w => ⟨o, (step S O o w).1⟩ :: didsOf S O (k (step S O o w).1) (step S O o w).2

theorem didsOf_path {σ K α : Type} (S : StoreImpl σ) (O : Oracle K) (p : Prog α) (w : World σ K) :
    p.Path (didsOf S O p w) (run S O p w).1 := by
  induction p generalizing w with
  | pure a => exact ⟨rfl, rfl⟩
  | raise e => exact ⟨rfl, rfl⟩
  | op o k ih => exact ⟨_, _, rfl, ih _ _⟩

open Concrete in
/-- a message from Bob with a key: there is a path on which an entry is appended to Bob's chain -/
example : ∃ l r, (Access.processIncoming env (str!"a") (mail bob (str!"1") (str!"100") [7]) false false).Path l r ∧ r.toOption.isSome ∧
    (l.any fun d => match d.op with | .append hd (.msg e) => hd == peerHead (str!"a") bob && e.keydata == [7] && !e.keyhandle.isEmpty | _ => false) :=
  ⟨_, _, didsOf_path Store.impl oracle _ (after [addA]), by decide +kernel, by decide +kernel⟩

open Concrete in
/-- an encrypted message from Bob to Carol with gossip: there is a path on which an entry is appended to Carol's chain -/
example : ∃ l r, (Access.processIncoming env (str!"a") (encMail (str!"1") (str!"100") [] [gossipField carol [5]]) false false).Path l r ∧
    r.toOption.isSome ∧
    (l.any fun d => match d.op with | .append hd (.gossip e) => hd == peerHead (str!"a") carol && e.keydata == [5] && !e.keyhandle.isEmpty | _ => false) :=
  ⟨_, _, didsOf_path Store.impl oracle _ (after [addA]), by decide +kernel, by decide +kernel⟩

open Concrete in
/-- a known message is left out -/
example : ∃ l, (Access.processIncoming env (str!"a") (mail bob (str!"1") (str!"500") [8]) true false).Path l (.ok none) := by
  have h := fun w => didsOf_path Store.impl oracle (Access.processIncoming env (str!"a") (mail bob (str!"1") (str!"500") [8]) true false) w
  have hr : (run Store.impl oracle (Access.processIncoming env (str!"a") (mail bob (str!"1") (str!"500") [8]) true false)
      (after [addA, recv bob (str!"1") (str!"100") [7]])).1.toOption.map Option.isNone = some true := by decide +kernel
  have key : ∀ r : Except Exc (Option Account.IncomingResult), r.toOption.map Option.isNone = some true → r = .ok none := by
    rintro (_ | _ | _) h
    · cases h
    · rfl
    · cases h
  exact ⟨_, key _ hr ▸ h _⟩

end Verif
