import Verif.Props.Accounts
import Verif.Props.PeerState
import Verif.Props.PeerOrder
import Verif.Props.Incoming
/-!
# Importing keys (C55)
-/
namespace Verif
open BinGPG Mime

variable {K : Type}

/-! ## Specification -/

/-- gpg exported `kd` for the key `kh` between `w` and `w'` -/
def Exported (w w' : World Store K) (kh : Str) (kd : Bytes) : Prop :=
  RanGpg w w' fun argv out => str!"--export" ∈ argv ∧ argv.getLast? = some kh ∧ out.out = kd

/-- gpg exported nothing, and reported success -/
def Event.emptyExport : Event → Bool
  | ⟨.gpg argv _, ret⟩ => match (ret : Except Exc GpgOut) with
    | .ok out => decide (str!"--export" ∈ argv) && out.ret == 0 && out.out.isEmpty
    | .error _ => false
  | _ => false

/-- gpg has exported some data whenever it reported success -/
def ExportsData (w : World Store K) : Prop := ∀ ev ∈ w.trace, ev.emptyExport = false

/-- all keys recorded from messages so far are older than the present -/
def KeysArePast (w : World Store K) (n : Str) : Prop :=
  0 ≤ w.clock w.tick ∧ ∀ a m, Entry.msg m ∈ w.log (peerHead n a) → m.keydata ≠ [] → m.date < w.clock w.tick

/-- the clock does not run backwards -/
def Forward (clock : Nat → Time) : Prop := ∀ i j, i ≤ j → clock i ≤ clock j

/-- the peer's state shows exactly this key and preference, and the key is a direct one -/
def ShowsKey (es : List Entry) (kh : Str) (kd : Bytes) (pe : Str) : Prop :=
  (∃ m, UsableKey es m ∧ m.keyhandle = kh ∧ m.keydata = kd ∧ m.pe.toStr = pe) ∧ Peer.shown es = (kh, kd, pe)

/-- the addresses of a key: those of the user ids of the key with that id listed by gpg first -/
def KeyAddrs (env : Env) (w w' : World Store K) (addrs : List Str) : Prop :=
  RanGpg w w' fun argv out => str!"--list-public-keys" ∈ argv ∧ ∃ kh text keys, argv.getLast? = some kh ∧ env.utf8Decode out.out = .ok text ∧
    Listing env (str!"pub", str!"sub") (Py.splitlines text) keys ∧
    ((∃ before ki after, keys = before ++ ki :: after ∧ ki.id = kh ∧ (∀ k' ∈ before, k'.id ≠ kh) ∧
        addrs = ki.uids.map fun u => address env (some u)) ∨ (addrs = [] ∧ ∀ k' ∈ keys, k'.id ≠ kh))

/-! ## Lemmas -/

theorem getLast_argv (g : BinGPG) (l : List Str) (k : Str) : (g.argv (l ++ [k])).getLast? = some k := by
  unfold argv; rw [← List.append_assoc, List.getLast?_concat]

theorem getPublicKeydata_ran {O : Oracle K} {env : Env} {g : BinGPG} {k : Str} {kd : Bytes} {w w' : World Store K}
    (h : run Store.impl O (getPublicKeydata env g k) w = (.ok kd, w')) : Exported w w' k kd := by
  unfold getPublicKeydata at h
  simp only [bind_eq, pure_eq] at h
  obtain ⟨r, w2, h2, h⟩ := run_bind_ok.mp h
  cases h
  refine (ranGpg_of_ok h2).mono ?_
  rintro argv out ⟨rfl, ho, -⟩
  exact ⟨mem_argv (by simp), getLast_argv g [str!"--export-options=export-minimal", str!"--export"] k, ho⟩

theorem Exported.ne_nil {w w' : World Store K} {kh : Str} {kd : Bytes} (h : Exported w w' kh kd) (hd : ExportsData w') : kd ≠ [] := by
  obtain ⟨new, argv, stdin, out, htr, hm, h0, ha, -, ho⟩ := h
  have := hd _ (by rw [htr]; exact List.mem_append_left _ hm)
  intro hk
  unfold Event.emptyExport at this
  simp [ha, h0, ho, hk] at this

theorem ExportsData.mono {w w' : World Store K} (h : ExportsData w') (ht : w.trace <:+ w'.trace) : ExportsData w :=
  fun ev hev => h ev (ht.subset hev)

theorem importKeydata_handle {O : Oracle K} {env : Env} {g : BinGPG} {d : Bytes} {b : Bool} {k : Str} {w w' : World Store K}
    (h : run Store.impl O (importKeydata env g d b) w = (.ok k, w')) : k ≠ [] := by
  have key : ∀ {text k : Str} {w w' : World Store K}, run Store.impl O (findKeyhandle env g text) w = (.ok k, w') → k ≠ [] := by
    intro text k w w' h
    obtain ⟨x, hx, h1 | h1⟩ := C60_handle_partial h
    · rintro rfl
      rw [← h1.2.1] at h1; simp at h1
    · exact h1.2.2.1
  unfold importKeydata at h
  simp only [bind_eq, pure_eq] at h
  obtain ⟨r, w1, -, h⟩ := run_bind_ok.mp h
  obtain ⟨k1, w2, h2, h⟩ := run_bind_ok.mp h
  cases b with
  | false => rw [if_neg (by simp)] at h; cases h; exact key h2
  | true =>
    rw [if_pos rfl] at h
    obtain ⟨_, _, -, h⟩ := run_bind_ok.mp h
    obtain ⟨_, _, -, h⟩ := run_bind_ok.mp h
    obtain ⟨_, _, -, h⟩ := run_bind_ok.mp h
    obtain ⟨_, _, -, h⟩ := run_bind_ok.mp h
    obtain ⟨_, _, -, h⟩ := run_bind_ok.mp h
    cases h; exact key h2

/-- the log has the imported key: the newest key is the one imported -/
def Done (w0 w : World Store K) (kh pe : Str) (h : Str) : Prop :=
  ∃ m, Peer.latestAc (w.log h) = some m ∧ m.keyhandle = kh ∧ m.pe.toStr = pe ∧ m.date ≤ w.clock w.tick ∧ Exported w0 w kh m.keydata

/-- no key from now or later in the log -/
def Past (w : World Store K) (h : Str) : Prop := 0 ≤ w.clock w.tick ∧ ∀ m, Entry.msg m ∈ w.log h → m.keydata ≠ [] → m.date < w.clock w.tick

theorem Peer.latestAc_mem {es : List Entry} {m : MsgEntry} (h : Peer.latestAc es = some m) : Entry.msg m ∈ es := by
  have := List.mem_of_find?_eq_some h
  unfold Peer.msgs at this
  obtain ⟨e, he, hm⟩ := List.mem_filterMap.mp this
  cases e <;> simp [Entry.msg?] at hm
  subst hm; exact he

theorem Peer.getMessageEntry_mem {es : List Entry} {i : Str} {m : MsgEntry} (h : Peer.getMessageEntry es i = some m) : Entry.msg m ∈ es := by
  have := List.mem_of_find?_eq_some h
  unfold Peer.msgs at this
  obtain ⟨e, he, hm⟩ := List.mem_filterMap.mp this
  cases e <;> simp [Entry.msg?] at hm
  subst hm; exact he

/-- the update for one address -/
theorem update_done {O : Oracle K} {w0 w w' : World Store K} {kh pe : Str} {kd : Bytes} {t : Time} {hd : Str}
    (hfw : Forward w.clock) (ht : ∃ i, i ≤ w.tick ∧ t = w.clock i ∧ (Past { w with tick := i } hd ∨ Done w0 { w with tick := i } kh pe hd))
    (hkd : kd ≠ []) (hex : Exported w0 w kh kd)
    (h : run Store.impl O (Peer.updateFromMsg hd { msgId := [], date := t, pe := some pe, keydata := some kd, keyhandle := some kh }) w = (.ok (), w')) :
    Done w0 w' kh pe hd := by
  have hrun := Peer.exec_updateFromMsg O hd { msgId := [], date := t, pe := some pe, keydata := some kd, keyhandle := some kh } w
  simp only [exec] at hrun
  rw [h] at hrun
  obtain ⟨i, hi, rfl, hst⟩ := ht
  have hle : w.clock i ≤ w.clock w.tick := hfw _ _ hi
  -- not older than the newest key
  have h1 : ¬ w.clock i < Peer.acTimestamp (w.store.get hd) := by
    intro hlt
    rcases hst with ⟨h0, hp⟩ | ⟨m, hm, -, -, hd', -⟩
    · cases hl : Peer.latestAc (w.store.get hd) with
      | none => rw [Peer.acTimestamp, hl] at hlt; exact absurd hlt (Int.not_lt.mpr h0)
      | some m =>
        rw [Peer.acTimestamp, hl] at hlt
        have := hp m (Peer.latestAc_mem hl) (by have := Peer.latestAc_keydata hl; simpa using this)
        exact absurd hlt (Int.not_lt.mpr (Int.le_of_lt this))
    · rw [Peer.acTimestamp, show Peer.latestAc (w.store.get hd) = some m from hm] at hlt
      exact absurd hlt (Int.not_lt.mpr hd')
  unfold Peer.updateEntry at hrun
  dsimp only at hrun
  rw [if_neg h1] at hrun
  cases hrec : Peer.isRecorded (w.store.get hd) { msgId := [], date := w.clock i, pe := some pe, keydata := some kd, keyhandle := some kh } with
  | true =>
    rw [hrec, if_pos rfl] at hrun
    rcases hst with ⟨h0, hp⟩ | ⟨m, hm, h2, h3, h4, h5⟩
    · unfold Peer.isRecorded at hrec
      dsimp only at hrec
      cases he : Peer.getMessageEntry (w.store.get hd) [] with
      | none => rw [he] at hrec; cases hrec
      | some e =>
        rw [he] at hrec
        simp only [Peer.sameMsg, Bool.and_eq_true, beq_iff_eq, Option.some.injEq] at hrec
        have := hp e (Peer.getMessageEntry_mem he) (by rw [hrec.1.1.2]; exact hkd)
        rw [hrec.1.1.1] at this
        exact absurd this (Int.lt_irrefl _)
    · have hw : w' = w := congrArg Prod.snd hrun
      subst hw
      exact ⟨m, hm, h2, h3, Int.le_trans h4 hle, h5⟩
  | false =>
    rw [hrec, if_neg (by simp), show Peer.noKey (some kd) = false by simpa [Peer.noKey] using hkd, if_neg (by simp)] at hrun
    cases hpe : Peer.peArg (some pe) with
    | error e => rw [hpe] at hrun; cases hrun
    | ok p =>
      rw [hpe] at hrun
      dsimp only at hrun
      have hw : w' = _ := congrArg Prod.snd hrun
      dsimp only at hw
      refine ⟨{ msgId := [], date := w.clock i, pe := p, keydata := kd, keyhandle := kh }, ?_, rfl, ?_, ?_, ?_⟩
      · rw [hw]
        show Peer.latestAc ((w.store.push hd _).get hd) = _
        rw [Store.get_push_self]
        exact Peer.latestAc_key _ (by simpa using hkd)
      · have := peArg_ok.mp hpe
        exact (Option.some.inj this).symm
      · rw [hw]; exact hfw _ _ (Nat.le_succ_of_le hi)
      · rw [hw]
        exact hex

/-- the log did not change -/
theorem Past.later {w w' : World Store K} {hd : Str} (h : Past w hd) (hl : w'.log hd = w.log hd) (hc : w.clock w.tick ≤ w'.clock w'.tick) :
    Past w' hd :=
  ⟨Int.le_trans h.1 hc, fun m hm hk => Int.lt_of_lt_of_le (h.2 m (hl ▸ hm) hk) hc⟩

theorem Done.later {w0 w w' : World Store K} {kh pe hd : Str} (h : Done w0 w kh pe hd) (hl : w'.log hd = w.log hd)
    (hc : w.clock w.tick ≤ w'.clock w'.tick) (ht : w.trace <:+ w'.trace) : Done w0 w' kh pe hd := by
  obtain ⟨m, h1, h2, h3, h4, h5⟩ := h
  exact ⟨m, by rw [hl]; exact h1, h2, h3, Int.le_trans h4 hc, h5.extend List.suffix_rfl ht⟩

theorem importLoop_done {O : Oracle K} {env : Env} {n pe kh : Str} {w0 : World Store K} {l : List Str} {w w' : World Store K}
    (h : run Store.impl O (Account.importLoop env n pe kh l) w = (.ok (), w')) (hfw : Forward w.clock) (hex : ExportsData w')
    (ht0 : w0.trace <:+ w.trace) (hd : Str) (hst : Past w hd ∨ Done w0 w kh pe hd) :
    (hd ∈ l.map (Account.peerHeadOf env n) → Done w0 w' kh pe hd) ∧ (Done w0 w kh pe hd → Done w0 w' kh pe hd) := by
  induction l generalizing w with
  | nil => cases h; exact ⟨(fun h => nomatch h), id⟩
  | cons a as ih =>
    unfold Account.importLoop at h
    simp only [bind_eq] at h
    obtain ⟨t, w1, h1, h⟩ := run_bind_ok.mp h
    obtain ⟨g, w2, h2, h⟩ := run_bind_ok.mp h
    obtain ⟨kd, w3, h3, h⟩ := run_bind_ok.mp h
    obtain ⟨u, w4, h4, h⟩ := run_bind_ok.mp h
    rw [run_now] at h1
    have e1 : w.clock w.tick = t := Except.ok.inj (congrArg Prod.fst h1)
    have e2 : { w with tick := w.tick + 1 } = w1 := congrArg Prod.snd h1
    have s1 : w1.store = w.store := by rw [← e2]
    have s2 := ro_store (Account.bingpg_ops permissive_readOnly env n) h2
    have s3 := ro_store (getPublicKeydata_ops permissive_readOnly.2.2.2 env g kh false) h3
    have c1 : w1.clock = w.clock := by rw [← e2]
    have k1 : w.tick ≤ w1.tick := by rw [← e2]; exact Nat.le_succ _
    have c2 := run_clock (S := Store.impl) (O := O) (Account.bingpg env n) w1
    rw [h2] at c2
    have c3 := run_clock (S := Store.impl) (O := O) (getPublicKeydata env g kh) w2
    rw [h3] at c3
    have c4 := run_clock (S := Store.impl) (O := O) (Peer.updateFromMsg (Account.peerHeadOf env n a)
      { msgId := [], date := t, pe := some pe, keydata := some kd, keyhandle := some kh }) w3
    rw [h4] at c4
    dsimp only at c2 c3 c4
    have cl3 : w3.clock = w.clock := c3.1.trans (c2.1.trans c1)
    have tk3 : w.tick ≤ w3.tick := Nat.le_trans k1 (Nat.le_trans c2.2 c3.2)
    have st3 : w3.store = w.store := s3.trans (s2.trans s1)
    have t3 : w.trace <:+ w3.trace := by
      have : w1.trace = w.trace := by rw [← e2]
      rw [← this]; exact (trace_le h2).trans (trace_le h3)
    have t4 := trace_le h4
    have t5 := trace_le h
    have ht2 : w.trace <:+ w2.trace := by
      have : w1.trace = w.trace := by rw [← e2]
      rw [← this]; exact trace_le h2
    have hexp : Exported w0 w3 kh kd := (getPublicKeydata_ran h3).extend (ht0.trans ht2) List.suffix_rfl
    have hkd : kd ≠ [] := hexp.ne_nil (hex.mono (t4.trans t5))
    have hfw3 : Forward w3.clock := by rw [cl3]; exact hfw
    have hfw4 : Forward w4.clock := by rw [c4.1]; exact hfw3
    have hlog3 : w3.log hd = w.log hd := by unfold World.log; rw [st3]
    have hc34 : w.clock w.tick ≤ w4.clock w4.tick := by rw [c4.1, cl3]; exact hfw _ _ (Nat.le_trans tk3 c4.2)
    by_cases hh : hd = Account.peerHeadOf env n a
    · have hdone : Done w0 w4 kh pe hd := by
        rw [hh]
        refine update_done hfw3 ⟨w.tick, tk3, (by rw [cl3, e1] : t = w3.clock w.tick), ?_⟩ hkd hexp h4
        rw [← hh]
        refine hst.imp (fun hp => hp.later hlog3 ?_) (fun hp => hp.later hlog3 ?_ t3)
        · show w.clock w.tick ≤ w3.clock w.tick; rw [cl3]; exact Int.le_refl _
        · show w.clock w.tick ≤ w3.clock w.tick; rw [cl3]; exact Int.le_refl _
      have := (ih h hfw4 (ht0.trans (t3.trans t4)) (Or.inr hdone)).2 hdone
      exact ⟨fun _ => this, fun _ => this⟩
    · have hlog4 : w4.log hd = w.log hd := by
        have := Peer.get_updateFromMsg O (Account.peerHeadOf env n a) hd
          { msgId := [], date := t, pe := some pe, keydata := some kd, keyhandle := some kh } w3
        simp only [exec] at this
        rw [h4, if_neg hh] at this
        exact this.trans hlog3
      have hst4 : Past w4 hd ∨ Done w0 w4 kh pe hd :=
        hst.imp (fun hp => hp.later hlog4 hc34) (fun hp => hp.later hlog4 hc34 (t3.trans t4))
      obtain ⟨i1, i2⟩ := ih h hfw4 (ht0.trans (t3.trans t4)) hst4
      constructor
      · intro hm
        rcases List.mem_cons.mp (List.map_cons ▸ hm) with hm | hm
        · exact absurd hm hh
        · exact i1 hm
      · intro hp; exact i2 (hp.later hlog4 hc34 (t3.trans t4))

theorem Done.shows {w0 w : World Store K} {kh pe hd : Str} (h : Done w0 w kh pe hd) (hk : kh ≠ []) :
    ∃ kd, Exported w0 w kh kd ∧ ShowsKey (w.log hd) kh kd pe := by
  obtain ⟨m, h1, h2, h3, h4, h5⟩ := h
  refine ⟨m.keydata, h5, ⟨m, ⟨latestAc_iff.mp h1, by rw [h2]; exact hk⟩, h2, rfl, h3⟩, ?_⟩
  rw [Peer.shown_of_latestAc h1 (by rw [h2]; exact hk), h2, h3]

/-- C55, what holds: if importing a key succeeds, at a time later than that of all keys recorded for peers of the account, then
every address named in the result shows exactly that key: its handle, the data exported by gpg, and the given preference. The
addresses are the given one, or those of the user ids of the key.

Missing from the full statement: that the time is later, rather than the same; see `C55_refuted`. -/
theorem C55_imported_partial {O : Oracle K} {env : Env} {n : Str} {addr : Option Str} {d : Bytes} {pe : Str} {w w' : World Store K}
    {res : Account.ImportResult} (h : exec O (Account.importKeydataAsAutocrypt env n addr d pe) w = (.ok res, w'))
    (hfw : Forward w.clock) (hpast : KeysArePast w n) (hex : ExportsData w') :
    res.keyhandle ≠ [] ∧ res.pe = pe ∧ Exported w w' res.keyhandle res.keydata ∧
    (∀ a, addr = some a → res.addrs = [address env (some a)]) ∧ (addr = none → KeyAddrs env w w' res.addrs) ∧
    ∀ a ∈ res.addrs, ∃ kd, Exported w w' res.keyhandle kd ∧ ShowsKey (peerLog env w' n a) res.keyhandle kd pe := by
  spec_mail
  unfold Account.importKeydataAsAutocrypt exec at h
  simp only [bind_eq, pure_eq] at h
  obtain ⟨g1, w1, h1, h⟩ := run_bind_ok.mp h
  obtain ⟨k1, w2, h2, h⟩ := run_bind_ok.mp h
  obtain ⟨addrs, w3, h3, h⟩ := run_bind_ok.mp h
  obtain ⟨g2, w4, h4, h⟩ := run_bind_ok.mp h
  obtain ⟨kh, w5, h5, h⟩ := run_bind_ok.mp h
  obtain ⟨u, w6, h6, h⟩ := run_bind_ok.mp h
  obtain ⟨g3, w7, h7, h⟩ := run_bind_ok.mp h
  obtain ⟨kd, w8, h8, h⟩ := run_bind_ok.mp h
  cases h
  have ops3 : Prog.AllOps Op.readOnly (match addr with
    | some a => Prog.pure [parseEmailAddr env (some a)]
    | none => (Account.bingpg env n).bind fun g => (listPublicKeyinfos env g (some k1)).bind fun infos =>
      Prog.pure (Account.uidAddrs env k1 infos)) := by
    cases addr with
    | some a => trivial
    | none => exact .bind (Account.bingpg_ops permissive_readOnly env n) fun _ =>
        Prog.AllOps.bind (BinGPG.listPublicKeyinfos_ops permissive_readOnly.2.2.2 env _ _) fun _ => trivial
  have s1 := ro_store (Account.bingpg_ops permissive_readOnly env n) h1
  have s2 := ro_store (importKeydata_ops permissive_readOnly.2.2.2 env g1 d false) h2
  have s3 := ro_store ops3 h3
  have s4 := ro_store (Account.bingpg_ops permissive_readOnly env n) h4
  have s5 := ro_store (importKeydata_ops permissive_readOnly.2.2.2 env g2 d true) h5
  have s7 := ro_store (Account.bingpg_ops permissive_readOnly env n) h7
  have s8 := ro_store (getPublicKeydata_ops permissive_readOnly.2.2.2 env g3 kh false) h8
  have hck : ∀ {α : Type} {p : Prog α} {w w' : World Store K} {r : Except Exc α}, run Store.impl O p w = (r, w') →
      w'.clock = w.clock ∧ w.tick ≤ w'.tick := by
    intro α p w w' r h
    have := run_clock (S := Store.impl) (O := O) p w
    rw [h] at this; exact this
  have c1 := hck h1; have c2 := hck h2; have c3 := hck h3; have c4 := hck h4; have c5 := hck h5
  have st5 : w5.store = w.store := s5.trans (s4.trans (s3.trans (s2.trans s1)))
  have cl5 : w5.clock = w.clock := c5.1.trans (c4.1.trans (c3.1.trans (c2.1.trans c1.1)))
  have tk5 : w.tick ≤ w5.tick := Nat.le_trans c1.2 (Nat.le_trans c2.2 (Nat.le_trans c3.2 (Nat.le_trans c4.2 c5.2)))
  have t1 := trace_le h1; have t2 := trace_le h2; have t3 := trace_le h3; have t4 := trace_le h4; have t5 := trace_le h5
  have t6 := trace_le h6; have t7 := trace_le h7; have t8 := trace_le h8
  have hkh := importKeydata_handle h5
  refine ⟨hkh, rfl, (getPublicKeydata_ran h8).extend (t1.trans (t2.trans (t3.trans (t4.trans (t5.trans (t6.trans t7)))))) List.suffix_rfl, ?_, ?_, ?_⟩
  · rintro a rfl; cases h3; rfl
  · rintro rfl
    dsimp only at h3
    obtain ⟨g, v1, e1, h3⟩ := run_bind_ok.mp h3
    obtain ⟨infos, v2, e2, h3⟩ := run_bind_ok.mp h3
    cases h3
    unfold listPublicKeyinfos parseList at e2
    simp only [bind_eq] at e2
    obtain ⟨text, v3, e3, e2⟩ := run_bind_ok.mp e2
    rw [run_ofExcept] at e2
    have hp := congrArg Prod.fst e2
    have hv : v3 = w3 := congrArg Prod.snd e2
    dsimp only at hp
    obtain ⟨out, htr, h0, hdec, -⟩ := gpgOutText_ok e3
    refine RanGpg.extend (w1 := v1) (w2 := w3) ?_ (t1.trans (t2.trans (trace_le e1))) (t4.trans (t5.trans (t6.trans (t7.trans t8))))
    rw [hv] at htr
    refine ⟨[_], _, _, out, htr, List.mem_singleton.mpr rfl, h0, mem_argv (by simp), k1, text, infos,
      getLast_argv g [str!"--skip-verify", str!"--with-colons", str!"--list-public-keys"] k1, hdec, C61_listing_partial (Or.inl rfl) _ _ hp, ?_⟩
    unfold Account.uidAddrs
    cases hf : infos.find? (fun k => k.id == k1) with
    | none =>
      refine Or.inr ⟨rfl, fun k' hk' => ?_⟩
      have := List.find?_eq_none.mp hf k' hk'
      simpa using this
    | some ki =>
      obtain ⟨hid, before, after, hl, hb⟩ := List.find?_eq_some_iff_append.mp hf
      exact Or.inl ⟨before, ki, after, hl, by simpa using hid, fun k' hk' => by simpa using hb k' hk', rfl⟩
  · intro a ha
    have hl6 : w'.log (Account.peerHeadOf env n a) = w6.log (Account.peerHeadOf env n a) := by
      unfold World.log; rw [s8, s7]
    have hd := importLoop_done (w0 := w) h6 (by rw [cl5]; exact hfw) (hex.mono (t7.trans t8)) (t1.trans (t2.trans (t3.trans (t4.trans t5))))
      (Account.peerHeadOf env n a) (Or.inl (by
        refine ⟨Int.le_trans hpast.1 ?_, fun m hm hk => Int.lt_of_lt_of_le (hpast.2 (parseEmailAddr env (some a)) m ?_ hk) ?_⟩
        · rw [cl5]; exact hfw _ _ tk5
        · unfold World.log at hm ⊢; rw [st5] at hm; exact hm
        · rw [cl5]; exact hfw _ _ tk5))
    obtain ⟨kd', hk1, hk2⟩ := (hd.1 (List.mem_map_of_mem ha)).shows hkh
    refine ⟨kd', hk1.extend List.suffix_rfl (t7.trans t8), ?_⟩
    have : peerLog env w' n a = w'.log (Account.peerHeadOf env n a) := rfl
    rw [this, hl6]; exact hk2

/-! ## Histories with a running clock -/

/-- every reading of the clock gives a later time, and the first one is not before 1970 -/
def Running (clock : Nat → Time) : Prop := 0 ≤ clock 0 ∧ ∀ i j, i < j → clock i < clock j

theorem Running.forward {c : Nat → Time} (h : Running c) : Forward c := fun i j hij => by
  rcases Nat.eq_or_lt_of_le hij with rfl | hlt
  · exact Int.le_refl _
  · exact Int.le_of_lt (h.2 i j hlt)

/-- all messages recorded are older than the present -/
def MsgsArePast (c : Nat → Time) (w : World Store K) : Prop :=
  w.clock = c ∧ ∀ h m, Entry.msg m ∈ w.log h → m.date < c w.tick

theorem msgsPast_ro {c : Nat → Time} (hc : Running c) {w w' : World Store K} (h : MsgsArePast c w) (hs : w'.store = w.store)
    (hk : w'.clock = w.clock) (ht : w.tick ≤ w'.tick) : MsgsArePast c w' :=
  ⟨hk.trans h.1, fun hd m hm => Int.lt_of_lt_of_le (h.2 hd m (by unfold World.log at hm ⊢; rw [hs] at hm; exact hm)) (hc.forward _ _ ht)⟩

theorem msgsPast_act {O : Oracle K} {c : Nat → Time} (hc : Running c) {w : World Store K} (h : MsgsArePast c w) (a : Act)
    (ha : ∀ n ad u, a = .msg n ad u → u.date < c w.tick) : MsgsArePast c (exec O a.prog w).2 := by
  obtain ⟨hck, htk⟩ := run_clock (S := Store.impl) (O := O) a.prog w
  refine ⟨hck.trans h.1, fun hd m hm => Int.lt_of_lt_of_le (?_ : m.date < c w.tick) (hc.forward _ _ htk)⟩
  have old : Entry.msg m ∈ w.store.get hd → m.date < c w.tick := h.2 hd m
  unfold World.log at hm
  rw [get_act] at hm
  cases a with
  | msg n ad u =>
    dsimp only at hm
    split at hm
    · rcases Peer.applyMsg_cases (w.store.get hd) u with he | ⟨e, hu, he⟩
      · rw [he] at hm; exact old hm
      · rw [he] at hm
        rcases List.mem_cons.mp hm with hm | hm
        · cases hm
          rw [(Peer.updateEntry_some hu).2.2.1]; exact ha n ad u rfl
        · exact old hm
    · exact old hm
  | gossip n ad u =>
    dsimp only at hm
    split at hm
    · rcases Peer.applyGossip_cases (w.store.get hd) u with he | ⟨e, hu, he⟩
      · rw [he] at hm; exact old hm
      · rw [he] at hm
        rcases List.mem_cons.mp hm with hm | hm
        · cases hm
        · exact old hm
    · exact old hm
  | removeAccount n =>
    dsimp only at hm
    split at hm
    · cases hm
    · exact old hm
  | wipe => cases hm
  | _ =>
    dsimp only at hm
    split at hm
    · rcases List.mem_cons.mp hm with hm | hm
      · cases hm
      · exact old hm
    · exact old hm

/-- calls of the public interface: not the direct manipulation of a peer's state with an arbitrary date -/
def ApiCall.dated : ApiCall → Prop
  | .peerMsg .. => False
  | _ => True

theorem call_past {O : Oracle K} {c : Nat → Time} (hc : Running c) {env : Env} {call : ApiCall} (hcall : call.dated) (i : Nat) {w : World Store K}
    (h : MsgsArePast c w) : MsgsArePast c (runFor Store.impl O i (call.prog env) w) := by
  by_cases hg : call.setsDate
  · refine (safe_call env call).respects_killed (R := fun w w' => MsgsArePast c w → MsgsArePast c w') (fun _ _ _ h1 h2 h => h2 (h1 h)) ?_ ?_ i w h
    · intro w w' hs hk ht _ h; exact msgsPast_ro hc h hs hk ht
    · intro a ha w h
      refine msgsPast_act hc h a ?_
      rintro n ad u rfl
      cases call <;> first | exact hg.elim | exact hcall.elim | cases ha.2
  · obtain ⟨h1, h2, h3⟩ := datesRead_call O env call hg i w
    refine ⟨h1.trans h.1, fun hd m hm => ?_⟩
    rcases h3 hd _ m.date hm rfl with h4 | ⟨j, _, h5, h6⟩
    · exact Int.lt_of_lt_of_le (h.2 hd m h4) (hc.forward _ _ h2)
    · rw [h.1] at h6
      exact Int.lt_of_le_of_lt h6 (hc.2 _ _ h5)

/-- C55 for a clock that runs: after any history of calls of the public interface and of commands, interrupted or not, a key that is
imported successfully is shown for every address in the result, with the given preference -/
theorem C55_running_partial {O : Oracle K} {env : Env} {clock : Nat → Time} (hc : Running clock) (k : K) (hist : List (Happening K))
    (hcalls : ∀ c ∈ callsMade hist, c.dated) {n : Str} {addr : Option Str} {d : Bytes} {pe : Str} {w w' : World Store K}
    (hw : w = runHistory Store.impl O env hist ⟨[], clock, 0, k, []⟩) {res : Account.ImportResult}
    (h : exec O (Account.importKeydataAsAutocrypt env n addr d pe) w = (.ok res, w')) (hex : ExportsData w') :
    ∀ a ∈ res.addrs, ∃ kd, Exported w w' res.keyhandle kd ∧ ShowsKey (peerLog env w' n a) res.keyhandle kd pe := by
  have hI : MsgsArePast clock w := hw ▸ runHistory_ind (P := MsgsArePast clock) hist (fun _ _ ⟨h1, h2, h3, _⟩ h => msgsPast_ro hc h h1 h2 h3)
    (fun c hm i _ h => call_past hc (hcalls c hm) i h) _ ⟨rfl, fun _ _ hm => nomatch hm⟩
  refine (C55_imported_partial h (by rw [hI.1]; exact hc.forward) ⟨?_, fun a m hm _ => ?_⟩ hex).2.2.2.2.2
  · rw [hI.1]; exact Int.le_trans hc.1 (hc.forward _ _ (Nat.zero_le _))
  · rw [hI.1]; exact hI.2 _ m hm

theorem Concrete.running : Running Concrete.world0.clock := by
  constructor
  · show (0 : Int) ≤ sec (1000 + 0); unfold sec; decide
  · intro i j hij
    show sec (1000 + (i : Int)) < sec (1000 + j)
    unfold sec; omega

/-- importing a key for Bob -/
def Concrete.importBob : ApiCall := .importKey (str!"a") none [1, 2] (str!"mutual")

/-- the hypotheses are met in a state with another key for Bob -/
example : let w := Concrete.after [Concrete.addA, Concrete.recv Concrete.bob (str!"m1") (str!"5") [3, 4]]
    let r := exec Concrete.oracle (Account.importKeydataAsAutocrypt Concrete.env (str!"a") none [1, 2] (str!"mutual")) w
    (∃ res, r.1 = .ok res ∧ res.addrs = [Concrete.bob]) ∧ ExportsData r.2 ∧ Forward w.clock ∧
    Peer.shown (Concrete.bobs w) = (str!"AAAAAAAAAAAA0304", [3, 4], str!"nopreference") := by
  refine ⟨?_, by unfold ExportsData; decide +kernel, ?_, by decide +kernel⟩
  · have : (exec Concrete.oracle (Account.importKeydataAsAutocrypt Concrete.env (str!"a") none [1, 2] (str!"mutual"))
        (Concrete.after [Concrete.addA, Concrete.recv Concrete.bob (str!"m1") (str!"5") [3, 4]])).1.toOption.map (·.addrs) =
        some [Concrete.bob] := by decide +kernel
    generalize (exec Concrete.oracle (Account.importKeydataAsAutocrypt Concrete.env (str!"a") none [1, 2] (str!"mutual"))
        (Concrete.after [Concrete.addA, Concrete.recv Concrete.bob (str!"m1") (str!"5") [3, 4]])).1 = x at this
    cases x with
    | error e => cases this
    | ok res => exact ⟨res, rfl, Option.some.inj this⟩
  · have h : ∀ calls : List ApiCall, (Concrete.after calls).clock = Concrete.world0.clock := by
      intro calls
      unfold Concrete.after
      generalize Concrete.world0 = w
      induction calls generalizing w with
      | nil => rfl
      | cons c cs ih => exact (ih _).trans (run_clock ..).1
    rw [h]; exact Concrete.running.forward

/-- the same calls with a clock that stands still -/
def Concrete.still (calls : List ApiCall) : World Store Unit :=
  runCalls Store.impl Concrete.oracle Concrete.env calls { Concrete.world0 with clock := fun _ => sec 1000 }

/-- C55 is false for a clock that does not run backwards but shows the same time again: a key is imported for Bob, a message with
another key arrives, the first key is imported again; the peer state keeps the other key -/
theorem C55_refuted : Forward (Concrete.still []).clock ∧
    (exec Concrete.oracle (Concrete.importBob.prog Concrete.env)
      (Concrete.still [Concrete.addA, Concrete.importBob, Concrete.recv Concrete.bob (str!"m1") (str!"1000") [3, 4]])).1 = .ok () ∧
    Peer.shown (Concrete.bobs (Concrete.still [Concrete.addA, Concrete.importBob])) = (str!"AAAAAAAAAAAA0102", [1, 2], str!"mutual") ∧
    Peer.shown (Concrete.bobs (Concrete.still [Concrete.addA, Concrete.importBob,
      Concrete.recv Concrete.bob (str!"m1") (str!"1000") [3, 4], Concrete.importBob])) = (str!"AAAAAAAAAAAA0304", [3, 4], str!"nopreference") :=
  ⟨fun _ _ _ => Int.le_refl _, Except.eq_ok_of_toOption (by decide +kernel), by decide +kernel, by decide +kernel⟩

end Verif
