import Verif.Props.EncryptCourse
import Verif.Props.IncomingScope
/-!
# What `process_outgoing` does
-/
namespace Verif
open Mime

variable {K : Type}

/-- the value of the (first) ENCRYPT header without surrounding white space -/
def encryptHeader (m : Msg) : Option Str := (m.get (str!"ENCRYPT")).map Py.strip

/-- between `w` and `w'` gpg exported the account's own public key as `kd` -/
def ExportedOwnKey (w w' : World Store K) (n : Str) (kd : Bytes) : Prop :=
  ∃ new pre kh out, w'.trace = new ++ w.trace ∧ OwnKey w n kh ∧
    Event.gpg (pre ++ [str!"--export-options=export-minimal", str!"--export", kh]) none (.ok out) ∈ new ∧
    out.ret = 0 ∧ out.out = kd

/-- `v` is the Autocrypt header value for the sender -/
def OwnAcValue (env : Env) (w w' : World Store K) (n addr v : Str) : Prop :=
  ∃ kd c, ExportedOwnKey w w' n kd ∧ OwnConf w n c ∧ makeAcHeaderValue env (some addr) kd c.pe.toStr = .ok v

/-- the message before the decision about encryption, with the added header -/
def Prepared (env : Env) (w w' : World Store K) (n : Str) (m m2 : Msg) (added : Option Str) : Prop :=
  (m.has (str!"Autocrypt") = true ∧ m2 = m.del (str!"ENCRYPT") ∧ added = none) ∨
  (m.has (str!"Autocrypt") = false ∧ ∃ v, m2 = (m.del (str!"ENCRYPT")).add (str!"Autocrypt") v ∧ added = some v ∧
    OwnAcValue env w w' n (address env (m.get (str!"From"))) v)

/-- the addresses a message is encrypted to: To, Cc and the sender -/
def encryptTo (env : Env) (m : Msg) (from_ : Str) : List Str :=
  if from_ ∈ recipients env m then recipients env m else recipients env m ++ [from_]

theorem has_del (m : Msg) {a b : Str} (h : Py.lower a ≠ Py.lower b) : (m.del a).has b = m.has b := by
  simp only [Msg.has, Msg.del, Msg.headers, List.any_filter]
  congr 1
  funext x
  by_cases hx : Py.lower x.1 = Py.lower b
  · have : Msg.nameEq x.1 a = false := by
      simp only [Msg.nameEq, hx, beq_eq_false_iff_ne]; exact fun h' => h h'.symm
    simp [this]
  · have : Msg.nameEq x.1 b = false := by simpa [Msg.nameEq] using hx
    simp [this]

theorem getAll_add (m : Msg) (a v b : Str) : (m.add a v).getAll b = m.getAll b ++ if Py.lower a = Py.lower b then [v] else [] := by
  simp only [Msg.getAll, Msg.add, Msg.headers, List.filter_append, List.map_append]
  congr 1
  by_cases h : Py.lower a = Py.lower b <;> simp [Msg.nameEq, h]

theorem getAll_del_self (m : Msg) (a : Str) : (m.del a).getAll a = [] := by
  simp only [Msg.getAll, Msg.del, Msg.headers, List.filter_filter]
  rw [List.map_eq_nil_iff, List.filter_eq_nil_iff]
  simp

theorem makeAcHeader_ok {O : Oracle K} {env : Env} {n addr v : Str} {w w' : World Store K}
    (h : exec O (Account.makeAcHeader env n addr) w = (.ok v, w')) : OwnAcValue env w w' n addr v := by
  unfold Account.makeAcHeader at h
  simp only [bind_eq, exec] at h
  obtain ⟨g, w1, h1, h⟩ := run_bind_ok.mp h
  obtain ⟨kh, w2, h2, h⟩ := run_bind_ok.mp h
  obtain ⟨kd, w3, h3, h⟩ := run_bind_ok.mp h
  obtain ⟨c, w4, h4, hfin⟩ := run_bind_ok.mp h
  obtain ⟨hk, hw2⟩ := exec_ownKeyhandle_ok h2
  obtain ⟨hc, hw4⟩ := exec_config_ok h4
  obtain ⟨⟨q1, hq1, _⟩, hs1⟩ := run_quiet' (Account.bingpg_quiet env n) h1
  obtain ⟨_, hs3⟩ := run_quiet' (BinGPG.getPublicKeydata_quiet env g kh false) h3
  rw [run_ofExcept] at hfin
  unfold BinGPG.getPublicKeydata at h3
  simp only [bind_eq, pure_eq] at h3
  obtain ⟨⟨o, er⟩, w5, h5, h6⟩ := run_bind_ok.mp h3
  obtain ⟨out, ev, hev, htr, hret, hout⟩ := gpgOuterr_ok h5
  simp only [run_pure, Prod.mk.injEq, Except.ok.injEq] at h6
  obtain ⟨rfl, rfl⟩ := h6
  have hw' : w4 = w' := congrArg Prod.snd hfin
  refine ⟨o, c, ⟨ev :: q1, [g.path, str!"--batch"] ++ g.homedirflags, kh, out, ?_, ?_, ?_, hret, hout⟩, ?_, congrArg Prod.fst hfin⟩
  · rw [← hw', hw4, htr, hw2, hq1]; rfl
  · obtain ⟨k, hk1, hk2⟩ := hk
    refine ⟨k, ?_, hk2⟩
    have : w1.log (ownHead n) = w.log (ownHead n) := by unfold World.log; rw [hs1]
    rw [← this]; exact hk1
  · rw [hev]; simp [Event.gpg, BinGPG.argv]
  · have : w5.log (ownHead n) = w.log (ownHead n) := by unfold World.log; rw [hs3, hw2, hs1]
    unfold OwnConf at hc ⊢
    rw [this] at hc; exact hc

/-- the possible courses of `process_outgoing` -/
inductive OutCourse (O : Oracle K) (env : Env) (w : World Store K) (n : Str) (m : Msg) :
    Except Exc Account.OutgoingResult → World Store K → Prop
  /-- it fails without encrypting -/
  | failed (e : Exc) (w' : World Store K) : Events Event.quiet w w' → OutCourse O env w n m (.error e) w'
  /-- the message is sent as it is -/
  | clear (res : Account.OutgoingResult) (w' : World Store K) : Prepared env w w' n m res.msg res.added →
      Events Event.quiet w w' → (isEncrypted res.msg = .ok true ∨ encryptHeader m ≠ some (str!"yes")) →
      OutCourse O env w n m (.ok res) w'
  /-- the message is encrypted -/
  | encrypted (r) (w1 w' : World Store K) (m2 added f re) : Prepared env w w1 n m m2 added → Events Event.quiet w w1 →
      w1.store = w.store → isEncrypted m2 = .ok false → encryptHeader m ≠ some (str!"no") → m.getAll (str!"From") = [f] →
      exec O (Account.encryptMime env n m2 (encryptTo env m (parseEmailAddr env (some f)))) w1 = (re, w') →
      (∀ res, r = .ok res → ∃ x, re = .ok x ∧ res.msg = x.encMsg ∧ res.added = added) →
      OutCourse O env w n m r w'

theorem Prepared.getAll {env : Env} {w w' : World Store K} {n : Str} {m m2 : Msg} {added : Option Str} (h : Prepared env w w' n m m2 added)
    {name : Str} (h1 : Py.lower (str!"ENCRYPT") ≠ Py.lower name) (h2 : Py.lower (str!"Autocrypt") ≠ Py.lower name) :
    m2.getAll name = m.getAll name := by
  rcases h with ⟨_, rfl, _⟩ | ⟨_, v, rfl, _, _⟩
  · exact getAll_del m h1
  · rw [getAll_add, getAll_del m h1, if_neg h2, List.append_nil]

theorem processOutgoing_course {O : Oracle K} {env : Env} {n : Str} {m : Msg} {w w' : World Store K}
    {r : Except Exc Account.OutgoingResult} (h : exec O (Account.processOutgoing env n m) w = (r, w')) :
    OutCourse O env w n m r w' ∧ w'.store = w.store := by
  constructor
  swap
  · have := (run_ro (O := O) (Account.processOutgoing_ops permissive_readOnly env n m) w).1
    rw [h] at this; exact this
  simp only [Account.processOutgoing, bind_eq, pure_eq, exec] at h
  rw [run_bind, run_ofExcept] at h
  cases henc : Account.encHeader m with
  | error e => rw [henc] at h; cases h; exact .failed _ _ .rfl'
  | ok enc =>
  have heh : enc = encryptHeader m := by
    unfold Account.encHeader at henc
    unfold encryptHeader
    cases hg : m.get (str!"ENCRYPT") with
    | none => rw [hg] at henc; cases henc; rfl
    | some v =>
      rw [hg] at henc
      dsimp only at henc
      split at henc
      · cases henc; rfl
      · cases henc
  rw [henc] at h
  dsimp only at h
  rw [run_bind] at h
  have hprep : ∀ m2 added w1, run Store.impl O (if (m.del (str!"ENCRYPT")).has (str!"Autocrypt") = true then
        Prog.pure (m.del (str!"ENCRYPT"), none)
      else (Account.makeAcHeader env n (parseEmailAddr env ((m.del (str!"ENCRYPT")).get (str!"From")))).bind fun v =>
        Prog.pure ((m.del (str!"ENCRYPT")).add (str!"Autocrypt") v, some v)) w = (.ok (m2, added), w1) →
      Prepared env w w1 n m m2 added ∧ Events Event.quiet w w1 ∧ w1.store = w.store := by
    intro m2 added w1 hp
    rw [has_del m (by decide)] at hp
    have hget : (m.del (str!"ENCRYPT")).get (str!"From") = m.get (str!"From") := by
      unfold Msg.get; rw [getAll_del m (by decide)]
    rw [hget] at hp
    by_cases hh : m.has (str!"Autocrypt") = true
    · rw [if_pos hh] at hp
      cases hp
      exact ⟨.inl ⟨hh, rfl, rfl⟩, .rfl', rfl⟩
    · rw [if_neg hh] at hp
      obtain ⟨v, w2, hv, hp⟩ := run_bind_ok.mp hp
      cases hp
      obtain ⟨hq, hs⟩ := run_quiet' (Account.makeAcHeader_quiet env n _) hv
      exact ⟨.inr ⟨by simpa using hh, v, rfl, rfl, makeAcHeader_ok hv⟩, hq, hs⟩
  have hqp : ∀ e w1, run Store.impl O (if (m.del (str!"ENCRYPT")).has (str!"Autocrypt") = true then
        Prog.pure (m.del (str!"ENCRYPT"), none)
      else (Account.makeAcHeader env n (parseEmailAddr env ((m.del (str!"ENCRYPT")).get (str!"From")))).bind fun v =>
        Prog.pure ((m.del (str!"ENCRYPT")).add (str!"Autocrypt") v, some v)) w = (.error e, w1) → Events Event.quiet w w1 := by
    intro e w1 hp
    refine (run_quiet' (O := O) (p := _) ?_ hp).1
    split
    · trivial
    · exact .bind (Account.makeAcHeader_quiet env n _) fun _ => trivial
  rcases hp : run Store.impl O (if (m.del (str!"ENCRYPT")).has (str!"Autocrypt") = true then
        Prog.pure (m.del (str!"ENCRYPT"), none)
      else (Account.makeAcHeader env n (parseEmailAddr env ((m.del (str!"ENCRYPT")).get (str!"From")))).bind fun v =>
        Prog.pure ((m.del (str!"ENCRYPT")).add (str!"Autocrypt") v, some v)) w with ⟨e | ⟨m2, added⟩, w1⟩
  · rw [hp] at h; cases h; exact .failed _ _ (hqp e _ hp)
  rw [hp] at h
  obtain ⟨hprep, hq, hs⟩ := hprep m2 added w1 hp
  clear hp hqp
  dsimp only at h
  rw [run_bind] at h
  have hbody : ∀ rb wb, run Store.impl O (Account.outgoingBody env n m2 enc) w1 = (rb, wb) →
      (wb = w1 ∧ ∀ mb, rb = .ok mb → mb = m2 ∧ (isEncrypted mb = .ok true ∨ enc ≠ some (str!"yes"))) ∨
      (isEncrypted m2 = .ok false ∧ enc ≠ some (str!"no") ∧ ∃ f re, m.getAll (str!"From") = [f] ∧
        exec O (Account.encryptMime env n m2 (encryptTo env m (parseEmailAddr env (some f)))) w1 = (re, wb) ∧
        ∀ mb, rb = .ok mb → ∃ x, re = .ok x ∧ mb = x.encMsg) := by
    intro rb wb hb
    unfold Account.outgoingBody at hb
    simp only [bind_eq, pure_eq] at hb
    rw [run_bind, run_ofExcept] at hb
    cases hie : isEncrypted m2 with
    | error e => rw [hie] at hb; cases hb; exact .inl ⟨rfl, by simp⟩
    | ok ie =>
    rw [hie] at hb
    dsimp only at hb
    cases ie with
    | true => rw [if_pos rfl] at hb; cases hb; exact .inl ⟨rfl, fun mb hm => by cases hm; exact ⟨rfl, .inl hie⟩⟩
    | false =>
    rw [if_neg (by simp)] at hb
    have hfrom : m2.getAll (str!"From") = m.getAll (str!"From") := hprep.getAll (by decide) (by decide)
    rw [hfrom] at hb
    split at hb
    · rename_i f hf
      rw [run_bind] at hb
      have htgt : getTargetEmailadr env m2 = getTargetEmailadr env m := by
        unfold getTargetEmailadr
        rw [hprep.getAll (by decide) (by decide), hprep.getAll (by decide) (by decide)]
      rw [htgt] at hb
      have hsr : ∀ l b x, (Account.recommendation env n l b x).AllOps Op.storeRead := by
        intro l b x
        have hr : ∀ l, (Account.readPeers env n l).AllOps Op.storeRead := by
          intro l
          induction l with
          | nil => trivial
          | cons a l ih =>
            unfold Account.readPeers; simp only [bind_eq, pure_eq]
            exact .bind (.chain trivial) fun _ => .bind ih fun _ => trivial
        unfold Account.recommendation Own.config
        simp only [bind_eq, pure_eq]
        refine .bind (.bind (.chain trivial) fun _ => ?_) fun _ => .bind (hr _) fun _ => .ofExcept _
        split <;> trivial
      have hw := run_storeRead (O := O) (hsr (getTargetEmailadr env m) false (some (parseEmailAddr env (some f)))) w1
      simp only [exec] at hw
      rcases hrec : run Store.impl O (Account.recommendation env n (getTargetEmailadr env m) false (some (parseEmailAddr env (some f)))) w1 with ⟨e | rec_, w2⟩
      · rw [hrec] at hb hw; cases hb; exact .inl ⟨hw, by simp⟩
      rw [hrec] at hb hw
      dsimp only at hw hb
      rw [hw] at hb
      by_cases hno : enc = some (str!"no")
      · rw [if_neg (by simp [hno])] at hb
        cases hb
        exact .inl ⟨rfl, fun mb hm => by cases hm; exact ⟨rfl, .inr (by rw [hno]; decide)⟩⟩
      · rw [if_pos hno] at hb
        split at hb
        · right
          refine ⟨rfl, hno, f, ?_⟩
          have hto : (if (getTargetEmailadr env m).contains (parseEmailAddr env (some f)) = true then getTargetEmailadr env m
              else getTargetEmailadr env m ++ [parseEmailAddr env (some f)]) = encryptTo env m (parseEmailAddr env (some f)) := by
            unfold encryptTo; simp only [List.contains_iff_mem, recipients_eq]
          rw [hto, run_bind] at hb
          rcases hre : run Store.impl O (Account.encryptMime env n m2 (encryptTo env m (parseEmailAddr env (some f)))) w1 with ⟨e | x, w3⟩
          · rw [hre] at hb; cases hb; exact ⟨_, hf, hre, by simp⟩
          · rw [hre] at hb; cases hb; exact ⟨_, hf, hre, fun mb hm => by cases hm; exact ⟨x, rfl, rfl⟩⟩
        · split at hb
          · cases hb; exact .inl ⟨rfl, by simp⟩
          · rename_i hy; cases hb; exact .inl ⟨rfl, fun mb hm => by cases hm; exact ⟨rfl, .inr hy⟩⟩
    · cases hb; exact .inl ⟨rfl, by simp⟩
  rcases hb : run Store.impl O (Account.outgoingBody env n m2 enc) w1 with ⟨e | mb, wb⟩
  · rw [hb] at h
    cases h
    rcases hbody _ _ hb with ⟨hw, _⟩ | ⟨h1, h2, f, re, h3, h4, h5⟩
    · rw [hw]; exact .failed _ _ hq
    · exact .encrypted _ w1 _ m2 added f re hprep hq hs h1 (heh ▸ h2) h3 h4 (by simp)
  · rw [hb] at h
    cases h
    rcases hbody _ _ hb with ⟨hw, h1⟩ | ⟨h1, h2, f, re, h3, h4, h5⟩
    · obtain ⟨hmb, h2⟩ := h1 _ rfl
      rw [hw]
      exact .clear _ _ (by rw [hmb]; exact hprep) hq (heh ▸ h2)
    · refine .encrypted _ w1 _ m2 added f re hprep hq hs h1 (heh ▸ h2) h3 h4 ?_
      intro res hres
      obtain ⟨x, hx1, hx2⟩ := h5 _ rfl
      cases hres
      exact ⟨x, hx1, hx2, rfl⟩

end Verif
