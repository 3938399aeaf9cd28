import Verif.Props.AccountsBase
import Verif.Props.Listing
/-!
# Adding, changing and deleting accounts (C44 - C48)
-/
namespace Verif
open BinGPG

variable {K : Type}

/-! ## The course of `add_account` -/

/-- the settings of a new account -/
def newConf (n : Str) (regex : Option Str) (bin : Str) (mode : GpgMode) : OwnConfig :=
  { pe := .nopreference, name := n, emailRegex := regex.getD (str!".*"), gpgmode := mode, gpgbin := bin }

/-- gpg ran a command with this argument successfully, between `w` and `w'` -/
def RanGpg (w w' : World Store K) (P : List Str → GpgOut → Prop) : Prop :=
  ∃ new argv stdin out, w'.trace = new ++ w.trace ∧ (⟨.gpg argv stdin, (.ok out : Except Exc GpgOut)⟩ : Event) ∈ new ∧ out.ret = 0 ∧ P argv out

/-- `k` is the key that gpg reported for a new account: the one named in the messages of `--gen-key`, or the id of a key
listed by `--list-secret-keys` for the given handle -/
def ReportedKey (env : Env) (w w' : World Store K) (kh : Option Str) (k : Str) : Prop :=
  match kh with
  | none => RanGpg w w' fun argv out => str!"--gen-key" ∈ argv ∧ ∃ text x, env.utf8Decode out.err = .ok text ∧ FirstKey text x ∧
      (8 < x.length ∧ k = x ∨ x.length ≤ 8 ∧ k ≠ [] ∧ (EndsWith k x ∨ EndsWith x k) ∧
        RanGpg w w' fun argv out => str!"--list-public-keys" ∈ argv ∧ x ∈ argv ∧ ∃ text l, env.utf8Decode out.out = .ok text ∧
          l ∈ Py.splitlines text ∧ (fields l)[4]? = some k)
  | some q => RanGpg w w' fun argv out => str!"--list-secret-keys" ∈ argv ∧ q ∈ argv ∧ ∃ text keys ki, env.utf8Decode out.out = .ok text ∧
      Listing env (str!"sec", str!"ssb") (Py.splitlines text) keys ∧ ki ∈ keys ∧ k = ki.id ∧
      ((∃ u ∈ ki.uids, q <:+: u) ∨ (ki.id = [] ↔ q = []) ∧ (EndsWith ki.id q ∨ EndsWith q ki.id))

/-- what can happen when an account is added -/
inductive AddCourse (env : Env) (w : World Store K) (n : Str) (regex kh : Option Str) (bin mode : Str) (w' : World Store K) :
    Except Exc Str → Prop
  | noOpen (e) : GetCourse env w n false w' (.error e) → w'.store = initStore w.store → AddCourse env w n regex kh bin mode w' (.error e)
  | exists_ : Configured w n → env.isalnum n = true → w'.trace = Event.instantiate env n (.ok ()) :: w.trace → w'.store = initStore w.store →
      AddCourse env w n regex kh bin mode w' (.error .accountExists)
  | badMode : ¬ Configured w n → env.isalnum n = true → mode ≠ str!"own" → mode ≠ str!"system" →
      w'.trace = Event.instantiate env n (.ok ()) :: w.trace → w'.store = initStore w.store →
      AddCourse env w n regex kh bin mode w' (.error .assertionError)
  | noKey (e) (md) : ¬ Configured w n → env.isalnum n = true → GpgMode.toStr md = mode →
      w'.store = (initStore w.store).push (ownHead n) (.cfg (newConf n regex bin md)) →
      AddCourse env w n regex kh bin mode w' (.error e)
  | added (md) (k : Str) (kd : Bytes) : ¬ Configured w n → env.isalnum n = true → GpgMode.toStr md = mode →
      w'.store = ((initStore w.store).push (ownHead n) (.cfg (newConf n regex bin md))).push (ownHead n) (.keygen ⟨some kd, some k⟩) →
      ReportedKey env w w' kh k →
      RanGpg w w' (fun argv out => str!"--export-secret-key" ∈ argv ∧ argv.getLast? = some k ∧ out.out = kd) →
      AddCourse env w n regex kh bin mode w' (.ok n)

theorem RanGpg.extend {w w1 w2 w3 : World Store K} {P : List Str → GpgOut → Prop} (h : RanGpg w1 w2 P)
    (h1 : w.trace <:+ w1.trace) (h2 : w2.trace <:+ w3.trace) : RanGpg w w3 P := by
  obtain ⟨new, a, i, o, ht, hm, h0, hp⟩ := h
  obtain ⟨x, hx⟩ := h1
  obtain ⟨y, hy⟩ := h2
  refine ⟨y ++ (new ++ x), a, i, o, ?_, ?_, h0, hp⟩
  · rw [← hy, ht, ← hx]; simp
  · simp [hm]

theorem RanGpg.mono {w w' : World Store K} {P Q : List Str → GpgOut → Prop} (h : RanGpg w w' P) (hq : ∀ a o, P a o → Q a o) : RanGpg w w' Q := by
  obtain ⟨new, a, i, o, ht, hm, h0, hp⟩ := h
  exact ⟨new, a, i, o, ht, hm, h0, hq _ _ hp⟩

theorem trace_le {O : Oracle K} {α : Type} {p : Prog α} {w w' : World Store K} {r : Except Exc α} (h : run Store.impl O p w = (r, w')) :
    w.trace <:+ w'.trace := by
  have := run_trace (S := Store.impl) (O := O) p w
  rw [h] at this; exact this

theorem ro_store {O : Oracle K} {α : Type} {p : Prog α} (hp : p.AllOps Op.readOnly) {w w' : World Store K} {r : Except Exc α}
    (h : run Store.impl O p w = (r, w')) : w'.store = w.store := by
  have := (run_ro (O := O) hp w).1
  simp only [exec] at this
  rw [h] at this; exact this

/-- a checked gpg command which returned -/
theorem ranGpg_of_ok {O : Oracle K} {env : Env} {g : BinGPG} {args : List Str} {input : Option Bytes} {s d : Bool}
    {w w' : World Store K} {r : Bytes × Str} (h : run Store.impl O (gpgOuterr env g args input s d) w = (.ok r, w')) :
    RanGpg w w' fun argv out => argv = g.argv args ∧ out.out = r.1 ∧ env.utf8Decode out.err = .ok r.2 := by
  obtain ⟨ret, w1, h1, htr, -⟩ := run_gpgOuterr Store.impl O env g args input s d w
  rw [h1] at h
  cases ret with
  | error e => cases h
  | ok out =>
    have hc : checkResult env s d out = .ok r := congrArg Prod.fst h
    have hw : w1 = w' := congrArg Prod.snd h
    obtain ⟨h0, ho, he, -⟩ := checkResult_returns hc
    exact ⟨[_], _, _, out, by rw [← hw]; exact htr, List.mem_singleton.mpr rfl, h0, rfl, ho.symm, he⟩

theorem mem_argv {g : BinGPG} {args : List Str} {x : Str} (h : x ∈ args) : x ∈ g.argv args := by
  unfold argv; exact List.mem_append_right _ h

theorem contains_iff {p s : Str} : Py.contains p s = true ↔ p <:+: s := by
  induction s with
  | nil =>
    rw [Py.contains, List.isEmpty_iff]
    constructor
    · rintro rfl; exact List.infix_rfl
    · intro h; simpa using h
  | cons c cs ih =>
    rw [Py.contains, Bool.or_eq_true, ih, List.isPrefixOf_iff_prefix, List.infix_cons_iff]

theorem createKey_reported {O : Oracle K} {env : Env} {n : Str} {kh : Option Str} {k : Str} {w w' : World Store K}
    (h : run Store.impl O (Account.createKey env n kh) w = (.ok k, w')) : ReportedKey env w w' kh k := by
  unfold Account.createKey at h
  cases kh with
  | none =>
    simp only [bind_eq] at h
    obtain ⟨id, w1, h1, h⟩ := run_bind_ok.mp h
    obtain ⟨g, w2, h2, h⟩ := run_bind_ok.mp h
    unfold genSecretKey at h
    simp only [bind_eq] at h
    obtain ⟨r, w3, h3, h⟩ := run_bind_ok.mp h
    have t1 := trace_le h1
    have t2 := trace_le h2
    have t3 := trace_le h3
    have t4 := trace_le h
    rcases run_withTempFile Store.impl O (env.utf8Encode (keySpec (id ++ str!"@random.muacrypt.org"))) (fun fn =>
      (nopassphrase env g).bind fun np => gpgOuterr env g (np ++ [str!"--gen-key", fn])) w2 with ⟨e, v, hv, -⟩ | ⟨name, v1, rr, v3, ht1, ht3, hr⟩
    · rw [hv] at h3; cases h3
    rw [hr] at h3
    have hw3 : v3 = w3 := congrArg Prod.snd h3
    have h3 := congrArg Prod.fst h3
    dsimp only at h3
    cases rr with
    | error e => cases h3
    | ok u =>
    dsimp only at h3
    rcases hbody : run Store.impl O ((nopassphrase env g).bind fun np => gpgOuterr env g (np ++ [str!"--gen-key", name])) v1 with ⟨x, v2⟩
    rw [hbody] at h3 ht3
    dsimp only at h3 ht3
    subst h3
    obtain ⟨np, v4, h4, h5⟩ := run_bind_ok.mp hbody
    have e1 : w2.trace <:+ v1.trace := ⟨[_, _], ht1.symm⟩
    have e3 : v2.trace <:+ v3.trace := ⟨[_], ht3.symm⟩
    rw [hw3] at e3
    have hgen := (ranGpg_of_ok h5).extend (w := w) (w3 := w') (t1.trans (t2.trans (e1.trans (trace_le h4)))) (e3.trans t4)
    obtain ⟨x, hx, hcase⟩ := C60_handle_partial h
    refine hgen.mono ?_
    rintro argv out ⟨rfl, -, he⟩
    refine ⟨mem_argv (by simp), r.2, x, he, hx, ?_⟩
    rcases hcase with ⟨h8, hk, -⟩ | ⟨h8, hm, hne, out', text, htr, h0, hdec, l, hl, -, hid⟩
    · exact Or.inl ⟨h8, hk⟩
    · refine Or.inr ⟨h8, hne, hm, RanGpg.extend (w1 := w3) (w2 := w') ?_ (t1.trans (t2.trans t3)) List.suffix_rfl⟩
      exact ⟨[_], _, _, out', htr, List.mem_singleton.mpr rfl, h0, (by rw [← argv_eq]; exact mem_argv (by simp)), (by rw [← argv_eq]; exact mem_argv (by simp)), text, l, hdec, hl, hid⟩
  | some q =>
    simp only [bind_eq] at h
    obtain ⟨g, w1, h1, h⟩ := run_bind_ok.mp h
    obtain ⟨o, w2, h2, h⟩ := run_bind_ok.mp h
    unfold getSecretKeyhandle listSecretKeyinfos parseList at h2
    simp only [bind_eq, pure_eq] at h2
    obtain ⟨infos, w3, h3, h2⟩ := run_bind_ok.mp h2
    obtain ⟨t, w4, h4, h3⟩ := run_bind_ok.mp h3
    rw [run_ofExcept] at h3
    have hp := congrArg Prod.fst h3
    have hw : w4 = w3 := congrArg Prod.snd h3
    dsimp only at hp
    obtain ⟨out, htr, h0, hdec, -⟩ := gpgOutText_ok h4
    cases o with
    | none => cases h
    | some k' =>
      cases h
      simp only [run_pure, Prod.mk.injEq, Except.ok.injEq] at h2
      obtain ⟨hk, hw2⟩ := h2
      unfold selectSecret at hk
      obtain ⟨ki, hf, rfl⟩ := Option.map_eq_some_iff.mp hk
      have hm := List.find?_some hf
      rw [Bool.or_eq_true, List.any_eq_true] at hm
      rw [hw, hw2] at htr
      refine RanGpg.extend (w1 := w1) (w2 := w') ?_ (trace_le h1) List.suffix_rfl
      refine ⟨[_], _, _, out, htr, List.mem_singleton.mpr rfl, h0, mem_argv (by simp), mem_argv (by simp), t, infos, ki, hdec,
        C61_listing_partial (Or.inr rfl) _ _ hp, List.mem_of_find?_eq_some hf, rfl, ?_⟩
      rcases hm with ⟨u, hu, hc⟩ | hm
      · exact Or.inl ⟨u, hu, contains_iff.mp hc⟩
      · exact Or.inr (C59_match_partial _ _ |>.mp hm)

theorem getSecretKeydata_ran {O : Oracle K} {env : Env} {g : BinGPG} {k : Str} {kd : Bytes} {w w' : World Store K}
    (h : run Store.impl O (getSecretKeydata env g k) w = (.ok kd, w')) :
    RanGpg w w' (fun argv out => str!"--export-secret-key" ∈ argv ∧ argv.getLast? = some k ∧ out.out = kd) := by
  unfold getSecretKeydata at h
  simp only [bind_eq, pure_eq] at h
  obtain ⟨np, w1, h1, h⟩ := run_bind_ok.mp h
  obtain ⟨r, w2, h2, h⟩ := run_bind_ok.mp h
  cases h
  refine ((ranGpg_of_ok h2).mono ?_).extend (trace_le h1) List.suffix_rfl
  rintro argv out ⟨rfl, ho, -⟩
  refine ⟨mem_argv (by simp), ?_, ho⟩
  have hl : ∀ (l : List Str) a b, (l ++ [a, b, k]).getLast? = some k := by
    intro l a b
    rw [show l ++ [a, b, k] = (l ++ [a, b]) ++ [k] by simp, List.getLast?_concat]
  unfold argv
  rw [← List.append_assoc]; exact hl _ _ _

theorem addAccount_course {O : Oracle K} {env : Env} {n : Str} {regex kh : Option Str} {bin mode : Str} {w w' : World Store K}
    {r : Except Exc Str} (h : exec O (Manager.addAccount env n regex kh bin mode) w = (r, w')) :
    AddCourse env w n regex kh bin mode w' r := by
  unfold Manager.addAccount exec at h
  simp only [bind_eq, pure_eq] at h
  rw [run_bind] at h
  rcases hg : run Store.impl O (Manager.getAccount env n false) w with ⟨x, w1⟩
  obtain ⟨hst, hcourse⟩ := getAccount_course hg
  rw [hg] at h
  cases x with
  | error e => cases h; exact .noOpen e hcourse hst
  | ok a =>
  obtain ⟨rfl, hal, htr⟩ : a = n ∧ env.isalnum n = true ∧ w1.trace = Event.instantiate env n (.ok ()) :: w.trace := by
    cases hcourse with | opened h1 _ h3 => exact ⟨rfl, h1, h3⟩
  dsimp only at h
  unfold Account.exists_ at h
  simp only [bind_eq, pure_eq, run_bind, run_chain, run_pure] at h
  have hconf : Own.isConfigured (w1.store.get (ownHead a)) = true ↔ Configured w a := by
    rw [← isConfigured_iff]; unfold World.log
    rw [hst, get_initStore (ownHead_ne_managerHead a)]
  cases hc : Own.isConfigured (w1.store.get (ownHead a)) with
  | true =>
    rw [hc, if_pos rfl] at h
    cases h; exact .exists_ (hconf.mp hc) hal htr hst
  | false =>
  have hnot : ¬ Configured w a := by rw [← hconf, hc]; simp
  rw [hc, if_neg (by simp)] at h
  unfold Account.create at h
  simp only [bind_eq, pure_eq] at h
  have main : ∀ md, GpgMode.toStr md = mode → run Store.impl O (((Own.newConfig a (newConf a regex bin md)).bind fun _ =>
        (Account.createKey env a kh).bind fun k => (Account.bingpg env a).bind fun g => (getSecretKeydata env g k).bind fun kd =>
          Own.appendKeygen a (some kd) (some k)).bind fun _ => Prog.pure a) w1 = (r, w') →
      AddCourse env w a regex kh bin mode w' r := by
    intro md hmd h
    unfold Own.newConfig Own.appendKeygen at h
    rw [run_bind, run_bind, run_append] at h
    dsimp only at h
    generalize hw2 : ({ w1 with store := w1.store.push (ownHead a) (.cfg (newConf a regex bin md)), tick := w1.tick + 1 } : World Store K) = w2 at h
    have hs2 : w2.store = (initStore w.store).push (ownHead a) (.cfg (newConf a regex bin md)) := by rw [← hw2, ← hst]
    have ht2 : w.trace <:+ w2.trace := by rw [← hw2]; exact (trace_le hg : w.trace <:+ w1.trace)
    rw [run_bind] at h
    rcases hk : run Store.impl O (Account.createKey env a kh) w2 with ⟨x, w3⟩
    have hs3 := ro_store (Account.createKey_ops permissive_readOnly env a kh) hk
    rw [hk] at h
    cases x with
    | error e => cases h; exact .noKey e md hnot hal hmd (hs3.trans hs2)
    | ok k =>
    dsimp only at h
    rw [run_bind] at h
    rcases hb : run Store.impl O (Account.bingpg env a) w3 with ⟨x, w4⟩
    have hs4 := ro_store (Account.bingpg_ops permissive_readOnly env a) hb
    rw [hb] at h
    cases x with
    | error e => cases h; exact .noKey e md hnot hal hmd (hs4.trans (hs3.trans hs2))
    | ok g =>
    dsimp only at h
    rw [run_bind] at h
    rcases hd : run Store.impl O (getSecretKeydata env g k) w4 with ⟨x, w5⟩
    have hs5 := ro_store (getSecretKeydata_ops permissive_readOnly.2.2.2 env g k false) hd
    rw [hd] at h
    cases x with
    | error e => cases h; exact .noKey e md hnot hal hmd (hs5.trans (hs4.trans (hs3.trans hs2)))
    | ok kd =>
    dsimp only at h
    rw [run_append] at h
    dsimp only at h
    rw [run_pure] at h
    have hr := congrArg Prod.fst h
    have hw' := congrArg Prod.snd h
    dsimp only at hr hw'
    rw [← hr]
    have ht5 : w5.trace = w'.trace := by rw [← hw']
    refine .added md k kd hnot hal hmd ?_ ?_ ?_
    · rw [← hw']; dsimp only; rw [hs5, hs4, hs3, hs2]
    · have := createKey_reported hk
      have hpre := ht2
      have hpost : w3.trace <:+ w'.trace := ht5 ▸ (trace_le hb).trans (trace_le hd)
      cases kh with
      | none =>
        refine (RanGpg.extend this hpre hpost).mono ?_
        rintro argv out ⟨h1, text, x, h2, h3, h4⟩
        refine ⟨h1, text, x, h2, h3, h4.imp id ?_⟩
        rintro ⟨h5, h6, h7, h8⟩
        exact ⟨h5, h6, h7, h8.extend hpre hpost⟩
      | some q => exact RanGpg.extend this hpre hpost
    · exact (getSecretKeydata_ran hd).extend (ht2.trans ((trace_le hk).trans (trace_le hb))) (ht5 ▸ List.suffix_rfl)
  by_cases h1 : mode = str!"own"
  · rw [if_pos h1] at h
    exact main .own h1.symm h
  · by_cases h2 : mode = str!"system"
    · rw [if_neg h1, if_pos h2] at h
      exact main .system h2.symm h
    · rw [if_neg h1, if_neg h2] at h
      cases h
      exact .badMode hnot hal h1 h2 htr hst

end Verif
