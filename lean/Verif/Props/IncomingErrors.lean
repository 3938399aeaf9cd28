import Verif.Lemmas.PyStr
import Verif.Props.IncomingScope
/-!
# Malformed headers: C24
-/
namespace Verif
open Mime

variable {K : Type}

/-- some part between semicolons begins, after white space, with an equals sign -/
def HasNamelessAttr (v : Str) : Prop := ∃ p ∈ Py.split ';' v, ∃ t, Py.strip p = '=' :: t

open Concrete in
/-- C24 is false, in three ways: an Autocrypt header with an attribute without name makes processing raise
`IndexError` (mime.py:191); a gossip header whose key gpg refuses makes it raise `TypeError`; a gossip header with
empty key data makes it raise `AssertionError`. Without these headers the same messages are processed. -/
theorem C24_refuted :
    (∃ m v, (exec oracle (Account.processIncoming env (str!"a") m false false) (after [addA])).1.isOk = true ∧
      (exec oracle (Account.processIncoming env (str!"a") (m.add (str!"Autocrypt") v) false false) (after [addA])).1.toOption.isNone ∧
      parseAcHeadervalue env v = .error .indexError) ∧
    (∃ id d, ∀ gossip ∈ [gossipField carol [0, 1], gossipField carol []],
      (exec oracle (Account.processIncoming env (str!"a") (encMail id d [] []) false false) (after [addA])).1.isOk = true ∧
      (exec oracle (Account.processIncoming env (str!"a") (encMail id d [] [gossip]) false false) (after [addA])).1.isOk = false) :=
  ⟨⟨mail bob (str!"1") (str!"100") [], str!"=x", by decide +kernel, by decide +kernel, rfl⟩,
   ⟨str!"1", str!"100", by decide +kernel⟩⟩

theorem parseAttr_exc {env : Env} {s : ParseState} {x : Str} {e : Exc} (h : parseAttr env s x = .exc e) :
    e = .indexError ∧ ∃ n v, x = n ++ '=' :: v ∧ Py.strip n = [] := by
  unfold parseAttr at h
  split at h
  · cases h
  · rename_i n v hs
    dsimp only at h
    split at h
    · split at h <;> cases h
    · split at h
      · split at h <;> cases h
      · split at h
        · cases h
        · split at h
          · rename_i hn
            cases h
            exact ⟨rfl, n, v, (Py.split1_some hs).1, hn⟩
          · split at h <;> cases h

theorem parseAttrs_exc {env : Env} {s : ParseState} {l : List Str} {e : Exc} (h : parseAttrs env s l = .error e) :
    e = .indexError ∧ ∃ x ∈ l, ∃ n v, x = n ++ '=' :: v ∧ Py.strip n = [] := by
  induction l generalizing s with
  | nil => cases h
  | cons x l ih =>
    simp only [parseAttrs] at h
    split at h
    · obtain ⟨h1, y, hy, h2⟩ := ih h
      exact ⟨h1, y, List.mem_cons_of_mem _ hy, h2⟩
    · cases h
    · rename_i he
      cases h
      obtain ⟨h1, h2⟩ := parseAttr_exc he
      exact ⟨h1, x, List.mem_cons_self .., h2⟩

/-- parsing a header value raises nothing but `IndexError`, and only if an attribute has no name -/
theorem C24_parse_error {env : Env} {v : Str} {e : Exc} (h : parseAcHeadervalue env v = .error e) :
    e = .indexError ∧ HasNamelessAttr v := by
  unfold parseAcHeadervalue at h
  split at h
  · rename_i he
    cases h
    obtain ⟨h1, x, hx, n, val, h2, h3⟩ := parseAttrs_exc he
    refine ⟨h1, ?_⟩
    simp only [attributes, List.mem_filter, List.mem_map] at hx
    obtain ⟨⟨p, hp, hpx⟩, _⟩ := hx
    refine ⟨p, hp, val, ?_⟩
    cases n with
    | nil => rw [hpx, h2]; rfl
    | cons c n =>
      exfalso
      have := Py.strip_head (s := p) (c := c) (t := n ++ '=' :: val) (by rw [hpx, h2]; rfl)
      rw [Py.strip_eq_nil.mp h3 c (List.mem_cons_self ..)] at this; cases this
  · cases h
  · split at h <;> cases h

theorem collectAc_error {env : Env} {fl vs : List Str} {e : Exc} (h : collectAc env fl vs = .error e) :
    ∃ v ∈ vs, parseAcHeadervalue env v = .error e := by
  induction vs with
  | nil => cases h
  | cons v vs ih =>
    simp only [collectAc] at h
    split at h
    · rename_i he; cases h; exact ⟨v, List.mem_cons_self .., he⟩
    · split at h
      · rename_i he
        cases h
        obtain ⟨v', hv', h'⟩ := ih he
        exact ⟨v', List.mem_cons_of_mem _ hv', h'⟩
      · split at h
        · cases h
        · split at h <;> cases h

theorem collectGossip_error {env : Env} {vs : List Str} {d : List (Str × ACResult)} {e : Exc}
    (h : collectGossip env d vs = .error e) : ∃ v ∈ vs, parseAcHeadervalue env v = .error e := by
  induction vs generalizing d with
  | nil => cases h
  | cons v vs ih =>
    simp only [collectGossip] at h
    split at h
    · rename_i he; cases h; exact ⟨v, List.mem_cons_self .., he⟩
    · split at h <;> (obtain ⟨v', hv', h'⟩ := ih h; exact ⟨v', List.mem_cons_of_mem _ hv', h'⟩)

theorem parseOne_error {env : Env} {m : Msg} {fl : List Str} {e : Exc} (h : parseOneAcHeaderFromMsg env m fl = .error e) :
    ∃ v ∈ m.getAll (str!"Autocrypt"), parseAcHeadervalue env v = .error e := by
  unfold parseOneAcHeaderFromMsg at h
  split at h
  · cases h
  split at h
  · cases h
  split at h
  · rename_i he; cases h; exact collectAc_error he
  all_goals cases h

/-- a parse result is an error without key, or has a valid setting -/
theorem parseOne_pe {env : Env} {m : Msg} {fl : List Str} {r : ACResult} (h : parseOneAcHeaderFromMsg env m fl = .ok r) :
    r.keydata = none ∨ ∃ pe : PE, r.pe = some pe.toStr := by
  rcases parseOne_shape h with ⟨e, rfl⟩ | ⟨_, _, h1⟩
  · exact Or.inl rfl
  · obtain ⟨_, v, _, _, _, h2, _⟩ := List.filterMap_eq_cons_iff.mp h1
    obtain ⟨h3, h4, _⟩ := accepted_eq_some.mp h2
    rcases parseAcHeadervalue_shape h3 with ⟨e, rfl⟩ | ⟨_, _, pe, _, rfl⟩
    · cases h4
    · exact Or.inr ⟨pe, rfl⟩

/-- C24 for the Autocrypt headers, the part that holds: whatever the headers of a message contain, as long as no
attribute is nameless, the header step either succeeds or fails with an exception of the gpg import itself.
Missing for the full claim: nameless attributes, see `C24_refuted`. -/
theorem C24_autocrypt_partial (O : Oracle K) (env : Env) (n : Str) (m : Msg) (f head : Str) (date : Time) (id : Str)
    (w w' : World Store K) (e : Exc) (hnames : ∀ v ∈ m.getAll (str!"Autocrypt"), ¬ HasNamelessAttr v)
    (h : exec O (Account.processAutocryptHeader env n m f head date id) w = (.error e, w')) :
    ∃ k, exec O (Account.importKey env n k) w = (.error e, w') := by
  unfold Account.processAutocryptHeader at h
  simp only [bind_eq, pure_eq, exec] at h
  rcases run_bind_error.mp h with h | ⟨r, w0, h0, h⟩
  · rw [run_ofExcept] at h
    obtain ⟨v, hv, he⟩ := parseOne_error (congrArg Prod.fst h)
    exact absurd (C24_parse_error he).2 (hnames v hv)
  · rw [run_ofExcept] at h0
    have hp : parseOneAcHeaderFromMsg env m [f] = .ok r := congrArg Prod.fst h0
    have hw : w = w0 := congrArg Prod.snd h0
    subst hw
    have hup : ∀ kh w, (run Store.impl O (Peer.updateFromMsg head ⟨id, date, r.pe, r.keydata, kh⟩) w).1 = .ok () := by
      intro kh w
      have := Peer.exec_updateFromMsg O head ⟨id, date, r.pe, r.keydata, kh⟩ w
      simp only [exec] at this
      rw [this]
      have : ∃ x, Peer.updateEntry (w.store.get head) ⟨id, date, r.pe, r.keydata, kh⟩ = .ok x := by
        unfold Peer.updateEntry
        split
        · exact ⟨_, rfl⟩
        split
        · exact ⟨_, rfl⟩
        split
        · split <;> exact ⟨_, rfl⟩
        · rename_i hk
          rcases parseOne_pe hp with h | ⟨pe, h⟩
          · rw [h] at hk; exact absurd rfl hk
          · dsimp only; rw [h, peArg_ok.mpr rfl]; exact ⟨_, rfl⟩
      obtain ⟨x, hx⟩ := this
      rw [hx]; cases x <;> rfl
    rcases run_bind_error.mp h with h | ⟨⟨kh, r'⟩, w1, h1, h⟩
    · split at h
      · cases h
      · refine ⟨r.keydata.getD [], ?_⟩
        unfold Account.importPah at h
        simp only [bind_eq, pure_eq] at h
        rcases run_bind_error.mp h with h | ⟨kh, w1, _, h⟩
        · exact h
        · cases kh <;> cases h
    · exfalso
      have hr' : r'.pe = r.pe ∧ r'.keydata = r.keydata := by
        split at h1
        · cases h1; exact ⟨rfl, rfl⟩
        · unfold Account.importPah at h1
          simp only [bind_eq, pure_eq] at h1
          obtain ⟨kh, w2, _, h1⟩ := run_bind_ok.mp h1
          cases kh <;> cases h1 <;> exact ⟨rfl, rfl⟩
      dsimp only at h
      rw [hr'.1, hr'.2] at h
      rcases run_bind_error.mp h with h | ⟨_, _, _, h⟩
      · have := hup kh w1
        rw [h] at this; cases this
      · cases h

/-- C24 for the gossip headers, the part that holds: as long as no attribute is nameless, the gossip step fails only with
an exception of the gpg import, or – the two defects shown by `C24_refuted` – because the import of a key failed
or because a key is empty. -/
theorem C24_gossip_partial (O : Oracle K) (env : Env) (n : Str) (m : Msg) (date : Time) (id : Str)
    (w w' : World Store K) (e : Exc) (hnames : ∀ v ∈ m.getAll (str!"Autocrypt-Gossip"), ¬ HasNamelessAttr v)
    (h : exec O (Account.processGossipHeaders env n m date id) w = (.error e, w')) :
    ∃ w1 w2 v a r k, v ∈ m.getAll (str!"Autocrypt-Gossip") ∧ ValidFor env a v r ∧ r.keydata = some k ∧
      a ∈ recipients env m ∧
      (exec O (Account.importKey env n k) w1 = (.error e, w2) ∨
       (exec O (Account.importKey env n k) w1 = (.ok none, w2) ∧ e = .typeError) ∨
       (k = [] ∧ e = .assertionError)) := by
  spec_mail
  unfold Account.processGossipHeaders at h
  simp only [bind_eq, exec, run_bind, run_ofExcept] at h
  cases hd : getGossipHeadersFromMsg env m with
  | error e' =>
    obtain ⟨v, hv, he⟩ := collectGossip_error hd
    exact absurd (C24_parse_error he).2 (hnames v hv)
  | ok dict =>
    rw [hd] at h
    dsimp only at h
    have hdict : ∀ a r, dictGet dict a = some r → ∃ v ∈ m.getAll (str!"Autocrypt-Gossip"), ValidFor env a v r := by
      intro a r har
      rcases collectGossip_get hd a r har with ⟨h1, _⟩ | ⟨v, ⟨pre, post, h1, _⟩, h2⟩
      · cases h1
      · exact ⟨v, by rw [h1]; simp, h2⟩
    clear hd
    generalize hl : getTargetEmailadr env m = l at h ⊢
    suffices ∀ (l' : List Str) (pr : List (Str × ACResult)) (w : World Store K), (∀ x ∈ l', x ∈ l) →
        run Store.impl O (Account.gossipLoop env n dict date id pr l') w = (.error e, w') →
        ∃ w1 w2 v a r k, v ∈ m.getAll (str!"Autocrypt-Gossip") ∧ ValidFor env a v r ∧ r.keydata = some k ∧ a ∈ l ∧
        (exec O (Account.importKey env n k) w1 = (.error e, w2) ∨
         (exec O (Account.importKey env n k) w1 = (.ok none, w2) ∧ e = .typeError) ∨
         (k = [] ∧ e = .assertionError)) from this l [] w (fun _ h => h) h
    clear h w
    intro l' 
    induction l' with
    | nil => intro pr w _ h; cases h
    | cons a rs ih =>
      intro pr w hsub h
      unfold Account.gossipLoop at h
      split at h
      · exact ih pr w (fun x hx => hsub x (List.mem_cons_of_mem _ hx)) h
      · rename_i pah hpah
        obtain ⟨v, hv, hval⟩ := hdict a pah hpah
        have hk : ∃ k, pah.keydata = some k := by
          rcases parseAcHeadervalue_shape hval.1 with ⟨x, rfl⟩ | ⟨k, _, _, _, rfl⟩
          · cases hval.2.1
          · exact ⟨k, rfl⟩
        obtain ⟨k, hk⟩ := hk
        simp only [bind_eq] at h
        rcases run_bind_error.mp h with h | ⟨⟨kh, pah'⟩, w1, h1, h⟩
        · unfold Account.importPah at h
          simp only [bind_eq, pure_eq, hk, Option.getD_some] at h
          rcases run_bind_error.mp h with h | ⟨kh, w1, _, h⟩
          · exact ⟨w, w', v, a, pah, k, hv, hval, hk, hsub a (List.mem_cons_self ..), Or.inl h⟩
          · cases kh <;> cases h
        · unfold Account.importPah at h1
          simp only [bind_eq, pure_eq, hk, Option.getD_some] at h1
          obtain ⟨kh', w2, h2, h1⟩ := run_bind_ok.mp h1
          have hx : pah'.keydata = some k ∧ kh' = kh := by
            cases kh' <;> cases h1 <;> first | exact ⟨rfl, rfl⟩ | exact ⟨hk, rfl⟩
          obtain ⟨hx, rfl⟩ := hx
          rcases run_bind_error.mp h with h | ⟨_, w3, _, h⟩
          · have hg := Peer.exec_updateFromGossip O (Account.peerHeadOf env n a) ⟨id, date, pah'.keydata, kh'⟩ w1
            simp only [exec] at hg
            rw [hg, hx] at h
            cases hge : Peer.gossipEntry (w1.store.get (Account.peerHeadOf env n a)) ⟨id, date, some k, kh'⟩ with
            | ok x => rw [hge] at h; cases x <;> cases h
            | error e' =>
              rw [hge] at h
              have he : e' = e := by cases h; rfl
              subst he
              unfold Peer.gossipEntry at hge
              split at hge
              · cases hge
              split at hge
              · rename_i hne
                cases hge
                exact ⟨w, w2, v, a, pah, k, hv, hval, hk, hsub a (List.mem_cons_self ..), 
                  Or.inr (Or.inr ⟨by simpa [Peer.noKey] using hne, rfl⟩)⟩
              split at hge
              · cases hge
              · dsimp only at hge
                cases kh' with
                | none => cases hge; exact ⟨w, w2, v, a, pah, k, hv, hval, hk, hsub a (List.mem_cons_self ..), 
                    Or.inr (Or.inl ⟨h2, rfl⟩)⟩
                | some x => cases hge
          · exact ih _ w3 (fun x hx => hsub x (List.mem_cons_of_mem _ hx)) h

open Concrete in
/-- malformed headers of all kinds without a nameless attribute; a run in which the header step fails -/
example : (∀ v ∈ [str!"", str!";;", str!"addr", str!"x=1", str!"keydata==", str!"prefer-encrypt=x; addr=a"],
      ¬ ∃ p ∈ Py.split ';' v, (Py.strip p).head? = some '=') ∧
    (exec failing (Account.processAutocryptHeader env (str!"a") (mail bob (str!"1") (str!"100") [7]) bob [] 0 []) (after [addA])).1.isOk
      = false := by decide +kernel

end Verif
