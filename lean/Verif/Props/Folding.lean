import Verif.Props.ExchangeExamples
import Verif.Props.Relevant
/-!
# Folded header fields (C137)

A long header field is folded: a line break is put before white space. Python's generator does this when a message is written, and servers do
it again on the way, perhaps at other places and with other white space. The Autocrypt header is read the same.
-/
namespace Verif
open Mime

variable {K K' σ : Type}

/-! ## Specification -/

/-- white space which is used for folding, RFC 5322 section 3.2.2 -/
def FoldChar (c : Char) : Prop := c = ' ' ∨ c = '\t' ∨ c = '\r' ∨ c = '\n'

/-- a nonempty piece of folding white space -/
def FoldWhite (s : Str) : Prop := s ≠ [] ∧ ∀ c ∈ s, FoldChar c

/-- the same text, apart from how it is folded: white space may be replaced by other white space, with or without line breaks, and nothing else
is changed. There is white space in one of the texts only where there is some in the other. -/
inductive Refolded : Str → Str → Prop
  | nil : Refolded [] []
  | char (c : Char) {a b : Str} : Refolded a b → Refolded (c :: a) (c :: b)
  | white {s t a b : Str} : FoldWhite s → FoldWhite t → Refolded a b → Refolded (s ++ a) (t ++ b)

/-- the values of `addr` in a header value name the same address if they are folded in another way -/
def FoldableAddr (env : Env) (v : Str) : Prop :=
  ∀ p ∈ attrPairs v, p.1 = str!"addr" → ∀ x x', p.2 = some x → Refolded x x' → address env (some x') = address env (some x)

/-- the same key, address and preference, and both or none with an error -/
def SameReading (r r' : ACResult) : Prop := r.keydata = r'.keydata ∧ r.addr = r'.addr ∧ r.pe = r'.pe ∧ r.error.isSome = r'.error.isSome

/-- the same exception, or results related by `R` -/
def AlikeOutcome {α β : Type} (R : α → β → Prop) : Except Exc α → Except Exc β → Prop
  | .error e, .error e' => e = e'
  | .ok r, .ok r' => R r r'
  | _, _ => False

/-- results of processing incoming mail which are alike: both times the mail was known, or the same was read -/
def SameIncoming : Option Account.IncomingResult → Option Account.IncomingResult → Prop
  | none, none => True
  | some r, some r' => r.msgId = r'.msgId ∧ r.date = r'.date ∧ r.peer = r'.peer ∧ r.account = r'.account ∧ r.gossip = r'.gossip ∧
      SameReading r.pah r'.pah
  | _, _ => False

/-- the messages have the same values in From, Date, Message-ID and Content-Type, and the same Autocrypt headers, apart from how these are
folded. The addresses in them do not depend on that. -/
structure SameFolded (env : Env) (m m' : Msg) : Prop where
  fields : SameFields [str!"From", str!"Date", str!"Message-ID", str!"Content-Type"] m m'
  autocrypt : List.Forall₂ Refolded (m.getAll (str!"Autocrypt")) (m'.getAll (str!"Autocrypt"))
  addr : ∀ v ∈ m.getAll (str!"Autocrypt"), FoldableAddr env v

/-! ## Texts -/

theorem FoldChar.isSpace {c : Char} (h : FoldChar c) : Py.isSpace c = true := by
  rcases h with rfl | rfl | rfl | rfl <;> decide

namespace Refolded

theorem refl : ∀ a, Refolded a a
  | [] => .nil
  | c :: a => .char c (refl a)

theorem symm {a b : Str} (h : Refolded a b) : Refolded b a := by
  induction h with
  | nil => exact .nil
  | char c _ ih => exact .char c ih
  | white hs ht _ ih => exact .white ht hs ih

theorem append {a b a' b' : Str} (h : Refolded a b) (h' : Refolded a' b') : Refolded (a ++ a') (b ++ b') := by
  induction h with
  | nil => exact h'
  | char c _ ih => exact .char c ih
  | white hs ht _ ih => rw [List.append_assoc, List.append_assoc]; exact .white hs ht ih

theorem reverse {a b : Str} (h : Refolded a b) : Refolded a.reverse b.reverse := by
  induction h with
  | nil => exact .nil
  | char c _ ih => rw [List.reverse_cons, List.reverse_cons]; exact ih.append (.refl _)
  | @white s t a b hs ht _ ih =>
    rw [List.reverse_append, List.reverse_append]
    refine ih.append ?_
    have := Refolded.white (s := s.reverse) (t := t.reverse) ⟨by simpa using hs.1, fun c hc => hs.2 c (by simpa using hc)⟩
      ⟨by simpa using ht.1, fun c hc => ht.2 c (by simpa using hc)⟩ .nil
    simpa using this

theorem dropWhile_white {s a : Str} (h : ∀ c ∈ s, FoldChar c) : (s ++ a).dropWhile Py.isSpace = a.dropWhile Py.isSpace := by
  induction s with
  | nil => rfl
  | cons c s ih =>
    rw [List.cons_append, List.dropWhile_cons, if_pos (h c (List.mem_cons_self ..)).isSpace]
    exact ih fun c hc => h c (List.mem_cons_of_mem _ hc)

theorem lstrip {a b : Str} (h : Refolded a b) : Refolded (a.dropWhile Py.isSpace) (b.dropWhile Py.isSpace) := by
  induction h with
  | nil => exact .nil
  | char c h ih =>
    rw [List.dropWhile_cons, List.dropWhile_cons]
    split
    · exact ih
    · exact .char c h
  | white hs ht _ ih => rw [dropWhile_white hs.2, dropWhile_white ht.2]; exact ih

theorem strip {a b : Str} (h : Refolded a b) : Refolded (Py.strip a) (Py.strip b) := h.lstrip.reverse.lstrip.reverse

theorem filter_white {s : Str} (h : ∀ c ∈ s, FoldChar c) : s.filter (fun c => !Py.isSpace c) = [] := by
  rw [List.filter_eq_nil_iff]
  intro c hc
  simp [(h c hc).isSpace]

theorem removeSpace {a b : Str} (h : Refolded a b) : Py.removeSpace a = Py.removeSpace b := by
  unfold Py.removeSpace
  induction h with
  | nil => rfl
  | char c _ ih => rw [List.filter_cons, List.filter_cons, ih]
  | white hs ht _ ih => rw [List.filter_append, List.filter_append, filter_white hs.2, filter_white ht.2, ih]

/-- a text without white space cannot be folded in another way -/
theorem plain {a b : Str} (h : Refolded a b) (ha : ∀ c ∈ a, ¬ FoldChar c) : b = a := by
  induction h with
  | nil => rfl
  | char c _ ih => rw [ih fun c hc => ha c (List.mem_cons_of_mem _ hc)]
  | @white s t a b hs ht _ ih =>
    obtain ⟨c, s', rfl⟩ := List.exists_cons_of_ne_nil hs.1
    exact absurd (hs.2 c (List.mem_cons_self ..)) (ha c (List.mem_cons_self ..))

theorem eq_iff {a b x : Str} (h : Refolded a b) (hx : ∀ c ∈ x, ¬ FoldChar c) : a = x ↔ b = x :=
  ⟨fun e => by subst e; exact h.plain hx, fun e => by subst e; exact h.symm.plain hx⟩

theorem nil_iff {a b : Str} (h : Refolded a b) : a = [] ↔ b = [] := h.eq_iff (by simp)

theorem head_iff {a b : Str} {x : Char} (h : Refolded a b) (hx : ¬ FoldChar x) : a.head? = some x ↔ b.head? = some x := by
  cases h with
  | nil => exact Iff.rfl
  | char c _ => exact Iff.rfl
  | @white s t a b hs ht _ =>
    obtain ⟨c, s', rfl⟩ := List.exists_cons_of_ne_nil hs.1
    obtain ⟨d, t', rfl⟩ := List.exists_cons_of_ne_nil ht.1
    simp only [List.cons_append, List.head?_cons, Option.some.injEq]
    constructor
    · rintro rfl; exact absurd (hs.2 _ (List.mem_cons_self ..)) hx
    · rintro rfl; exact absurd (ht.2 _ (List.mem_cons_self ..)) hx

theorem split_white {sep : Char} (hsep : ¬ FoldChar sep) {s : Str} (hs : ∀ c ∈ s, FoldChar c) {a p : Str} {ps : List Str}
    (h : Py.split sep a = p :: ps) : Py.split sep (s ++ a) = (s ++ p) :: ps := by
  induction s with
  | nil => exact h
  | cons c s ih =>
    rw [List.cons_append, Py.split, if_neg (show ¬ c = sep from fun e => hsep (by rw [← e]; exact hs c (List.mem_cons_self ..))), ih fun c hc => hs c (List.mem_cons_of_mem _ hc)]
    rfl

theorem split {sep : Char} (hsep : ¬ FoldChar sep) {a b : Str} (h : Refolded a b) :
    ∃ p q ps qs, Py.split sep a = p :: ps ∧ Py.split sep b = q :: qs ∧ Refolded p q ∧ List.Forall₂ Refolded ps qs := by
  induction h with
  | nil => exact ⟨[], [], [], [], rfl, rfl, .nil, .nil⟩
  | char c _ ih =>
    obtain ⟨p, q, ps, qs, h1, h2, h3, h4⟩ := ih
    rw [Py.split, Py.split, h1, h2]
    split
    · exact ⟨_, _, _, _, rfl, rfl, .nil, .cons h3 h4⟩
    · exact ⟨_, _, _, _, rfl, rfl, .char c h3, h4⟩
  | white hs ht _ ih =>
    obtain ⟨p, q, ps, qs, h1, h2, h3, h4⟩ := ih
    exact ⟨_, _, _, _, split_white hsep hs.2 h1, split_white hsep ht.2 h2, .white hs ht h3, h4⟩

theorem split1_white {sep : Char} (hsep : ¬ FoldChar sep) {s : Str} (hs : ∀ c ∈ s, FoldChar c) (a : Str) :
    Py.split1 sep (s ++ a) = (s ++ (Py.split1 sep a).1, (Py.split1 sep a).2) := by
  induction s with
  | nil => rfl
  | cons c s ih =>
    rw [List.cons_append, Py.split1, if_neg (show ¬ c = sep from fun e => hsep (by rw [← e]; exact hs c (List.mem_cons_self ..))), ih fun c hc => hs c (List.mem_cons_of_mem _ hc)]
    rfl

theorem split1 {sep : Char} (hsep : ¬ FoldChar sep) {a b : Str} (h : Refolded a b) :
    ∃ p q, Refolded p q ∧ (Py.split1 sep a = (p, none) ∧ Py.split1 sep b = (q, none) ∨
      ∃ x y, Refolded x y ∧ Py.split1 sep a = (p, some x) ∧ Py.split1 sep b = (q, some y)) := by
  induction h with
  | nil => exact ⟨[], [], .nil, .inl ⟨rfl, rfl⟩⟩
  | char c h ih =>
    rw [Py.split1, Py.split1]
    split
    · exact ⟨[], [], .nil, .inr ⟨_, _, h, rfl, rfl⟩⟩
    · obtain ⟨p, q, h1, ⟨h2, h3⟩ | ⟨x, y, h4, h2, h3⟩⟩ := ih <;> rw [h2, h3]
      · exact ⟨_, _, .char c h1, .inl ⟨rfl, rfl⟩⟩
      · exact ⟨_, _, .char c h1, .inr ⟨_, _, h4, rfl, rfl⟩⟩
  | white hs ht _ ih =>
    rw [split1_white hsep hs.2, split1_white hsep ht.2]
    obtain ⟨p, q, h1, ⟨h2, h3⟩ | ⟨x, y, h4, h2, h3⟩⟩ := ih <;> rw [h2, h3]
    · exact ⟨_, _, .white hs ht h1, .inl ⟨rfl, rfl⟩⟩
    · exact ⟨_, _, .white hs ht h1, .inr ⟨_, _, h4, rfl, rfl⟩⟩

end Refolded

/-! ## Attributes -/

theorem attributes_refolded {v v' : Str} (h : Refolded v v') : List.Forall₂ Refolded (attributes v) (attributes v') := by
  obtain ⟨p, q, ps, qs, h1, h2, h3, h4⟩ := h.split (sep := ';') (by unfold FoldChar; decide)
  unfold attributes
  rw [h1, h2]
  have key : ∀ {l l' : List Str}, List.Forall₂ Refolded l l' →
      List.Forall₂ Refolded ((l.map Py.strip).filter fun x => !x.isEmpty) ((l'.map Py.strip).filter fun x => !x.isEmpty) := by
    intro l l' hl
    induction hl with
    | nil => exact .nil
    | @cons a b l l' hab _ ih =>
      rw [List.map_cons, List.map_cons, List.filter_cons, List.filter_cons]
      have hs := hab.strip
      by_cases hz : Py.strip a = []
      · rw [if_neg (by simp [hz]), if_neg (by simp [hs.nil_iff.mp hz])]; exact ih
      · rw [if_pos (by simpa using hz), if_pos (by simpa using fun e => hz (hs.nil_iff.mpr e))]
        exact .cons hs ih
  exact key (.cons h3 h4)

/-- outcomes of one attribute which are alike -/
def AlikeAttr : AttrOut → AttrOut → Prop
  | .next s, .next t => ParseState.Sim s t
  | .ret _, .ret _ => True
  | .exc e, .exc e' => e = e'
  | _, _ => False

theorem parseAttr_refolded {env : Env} {s t : ParseState} (hst : ParseState.Sim s t) {x y : Str} (h : Refolded x y)
    (ha : (attrPair x).1 = str!"addr" → ∀ u u', (attrPair x).2 = some u → Refolded u u' → address env (some u') = address env (some u)) :
    AlikeAttr (parseAttr env s x) (parseAttr env t y) := by
  obtain ⟨h1, h2, h3⟩ := hst
  unfold attrPair at ha
  unfold parseAttr
  obtain ⟨p, q, hpq, ⟨e1, e2⟩ | ⟨a, b, hab, e1, e2⟩⟩ := h.split1 (sep := '=') (by unfold FoldChar; decide)
  · rw [e1, e2]; trivial
  rw [e1] at ha
  rw [e1, e2]
  dsimp only [Option.map_some] at ha ⊢
  have hn := hpq.strip
  have hv := hab.strip
  generalize Py.strip p = n at hn ha ⊢
  generalize Py.strip q = n' at hn ⊢
  generalize Py.strip a = u at hv ha ⊢
  generalize Py.strip b = u' at hv ⊢
  have plain : ∀ {x : Str}, (∀ c ∈ x, ¬ FoldChar c) → (n = x ↔ n' = x) := fun hx => hn.eq_iff hx
  have k1 := plain (x := str!"keydata") (by unfold FoldChar; decide)
  have k2 := plain (x := str!"prefer-encrypt") (by unfold FoldChar; decide)
  have k3 := plain (x := str!"addr") (by unfold FoldChar; decide)
  by_cases c1 : n = str!"keydata"
  · rw [if_pos c1, if_pos (k1.mp c1), hv.removeSpace]
    cases Py.b64decode (Py.removeSpace u') with
    | none => trivial
    | some b => exact ⟨h1, rfl, h3⟩
  rw [if_neg c1, if_neg (fun e => c1 (k1.mpr e))]
  by_cases c2 : n = str!"prefer-encrypt"
  · rw [if_pos c2, if_pos (k2.mp c2)]
    have v1 := hv.eq_iff (x := str!"nopreference") (by unfold FoldChar; decide)
    have v2 := hv.eq_iff (x := str!"mutual") (by unfold FoldChar; decide)
    by_cases c : u = str!"nopreference" ∨ u = str!"mutual"
    · rw [if_pos c, if_pos (by rw [← v1, ← v2]; exact c)]
      refine ⟨h1, h2, ?_⟩
      show u = u'
      rcases c with c | c
      · rw [c, v1.mp c]
      · rw [c, v2.mp c]
    · rw [if_neg c, if_neg (by rw [← v1, ← v2]; exact c)]
      trivial
  rw [if_neg c2, if_neg (fun e => c2 (k2.mpr e))]
  by_cases c3 : n = str!"addr"
  · rw [if_pos c3, if_pos (k3.mp c3)]
    exact ⟨congrArg some (ha c3 u u' rfl hv).symm, h2, h3⟩
  rw [if_neg c3, if_neg (fun e => c3 (k3.mpr e))]
  have hh := hn.head_iff (x := '_') (by unfold FoldChar; decide)
  cases n with
  | nil => rw [hn.nil_iff.mp rfl]; rfl
  | cons c l =>
    cases n' with
    | nil => exact absurd (hn.nil_iff.mpr rfl) (by simp)
    | cons d l' =>
      simp only [List.head?_cons, Option.some.injEq] at hh
      dsimp only
      by_cases hc : c = '_'
      · rw [if_neg (by simpa using hc), if_neg (by simpa using hh.mp hc)]
        exact ⟨h1, h2, h3⟩
      · rw [if_pos hc, if_pos (fun e => hc (hh.mpr e))]
        trivial

/-- outcomes of the loop which are alike -/
def AlikeAttrs : Except Exc (Except AcErr ParseState) → Except Exc (Except AcErr ParseState) → Prop
  | .ok (.ok s), .ok (.ok t) => ParseState.Sim s t
  | .ok (.error _), .ok (.error _) => True
  | .error e, .error e' => e = e'
  | _, _ => False

theorem parseAttrs_refolded {env : Env} {l l' : List Str} (h : List.Forall₂ Refolded l l')
    (ha : ∀ x ∈ l, (attrPair x).1 = str!"addr" → ∀ u u', (attrPair x).2 = some u → Refolded u u' → address env (some u') = address env (some u))
    {s t : ParseState} (hst : ParseState.Sim s t) : AlikeAttrs (parseAttrs env s l) (parseAttrs env t l') := by
  induction h generalizing s t with
  | nil => exact hst
  | @cons x y l l' hxy _ ih =>
    have hx := parseAttr_refolded (env := env) hst hxy (ha x (List.mem_cons_self ..))
    rw [parseAttrs, parseAttrs]
    revert hx
    rcases parseAttr env s x with s' | e | e <;> rcases parseAttr env t y with t' | e' | e' <;> intro hx
    all_goals first | exact hx.elim | skip
    · exact ih (fun x hx => ha x (List.mem_cons_of_mem _ hx)) hx
    · trivial
    · exact hx

/-! ## C137 -/

/-- C137: a header value which is folded in another way is read the same: the same key, address and preference, or an error in both. -/
theorem C137_header (env : Env) {v v' : Str} (h : Refolded v v') (ha : FoldableAddr env v) :
    AlikeOutcome SameReading (parseAcHeadervalue env v) (parseAcHeadervalue env v') := by
  have key := parseAttrs_refolded (env := env) (s := {}) (t := {}) (attributes_refolded h) (fun x hx h1 u u' h2 h3 =>
    ha (attrPair x) (by rw [attrPairs_eq]; exact List.mem_map_of_mem hx) h1 u u' h2 h3) ⟨rfl, rfl, rfl⟩
  unfold parseAcHeadervalue
  revert key
  rcases parseAttrs env {} (attributes v) with e | e | s <;> rcases parseAttrs env {} (attributes v') with e' | e' | t <;> intro key
  all_goals first | exact key.elim | skip
  · exact key
  · exact ⟨rfl, rfl, rfl, rfl⟩
  · obtain ⟨h1, h2, h3⟩ := key
    dsimp only
    rw [← h1, ← h2]
    cases s.keydata with
    | none => exact ⟨rfl, rfl, rfl, rfl⟩
    | some k =>
      cases s.addr with
      | none => exact ⟨rfl, rfl, rfl, rfl⟩
      | some a => exact ⟨rfl, rfl, congrArg some h3, rfl⟩

/-! ## Incoming mail -/

/-- programs which do the same, apart from the message which plugins get if `blind`, with results related by `R` -/
inductive RelProgs {α β : Type} (blind : Prop) (R : α → β → Prop) : Prog α → Prog β → Prop
  | pure {a : α} {b : β} : R a b → RelProgs blind R (.pure a) (.pure b)
  | raise (e : Exc) : RelProgs blind R (.raise e) (.raise e)
  | op (o : Op) {k : o.Ret → Prog α} {k' : o.Ret → Prog β} : (∀ r, RelProgs blind R (k r) (k' r)) → RelProgs blind R (.op o k) (.op o k')
  | hook (hb : blind) (a : List Str) (key : Str) (d d' : Msg) {k : Except Exc Unit → Prog α} {k' : Except Exc Unit → Prog β} :
      (∀ r, RelProgs blind R (k r) (k' r)) →
      RelProgs blind R (.op (.ext (.hookIncomingGossip a key d)) k) (.op (.ext (.hookIncomingGossip a key d')) k')

namespace RelProgs

variable {α β γ δ : Type} {blind : Prop}

theorem refl (p : Prog α) : RelProgs blind Eq p p := by
  induction p with
  | pure a => exact .pure rfl
  | raise e => exact .raise e
  | op o k ih => exact .op o ih

theorem ofAlike {p p' : Prog α} (h : AlikeProgs p p') : RelProgs True Eq p p' := by
  induction h with
  | pure a => exact .pure rfl
  | raise e => exact .raise e
  | op o _ ih => exact .op o ih
  | hook a key d d' _ ih => exact .hook trivial a key d d' ih

theorem bind {R : α → β → Prop} {Q : γ → δ → Prop} {p : Prog α} {p' : Prog β} {f : α → Prog γ} {f' : β → Prog δ}
    (hp : RelProgs blind R p p') (hf : ∀ a b, R a b → RelProgs blind Q (f a) (f' b)) : RelProgs blind Q (p.bind f) (p'.bind f') := by
  induction hp with
  | pure h => exact hf _ _ h
  | raise e => exact .raise e
  | op o _ ih => exact .op o ih
  | hook hb a key d d' _ ih => exact .hook hb a key d d' ih

theorem bind_same {Q : γ → δ → Prop} (p : Prog α) {f : α → Prog γ} {f' : α → Prog δ}
    (hf : ∀ a, RelProgs blind Q (f a) (f' a)) : RelProgs blind Q (p.bind f) (p.bind f') :=
  (refl p).bind fun a b h => by subst h; exact hf a

end RelProgs


theorem rel_run {α β : Type} {S : StoreImpl σ} {O : Oracle K} {R : α → β → Prop} {p : Prog α} {p' : Prog β} (hp : RelProgs False R p p')
    (w : World σ K) : AlikeOutcome R (run S O p w).1 (run S O p' w).1 ∧ (run S O p w).2 = (run S O p' w).2 := by
  induction hp generalizing w with
  | pure h => exact ⟨h, rfl⟩
  | raise e => exact ⟨rfl, rfl⟩
  | op o _ ih => rw [run, run]; exact ih _ _
  | hook hb => exact hb.elim

theorem rel_run_blind {α β : Type} {S : StoreImpl σ} {O : Oracle K} (hO : PluginsBlind O) {R : α → β → Prop} {p : Prog α} {p' : Prog β}
    (hp : RelProgs True R p p') {w w' : World σ K} (hw : AlikeWorlds w w') :
    AlikeOutcome R (run S O p w).1 (run S O p' w').1 ∧ AlikeWorlds (run S O p w).2 (run S O p' w').2 := by
  induction hp generalizing w w' with
  | pure h => exact ⟨h, hw⟩
  | raise e => exact ⟨rfl, hw⟩
  | op o _ ih =>
    have hs : (step S O o w).1 = (step S O o w').1 ∧ AlikeWorlds (step S O o w).2 (step S O o w').2 := by
      obtain ⟨s, c, t, e, tr⟩ := w
      obtain ⟨s', c', t', e', tr'⟩ := w'
      obtain ⟨h1, h2, h3, h4, h5⟩ := hw
      dsimp only at h1 h2 h3 h4 h5
      subst h1; subst h2; subst h3; subst h4
      cases o with
      | ext o => exact ⟨rfl, ⟨rfl, rfl, rfl, rfl, .same _ h5⟩⟩
      | _ => exact ⟨rfl, ⟨rfl, rfl, rfl, rfl, h5⟩⟩
    rw [run, run, hs.1]
    exact ih _ hs.2
  | @hook _ a key d d' k k' _ ih =>
    obtain ⟨s, c, t, e, tr⟩ := w
    obtain ⟨s', c', t', e', tr'⟩ := w'
    obtain ⟨h1, h2, h3, h4, h5⟩ := hw
    dsimp only at h1 h2 h3 h4 h5
    subst h1; subst h2; subst h3; subst h4
    have key : ∀ x y : Except Exc Unit × K, x = y →
        AlikeOutcome R (run S O (k x.1) ⟨s, c, t, x.2, ⟨.hookIncomingGossip a key d, x.1⟩ :: tr⟩).1
          (run S O (k' y.1) ⟨s, c, t, y.2, ⟨.hookIncomingGossip a key d', y.1⟩ :: tr'⟩).1 ∧
        AlikeWorlds (run S O (k x.1) ⟨s, c, t, x.2, ⟨.hookIncomingGossip a key d, x.1⟩ :: tr⟩).2
          (run S O (k' y.1) ⟨s, c, t, y.2, ⟨.hookIncomingGossip a key d', y.1⟩ :: tr'⟩).2 := by
      rintro x _ rfl
      exact ih _ ⟨rfl, rfl, rfl, rfl, .hook a key d d' _ h5⟩
    exact key _ _ (hO a _ d d' e)

/-- the lists of valid and of other headers which are alike -/
def AlikeLists (x y : List ACResult × List ACResult) : Prop :=
  List.Forall₂ SameReading x.1 y.1 ∧ List.Forall₂ SameReading x.2 y.2

/-- header values which are read the same -/
def ReadSame (env : Env) (v v' : Str) : Prop := AlikeOutcome SameReading (parseAcHeadervalue env v) (parseAcHeadervalue env v')

theorem collectAc_same {env : Env} (fl : List Str) {l l' : List Str} (h : List.Forall₂ (ReadSame env) l l') :
    AlikeOutcome AlikeLists (collectAc env fl l) (collectAc env fl l') := by
  induction h with
  | nil => exact ⟨.nil, .nil⟩
  | @cons x y l l' hxy _ ih =>
    have hx := hxy
    unfold ReadSame at hx
    have hl := ih
    rw [collectAc, collectAc]
    revert hx hl
    rcases parseAcHeadervalue env x with e | r <;> rcases parseAcHeadervalue env y with e' | r' <;> intro hx hl
    all_goals first | exact hx.elim | skip
    · exact hx
    revert hl
    rcases collectAc env fl l with e | ⟨rs, es⟩ <;> rcases collectAc env fl l' with e' | ⟨rs', es'⟩ <;> intro hl
    all_goals first | exact hl.elim | skip
    · exact hl
    obtain ⟨h1, h2, h3, h4⟩ := hx
    dsimp only
    rw [← h4, ← h2]
    split
    · exact ⟨hl.1, .cons ⟨h1, h2, h3, h4⟩ hl.2⟩
    · split
      · exact ⟨hl.1, .cons ⟨rfl, rfl, rfl, rfl⟩ hl.2⟩
      · exact ⟨.cons ⟨h1, h2, h3, h4⟩ hl.1, hl.2⟩

/-- messages with the same values in some fields, and Autocrypt headers which are read the same -/
structure SameRead (env : Env) (m m' : Msg) : Prop where
  fields : SameFields [str!"From", str!"Date", str!"Message-ID", str!"Content-Type"] m m'
  autocrypt : List.Forall₂ (ReadSame env) (m.getAll (str!"Autocrypt")) (m'.getAll (str!"Autocrypt"))

theorem SameFolded.read {env : Env} {m m' : Msg} (h : SameFolded env m m') : SameRead env m m' := by
  refine ⟨h.fields, ?_⟩
  have key : ∀ {l l' : List Str}, List.Forall₂ Refolded l l' → (∀ v ∈ l, FoldableAddr env v) → List.Forall₂ (ReadSame env) l l' := by
    intro l l' hl
    induction hl with
    | nil => exact fun _ => .nil
    | cons hxy _ ih =>
      exact fun ha => .cons (C137_header env hxy (ha _ (List.mem_cons_self ..))) (ih fun v hv => ha v (List.mem_cons_of_mem _ hv))
  exact key h.autocrypt h.addr

section
variable {env : Env} {m m' : Msg} (h : SameRead env m m')
include h

theorem SameRead.contentType : m.contentType = m'.contentType := by
  have : m.getAll (str!"content-type") = m'.getAll (str!"content-type") := by
    rw [getAll_congr m (b := str!"Content-Type") (by decide), getAll_congr m' (b := str!"Content-Type") (by decide)]
    exact h.fields _ (by decide)
  unfold Msg.contentType; rw [get_same this]

theorem SameRead.msgId : messageId m = messageId m' := by
  have : m.getAll (str!"Message-Id") = m'.getAll (str!"Message-Id") := by
    rw [getAll_congr m (b := str!"Message-ID") (by decide), getAll_congr m' (b := str!"Message-ID") (by decide)]
    exact h.fields _ (by decide)
  unfold messageId; rw [get_same this]

theorem SameRead.parseOne (fl : List Str) :
    AlikeOutcome SameReading (parseOneAcHeaderFromMsg env m fl) (parseOneAcHeaderFromMsg env m' fl) := by
  unfold parseOneAcHeaderFromMsg
  rw [h.contentType, h.fields (str!"From") (by decide)]
  split
  · exact ⟨rfl, rfl, rfl, rfl⟩
  split
  · exact ⟨rfl, rfl, rfl, rfl⟩
  have hl := collectAc_same (env := env) (fl.map fun x => parseEmailAddr env (some x)) h.autocrypt
  revert hl
  rcases collectAc env _ (m.getAll (str!"Autocrypt")) with e | ⟨rs, es⟩ <;>
    rcases collectAc env _ (m'.getAll (str!"Autocrypt")) with e' | ⟨rs', es'⟩ <;> intro hl
  all_goals first | exact hl.elim | skip
  · exact hl
  obtain ⟨h1, h2⟩ := hl
  cases h1 with
  | nil =>
    cases h2 with
    | nil => exact ⟨rfl, rfl, rfl, rfl⟩
    | cons h3 _ => exact h3
  | cons h3 h4 =>
    cases h4 with
    | nil => exact h3
    | cons _ _ => exact ⟨rfl, rfl, rfl, rfl⟩

theorem SameRead.processHeader (blind : Prop) (n f hd : Str) (d : Time) (i : Str) :
    RelProgs blind SameReading (Account.processAutocryptHeader env n m f hd d i) (Account.processAutocryptHeader env n m' f hd d i) := by
  have hp := h.parseOne [f]
  unfold Account.processAutocryptHeader
  simp only [bind_eq, pure_eq]
  revert hp
  rcases parseOneAcHeaderFromMsg env m [f] with e | r <;> rcases parseOneAcHeaderFromMsg env m' [f] with e' | r' <;> intro hp
  all_goals first | exact hp.elim | skip
  · cases hp; exact .raise _
  obtain ⟨h1, h2, h3, h4⟩ := hp
  simp only [Prog.ofExcept, Prog.bind]
  have hi : RelProgs blind (fun x y : Option Str × ACResult => x.1 = y.1 ∧ SameReading x.2 y.2)
      (if r.error.isSome then Prog.pure (none, r) else Account.importPah env n r)
      (if r'.error.isSome then Prog.pure (none, r') else Account.importPah env n r') := by
    rw [← h4]
    split
    · exact .pure ⟨rfl, h1, h2, h3, h4⟩
    · unfold Account.importPah
      simp only [bind_eq, pure_eq]
      rw [← h1]
      refine .bind_same _ fun x => ?_
      cases x with
      | none => exact .pure ⟨rfl, rfl, h2, h3, rfl⟩
      | some kh => exact .pure ⟨rfl, h1, h2, h3, h4⟩
  refine hi.bind fun x y hxy => ?_
  obtain ⟨g1, g2, g3, g4, g5⟩ := hxy
  rw [g1, g2, g4]
  exact .bind_same _ fun _ => .pure ⟨g2, g3, g4, g5⟩

end

theorem incoming_sameRead (S : StoreImpl σ) (O : Oracle K) (env : Env) (n : Str) (m m' : Msg) (i nd : Bool) (w : World σ K)
    (h : SameRead env m m') (hnd : nd = true ∨ m.contentType ≠ str!"multipart/encrypted") :
    AlikeOutcome SameIncoming (run S O (Account.processIncoming env n m i nd) w).1 (run S O (Account.processIncoming env n m' i nd) w).1 ∧
    (run S O (Account.processIncoming env n m i nd) w).2 = (run S O (Account.processIncoming env n m' i nd) w).2 := by
  refine rel_run ?_ w
  unfold Account.processIncoming
  simp only [bind_eq, pure_eq]
  rw [get_same (h.fields (str!"From") (by decide)), get_same (h.fields (str!"Date") (by decide)), h.msgId]
  refine .bind_same _ fun _ => .bind_same _ fun _ => .bind_same _ fun b => ?_
  split
  · exact .pure trivial
  refine (h.processHeader ..).bind fun r r' hr => ?_
  have h0 : ∀ m0 : Msg, (nd = true ∨ m0.contentType ≠ str!"multipart/encrypted") →
      (if nd = true then Prog.pure false else Prog.ofExcept (isEncrypted m0)) = Prog.pure false := by
    intro m0 h0
    rcases h0 with rfl | h0
    · rfl
    · split
      · rfl
      · unfold isEncrypted; rw [if_neg h0]; rfl
  rw [h0 m hnd, h0 m' (h.contentType ▸ hnd)]
  exact .pure ⟨rfl, rfl, rfl, rfl, rfl, hr⟩

theorem encrypted_sameRead (S : StoreImpl σ) (O : Oracle K) (hO : PluginsBlind O) (env : Env) (n : Str) (m m' : Msg) (i nd : Bool) (w : World σ K)
    (h : SameRead env m m') (hg : SameFields gossipFields m m') (hp : m.payload = m'.payload) :
    AlikeOutcome SameIncoming (run S O (Account.processIncoming env n m i nd) w).1 (run S O (Account.processIncoming env n m' i nd) w).1 ∧
    AlikeWorlds (run S O (Account.processIncoming env n m i nd) w).2 (run S O (Account.processIncoming env n m' i nd) w).2 := by
  refine rel_run_blind hO ?_ (.refl w)
  have he : isEncrypted m = isEncrypted m' := by unfold isEncrypted; rw [h.contentType, hp]
  have hd : Account.encData m = Account.encData m' := by unfold Account.encData; rw [he, hp]
  unfold Account.processIncoming
  simp only [bind_eq, pure_eq]
  rw [get_same (h.fields (str!"From") (by decide)), get_same (h.fields (str!"Date") (by decide)), h.msgId, he]
  refine .bind_same _ fun _ => .bind_same _ fun date => .bind_same _ fun b => ?_
  split
  · exact .pure trivial
  refine (h.processHeader ..).bind fun r r' hr => .bind_same _ fun e => ?_
  have key : AlikeProgs (if e = true then
        (Account.decryptMime env n m).bind fun r =>
          (Account.processGossipHeaders env n r.decMsg date (messageId m')).bind fun gossip =>
            (Account.ownKeyhandle n).bind fun key =>
              (Prog.hookIncomingGossip (gossip.map (·.1)) key r.decMsg).bind fun _ => Prog.pure gossip
      else Prog.pure []) (if e = true then
        (Account.decryptMime env n m').bind fun r =>
          (Account.processGossipHeaders env n r.decMsg date (messageId m')).bind fun gossip =>
            (Account.ownKeyhandle n).bind fun key =>
              (Prog.hookIncomingGossip (gossip.map (·.1)) key r.decMsg).bind fun _ => Prog.pure gossip
      else Prog.pure []) := by
    split
    · unfold Account.decryptMime
      simp only [bind_eq, pure_eq, hd, Prog.bind_assoc]
      refine .bind (.refl _) fun _ => .bind (.refl _) fun _ => .bind (.refl _) fun x => ?_
      simp only [Prog.bind]
      rw [alike_decrypted hg]
      refine .bind (.refl _) fun _ => .bind (.refl _) fun _ => .bind ?_ fun _ => .refl _
      exact .hook _ _ _ _ fun _ => .refl _
    · exact .refl _
  refine (RelProgs.ofAlike key).bind fun g g' hgg => ?_
  subst hgg
  exact .pure ⟨rfl, rfl, rfl, rfl, rfl, hr⟩

/-- C137: incoming mail which is not decrypted is processed the same if its Autocrypt headers are folded in another way: the same is run, the
state is the same, and the same key, address and preference were read. -/
theorem C137_incoming (S : StoreImpl σ) (O : Oracle K) (env : Env) (n : Str) (m m' : Msg) (i nd : Bool) (w : World σ K)
    (h : SameFolded env m m') (hnd : nd = true ∨ m.contentType ≠ str!"multipart/encrypted") :
    AlikeOutcome SameIncoming (run S O (Account.processIncoming env n m i nd) w).1 (run S O (Account.processIncoming env n m' i nd) w).1 ∧
    (run S O (Account.processIncoming env n m i nd) w).2 = (run S O (Account.processIncoming env n m' i nd) w).2 :=
  incoming_sameRead S O env n m m' i nd w h.read hnd

/-- C137: so is encrypted mail with the same content and the same recipients, if plugins do not look at the decrypted message. -/
theorem C137_encrypted (S : StoreImpl σ) (O : Oracle K) (hO : PluginsBlind O) (env : Env) (n : Str) (m m' : Msg) (i nd : Bool) (w : World σ K)
    (h : SameFolded env m m') (hg : SameFields gossipFields m m') (hp : m.payload = m'.payload) :
    AlikeOutcome SameIncoming (run S O (Account.processIncoming env n m i nd) w).1 (run S O (Account.processIncoming env n m' i nd) w).1 ∧
    AlikeWorlds (run S O (Account.processIncoming env n m i nd) w).2 (run S O (Account.processIncoming env n m' i nd) w).2 :=
  encrypted_sameRead S O hO env n m m' i nd w h.read hg hp

/-! ## From one installation to another -/

/-- the message `m` arrives as `m'`, with the Autocrypt header folded in another way: servers may add or change everything else but From -/
structure ArrivesFolded (env : Env) (m m' : Msg) : Prop where
  from_ : m'.getAll (str!"From") = m.getAll (str!"From")
  autocrypt : List.Forall₂ Refolded (m.getAll (str!"Autocrypt")) (m'.getAll (str!"Autocrypt"))
  noReport : m'.contentType ≠ str!"multipart/report"
  oneSender : (env.getaddresses (m'.getAll (str!"From"))).length ≤ 1

theorem strip_plain {a : Str} (h : ∀ c ∈ a, Py.isSpace c = false) : Py.strip a = a :=
  Py.strip_eq_self (fun c hc => h c (List.mem_of_mem_head? hc)) (fun c hc => h c (List.mem_of_getLast? hc))

/-- a header value which was made for an address without white space -/
theorem made_foldable {env : Env} {a : Str} {k : Bytes} {pe v : Str} (hpe : pe = str!"nopreference" ∨ pe = str!"mutual")
    (hv : makeAcHeaderValue env (some a) k pe = .ok v) (hst : parseEmailAddr env (some a) = a) (hsemi : ';' ∉ a)
    (hplain : ∀ c ∈ a, Py.isSpace c = false) : FoldableAddr env v := by
  have hk : k ≠ [] := by intro h'; subst h'; simp [makeAcHeaderValue] at hv
  have hb := Py.b64encode_plain k
  have hbne : Py.b64encode k ≠ [] := by
    intro h
    have := Py.b64decode_b64encode k
    rw [h] at this
    exact hk (Option.some.inj this).symm
  obtain ⟨folded, hf1, hf2, hf3⟩ := C26_folding (Py.b64encode k) (fun c hc => (hb c hc).2.1) hbne
  have hfs : ';' ∉ str!"\n" ++ folded := by
    intro h
    rw [List.mem_append] at h
    rcases h with h | h
    · revert h; decide
    · have : ';' ∈ Py.removeSpace folded := by
        rw [Py.removeSpace, List.mem_filter]; exact ⟨h, by decide⟩
      rw [hf2] at this
      exact (hb _ this).2.2 rfl
  have hke : k.isEmpty = false := by cases k <;> simp_all
  have p1 : attrPairs (str!"addr=" ++ a) = [(str!"addr", some (Py.strip a))] :=
    attrPairs_one (n := str!"addr") (v := a) (by decide) hsemi (by decide)
  have p3 : attrPairs (str!" keydata=\n" ++ folded) = [(str!"keydata", some (Py.strip (str!"\n" ++ folded)))] :=
    attrPairs_one (n := str!" keydata") (v := str!"\n" ++ folded) (by decide) hfs (by decide)
  have p2 : attrPairs (str!" prefer-encrypt=mutual") = [(str!"prefer-encrypt", some (str!"mutual"))] :=
    attrPairs_one (n := str!" prefer-encrypt") (v := str!"mutual") (by decide) (by decide) (by decide)
  have hp : ∀ p ∈ attrPairs v, p.1 = str!"addr" → p.2 = some (Py.strip a) := by
    unfold makeAcHeaderValue at hv
    rw [hke, hf1, hst] at hv
    have hv := Except.ok.inj hv
    rcases hpe with rfl | rfl
    · have : v = (str!"addr=" ++ a) ++ ';' :: (str!" keydata=\n" ++ folded) := by rw [← hv]; simp [Py.join]
      rw [this, attrPairs_append, p1, p3]
      intro p hp h1
      simp only [List.cons_append, List.nil_append, List.mem_cons, List.not_mem_nil, or_false] at hp
      rcases hp with rfl | rfl
      · rfl
      · exact absurd h1 (show str!"keydata" ≠ str!"addr" by decide)
    · have : v = (str!"addr=" ++ a) ++ ';' :: (str!" prefer-encrypt=mutual" ++ ';' :: (str!" keydata=\n" ++ folded)) := by
        rw [← hv]; simp [Py.join]
      rw [this, attrPairs_append, attrPairs_append, p1, p2, p3]
      intro p hp h1
      simp only [List.cons_append, List.nil_append, List.mem_cons, List.not_mem_nil, or_false] at hp
      rcases hp with rfl | rfl | rfl
      · rfl
      · exact absurd h1 (show str!"prefer-encrypt" ≠ str!"addr" by decide)
      · exact absurd h1 (show str!"keydata" ≠ str!"addr" by decide)
  intro p hpm h1 x x' h2 h3
  have hx : x = Py.strip a := Option.some.inj (h2.symm.trans (hp p hpm h1))
  have hs : Py.strip a = a := strip_plain hplain
  have : x' = x := h3.plain fun c hc hf => by
    rw [hx, hs] at hc
    have := hplain c hc
    rw [hf.isSpace] at this
    cases this
  rw [this]

theorem outgoing_carries_folded {O : Oracle K} {env : Env} {w w' : World Store K} {n : Str} {m : Msg} {res : Account.OutgoingResult}
    (h : exec O (Account.processOutgoing env n m) w = (.ok res, w')) (hac : m.getAll (str!"Autocrypt") = [])
    {a : Str} (hfrom : parseEmailAddr env (m.get (str!"From")) = a)
    (hsemi : ';' ∉ a) (hst : parseEmailAddr env (some a) = a) (hplain : ∀ c ∈ a, Py.isSpace c = false)
    {m' : Msg} (harr : ArrivesFolded env res.msg m') (dir : Str) :
    ∃ kd c, ExportedOwnKey w w' n kd ∧ OwnConf w n c ∧ CarriesKey (env.at dir) m' a kd c.pe := by
  obtain ⟨v, kd, c, ext, h1, h0, h2, h3, h4, h5⟩ := C36_added_partial O env w w' n m res h hac a hfrom hsemi hst
    (by rw [strip_plain hplain]; exact hst)
  have hfold : FoldableAddr env v := by
    obtain ⟨m2, hp, hm⟩ := (processOutgoing_course h).1.ok
    rcases hp with ⟨_, _, hadd⟩ | ⟨_, v2, rfl, g3, kd2, c2, _, _, hv⟩
    · rw [h0] at hadd; cases hadd
    · rw [h0] at g3
      cases g3
      rw [address_eq, hfrom] at hv
      exact made_foldable (by cases c2.pe <;> simp [PE.toStr]) hv hst hsemi hplain
  have hf : m'.get (str!"From") = m.get (str!"From") := get_of_getAll (harr.from_.trans (outgoing_from h))
  have hl := harr.autocrypt
  rw [h1] at hl
  obtain ⟨v', hr, hl'⟩ : ∃ v', Refolded v v' ∧ m'.getAll (str!"Autocrypt") = [v'] := by
    generalize m'.getAll (str!"Autocrypt") = l at hl
    cases hl with
    | cons hr hn => cases hn; exact ⟨_, hr, rfl⟩
  have hread := C137_header env hr hfold
  rw [h5] at hread
  cases hp : parseAcHeadervalue env v' with
  | error e => rw [hp] at hread; exact hread.elim
  | ok r =>
    rw [hp] at hread
    obtain ⟨r1, r2, r3, r4⟩ := hread
    have hv : ValidFor (env.at dir) a v' r :=
      ⟨(parseAcHeadervalue_at ..).trans hp, by simpa using r4.symm, r2.symm⟩
    refine ⟨kd, c, h2, h4, ?_, h3, harr.noReport, harr.oneSender, v', r, ⟨[], [], hl', ⟨_, hv⟩, by simp⟩, hv, r1.symm, r3.symm⟩
    show parseEmailAddr env (some (parseEmailAddr env (m'.get (str!"From")))) = a
    rw [hf, hfrom, hst]

/-- C137: the exchange of keys (C79) also holds if servers fold the Autocrypt header in another way: the other installation has recorded the key
which gpg exported for the sending account, and its preference. -/
theorem C137_key_exchange {O : Oracle K} {env : Env} {w w' : World Store K} {n : Str} {m : Msg} {res : Account.OutgoingResult}
    (hsend : exec O (Account.processOutgoing env n m) w = (.ok res, w')) (hac : m.getAll (str!"Autocrypt") = [])
    {a : Str} (hfrom : address env (m.get (str!"From")) = a)
    (hsemi : ';' ∉ a) (hst : address env (some a) = a) (hplain : ∀ c ∈ a, Py.isSpace c = false)
    {m' : Msg} (harr : ArrivesFolded env res.msg m')
    {O' : Oracle K'} {dir : Str} {v v' : World Store K'} {n' : Str} {i nd : Bool} {res' : Account.IncomingResult}
    (hv : Reachable O' (env.at dir) v)
    (hrecv : exec O' (Account.processIncoming (env.at dir) n' m' i nd) v = (.ok (some res'), v'))
    {t : Time} (ht : EffectiveDate (env.at dir) v m' t)
    (hnew : ∀ e, .msg e ∈ v.log (peerHead n' a) → e.keydata ≠ [] → e.date < t) (hpos : 0 < t) :
    ∃ kd c e, ExportedOwnKey w w' n kd ∧ OwnConf w n c ∧
      Newest Entry.IsKeyMsg (v'.log (peerHead n' a)) (.msg e) ∧ Newest Entry.IsMsg (v'.log (peerHead n' a)) (.msg e) ∧
      e.msgId = mailId m' ∧ e.date = t ∧ e.keydata = kd ∧ e.pe = c.pe ∧
      (res'.pah.error = none → ImportedKey (env.at dir) v v' kd e.keyhandle ∧ PeerKey (v'.log (peerHead n' a)) e.keyhandle kd) := by
  spec_mail
  obtain ⟨kd, c, h1, h2, h3⟩ := outgoing_carries_folded hsend hac hfrom hsemi hst hplain harr dir
  have hold : Peer.acTimestamp (v.log (peerHead n' a)) < t := by
    rw [Peer.acTimestamp]
    split
    · rename_i e he
      obtain ⟨pre, post, hl, ⟨e', he', hk⟩, _⟩ := latestAc_iff.mp he
      cases he'
      exact hnew e (by rw [hl]; simp) hk
    · exact hpos
  obtain ⟨_, _, ⟨e, g1, g2, g3, g4, g5, g6⟩, h5, _⟩ := C77_newer_key hv hrecv h3 ht hold rfl
  refine ⟨kd, c, e, h1, h2, latestAc_iff.mp g1, latestMsg_iff.mp g2, by rw [g3, mailId_eq], g4, g5, g6, fun hn => ?_⟩
  obtain ⟨i1, i2, _, i4⟩ := h5 hn
  have hne : e.keyhandle ≠ [] := by simpa [Peer.hasDirectKey, g1] using i1
  have hs := Peer.shown_of_latestAc g1 hne
  simp only [Peer.shown, Prod.mk.injEq] at hs
  rw [hs.1] at i4
  exact ⟨i4, .inl ⟨e, ⟨latestAc_iff.mp g1, hne⟩, rfl, g5.symm⟩⟩

/-! ## Examples -/

section Examples
open Concrete

theorem FoldWhite.space : FoldWhite (str!" ") := ⟨by decide, by unfold FoldChar; decide⟩
theorem FoldWhite.crlfTab : FoldWhite (str!"\r\n\t") := ⟨by decide, by unfold FoldChar; decide⟩
theorem FoldWhite.lf : FoldWhite (str!"\n  ") := ⟨by decide, by unfold FoldChar; decide⟩

/-- RFC 5322: a line break before white space -/
theorem Refolded.lineBreak (a b : Str) : Refolded (a ++ ' ' :: b) (a ++ '\r' :: '\n' :: ' ' :: b) :=
  (Refolded.refl a).append (.white (s := str!" ") (t := str!"\r\n ") .space ⟨by decide, by unfold FoldChar; decide⟩ (.refl b))

/-- a header as it was written, and after a server has folded it -/
def written : Str := str!"addr=a@x.org; prefer-encrypt=mutual; keydata=\n  QkJCQkJCQkJCQkJCQkJCQg=="
def refolded : Str := str!"addr=a@x.org;\r\n\tprefer-encrypt=mutual;\r\n\tkeydata= QkJCQkJCQkJCQkJCQkJCQg=="

theorem written_refolded : Refolded written refolded := by
  have h3 : Refolded (str!"keydata=" ++ (str!"\n  " ++ str!"QkJCQkJCQkJCQkJCQkJCQg==")) (str!"keydata=" ++ (str!" " ++ str!"QkJCQkJCQkJCQkJCQkJCQg==")) :=
    (Refolded.refl _).append (.white .lf .space (.refl _))
  have h2 := (Refolded.refl (str!"prefer-encrypt=mutual;")).append (.white .space .crlfTab h3)
  exact (Refolded.refl (str!"addr=a@x.org;")).append (.white .space .crlfTab h2)

theorem written_foldable : FoldableAddr Concrete.env written := by
  intro p hp h1 x x' h2 h3
  have hv : attrPairs written = [(str!"addr", some (str!"a@x.org")), (str!"prefer-encrypt", some (str!"mutual")),
      (str!"keydata", some (str!"QkJCQkJCQkJCQkJCQkJCQg=="))] := by decide +kernel
  rw [hv] at hp
  simp only [List.mem_cons, List.not_mem_nil, or_false] at hp
  rcases hp with rfl | rfl | rfl
  · cases h2
    rw [h3.plain (by unfold FoldChar; decide)]
  · exact absurd h1 (by decide)
  · exact absurd h1 (by decide)

/-- the hypotheses of `C137_header` hold, and a key is read -/
example : Refolded written refolded ∧ written ≠ refolded ∧ FoldableAddr Concrete.env written ∧
    (parseAcHeadervalue Concrete.env refolded).toOption.map (fun r => (r.keydata, r.addr, r.pe)) =
      some (some (List.replicate 16 66), some (str!"a@x.org"), some (str!"mutual")) :=
  ⟨written_refolded, by decide, written_foldable, by decide +kernel⟩

/-- white space matters elsewhere: names and preferences must not be broken -/
example : ¬ Refolded (str!"prefer-encrypt=mutual") (str!"prefer-\r\n encrypt=mutual") :=
  fun h => absurd (h.plain (by unfold FoldChar; decide)) (by decide)

/-- the mail to Dave as it arrives, folded in another way -/
def toDaveFolded : Msg := .mk [(str!"Received", str!"x"), (str!"From", str!"Me <A@x.org>"), (str!"To", str!"dave@x.org"), (str!"Message-Id", str!"m1"),
    (str!"Date", str!"200"), (str!"Autocrypt", refolded)] (.text (str!"hello"))

/-- the hypotheses of `C137_incoming` hold, and a key is recorded -/
example : SameFolded daveEnv toDave' toDaveFolded ∧ toDave'.contentType ≠ str!"multipart/encrypted" ∧
    ((exec oracle (Account.processIncoming daveEnv (str!"d") toDaveFolded false false) daveWorld).2.log (peerHead (str!"d") (str!"a@x.org"))).length = 1 := by
  refine ⟨⟨by unfold SameFields; decide +kernel, ?_, ?_⟩, by decide +kernel, by decide +kernel⟩
  · have h1 : toDave'.getAll (str!"Autocrypt") = [written] := by decide +kernel
    have h2 : toDaveFolded.getAll (str!"Autocrypt") = [refolded] := by decide +kernel
    rw [h1, h2]
    exact .cons written_refolded .nil
  · have h1 : toDave'.getAll (str!"Autocrypt") = [written] := by decide +kernel
    rw [h1]
    intro v hv
    cases List.mem_singleton.mp hv
    exact written_foldable

/-- the hypotheses of `C137_encrypted` hold for an encrypted message with a key for Carol within, and it is recorded -/
example : PluginsBlind oracle ∧
    SameFolded Concrete.env (encMail (str!"1") (str!"100") [(str!"Autocrypt", written)] [gossipField carol [9]])
      (encMail (str!"1") (str!"100") [(str!"Autocrypt", refolded)] [gossipField carol [9]]) ∧
    SameFields gossipFields (encMail (str!"1") (str!"100") [(str!"Autocrypt", written)] [gossipField carol [9]])
      (encMail (str!"1") (str!"100") [(str!"Autocrypt", refolded)] [gossipField carol [9]]) ∧
    (carols (run Store.impl oracle (Account.processIncoming Concrete.env (str!"a")
      (encMail (str!"1") (str!"100") [(str!"Autocrypt", refolded)] [gossipField carol [9]]) false false) (after [addA])).2).length = 1 := by
  have h1 : (encMail (str!"1") (str!"100") [(str!"Autocrypt", written)] [gossipField carol [9]]).getAll (str!"Autocrypt") = [written] := by
    decide +kernel
  have h2 : (encMail (str!"1") (str!"100") [(str!"Autocrypt", refolded)] [gossipField carol [9]]).getAll (str!"Autocrypt") = [refolded] := by
    decide +kernel
  refine ⟨fun _ _ _ _ _ => rfl, ⟨by unfold SameFields; decide +kernel, by rw [h1, h2]; exact .cons written_refolded .nil, ?_⟩,
    by unfold SameFields; decide +kernel, by decide +kernel⟩
  rw [h1]
  intro v hv
  cases List.mem_singleton.mp hv
  exact written_foldable

/-- the hypotheses of `C137_key_exchange` hold -/
example : ∃ e, Newest Entry.IsKeyMsg ((exec oracle (Account.processIncoming daveEnv (str!"d") toDaveFolded false false) daveWorld).2.log
    (peerHead (str!"d") (str!"a@x.org"))) (.msg e) ∧ e.date = sec 200 := by
  obtain ⟨res, w', h1, h2⟩ := ok_of_map (x := exec oracle (Account.processOutgoing Concrete.env (str!"a") toDave) recWorld)
    (f := fun r => (r.msg.getAll (str!"From"), r.msg.getAll (str!"Autocrypt")))
    (b := ([str!"Me <A@x.org>"], [written])) (by decide +kernel)
  obtain ⟨res', h3, h4⟩ := exc_some_of_map (x := (exec oracle (Account.processIncoming daveEnv (str!"d") toDaveFolded false false) daveWorld).1)
    (f := fun r => r.pah.error) (b := none) (by decide +kernel)
  have harr : ArrivesFolded Concrete.env res.msg toDaveFolded := by
    simp only [Prod.mk.injEq] at h2
    refine ⟨by rw [h2.1]; decide +kernel, ?_, by decide +kernel, by decide +kernel⟩
    have h2' : toDaveFolded.getAll (str!"Autocrypt") = [refolded] := by decide +kernel
    rw [h2.2, h2']
    exact .cons written_refolded .nil
  have hno : daveWorld.log (peerHead (str!"d") (str!"a@x.org")) = [] := by decide +kernel
  obtain ⟨kd, c, e, _, _, g1, _, _, g2, _⟩ := C137_key_exchange h1 (by decide +kernel) (a := str!"a@x.org") (by decide +kernel) (by decide +kernel)
    (by decide +kernel) (by decide +kernel) harr daveWorld_reachable (fst_ok h3) (t := sec 200)
    ⟨sec 200, .inl rfl, by decide +kernel⟩ (by rw [hno]; simp) (by decide +kernel)
  exact ⟨e, g1, g2⟩

end Examples

end Verif
