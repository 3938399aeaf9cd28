import Verif.Props.IncomingErrors
/-!
# Autocrypt header values: C25 – C29
-/
namespace Verif.Py

/-! ## base64 -/

theorem b64Val_b64Char : ∀ n < 64, b64Val (b64Char n) = some n := by decide
theorem b64Char_plain : ∀ n < 64, (b64Char n).toNat < 128 ∧ isSpace (b64Char n) = false ∧ b64Char n ≠ '=' ∧
    b64Char n ≠ ';' := by decide

theorem ofNat_eq {a : UInt8} {n : Nat} (h : n = a.toNat) : UInt8.ofNat n = a := by
  subst h; simp

theorem a2bLoop_b64encode (k : Bytes) : a2bLoop 0 0 0 (b64encode k) = some k := by
  have s0 : ∀ l p n cs, n < 64 → a2bLoop 0 l p (b64Char n :: cs) = a2bLoop 1 n 0 cs := by
    intro l p n cs hn
    rw [a2bLoop.eq_2, if_neg (b64Char_plain n hn).2.2.1, b64Val_b64Char n hn]
    rfl
  have s1 : ∀ l p n cs, n < 64 → a2bLoop 1 l p (b64Char n :: cs) =
      (a2bLoop 2 (n % 16) 0 cs).map (UInt8.ofNat (l * 4 + n / 16) :: ·) := by
    intro l p n cs hn
    rw [a2bLoop.eq_2, if_neg (b64Char_plain n hn).2.2.1, b64Val_b64Char n hn]
    rfl
  have s2 : ∀ l p n cs, n < 64 → a2bLoop 2 l p (b64Char n :: cs) =
      (a2bLoop 3 (n % 4) 0 cs).map (UInt8.ofNat (l * 16 + n / 4) :: ·) := by
    intro l p n cs hn
    rw [a2bLoop.eq_2, if_neg (b64Char_plain n hn).2.2.1, b64Val_b64Char n hn]
    rfl
  have s3 : ∀ l p n cs, n < 64 → a2bLoop 3 l p (b64Char n :: cs) =
      (a2bLoop 0 0 0 cs).map (UInt8.ofNat (l * 64 + n) :: ·) := by
    intro l p n cs hn
    rw [a2bLoop.eq_2, if_neg (b64Char_plain n hn).2.2.1, b64Val_b64Char n hn]
    rfl
  fun_induction b64encode k with
  | case1 => rfl
  | case2 a =>
    have ha := a.toNat_lt
    rw [s0 _ _ _ _ (by omega), s1 _ _ _ _ (by omega)]
    simp only [a2bLoop]
    simp only [if_true, ge_iff_le, Nat.reduceAdd, Nat.reduceLeDiff, if_false, Option.map_some]
    rw [ofNat_eq (a := a) (by omega)]
  | case3 a b =>
    have ha := a.toNat_lt
    have hb := b.toNat_lt
    rw [s0 _ _ _ _ (by omega), s1 _ _ _ _ (by omega), s2 _ _ _ _ (by omega)]
    simp only [a2bLoop]
    simp only [if_true, ge_iff_le, Nat.reduceAdd, Nat.reduceLeDiff, Option.map_some]
    rw [ofNat_eq (a := a) (by omega), ofNat_eq (a := b) (by omega)]
  | case4 a b c rest ih =>
    have ha := a.toNat_lt
    have hb := b.toNat_lt
    have hc := c.toNat_lt
    rw [s0 _ _ _ _ (by omega), s1 _ _ _ _ (by omega), s2 _ _ _ _ (by omega), s3 _ _ _ _ (by omega), ih]
    simp only [Option.map_some]
    rw [ofNat_eq (a := a) (by omega), ofNat_eq (a := b) (by omega), ofNat_eq (a := c) (by omega)]

/-- base64 text consists of ASCII characters and contains neither white space nor a semicolon -/
theorem b64encode_plain (k : Bytes) : ∀ c ∈ b64encode k, c.toNat < 128 ∧ isSpace c = false ∧ c ≠ ';' := by
  have h : ∀ n < 64, (b64Char n).toNat < 128 ∧ isSpace (b64Char n) = false ∧ b64Char n ≠ ';' :=
    fun n hn => ⟨(b64Char_plain n hn).1, (b64Char_plain n hn).2.1, (b64Char_plain n hn).2.2.2⟩
  have he : ('='.toNat < 128 ∧ isSpace '=' = false ∧ '=' ≠ ';') := by decide
  fun_induction b64encode k with
  | case1 => simp
  | case2 a =>
    have ha := a.toNat_lt
    intro c hc
    simp only [List.mem_cons, List.not_mem_nil, or_false] at hc
    rcases hc with rfl | rfl | rfl | rfl
    · exact h _ (by omega)
    · exact h _ (by omega)
    · exact he
    · exact he
  | case3 a b =>
    have ha := a.toNat_lt
    have hb := b.toNat_lt
    intro c hc
    simp only [List.mem_cons, List.not_mem_nil, or_false] at hc
    rcases hc with rfl | rfl | rfl | rfl
    · exact h _ (by omega)
    · exact h _ (by omega)
    · exact h _ (by omega)
    · exact he
  | case4 a b c rest ih =>
    have ha := a.toNat_lt
    have hb := b.toNat_lt
    have hc := c.toNat_lt
    intro x hx
    simp only [List.mem_cons] at hx
    rcases hx with rfl | rfl | rfl | rfl | hx
    · exact h _ (by omega)
    · exact h _ (by omega)
    · exact h _ (by omega)
    · exact h _ (by omega)
    · exact ih x hx

/-- decoding inverts encoding, for every length -/
theorem b64decode_b64encode (k : Bytes) : b64decode (b64encode k) = some k := by
  rw [b64decode, if_pos, a2bLoop_b64encode]
  simp only [List.all_eq_true, decide_eq_true_eq]
  exact fun c hc => (b64encode_plain k c hc).1

end Verif.Py

namespace Verif
open Mime

variable {K : Type}

/-! ## C26: folding -/

theorem chunks_flatten (n : Nat) (hn : 0 < n) (b : Nat) (s : Str) (h : s.length ≤ b) : (chunks n b s).flatten = s := by
  induction b generalizing s with
  | zero => cases s with
    | nil => rfl
    | cons => simp at h
  | succ b ih =>
    cases s with
    | nil => rfl
    | cons c s =>
      simp only [chunks, List.flatten_cons]
      rw [ih, List.take_append_drop]
      simp only [List.length_drop, List.length_cons] at h ⊢
      omega

theorem chunks_length (n b : Nat) (s : Str) : ∀ c ∈ chunks n b s, c.length ≤ n ∧ ∀ x ∈ c, x ∈ s := by
  induction b generalizing s with
  | zero => simp [chunks]
  | succ b ih =>
    cases s with
    | nil => simp [chunks]
    | cons a s =>
      intro c hc
      simp only [chunks, List.mem_cons] at hc
      rcases hc with rfl | hc
      · exact ⟨by simp only [List.length_take]; omega, fun x hx => List.mem_of_mem_take hx⟩
      · exact ⟨(ih _ c hc).1, fun x hx => List.mem_of_mem_drop ((ih _ c hc).2 x hx)⟩

theorem chunks_ne_nil (n : Nat) (hn : 0 < n) (b : Nat) (s : Str) : ∀ c ∈ chunks n b s, c ≠ [] := by
  induction b generalizing s with
  | zero => simp [chunks]
  | succ b ih =>
    cases s with
    | nil => simp [chunks]
    | cons a s =>
      intro c hc
      simp only [chunks, List.mem_cons] at hc
      rcases hc with rfl | hc
      · cases n with
        | zero => cases hn
        | succ n => simp
      · exact ih _ c hc

/-- stripping the end of lines, where the last one does not end in white space: the last newline goes -/
theorem rstrip_lines (cs : List Str) (last : Str) (hl : ∃ x ∈ last.getLast?, Py.isSpace x = false) :
    Py.rstrip ((cs ++ [last]).flatMap (fun c => str!"  " ++ c ++ ['\n'])) =
      (cs.flatMap (fun c => str!"  " ++ c ++ ['\n'])) ++ (str!"  " ++ last) := by
  obtain ⟨x, hx, hsp⟩ := hl
  have hx : last.getLast? = some x := hx
  obtain ⟨t, ht⟩ := List.getLast?_eq_some_iff.mp hx
  subst ht
  simp only [List.flatMap_append, List.flatMap_cons, List.flatMap_nil, List.append_nil, Py.rstrip]
  simp only [List.reverse_append, List.reverse_cons, List.reverse_nil, List.nil_append, List.cons_append,
    List.append_assoc, List.dropWhile_cons]
  rw [if_pos (by decide), hsp]
  simp

/-- C26: for text without white space, the folded text consists of lines of two blanks and 1 to 78 characters, and the
characters of all lines together are the text. -/
theorem C26_folding (s : Str) (hs : ∀ c ∈ s, Py.isSpace c = false) (hne : s ≠ []) :
    ∃ folded, indentedSplit s = .ok folded ∧ Py.removeSpace folded = s ∧
      ∀ l ∈ Py.split '\n' folded, l.length ≤ 80 ∧ ∃ t, l = str!"  " ++ t ∧ t ≠ [] ∧ ∀ c ∈ t, c ∈ s := by
  have hnl : '\n' ∉ s := fun h => by
    have := hs _ h
    revert this; decide
  refine ⟨_, by rw [indentedSplit, if_neg hnl], ?_⟩
  obtain ⟨cs, last, hcl⟩ : ∃ cs last, chunks 78 s.length s = cs ++ [last] := by
    have : chunks 78 s.length s ≠ [] := by
      intro h
      have := chunks_flatten 78 (by omega) s.length s (Nat.le_refl _)
      rw [h] at this; exact hne this.symm
    exact ⟨_, _, (List.dropLast_concat_getLast this).symm⟩
  have hlen := chunks_length 78 s.length s
  have hnil := chunks_ne_nil 78 (by omega) s.length s
  have hfl := chunks_flatten 78 (by omega) s.length s (Nat.le_refl _)
  rw [hcl] at hlen hnil hfl ⊢
  have hlast : ∃ x ∈ last.getLast?, Py.isSpace x = false := by
    have h1 := hnil last (by simp)
    refine ⟨last.getLast h1, List.getLast?_eq_some_getLast h1, hs _ ((hlen last (by simp)).2 _ (List.getLast_mem h1))⟩
  have hcs : ∀ c ∈ cs ++ [last], ∀ x ∈ c, Py.isSpace x = false := fun c hc x hx => hs x ((hlen c hc).2 x hx)
  constructor
  · rw [Py.removeSpace_rstrip]
    conv => rhs; rw [← hfl]
    clear hlen hnil hfl hcl hlast
    generalize cs ++ [last] = l at hcs
    induction l with
    | nil => rfl
    | cons c l ih =>
      rw [List.flatMap_cons, Py.removeSpace_append, ih (fun c hc => hcs c (List.mem_cons_of_mem _ hc)), Py.removeSpace_append,
        Py.removeSpace_append, Py.removeSpace_of_none (hcs c (List.mem_cons_self ..))]
      simp [Py.removeSpace, Py.isSpace]
  · rw [rstrip_lines cs last hlast]
    have key : ∀ l : List Str, (∀ c ∈ l, '\n' ∉ c) → '\n' ∉ last →
        Py.split '\n' (l.flatMap (fun c => str!"  " ++ c ++ ['\n']) ++ (str!"  " ++ last)) =
          (l ++ [last]).map (fun c => str!"  " ++ c) := by
      intro l hl1 hl2
      induction l with
      | nil =>
        rw [List.flatMap_nil, List.nil_append, Py.split_of_not_mem]
        · rfl
        · simp [hl2]
      | cons c l ih =>
        simp only [List.flatMap_cons, List.append_assoc]
        have : str!"  " ++ (c ++ (['\n'] ++ (l.flatMap (fun c => str!"  " ++ (c ++ ['\n'])) ++ (str!"  " ++ last)))) =
            (str!"  " ++ c) ++ '\n' :: (l.flatMap (fun c => str!"  " ++ c ++ ['\n']) ++ (str!"  " ++ last)) := by simp
        rw [this, Py.split_append, ih (fun c hc => hl1 c (List.mem_cons_of_mem _ hc)),
          Py.split_of_not_mem (by simpa using hl1 c (List.mem_cons_self ..))]
        simp
    have hnl' : ∀ c ∈ cs ++ [last], '\n' ∉ c := fun c hc hx => hnl ((hlen c hc).2 _ hx)
    rw [key cs (fun c hc => hnl' c (by simp [hc])) (hnl' last (by simp))]
    intro l hl
    obtain ⟨c, hc, rfl⟩ := List.mem_map.mp hl
    exact ⟨by have := (hlen c hc).1; simp; omega, c, rfl, hnil c hc, (hlen c hc).2⟩

/-- the base64 text of a key longer than one line -/
example : (∀ c ∈ Py.b64encode (List.replicate 100 7), Py.isSpace c = false) ∧ Py.b64encode (List.replicate 100 7) ≠ [] ∧
    (indentedSplit (Py.b64encode (List.replicate 100 7))).toOption.isSome := by decide +kernel

/-! ## C27: what a successful parse means -/

/-- the attributes of a header value: the parts between semicolons that are not blank, as pairs of name and value
(no value if there is no equals sign), without white space around them -/
def attrPairs (v : Str) : List (Str × Option Str) :=
  (((Py.split ';' v).map Py.strip).filter (· ≠ [])).map fun x =>
    (Py.strip (Py.split1 '=' x).1, (Py.split1 '=' x).2.map Py.strip)

/-- an attribute that a valid header may contain -/
def GoodAttr (p : Str × Option Str) : Prop :=
  ∃ val, p.2 = some val ∧
    (p.1 = str!"addr" ∨ (p.1 = str!"keydata" ∧ (Py.b64decode (Py.removeSpace val)).isSome) ∨
     (p.1 = str!"prefer-encrypt" ∧ (val = str!"nopreference" ∨ val = str!"mutual")) ∨ p.1.head? = some '_')

/-- the value of the last attribute of that name -/
def lastValue (name : Str) (l : List (Str × Option Str)) : Option Str :=
  (l.reverse.find? (fun p => p.1 = name)).bind (·.2)

theorem lastValue_cons (name : Str) (p : Str × Option Str) (l : List (Str × Option Str)) (hl : ∀ q ∈ l, q.2.isSome) :
    lastValue name (p :: l) = (lastValue name l).or (if p.1 = name then p.2 else none) := by
  unfold lastValue
  rw [List.reverse_cons, List.find?_append]
  cases h : l.reverse.find? (fun p => p.1 = name) with
  | none => by_cases hp : p.1 = name <;> simp [hp]
  | some q =>
    have hq := hl q (List.mem_reverse.mp (List.mem_of_find?_eq_some h))
    obtain ⟨x, hx⟩ := Option.isSome_iff_exists.mp hq
    simp [hx]

/-- the pair of name and value of one part -/
def attrPair (x : Str) : Str × Option Str := (Py.strip (Py.split1 '=' x).1, (Py.split1 '=' x).2.map Py.strip)

/-- the effect of a good attribute -/
def updAttr (env : Env) (s : ParseState) (p : Str × Option Str) : ParseState where
  addr := if p.1 = str!"addr" then p.2.map fun v => parseEmailAddr env (some v) else s.addr
  keydata := if p.1 = str!"keydata" then p.2.bind fun v => Py.b64decode (Py.removeSpace v) else s.keydata
  pe := if p.1 = str!"prefer-encrypt" then p.2.getD [] else s.pe
  extra := if p.1.head? = some '_' then dictSet s.extra p.1 (p.2.getD []) else s.extra

theorem parseAttr_good {env : Env} {s : ParseState} {x : Str} (h : GoodAttr (attrPair x)) :
    parseAttr env s x = .next (updAttr env s (attrPair x)) := by
  obtain ⟨val, hv, h⟩ := h
  rcases hs : Py.split1 '=' x with ⟨n, _ | v⟩
  · rw [attrPair, hs] at hv; cases hv
  rw [attrPair, hs] at hv h ⊢
  unfold parseAttr
  rw [hs]
  dsimp only [Option.map_some] at hv h ⊢
  generalize Py.strip n = name at h ⊢
  generalize Py.strip v = value at hv ⊢
  cases hv
  rcases h with rfl | ⟨rfl, h⟩ | ⟨rfl, h⟩ | h
  · rfl
  · obtain ⟨b, hb⟩ := Option.isSome_iff_exists.mp h
    rw [if_pos rfl, hb]
    unfold updAttr
    dsimp only [Option.bind_some]
    rw [hb]
    rfl
  · rw [if_neg (by decide), if_pos rfl, if_pos h]
    rfl
  · cases name with
    | nil => cases h
    | cons c t =>
      have hc : c = '_' := Option.some.inj h
      subst hc
      rw [if_neg (fun h => by cases h), if_neg (fun h => by cases h), if_neg (fun h => by cases h)]
      dsimp only
      rw [if_neg (fun h => h rfl)]
      unfold updAttr
      dsimp only
      rw [if_neg (fun h => by cases h), if_neg (fun h => by cases h), if_neg (fun h => by cases h), if_pos h]
      rfl

theorem parseAttr_next {env : Env} {s s' : ParseState} {x : Str} (h : parseAttr env s x = .next s') :
    GoodAttr (attrPair x) := by
  unfold parseAttr at h
  split at h
  · cases h
  rename_i n v hs
  rw [attrPair, hs]
  refine ⟨_, rfl, ?_⟩
  dsimp only at h ⊢
  split at h
  · rename_i hk
    split at h
    · cases h
    · rename_i b hb
      exact .inr (.inl ⟨hk, by rw [hb]; rfl⟩)
  split at h
  · rename_i hk
    split at h
    · rename_i hv
      exact .inr (.inr (.inl ⟨hk, hv⟩))
    · cases h
  split at h
  · rename_i hk; exact .inl hk
  split at h
  · cases h
  · rename_i c t hn
    split at h
    · cases h
    · rename_i hc
      rw [hn]
      exact .inr (.inr (.inr (by simp at hc; simp [hc])))

theorem parseAttrs_ok_iff {env : Env} {s s' : ParseState} {l : List Str} :
    parseAttrs env s l = .ok (.ok s') ↔ (∀ x ∈ l, GoodAttr (attrPair x)) ∧ s' = l.foldl (fun s x => updAttr env s (attrPair x)) s := by
  induction l generalizing s with
  | nil => simp [parseAttrs, eq_comm]
  | cons x l ih =>
    by_cases hx : GoodAttr (attrPair x)
    · simp only [parseAttrs, parseAttr_good hx, ih, List.forall_mem_cons, List.foldl_cons, hx, true_and]
    · simp only [parseAttrs, List.forall_mem_cons, hx, false_and, iff_false]
      split
      · rename_i h; exact absurd (parseAttr_next h) hx
      · simp
      · simp

theorem attributes_eq (v : Str) : attributes v = ((Py.split ';' v).map Py.strip).filter (· ≠ []) := by
  unfold attributes
  congr 1; funext x; cases x <;> simp

theorem attrPairs_eq (v : Str) : attrPairs v = (attributes v).map attrPair := by
  rw [attributes_eq]; rfl

theorem GoodAttr.isSome {p : Str × Option Str} (h : GoodAttr p) : p.2.isSome = true := by
  obtain ⟨v, h, _⟩ := h; rw [h]; rfl

theorem foldl_updAttr (env : Env) (l : List (Str × Option Str)) (hl : ∀ p ∈ l, GoodAttr p) (s : ParseState) :
    (l.foldl (updAttr env) s).addr = ((lastValue (str!"addr") l).map fun v => parseEmailAddr env (some v)).or s.addr ∧
    (l.foldl (updAttr env) s).keydata =
      ((lastValue (str!"keydata") l).bind fun v => Py.b64decode (Py.removeSpace v)).or s.keydata ∧
    (l.foldl (updAttr env) s).pe = (lastValue (str!"prefer-encrypt") l).getD s.pe := by
  induction l generalizing s with
  | nil => simp [lastValue]
  | cons p l ih =>
    rw [List.forall_mem_cons] at hl
    have hsome := fun q hq => (hl.2 q hq).isSome
    obtain ⟨h1, h2, h3⟩ := ih hl.2 (updAttr env s p)
    obtain ⟨val, hv, hg⟩ := hl.1
    rw [List.foldl_cons, h1, h2, h3, lastValue_cons _ _ _ hsome, lastValue_cons _ _ _ hsome, lastValue_cons _ _ _ hsome]
    have hlk : ∀ x, lastValue (str!"keydata") l = some x → (Py.b64decode (Py.removeSpace x)).isSome := by
      intro x hx
      unfold lastValue at hx
      cases hf : l.reverse.find? (fun p => p.1 = str!"keydata") with
      | none => rw [hf] at hx; cases hx
      | some q =>
        rw [hf] at hx
        obtain ⟨y, hy, hq⟩ := hl.2 q (List.mem_reverse.mp (List.mem_of_find?_eq_some hf))
        have hq1 : q.1 = str!"keydata" := by simpa using List.find?_some hf
        have : y = x := Option.some.inj (hy.symm.trans hx)
        subst this
        rw [hq1] at hq
        rcases hq with hq | hq | hq | hq
        · exact absurd hq (by decide)
        · exact hq.2
        · exact absurd hq.1 (by decide)
        · exact absurd hq (by decide)
    refine ⟨?_, ?_, ?_⟩
    · cases lastValue (str!"addr") l with
      | some x => rfl
      | none => simp only [updAttr]; split <;> simp [hv]
    · cases hk : lastValue (str!"keydata") l with
      | some x =>
        obtain ⟨b, hb⟩ := Option.isSome_iff_exists.mp (hlk x hk)
        simp [hb]
      | none =>
        simp only [updAttr, hv]
        split
        · rename_i hk'
          rcases hg with hg | hg | hg | hg
          · rw [hg] at hk'; exact absurd hk' (by decide)
          · obtain ⟨b, hb⟩ := Option.isSome_iff_exists.mp hg.2
            simp [hb]
          · rw [hg.1] at hk'; exact absurd hk' (by decide)
          · rw [hk'] at hg; exact absurd hg (by decide)
        · simp
    · cases lastValue (str!"prefer-encrypt") l with
      | some x => rfl
      | none => simp only [updAttr]; split <;> simp [hv]

/-- C27: a header value parses to a result with key `k`, address `a` and preference `pe` exactly if all its attributes
are well-formed and known or non-critical, the last `keydata` attribute is the base64 form of `k` up to white space,
`a` is the address in the last `addr` attribute, and `pe` is the last `prefer-encrypt` attribute, `nopreference` if
there is none. In any other case there is an error and no key, or no result at all. -/
theorem C27_parse_iff (env : Env) (v : Str) (k : Bytes) (a pe : Str) :
    (∃ ext, parseAcHeadervalue env v = .ok ⟨some k, some a, some pe, some ext, none⟩) ↔
      (∀ p ∈ attrPairs v, GoodAttr p) ∧
      (∃ b64, lastValue (str!"keydata") (attrPairs v) = some b64 ∧ Py.b64decode (Py.removeSpace b64) = some k) ∧
      (∃ x, lastValue (str!"addr") (attrPairs v) = some x ∧ a = address env (some x)) ∧
      pe = (lastValue (str!"prefer-encrypt") (attrPairs v)).getD (str!"nopreference") := by
  spec_mail
  by_cases hg : ∀ p ∈ attrPairs v, GoodAttr p
  · have hfold := foldl_updAttr env (attrPairs v) hg {}
    have hok : parseAttrs env {} (attributes v) = .ok (.ok ((attrPairs v).foldl (updAttr env) {})) := by
      rw [parseAttrs_ok_iff, attrPairs_eq, List.foldl_map]
      refine ⟨fun x hx => hg _ ?_, rfl⟩
      rw [attrPairs_eq]; exact List.mem_map.mpr ⟨x, hx, rfl⟩
    unfold parseAcHeadervalue
    rw [hok]
    generalize (attrPairs v).foldl (updAttr env) {} = s at hfold ⊢
    obtain ⟨h1, h2, h3⟩ := hfold
    simp only [Option.or_none] at h1 h2
    dsimp only
    cases hk : s.keydata with
    | none =>
      rw [hk] at h2
      simp only [ACResult.err, Except.ok.injEq, ACResult.mk.injEq]
      constructor
      · rintro ⟨_, h, _⟩; cases h
      · rintro ⟨_, ⟨b, hb1, hb2⟩, _⟩
        rw [hb1, Option.bind_some, hb2] at h2; cases h2
    | some k' =>
      rw [hk] at h2
      cases ha : s.addr with
      | none =>
        rw [ha] at h1
        constructor
        · rintro ⟨_, h⟩; cases h
        · rintro ⟨_, _, ⟨x, hx, _⟩, _⟩
          rw [hx] at h1; cases h1
      | some a' =>
        rw [ha] at h1
        dsimp only
        obtain ⟨x, hx1, hx2⟩ := Option.map_eq_some_iff.mp h1.symm
        obtain ⟨b, hb1, hb2⟩ := Option.bind_eq_some_iff.mp h2.symm
        rw [hx1, hb1, h3]
        constructor
        · rintro ⟨ext, h⟩
          have h := Except.ok.inj h
          simp only [ACResult.mk.injEq, Option.some.injEq] at h
          exact ⟨hg, ⟨b, rfl, h.1 ▸ hb2⟩, ⟨x, rfl, by rw [hx2, h.2.1]⟩, h.2.2.1.symm⟩
        · rintro ⟨_, ⟨b', hb, hb'⟩, ⟨x', hx, hx'⟩, hp⟩
          cases hb; cases hx
          rw [hb2] at hb'; cases hb'
          rw [hx2] at hx'; subst hx'
          exact ⟨_, by rw [hp]⟩
  · constructor
    · rintro ⟨ext, h⟩
      exfalso
      apply hg
      unfold parseAcHeadervalue at h
      split at h
      · cases h
      · cases h
      · rename_i s hs
        rw [attrPairs_eq]
        intro p hp
        obtain ⟨x, hx, rfl⟩ := List.mem_map.mp hp
        exact (parseAttrs_ok_iff.mp hs).1 x hx
    · rintro ⟨h, _⟩; exact absurd h hg

/-- a header value which is not the simplest one: folded key, unknown non-critical attribute, two settings -/
example : (∀ p ∈ attrPairs (str!"addr=Bob <BOB@x.org>; _x=1; prefer-encrypt=nopreference; prefer-encrypt = mutual;keydata=\n  AQ\n  I="),
      (GoodAttr p)) ∧
    parseAcHeadervalue Concrete.env (str!"addr=Bob <BOB@x.org>; _x=1; prefer-encrypt=nopreference; prefer-encrypt = mutual;keydata=\n  AQ\n  I=") =
      .ok ⟨some [1, 2], some (str!"bob@x.org"), some (str!"mutual"), some [(str!"_x", str!"1")], none⟩ := by
  refine ⟨?_, Except.eq_ok_of_toOption (by decide +kernel)⟩
  have h := (C27_parse_iff Concrete.env (str!"addr=Bob <BOB@x.org>; _x=1; prefer-encrypt=nopreference; prefer-encrypt = mutual;keydata=\n  AQ\n  I=")
    [1, 2] (str!"bob@x.org") (str!"mutual")).mp ⟨[(str!"_x", str!"1")], Except.eq_ok_of_toOption (by decide +kernel)⟩
  exact h.1

/-- C27 in the form of its consequences for any result without error -/
theorem C27_no_error (env : Env) (v : Str) (r : ACResult) (h : parseAcHeadervalue env v = .ok r) (he : r.error = none) :
    (∃ k a pe, r.keydata = some k ∧ r.addr = some a ∧ r.pe = some pe ∧ (pe = str!"nopreference" ∨ pe = str!"mutual")) ∧
    ∀ p ∈ attrPairs v, p.1 = str!"addr" ∨ p.1 = str!"keydata" ∨ p.1 = str!"prefer-encrypt" ∨ p.1.head? = some '_' := by
  rcases parseAcHeadervalue_shape h with ⟨e, hx⟩ | ⟨k, a, pe, ext, hx⟩
  · rw [hx] at he; cases he
  subst hx
  obtain ⟨hg, hk, ha, hp⟩ := (C27_parse_iff env v k a pe.toStr).mp ⟨ext, h⟩
  refine ⟨⟨k, a, pe.toStr, rfl, rfl, rfl, ?_⟩, ?_⟩
  · rw [hp]
    unfold lastValue
    cases hf : (attrPairs v).reverse.find? (fun p => p.1 = str!"prefer-encrypt") with
    | none => left; rfl
    | some q =>
      obtain ⟨y, hy, hq⟩ := hg q (List.mem_reverse.mp (List.mem_of_find?_eq_some hf))
      have hq1 : q.1 = str!"prefer-encrypt" := by simpa using List.find?_some hf
      rw [hq1] at hq
      rcases hq with hq | hq | hq | hq
      · exact absurd hq (by decide)
      · exact absurd hq.1 (by decide)
      · simpa [hy] using hq.2
      · exact absurd hq (by decide)
  · intro p hp
    obtain ⟨_, _, h | h | h | h⟩ := hg p hp
    · exact .inl h
    · exact .inr (.inl h.1)
    · exact .inr (.inr (.inl h.1))
    · exact .inr (.inr (.inr h))

/-! ## C25: round trip -/

/-- the attributes of two header values in a row -/
theorem attrPairs_append (v1 v2 : Str) : attrPairs (v1 ++ ';' :: v2) = attrPairs v1 ++ attrPairs v2 := by
  unfold attrPairs
  rw [Py.split_append, List.map_append, List.filter_append, List.map_append]

/-- the attributes of a header value with one attribute -/
theorem attrPairs_one {n v : Str} (h1 : ';' ∉ n) (h2 : ';' ∉ v) (h3 : '=' ∉ n) :
    attrPairs (n ++ '=' :: v) = [(Py.strip n, some (Py.strip v))] := by
  unfold attrPairs
  rw [Py.split_of_not_mem (by simp [h1, h2])]
  obtain ⟨n', v', he, hm, hn, hv⟩ := Py.strip_attr (n := n) (v := v)
  rw [List.map_singleton, he, List.filter_cons, if_pos (by simp), List.filter_nil, List.map_singleton,
    Py.split1_append (fun h => h3 (hm _ h))]
  dsimp only [Option.map_some]
  rw [hn, hv]

/-- C25: the header value made for an address, a key and a setting parses to the normal form of the address, the key
and the setting. The normal form must contain no semicolon and be a normal form of itself (without the white space
around it). -/
theorem C25_round_trip (env : Env) (addr : Option Str) (k : Bytes) (pe : Str) (hk : k ≠ [])
    (hpe : pe = str!"nopreference" ∨ pe = str!"mutual") (hsemi : ';' ∉ address env addr)
    (hstable : address env (some (Py.strip (address env addr))) = address env addr) :
    ∃ v, makeAcHeaderValue env addr k pe = .ok v ∧
      ∃ ext, parseAcHeadervalue env v = .ok ⟨some k, some (address env addr), some pe, some ext, none⟩ := by
  spec_mail
  have hb := Py.b64encode_plain k
  have hbne : Py.b64encode k ≠ [] := by
    intro h
    have := Py.b64decode_b64encode k
    rw [h] at this
    exact hk (Option.some.inj this).symm
  obtain ⟨folded, hf1, hf2, hf3⟩ := C26_folding (Py.b64encode k) (fun c hc => (hb c hc).2.1) hbne
  have hfs : ';' ∉ str!"\n" ++ folded := by
    intro h
    rw [List.mem_append] at h
    rcases h with h | h
    · revert h; decide
    · have : ';' ∈ Py.removeSpace folded := by
        rw [Py.removeSpace, List.mem_filter]; exact ⟨h, by decide⟩
      rw [hf2] at this
      exact (hb _ this).2.2 rfl
  generalize hA : parseEmailAddr env addr = A at hsemi hstable ⊢
  have hke : k.isEmpty = false := by cases k <;> simp_all
  have hkd : Py.b64decode (Py.removeSpace (Py.strip (str!"\n" ++ folded))) = some k := by
    rw [Py.removeSpace_strip, Py.removeSpace_append, hf2]
    exact Py.b64decode_b64encode k
  have p1 : attrPairs (str!"addr=" ++ A) = [(str!"addr", some (Py.strip A))] :=
    attrPairs_one (n := str!"addr") (v := A) (by decide) hsemi (by decide)
  have p3 : attrPairs (str!" keydata=\n" ++ folded) = [(str!"keydata", some (Py.strip (str!"\n" ++ folded)))] :=
    attrPairs_one (n := str!" keydata") (v := str!"\n" ++ folded) (by decide) hfs (by decide)
  have p2 : attrPairs (str!" prefer-encrypt=mutual") = [(str!"prefer-encrypt", some (str!"mutual"))] :=
    attrPairs_one (n := str!" prefer-encrypt") (v := str!"mutual") (by decide) (by decide) (by decide)
  unfold makeAcHeaderValue
  rw [hke, hf1, hA]
  refine ⟨_, rfl, ?_⟩
  rw [C27_parse_iff]
  rcases hpe with rfl | rfl
  · have hv : attrPairs (Py.join (str!"; ") ([str!"addr=" ++ A] ++
         (if str!"nopreference" ≠ str!"nopreference" then [str!"prefer-encrypt=" ++ str!"nopreference"] else []) ++
         [str!"keydata=\n" ++ folded])) = [(str!"addr", some (Py.strip A)), (str!"keydata", some (Py.strip (str!"\n" ++ folded)))] := by
      have : Py.join (str!"; ") ([str!"addr=" ++ A] ++
         (if str!"nopreference" ≠ str!"nopreference" then [str!"prefer-encrypt=" ++ str!"nopreference"] else []) ++
         [str!"keydata=\n" ++ folded]) = (str!"addr=" ++ A) ++ ';' :: (str!" keydata=\n" ++ folded) := by
        simp [Py.join]
      rw [this, attrPairs_append, p1, p3]; rfl
    rw [hv]
    refine ⟨?_, ⟨_, rfl, hkd⟩, ⟨_, rfl, hstable.symm⟩, rfl⟩
    intro p hp
    simp only [List.mem_cons, List.not_mem_nil, or_false] at hp
    rcases hp with rfl | rfl
    · exact ⟨_, rfl, .inl rfl⟩
    · exact ⟨_, rfl, .inr (.inl ⟨rfl, by rw [hkd]; rfl⟩)⟩
  · have hv : attrPairs (Py.join (str!"; ") ([str!"addr=" ++ A] ++
         (if str!"mutual" ≠ str!"nopreference" then [str!"prefer-encrypt=" ++ str!"mutual"] else []) ++
         [str!"keydata=\n" ++ folded])) = [(str!"addr", some (Py.strip A)), (str!"prefer-encrypt", some (str!"mutual")),
           (str!"keydata", some (Py.strip (str!"\n" ++ folded)))] := by
      have : Py.join (str!"; ") ([str!"addr=" ++ A] ++
         (if str!"mutual" ≠ str!"nopreference" then [str!"prefer-encrypt=" ++ str!"mutual"] else []) ++
         [str!"keydata=\n" ++ folded]) =
           (str!"addr=" ++ A) ++ ';' :: (str!" prefer-encrypt=mutual" ++ ';' :: (str!" keydata=\n" ++ folded)) := by
        simp [Py.join]
      rw [this, attrPairs_append, attrPairs_append, p1, p2, p3]; rfl
    rw [hv]
    refine ⟨?_, ⟨_, rfl, hkd⟩, ⟨_, rfl, hstable.symm⟩, rfl⟩
    intro p hp
    simp only [List.mem_cons, List.not_mem_nil, or_false] at hp
    rcases hp with rfl | rfl | rfl
    · exact ⟨_, rfl, .inl rfl⟩
    · exact ⟨_, rfl, .inr (.inr (.inl ⟨rfl, .inr rfl⟩))⟩
    · exact ⟨_, rfl, .inr (.inl ⟨rfl, by rw [hkd]; rfl⟩)⟩

open Concrete in
/-- an address with display name and capitals meets the hypotheses -/
example : ';' ∉ parseEmailAddr env (some (str!"Bob <BOB@x.org>")) ∧
    parseEmailAddr env (some (Py.strip (parseEmailAddr env (some (str!"Bob <BOB@x.org>"))))) =
      parseEmailAddr env (some (str!"Bob <BOB@x.org>")) := by decide +kernel

/-! ## C28: critical and non-critical attributes -/

/-- a parse result without the non-critical attributes -/
def ACResult.forget (r : ACResult) : ACResult := { r with extra := none }

/-- equal up to the non-critical attributes -/
def ParseState.Sim (s t : ParseState) : Prop := s.addr = t.addr ∧ s.keydata = t.keydata ∧ s.pe = t.pe

theorem parseAttr_sim {env : Env} {s t : ParseState} (h : ParseState.Sim s t) (x : Str) :
    (∃ s' t', parseAttr env s x = .next s' ∧ parseAttr env t x = .next t' ∧ ParseState.Sim s' t') ∨
    (parseAttr env s x = parseAttr env t x ∧ ∀ s', parseAttr env s x ≠ .next s') := by
  by_cases hg : GoodAttr (attrPair x)
  · left
    refine ⟨_, _, parseAttr_good hg, parseAttr_good hg, ?_⟩
    obtain ⟨h1, h2, h3⟩ := h
    unfold ParseState.Sim updAttr
    simp only [h1, h2, h3, and_self]
  · right
    refine ⟨?_, fun s' hs => hg (parseAttr_next hs)⟩
    rcases hs : parseAttr env s x with s' | e | e
    · exact absurd (parseAttr_next hs) hg
    all_goals
      rcases ht : parseAttr env t x with t' | e' | e'
      · exact absurd (parseAttr_next ht) hg
      all_goals
        revert hs ht
        unfold parseAttr
        split
        · intro h1 h2; cases h1 <;> cases h2 <;> rfl
        · dsimp only
          repeat' split
          all_goals intro h1 h2; cases h1 <;> cases h2 <;> rfl

/-- equal up to the non-critical attributes -/
def SimOut : Except Exc (Except AcErr ParseState) → Except Exc (Except AcErr ParseState) → Prop
  | .ok (.ok s), .ok (.ok t) => ParseState.Sim s t
  | a, b => a = b

theorem parseAttrs_sim {env : Env} {s t : ParseState} (h : ParseState.Sim s t) (l : List Str) :
    SimOut (parseAttrs env s l) (parseAttrs env t l) := by
  induction l generalizing s t with
  | nil => exact h
  | cons x l ih =>
    simp only [parseAttrs]
    rcases parseAttr_sim (env := env) h x with ⟨s', t', h1, h2, h3⟩ | ⟨h1, h2⟩
    · rw [h1, h2]; exact ih h3
    · rw [← h1]
      cases hs : parseAttr env s x with
      | next s' => exact absurd hs (h2 s')
      | ret e => rfl
      | exc e => rfl

theorem parseAttrs_insert {env : Env} {s : ParseState} {l1 l2 l : List Str}
    (hl : ∀ s x, x ∈ l → ∃ s', parseAttr env s x = .next s' ∧ ParseState.Sim s s') :
    SimOut (parseAttrs env s (l1 ++ l2)) (parseAttrs env s (l1 ++ (l ++ l2))) := by
  induction l1 generalizing s with
  | nil =>
    simp only [List.nil_append]
    have : ∀ s t, ParseState.Sim s t → SimOut (parseAttrs env s l2) (parseAttrs env t (l ++ l2)) := by
      induction l with
      | nil => exact fun s t h => parseAttrs_sim h l2
      | cons x l ih =>
        intro s t h
        obtain ⟨t', h1, h2⟩ := hl t x (List.mem_cons_self ..)
        simp only [List.cons_append, parseAttrs, h1]
        exact ih (fun s x hx => hl s x (List.mem_cons_of_mem _ hx)) s t'
          ⟨h.1.trans h2.1, h.2.1.trans h2.2.1, h.2.2.trans h2.2.2⟩
    exact this s s ⟨rfl, rfl, rfl⟩
  | cons x l1 ih =>
    simp only [List.cons_append, parseAttrs]
    cases parseAttr env s x with
    | next s' => exact ih
    | ret e => rfl
    | exc e => rfl

theorem attributes_append (v1 v2 : Str) : attributes (v1 ++ ';' :: v2) = attributes v1 ++ attributes v2 := by
  unfold attributes
  rw [Py.split_append, List.map_append, List.filter_append]

theorem parse_of_simOut {env : Env} {v v' : Str}
    (h : SimOut (parseAttrs env {} (attributes v)) (parseAttrs env {} (attributes v'))) :
    (parseAcHeadervalue env v).map ACResult.forget = (parseAcHeadervalue env v').map ACResult.forget := by
  unfold parseAcHeadervalue
  rcases h1 : parseAttrs env {} (attributes v) with e | e | s <;>
    rcases h2 : parseAttrs env {} (attributes v') with e' | e' | s' <;> rw [h1, h2] at h
  all_goals try (cases h; done)
  · cases h; rfl
  · cases h; rfl
  · obtain ⟨ha, hk, hp⟩ := h
    dsimp only
    rw [← ha, ← hk]
    cases s.keydata with
    | none => rfl
    | some k =>
      cases s.addr with
      | none => rfl
      | some a => simp [Except.map, ACResult.forget, hp]

/-- C28: an attribute whose name begins with an underscore, put at the end, at the beginning or between attributes of a
header value, does not change what comes out of parsing, except for the dictionary of such attributes. -/
theorem C28_non_critical (env : Env) (n val v1 v2 : Str) (h1 : ';' ∉ n) (h2 : ';' ∉ val) (h3 : '=' ∉ n)
    (h4 : (Py.strip n).head? = some '_') :
    (parseAcHeadervalue env (v1 ++ ';' :: (n ++ '=' :: val) ++ ';' :: v2)).map ACResult.forget =
      (parseAcHeadervalue env (v1 ++ ';' :: v2)).map ACResult.forget ∧
    (parseAcHeadervalue env (v1 ++ ';' :: (n ++ '=' :: val))).map ACResult.forget =
      (parseAcHeadervalue env v1).map ACResult.forget ∧
    (parseAcHeadervalue env ((n ++ '=' :: val) ++ ';' :: v2)).map ACResult.forget =
      (parseAcHeadervalue env v2).map ACResult.forget := by
  have hins : ∀ s x, x ∈ attributes (n ++ '=' :: val) → ∃ s', parseAttr env s x = .next s' ∧ ParseState.Sim s s' := by
    intro s x hx
    have hp : attrPair x ∈ attrPairs (n ++ '=' :: val) := by
      rw [attrPairs_eq]; exact List.mem_map.mpr ⟨x, hx, rfl⟩
    rw [attrPairs_one h1 h2 h3, List.mem_singleton] at hp
    have hg : GoodAttr (attrPair x) := ⟨Py.strip val, by rw [hp], .inr (.inr (.inr (by rw [hp]; exact h4)))⟩
    refine ⟨_, parseAttr_good hg, ?_⟩
    rw [hp]
    unfold ParseState.Sim updAttr
    dsimp only
    have hne : ∀ t : Str, t.head? ≠ some '_' → Py.strip n ≠ t := fun t ht h => ht (h ▸ h4)
    rw [if_neg (hne _ (by decide)), if_neg (hne _ (by decide)), if_neg (hne _ (by decide))]
    exact ⟨rfl, rfl, rfl⟩
  refine ⟨?_, ?_, ?_⟩
  · refine (parse_of_simOut ?_).symm
    rw [List.append_assoc, List.cons_append, attributes_append, attributes_append, attributes_append]
    exact parseAttrs_insert hins
  · refine (parse_of_simOut ?_).symm
    rw [attributes_append]
    have := parseAttrs_insert (env := env) (s := {}) (l1 := attributes v1) (l2 := []) hins
    simpa using this
  · refine (parse_of_simOut ?_).symm
    rw [attributes_append]
    exact parseAttrs_insert (env := env) (s := {}) (l1 := []) hins

example : ';' ∉ str!" _color" ∧ ';' ∉ str!"blue" ∧ '=' ∉ str!" _color" ∧ (Py.strip (str!" _color")).head? = some '_' := by
  decide

/-- C28: if some attribute has another unknown name (with or without value), there is no key: parsing gives a result
with an error, or raises. -/
theorem C28_critical (env : Env) (v : Str) (p : Str × Option Str) (hp : p ∈ attrPairs v)
    (h1 : p.1 ≠ str!"addr") (h2 : p.1 ≠ str!"keydata") (h3 : p.1 ≠ str!"prefer-encrypt") (h4 : p.1.head? ≠ some '_')
    (r : ACResult) (h : parseAcHeadervalue env v = .ok r) : r.error ≠ none ∧ r.keydata = none := by
  rcases parseAcHeadervalue_shape h with ⟨e, hx⟩ | ⟨k, a, pe, ext, hx⟩
  · subst hx; exact ⟨by simp [ACResult.err], rfl⟩
  · exfalso
    subst hx
    have hg := ((C27_parse_iff env v k a pe.toStr).mp ⟨ext, h⟩).1 p hp
    obtain ⟨_, _, hg | hg | hg | hg⟩ := hg
    · exact h1 hg
    · exact h2 hg.1
    · exact h3 hg.1
    · exact h4 hg

/-- such an attribute, and its position among others -/
example : (str!"color", some (str!"blue")) ∈ attrPairs (str!"addr=x; color=blue; keydata=AQI=") ∧
    (parseAcHeadervalue Concrete.env (str!"addr=x; color=blue; keydata=AQI=")).toOption.isSome := by decide +kernel

/-! ## C29: several headers -/

open Concrete in
/-- C29 is false: beside one valid header, a header with an attribute without name makes parsing raise. -/
theorem C29_refuted : ∃ m v, OnlyOne (fun v => ∃ r, ValidFor env bob v r) (m.getAll (str!"Autocrypt")) v ∧
    parseOneAcHeaderFromMsg env m [bob] = .error .indexError := by
  refine ⟨(mail bob (str!"1") (str!"100") [1, 2]).add (str!"Autocrypt") (str!"=x"),
    str!"addr=" ++ bob ++ str!"; keydata=" ++ Py.b64encode [1, 2], ⟨[], [str!"=x"], by decide +kernel, ?_, ?_⟩, by rfl⟩
  · exact ⟨⟨some [1, 2], some bob, some (str!"nopreference"), some [], none⟩,
      Except.eq_ok_of_toOption (by decide +kernel), rfl, rfl⟩
  · intro x hx
    simp only [List.nil_append, List.mem_singleton] at hx
    subst hx
    rintro ⟨r, h, _⟩
    cases h

/-- the result of a header value which is valid for the address `a` -/
def validOf (env : Env) (a v : Str) : Option ACResult :=
  match parseAcHeadervalue env v with
  | .ok r => if r.error = none ∧ r.addr = some a then some r else none
  | .error _ => none

theorem validOf_iff {env : Env} {a v : Str} {r : ACResult} : validOf env a v = some r ↔ ValidFor env a v r := by
  unfold validOf ValidFor
  cases parseAcHeadervalue env v with
  | error e => simp
  | ok r' =>
    dsimp only
    split
    · rename_i h
      constructor
      · intro h'; cases h'; exact ⟨rfl, h⟩
      · rintro ⟨h', _⟩; cases h'; rfl
    · rename_i h
      constructor
      · intro h'; cases h'
      · rintro ⟨h', h''⟩; cases h'; exact absurd h'' h

theorem collectAc_valid {env : Env} {a : Str} {vs : List Str} {rs es : List ACResult} (h : collectAc env [a] vs = .ok (rs, es)) :
    rs = vs.filterMap (validOf env a) ∧ ∀ r ∈ es, ∃ e, r = .err e := by
  induction vs generalizing rs es with
  | nil => cases h; simp
  | cons v vs ih =>
    simp only [collectAc] at h
    cases hp : parseAcHeadervalue env v with
    | error e => rw [hp] at h; cases h
    | ok r =>
      rw [hp] at h
      dsimp only at h
      cases hc : collectAc env [a] vs with
      | error e => rw [hc] at h; cases h
      | ok q =>
        obtain ⟨rs', es'⟩ := q
        rw [hc] at h
        dsimp only at h
        obtain ⟨h1, h2⟩ := ih hc
        rw [List.filterMap_cons, validOf, hp]
        dsimp only
        rcases parseAcHeadervalue_shape hp with ⟨e, rfl⟩ | ⟨k, a', pe, ext, rfl⟩
        · rw [if_pos (by rfl)] at h
          cases h
          rw [if_neg (by simp [ACResult.err])]
          refine ⟨h1, ?_⟩
          intro r hr
          rcases List.mem_cons.mp hr with rfl | hr
          · exact ⟨_, rfl⟩
          · exact h2 r hr
        · rw [if_neg (by simp)] at h
          by_cases ha : a' = a
          · subst ha
            rw [if_neg (by simp)] at h
            cases h
            rw [if_pos ⟨rfl, rfl⟩]
            exact ⟨by rw [← h1], h2⟩
          · rw [if_pos (by simp [ha])] at h
            cases h
            rw [if_neg (by simp [ha])]
            refine ⟨h1, ?_⟩
            intro r hr
            rcases List.mem_cons.mp hr with rfl | hr
            · exact ⟨_, rfl⟩
            · exact h2 r hr

/-- C29 for messages without a header that makes parsing raise (`HasNamelessAttr`, see `C24_parse_error`), which are no
reports and have at most one From address: if exactly one header is valid for the address in `x`, its result is the
result; if none is, or more than one, the result is an error without key. -/
theorem C29_several_partial (env : Env) (m : Msg) (x : Str) (hrep : m.contentType ≠ str!"multipart/report")
    (hfrom : (env.getaddresses (m.getAll (str!"From"))).length ≤ 1)
    (hnl : ∀ v ∈ m.getAll (str!"Autocrypt"), ¬ HasNamelessAttr v) (a : Str) (ha : a = address env (some x)) :
    (∀ v r, OnlyOne (fun v => ∃ r, ValidFor env a v r) (m.getAll (str!"Autocrypt")) v → ValidFor env a v r →
      parseOneAcHeaderFromMsg env m [x] = .ok r) ∧
    ((∀ v, ¬ OnlyOne (fun v => ∃ r, ValidFor env a v r) (m.getAll (str!"Autocrypt")) v) →
      ∃ e, parseOneAcHeaderFromMsg env m [x] = .ok (.err e)) := by
  spec_mail
  unfold parseOneAcHeaderFromMsg
  rw [if_neg hrep, if_neg (by omega), List.map_singleton, ← ha]
  generalize m.getAll (str!"Autocrypt") = vs at hnl ⊢
  cases hc : collectAc env [a] vs with
  | error e =>
    obtain ⟨v, hv, he⟩ := collectAc_error hc
    exact absurd (C24_parse_error he).2 (hnl v hv)
  | ok q =>
    obtain ⟨rs, es⟩ := q
    obtain ⟨h1, h2⟩ := collectAc_valid hc
    constructor
    · rintro v r ⟨pre, post, rfl, _, hno⟩ hv
      have hnone : ∀ l : List Str, (∀ y ∈ l, ¬ ∃ r, ValidFor env a y r) → l.filterMap (validOf env a) = [] := by
        intro l hl
        rw [List.filterMap_eq_nil_iff]
        intro y hy
        cases hvo : validOf env a y with
        | none => rfl
        | some r' => exact absurd ⟨r', validOf_iff.mp hvo⟩ (hl y hy)
      rw [List.filterMap_append, List.filterMap_cons, validOf_iff.mpr hv,
        hnone pre (fun y hy => hno y (List.mem_append_left _ hy)),
        hnone post (fun y hy => hno y (List.mem_append_right _ hy))] at h1
      subst h1
      rfl
    · intro hno
      match rs, h1 with
      | [], _ =>
        cases es with
        | nil => exact ⟨_, rfl⟩
        | cons e es =>
          obtain ⟨e', he'⟩ := h2 e (List.mem_cons_self ..)
          exact ⟨e', by rw [he']⟩
      | [r], h1 =>
        exfalso
        have h1 := h1.symm
        rw [List.filterMap_eq_cons_iff] at h1
        obtain ⟨l1, v, l2, rfl, hl1, hv, hl2⟩ := h1
        rw [List.filterMap_eq_nil_iff] at hl2
        refine hno v ⟨l1, l2, rfl, ⟨r, validOf_iff.mp hv⟩, ?_⟩
        rintro y hy ⟨r', hr'⟩
        have := validOf_iff.mpr hr'
        rcases List.mem_append.mp hy with hy | hy
        · rw [hl1 y hy] at this; cases this
        · rw [hl2 y hy] at this; cases this
      | _ :: _ :: _, _ => exact ⟨_, rfl⟩

open Concrete in
/-- a message with a valid and two invalid headers meets the hypotheses -/
example : ∃ m : Msg, m.contentType ≠ str!"multipart/report" ∧ (env.getaddresses (m.getAll (str!"From"))).length ≤ 1 ∧
    (∀ v ∈ m.getAll (str!"Autocrypt"), ¬ HasNamelessAttr v) ∧
    (∃ v, OnlyOne (fun v => ∃ r, ValidFor env bob v r) (m.getAll (str!"Autocrypt")) v) := by
  refine ⟨((mail bob (str!"1") (str!"100") [1, 2]).add (str!"Autocrypt") (str!"x")).add (str!"Autocrypt")
    (str!"addr=" ++ carol ++ str!"; keydata=" ++ Py.b64encode [1, 2]), by decide, by decide +kernel, ?_,
    str!"addr=" ++ bob ++ str!"; keydata=" ++ Py.b64encode [1, 2],
    [], [str!"x", str!"addr=" ++ carol ++ str!"; keydata=" ++ Py.b64encode [1, 2]], by decide +kernel, ?_, ?_⟩
  · have : ∀ v ∈ [str!"addr=" ++ bob ++ str!"; keydata=" ++ Py.b64encode [1, 2], str!"x",
        str!"addr=" ++ carol ++ str!"; keydata=" ++ Py.b64encode [1, 2]], ∀ p ∈ Py.split ';' v, (Py.strip p).head? ≠ some '=' := by
      decide +kernel
    intro v hv
    rintro ⟨p, hp, t, ht⟩
    exact this v hv p hp (by rw [ht]; rfl)
  · exact ⟨⟨some [1, 2], some bob, some (str!"nopreference"), some [], none⟩,
      Except.eq_ok_of_toOption (by decide +kernel), rfl, rfl⟩
  · have : ∀ v ∈ [str!"x", str!"addr=" ++ carol ++ str!"; keydata=" ++ Py.b64encode [1, 2]], validOf env bob v = none := by
      decide +kernel
    rintro y hy ⟨r, hr⟩
    have h := this y hy
    rw [validOf_iff.mpr hr] at h; cases h

end Verif
