import Verif.Lemmas.PyStr
import Verif.Py.Message
import Verif.Props.Header
import Mathlib.Data.List.Forall2
/-!
# C110: text and header fields

The model computes with texts and messages by functions that stand for those of python (`Verif/Py`), and many statements use the
same functions. Here each of them is determined by a description which does not mention it.
-/
namespace Verif

/-! ## the words -/

/-- the letters of ASCII, in upper and in lower case -/
def letters : List (Char × Char) :=
  (str!"ABCDEFGHIJKLMNOPQRSTUVWXYZ").zip (str!"abcdefghijklmnopqrstuvwxyz")

/-- the same character, or the same letter of ASCII in the other case -/
def SameLetter (a b : Char) : Prop := a = b ∨ (a, b) ∈ letters ∨ (b, a) ∈ letters

/-- an upper case letter of ASCII -/
def Upper (c : Char) : Prop := c ∈ str!"ABCDEFGHIJKLMNOPQRSTUVWXYZ"

/-- texts which differ at most in the case of letters of ASCII -/
def AnyCase (a b : Str) : Prop := List.Forall₂ SameLetter a b

/-- white space: the characters for which `str.isspace()` is true in python -/
def White (c : Char) : Prop :=
  c.toNat ∈ [9, 10, 11, 12, 13, 28, 29, 30, 31, 32, 0x85, 0xA0, 0x1680, 0x2000, 0x2001, 0x2002, 0x2003, 0x2004, 0x2005, 0x2006, 0x2007,
    0x2008, 0x2009, 0x200A, 0x2028, 0x2029, 0x202F, 0x205F, 0x3000]

/-- `x` is `s` without the white space around it -/
def Trimmed (s x : Str) : Prop :=
  ∃ a b, s = a ++ x ++ b ∧ (∀ c ∈ a, White c) ∧ (∀ c ∈ b, White c) ∧ (∀ c ∈ x.head?, ¬ White c) ∧ ∀ c ∈ x.getLast?, ¬ White c

/-- the parts of a text between separators -/
inductive Parts (sep : Char) : Str → List Str → Prop
  | last {s : Str} : sep ∉ s → Parts sep s [s]
  | more {s t : Str} {ps : List Str} : sep ∉ s → Parts sep t ps → Parts sep (s ++ sep :: t) (s :: ps)

/-- a line end: a single character, or a carriage return with a line feed -/
def LineEnd (e : Str) : Prop :=
  e = str!"\r\n" ∨ ∃ c, e = [c] ∧ c.toNat ∈ [10, 11, 12, 13, 28, 29, 30, 0x85, 0x2028, 0x2029]

/-- a character which ends no line -/
def Inline (c : Char) : Prop := c.toNat ∉ [10, 11, 12, 13, 28, 29, 30, 0x85, 0x2028, 0x2029]

/-- the lines of a text. A line end at the end of the text begins no further line. -/
inductive Lines : Str → List Str → Prop
  | none : Lines [] []
  | last {s : Str} : s ≠ [] → (∀ c ∈ s, Inline c) → Lines s [s]
  | more {s e t : Str} {ls : List Str} : (∀ c ∈ s, Inline c) → LineEnd e → (e = str!"\r" → t.head? ≠ some '\n') → Lines t ls →
      Lines (s ++ e ++ t) (s :: ls)

/-! ## C110 -/

theorem white_iff (c : Char) : White c ↔ Py.isSpace c = true := by
  unfold White Py.isSpace
  generalize c.toNat = n
  simp only [List.mem_cons, List.not_mem_nil, or_false, Bool.or_eq_true, Bool.and_eq_true, decide_eq_true_eq, beq_iff_eq]
  omega

theorem inline_iff (c : Char) : Inline c ↔ Py.isLineBreak c = false := by
  unfold Inline Py.isLineBreak
  generalize c.toNat = n
  simp only [List.mem_cons, List.not_mem_nil, or_false, Bool.or_eq_false_iff, Bool.and_eq_false_iff, decide_eq_false_iff_not, beq_eq_false_iff_ne]
  omega

theorem lineBreak_iff {c : Char} : Py.isLineBreak c = true ↔ c.toNat ∈ [10, 11, 12, 13, 28, 29, 30, 0x85, 0x2028, 0x2029] := by
  have := inline_iff c
  unfold Inline at this
  rw [← Bool.not_eq_false, ← this, not_not]

theorem lower_pair {a : Char} (h : 65 ≤ a.toNat ∧ a.toNat ≤ 90) : (a, Py.lowerChar a) ∈ letters := by
  have key : ∀ n < 91, 65 ≤ n → (Char.ofNat n, Py.lowerChar (Char.ofNat n)) ∈ letters := by decide +kernel
  have := key a.toNat (by omega) h.1
  rwa [Char.ofNat_toNat] at this

theorem lower_other {a : Char} (h : ¬ (65 ≤ a.toNat ∧ a.toNat ≤ 90)) : Py.lowerChar a = a := if_neg h

theorem letters_lower : ∀ x ∈ letters, Py.lowerChar x.1 = x.2 ∧ Py.lowerChar x.2 = x.2 ∧ x.2 ∉ str!"ABCDEFGHIJKLMNOPQRSTUVWXYZ" := by decide +kernel

theorem letters_inj : ∀ x ∈ letters, ∀ y ∈ letters, x.2 = y.2 → x.1 = y.1 := by decide +kernel

theorem sameLetter_iff (a b : Char) : Py.lowerChar a = Py.lowerChar b ↔ SameLetter a b := by
  constructor
  · intro h
    by_cases ha : 65 ≤ a.toNat ∧ a.toNat ≤ 90 <;> by_cases hb : 65 ≤ b.toNat ∧ b.toNat ≤ 90
    · exact .inl (letters_inj _ (lower_pair ha) _ (lower_pair hb) h)
    · rw [lower_other hb] at h
      exact .inr (.inl (h ▸ lower_pair ha))
    · rw [lower_other ha] at h
      exact .inr (.inr (h ▸ lower_pair hb))
    · rw [lower_other ha, lower_other hb] at h
      exact .inl h
  · rintro (h | h | h)
    · rw [h]
    · exact (letters_lower _ h).1.trans (letters_lower _ h).2.1.symm
    · exact (letters_lower _ h).2.1.trans (letters_lower _ h).1.symm

theorem anyCase_iff {a b : Str} : Py.lower a = Py.lower b ↔ AnyCase a b := by
  unfold AnyCase Py.lower
  induction a generalizing b with
  | nil => cases b <;> simp
  | cons x xs ih =>
    cases b with
    | nil => simp
    | cons y ys => simp only [List.map_cons, List.cons.injEq, List.forall₂_cons, sameLetter_iff, ih]

/-- C110: `lower` changes exactly the upper case letters of ASCII, into the lower case ones; so texts agree after it exactly if they
differ at most in the case of these letters -/
theorem C110_lower (a b : Str) : (Py.lower a = Py.lower b ↔ AnyCase a b) ∧ (Py.lower a = b ↔ AnyCase a b ∧ ∀ c ∈ b, ¬ Upper c) := by
  have up : ∀ c : Char, ¬ Upper (Py.lowerChar c) := by
    intro c
    by_cases hc : 65 ≤ c.toNat ∧ c.toNat ≤ 90
    · exact (letters_lower _ (lower_pair hc)).2.2
    · rw [lower_other hc]
      intro h
      exact hc ((by decide : ∀ c ∈ str!"ABCDEFGHIJKLMNOPQRSTUVWXYZ", 65 ≤ c.toNat ∧ c.toNat ≤ 90) c h)
  have idem : ∀ c : Char, ¬ Upper c → Py.lowerChar c = c := by
    intro c hc
    refine lower_other fun h => hc ?_
    exact (List.of_mem_zip (lower_pair h)).1
  refine ⟨anyCase_iff, ?_, ?_⟩
  · rintro rfl
    refine ⟨anyCase_iff.mp ?_, ?_⟩
    · unfold Py.lower
      rw [List.map_map]
      exact List.map_congr_left fun c _ => (idem _ (up c)).symm
    · intro c hc
      obtain ⟨x, -, rfl⟩ := List.mem_map.mp hc
      exact up x
  · rintro ⟨h, hb⟩
    rw [anyCase_iff.mpr h]
    unfold Py.lower
    exact (List.map_congr_left fun c hc => idem c (hb c hc)).trans (List.map_id _)

/-- C110: `strip` removes the white space around a text, and nothing else -/
theorem C110_strip (s x : Str) : Py.strip s = x ↔ Trimmed s x := by
  have hw : ∀ {c}, ¬ White c ↔ Py.isSpace c = false := fun {c} => by rw [white_iff]; simp
  constructor
  · rintro rfl
    obtain ⟨a, ha, ha'⟩ := Py.lstrip_append s
    obtain ⟨b, hb, hb'⟩ := Py.rstrip_append (Py.lstrip s)
    refine ⟨a, b, ?_, fun c hc => (white_iff c).mpr (ha' c hc), fun c hc => (white_iff c).mpr (hb' c hc), ?_, ?_⟩
    · rw [List.append_assoc, Py.strip, ← hb, ← ha]
    · intro c hc
      cases hs : Py.strip s with
      | nil => rw [hs] at hc; cases hc
      | cons d t =>
        rw [hs] at hc
        cases hc
        exact hw.mpr (Py.strip_head hs)
    · intro c hc
      rw [Py.strip, Py.rstrip, List.getLast?_reverse] at hc
      cases hs : List.dropWhile Py.isSpace (Py.lstrip s).reverse with
      | nil => rw [hs] at hc; cases hc
      | cons d t =>
        rw [hs] at hc
        cases hc
        exact hw.mpr (Py.dropWhile_head hs)
  · rintro ⟨a, b, rfl, ha, hb, h1, h2⟩
    rw [Py.strip_append_space (fun c hc => (white_iff c).mp (hb c hc)), ← Py.strip_lstrip,
      Py.lstrip_space_append (fun c hc => (white_iff c).mp (ha c hc)), Py.strip_lstrip]
    exact Py.strip_eq_self (fun c hc => hw.mp (h1 c hc)) (fun c hc => hw.mp (h2 c hc))

/-- C110: `"".join(s.split())` is the text without its white space -/
theorem C110_removeSpace (s x : Str) :
    Py.removeSpace s = x ↔ x.Sublist s ∧ (∀ c ∈ x, ¬ White c) ∧ ∀ c, ¬ White c → x.count c = s.count c := by
  have hw : ∀ {c}, ¬ White c ↔ (!Py.isSpace c) = true := fun {c} => by rw [white_iff]; simp
  constructor
  · rintro rfl
    exact ⟨List.filter_sublist, fun c hc => hw.mpr (List.mem_filter.mp hc).2,
      fun c hc => List.count_filter (p := fun c => !Py.isSpace c) (hw.mp hc)⟩
  · rintro ⟨h1, h2, h3⟩
    have hs : x.Sublist (Py.removeSpace s) := by
      have := h1.filter (fun c => !Py.isSpace c)
      rwa [List.filter_eq_self.mpr fun c hc => hw.mp (h2 c hc)] at this
    refine (hs.eq_of_length (List.Perm.length_eq (List.perm_iff_count.mpr fun c => ?_))).symm
    by_cases hc : White c
    · rw [List.count_eq_zero_of_not_mem fun h => h2 c h hc]
      refine (List.count_eq_zero_of_not_mem fun h => ?_).symm
      exact hw.mpr ((List.mem_filter (p := fun c => !Py.isSpace c)).mp h).2 hc
    · rw [h3 c hc]
      exact (List.count_filter (p := fun c => !Py.isSpace c) (hw.mp hc)).symm

/-- C110: `split` gives the parts between the separators -/
theorem C110_split (sep : Char) (s : Str) (ps : List Str) : Py.split sep s = ps ↔ Parts sep s ps := by
  constructor
  · rintro rfl
    induction s with
    | nil => exact .last (by simp)
    | cons c cs ih =>
      rw [Py.split]
      by_cases h : c = sep
      · rw [if_pos h, h]
        exact .more (s := []) (by simp) ih
      · rw [if_neg h]
        generalize Py.split sep cs = ps at ih ⊢
        cases ih with
        | last hn => exact .last (by simp [hn, Ne.symm h])
        | more hn hp => exact .more (s := c :: _) (by simp [hn, Ne.symm h]) hp
  · intro h
    induction h with
    | last hn => exact Py.split_of_not_mem hn
    | more hn _ ih => rw [Py.split_append, Py.split_of_not_mem hn, ih]; rfl

/-- C110: `split(sep, 1)` divides a text at the first separator -/
theorem C110_split1 (sep : Char) (s a : Str) (r : Option Str) :
    Py.split1 sep s = (a, r) ↔ sep ∉ a ∧ s = a ++ (r.map (sep :: ·)).getD [] := by
  cases r with
  | none =>
    constructor
    · intro h
      obtain ⟨rfl, h2⟩ := Py.split1_none h
      exact ⟨h2, by simp⟩
    · rintro ⟨h, rfl⟩
      simpa using Py.split1_not_mem h
  | some r =>
    constructor
    · intro h
      obtain ⟨h1, h2⟩ := Py.split1_some h
      exact ⟨h2, h1⟩
    · rintro ⟨h, rfl⟩
      exact Py.split1_append h

theorem splitlinesAux_cr (cs : Str) :
    Py.splitlinesAux true [] cs = Py.splitlinesAux false [] (if cs.head? = some '\n' then cs.tail else cs) := by
  cases cs with
  | nil => rfl
  | cons c cs =>
    by_cases h : c = '\n'
    · subst h; rfl
    · rw [if_neg (by simpa using h)]
      simp [Py.splitlinesAux, h]

theorem splitlinesAux_inline (s : Str) (hs : ∀ c ∈ s, Inline c) (rest acc : Str) :
    Py.splitlinesAux false acc (s ++ rest) = Py.splitlinesAux false (s.reverse ++ acc) rest := by
  induction s generalizing acc with
  | nil => rfl
  | cons c cs ih =>
    rw [List.cons_append, Py.splitlinesAux, (inline_iff c).mp (hs c (by simp)), Bool.false_and, if_neg (by simp), if_neg (by simp),
      ih (fun d hd => hs d (by simp [hd]))]
    simp

theorem lines_aux (n : Nat) : ∀ cs : Str, cs.length ≤ n → ∀ acc : Str, (∀ c ∈ acc, Inline c) →
    Lines (acc.reverse ++ cs) (Py.splitlinesAux false acc cs) := by
  induction n with
  | zero =>
    intro cs hn acc ha
    cases cs with
    | cons c cs => simp at hn
    | nil =>
      cases acc with
      | nil => exact .none
      | cons a as =>
        rw [List.append_nil]
        exact .last (by simp) fun c hc => ha c (List.mem_reverse.mp hc)
  | succ n ih =>
    intro cs hn acc ha
    cases cs with
    | nil =>
      cases acc with
      | nil => exact .none
      | cons a as =>
        rw [List.append_nil]
        exact .last (by simp) fun c hc => ha c (List.mem_reverse.mp hc)
    | cons c cs =>
      have hn' : cs.length ≤ n := by simpa using hn
      have ha' : ∀ c ∈ acc.reverse, Inline c := fun c hc => ha c (List.mem_reverse.mp hc)
      rw [Py.splitlinesAux, Bool.false_and, if_neg (by simp)]
      by_cases hb : Py.isLineBreak c = true
      · rw [if_pos hb]
        have he : LineEnd [c] := by
          refine .inr ⟨c, rfl, ?_⟩
          exact lineBreak_iff.mp hb
        by_cases hc : c = '\r'
        · subst hc
          rw [beq_self_eq_true, splitlinesAux_cr]
          split
          next hh =>
            cases cs with
            | nil => cases hh
            | cons d ds =>
              cases hh
              have := ih ds (by simp at hn'; omega) [] (by simp)
              have := Lines.more ha' (.inl rfl) (fun h => by cases h) this
              simpa using this
          next hh =>
            have := ih cs hn' [] (by simp)
            have := Lines.more ha' he (fun _ => hh) this
            simpa using this
        · rw [(beq_eq_false_iff_ne (a := c) (b := '\r')).mpr hc]
          have := ih cs hn' [] (by simp)
          have := Lines.more ha' he (fun h => absurd (by simpa using h) hc) this
          simpa using this
      · rw [if_neg hb]
        have := ih cs hn' (c :: acc) (by
          intro d hd
          rcases List.mem_cons.mp hd with rfl | hd
          · exact (inline_iff _).mpr (by simpa using hb)
          · exact ha d hd)
        simpa using this

/-- C110: `splitlines` gives the lines of a text -/
theorem C110_splitlines (s : Str) (ls : List Str) : Py.splitlines s = ls ↔ Lines s ls := by
  constructor
  · rintro rfl
    exact lines_aux s.length s (Nat.le_refl _) [] (by simp)
  · intro h
    unfold Py.splitlines
    induction h with
    | none => rfl
    | @last s hn hs =>
      have := splitlinesAux_inline s hs [] []
      rw [List.append_nil, List.append_nil] at this
      rw [this, Py.splitlinesAux, if_neg (by simpa using hn), List.reverse_reverse]
    | @more s e t ls hs he ht _ ih =>
      rw [List.append_assoc, splitlinesAux_inline s hs, List.append_nil]
      rcases he with rfl | ⟨c, rfl, hc⟩
      · show Py.splitlinesAux false s.reverse ('\r' :: '\n' :: t) = _
        rw [Py.splitlinesAux]
        show s.reverse.reverse :: Py.splitlinesAux true [] ('\n' :: t) = _
        rw [splitlinesAux_cr, List.reverse_reverse]
        show s :: Py.splitlinesAux false [] t = _
        rw [ih]
      · have hb : Py.isLineBreak c = true := by
          exact lineBreak_iff.mpr hc
        rw [List.cons_append, List.nil_append, Py.splitlinesAux, Bool.false_and, if_neg (by simp), if_pos hb, List.reverse_reverse]
        by_cases hr : c = '\r'
        · subst hr
          rw [beq_self_eq_true, splitlinesAux_cr, if_neg (ht rfl), ih]
        · rw [(beq_eq_false_iff_ne (a := c) (b := '\r')).mpr hr, ih]

/-- C110: `startswith`, `in` and `s[-i:]` -/
theorem C110_parts (p s : Str) (i : Nat) (hi : 0 < i) :
    (Py.startsWith p s = true ↔ p <+: s) ∧ (Py.contains p s = true ↔ p <:+: s) ∧
    (Py.lastN i s <:+ s ∧ (Py.lastN i s).length = min i s.length) := by
  refine ⟨by simp [Py.startsWith], ?_, ?_⟩
  · induction s with
    | nil => simp [Py.contains]
    | cons c cs ih => rw [Py.contains, Bool.or_eq_true, ih, List.infix_cons_iff]; simp
  · rw [Py.lastN, if_neg (by omega)]
    exact ⟨List.drop_suffix _ _, by rw [List.length_drop]; omega⟩

/-- C110: `sep.join(parts)` -/
theorem C110_join (sep : Char) (ps : List Str) (hp : ps ≠ []) : (∀ p ∈ ps, sep ∉ p) ↔ Parts sep (Py.join [sep] ps) ps := by
  constructor
  · intro h
    induction ps with
    | nil => exact absurd rfl hp
    | cons x xs ih =>
      cases xs with
      | nil => exact .last (h x (by simp))
      | cons y ys =>
        rw [Py.join, List.append_assoc]
        exact .more (h x (by simp)) (ih (by simp) fun p hm => h p (by simp [hm]))
  · intro h
    generalize Py.join [sep] ps = s at h
    induction h with
    | last hn => simpa using hn
    | @more s t ps hn hp' ih =>
      intro p hm
      rcases List.mem_cons.mp hm with rfl | hm
      · exact hn
      · exact ih (by rintro rfl; cases hp') p hm

/-- the order of python on texts: the first difference decides, by code points -/
def TextLe (a b : Str) : Prop :=
  (∃ t, b = a ++ t) ∨ ∃ p x y a' b', a = p ++ x :: a' ∧ b = p ++ y :: b' ∧ x.toNat < y.toNat

theorem strLe_textLe {a b : Str} : Py.strLe a b = true ↔ TextLe a b := by
  induction a generalizing b with
  | nil => simp [Py.strLe, TextLe]
  | cons x xs ih =>
    cases b with
    | nil => simp [Py.strLe, TextLe]
    | cons y ys =>
      rw [Py.strLe]
      constructor
      · intro h
        by_cases h1 : x.toNat < y.toNat
        · exact .inr ⟨[], x, y, xs, ys, rfl, rfl, h1⟩
        · rw [if_neg h1] at h
          by_cases h2 : y.toNat < x.toNat
          · rw [if_pos h2] at h; cases h
          · rw [if_neg h2, ih] at h
            have : x = y := Char.toNat_inj.mp (by omega)
            subst this
            rcases h with ⟨t, rfl⟩ | ⟨p, u, v, a', b', rfl, rfl, hlt⟩
            · exact .inl ⟨t, rfl⟩
            · exact .inr ⟨x :: p, u, v, a', b', rfl, rfl, hlt⟩
      · rintro (⟨t, h⟩ | ⟨p, u, v, a', b', h1, h2, hlt⟩)
        · cases h
          rw [if_neg (by omega), if_neg (by omega)]
          exact ih.mpr (.inl ⟨t, rfl⟩)
        · cases p with
          | nil =>
            cases h1; cases h2
            rw [if_pos hlt]
          | cons q p =>
            cases h1; cases h2
            rw [if_neg (by omega), if_neg (by omega)]
            exact ih.mpr (.inr ⟨p, u, v, a', b', rfl, rfl, hlt⟩)

theorem insertSorted_textLe (x : Str) (l : List Str) (h : l.Pairwise (fun a b => Py.strLe a b = true)) :
    (Py.insertSorted x l).Pairwise (fun a b => Py.strLe a b = true) ∧ (Py.insertSorted x l).Perm (x :: l) := by
  induction l with
  | nil => exact ⟨by simp [Py.insertSorted], .refl _⟩
  | cons y ys ih =>
    rw [Py.insertSorted]
    obtain ⟨hy, hys⟩ := List.pairwise_cons.mp h
    split
    next hle =>
      refine ⟨List.pairwise_cons.mpr ⟨fun z hz => ?_, h⟩, .refl _⟩
      rcases List.mem_cons.mp hz with rfl | hz
      · exact hle
      · exact strLe_trans hle (hy z hz)
    next hle =>
      obtain ⟨h1, h2⟩ := ih hys
      refine ⟨List.pairwise_cons.mpr ⟨fun z hz => ?_, h1⟩, (List.Perm.cons y h2).trans (.swap _ _ _)⟩
      rcases List.mem_cons.mp (h2.mem_iff.mp hz) with rfl | hz
      · exact (strLe_total z y).resolve_left hle
      · exact hy z hz

/-- C110: `sorted` gives the same texts, each before those which are greater -/
theorem C110_sorted (l : List Str) : (Py.sorted l).Perm l ∧ (Py.sorted l).Pairwise TextLe := by
  suffices (Py.sorted l).Perm l ∧ (Py.sorted l).Pairwise (fun a b => Py.strLe a b = true) from
    ⟨this.1, this.2.imp strLe_textLe.mp⟩
  induction l with
  | nil => exact ⟨.refl _, .nil⟩
  | cons x xs ih =>
    obtain ⟨h1, h2⟩ := insertSorted_textLe x _ ih.2
    exact ⟨h2.trans (List.Perm.cons x ih.1), h1⟩

/-- the value of decimal digits -/
def digitsValue (s : Str) : Nat := s.foldl (fun v c => 10 * v + (c.toNat - 48)) 0

/-- C110: `str(n)` for a natural number: decimal digits with this value, without a zero in front -/
theorem C110_number (n : Nat) : digitsValue (Py.natToStr n) = n ∧ (∀ c ∈ Py.natToStr n, c ∈ str!"0123456789") ∧
    (Py.natToStr n).head? ≠ none ∧ ((Py.natToStr n).head? = some '0' → Py.natToStr n = str!"0") := by
  have dig : ∀ d < 10, Nat.digitChar d ∈ str!"0123456789" := by decide
  have dig0 : ∀ d < 10, Nat.digitChar d = '0' → d = 0 := by decide
  have key : ∀ n, (∀ c ∈ Nat.toDigits 10 n, c ∈ str!"0123456789") ∧ ((Nat.toDigits 10 n).head? = some '0' → n = 0) := by
    intro n
    induction n using Nat.strongRecOn with
    | ind n ih =>
      by_cases h : n < 10
      · rw [Nat.toDigits_of_lt_base h]
        exact ⟨by simpa using dig n h, fun e => dig0 n h (by simpa using e)⟩
      · rw [Nat.toDigits_of_base_le (by omega) (by omega)]
        obtain ⟨h1, h2⟩ := ih (n / 10) (by omega)
        constructor
        · intro c hc
          rcases List.mem_append.mp hc with hc | hc
          · exact h1 c hc
          · rw [List.mem_singleton.mp hc]; exact dig _ (by omega)
        · intro e
          rw [List.head?_append_of_ne_nil _ Nat.toDigits_ne_nil] at e
          have := h2 e
          omega
  refine ⟨?_, (key n).1, ?_, fun h => ?_⟩
  · exact Nat.ofDigitChars_eq_foldl.symm.trans (Nat.ofDigitChars_toDigits (by omega) (by omega))
  · cases h : Py.natToStr n with
    | nil => exact absurd h Nat.toDigits_ne_nil
    | cons c cs => simp
  · rw [(key n).2 h]; decide

/-! ## base64 -/

/-- the lowest `w` bits of a number, the highest first -/
def bits (w n : Nat) : List Nat := (List.range w).reverse.map fun i => n / 2 ^ i % 2

/-- the alphabet of base64, RFC 4648 table 1 -/
def base64Alphabet : Str := str!"ABCDEFGHIJKLMNOPQRSTUVWXYZabcdefghijklmnopqrstuvwxyz0123456789+/"

/-- the base64 form of data, RFC 4648, 4: the bits in groups of six, filled up with zeros; then filled up to a multiple of four
characters with `=` -/
def Base64 (data : Bytes) (text : Str) : Prop :=
  ∃ (groups : List Nat) (k : Nat), text = groups.filterMap (base64Alphabet[·]?) ++ List.replicate k '=' ∧ (∀ n ∈ groups, n < 64) ∧
    (groups.length + k) % 4 = 0 ∧ k < 3 ∧
    groups.flatMap (bits 6) = data.flatMap (fun b => bits 8 b.toNat) ++ List.replicate (2 * k) 0

theorem b64Char_eq : ∀ n < 64, base64Alphabet[n]? = some (Py.b64Char n) := by decide +kernel

theorem filterMap_b64 (l : List Nat) (h : ∀ n ∈ l, n < 64) : l.filterMap (base64Alphabet[·]?) = l.map Py.b64Char := by
  induction l with
  | nil => rfl
  | cons n l ih =>
    rw [List.filterMap_cons, b64Char_eq n (h n (by simp))]
    simp only [List.map_cons]
    rw [ih fun m hm => h m (by simp [hm])]

theorem bits6 (n : Nat) : bits 6 n = [n / 32 % 2, n / 16 % 2, n / 8 % 2, n / 4 % 2, n / 2 % 2, n / 1 % 2] := rfl
theorem bits8 (n : Nat) : bits 8 n = [n / 128 % 2, n / 64 % 2, n / 32 % 2, n / 16 % 2, n / 8 % 2, n / 4 % 2, n / 2 % 2, n / 1 % 2] := rfl

/-- C110: `b64encode` -/
theorem C110_base64 (data : Bytes) : Base64 data (Py.b64encode data) := by
  suffices ∃ (groups : List Nat) (k : Nat), Py.b64encode data = groups.map Py.b64Char ++ List.replicate k '=' ∧ (∀ n ∈ groups, n < 64) ∧
      (groups.length + k) % 4 = 0 ∧ k < 3 ∧
      groups.flatMap (bits 6) = data.flatMap (fun b => bits 8 b.toNat) ++ List.replicate (2 * k) 0 by
    obtain ⟨g, k, h1, h2, h3⟩ := this
    exact ⟨g, k, by rw [filterMap_b64 g h2]; exact h1, h2, h3⟩
  induction data using Py.b64encode.induct with
  | case1 => exact ⟨[], 0, rfl, by simp, rfl, by omega, rfl⟩
  | case2 a =>
    have := a.toNat_lt
    refine ⟨[a.toNat / 4, a.toNat % 4 * 16], 2, rfl, ?_, by simp, by omega, ?_⟩
    · intro n hn
      simp only [List.mem_cons, List.not_mem_nil, or_false] at hn
      omega
    · simp only [List.flatMap_cons, List.flatMap_nil, bits6, bits8, List.cons_append, List.nil_append, List.cons.injEq, List.append_nil,
        List.replicate]
      refine ⟨?_, ?_, ?_, ?_, ?_, ?_, ?_, ?_, ?_, ?_, ?_, ?_, trivial⟩ <;> omega
  | case3 a b =>
    have := a.toNat_lt
    have := b.toNat_lt
    refine ⟨[a.toNat / 4, a.toNat % 4 * 16 + b.toNat / 16, b.toNat % 16 * 4], 1, rfl, ?_, by simp, by omega, ?_⟩
    · intro n hn
      simp only [List.mem_cons, List.not_mem_nil, or_false] at hn
      omega
    · simp only [List.flatMap_cons, List.flatMap_nil, bits6, bits8, List.cons_append, List.nil_append, List.cons.injEq, List.append_nil,
        List.replicate]
      refine ⟨?_, ?_, ?_, ?_, ?_, ?_, ?_, ?_, ?_, ?_, ?_, ?_, ?_, ?_, ?_, ?_, ?_, ?_, trivial⟩ <;> omega
  | case4 a b c rest ih =>
    obtain ⟨g, k, h1, h2, h3, h4, h5⟩ := ih
    have := a.toNat_lt
    have := b.toNat_lt
    have := c.toNat_lt
    refine ⟨a.toNat / 4 :: (a.toNat % 4 * 16 + b.toNat / 16) :: (b.toNat % 16 * 4 + c.toNat / 64) :: c.toNat % 64 :: g, k,
      by rw [Py.b64encode, h1]; rfl, ?_, by simp only [List.length_cons]; omega, h4, ?_⟩
    · intro n hn
      simp only [List.mem_cons] at hn
      rcases hn with rfl | rfl | rfl | rfl | hn
      · omega
      · omega
      · omega
      · omega
      · exact h2 n hn
    · simp only [List.flatMap_cons, h5, bits6, bits8, List.cons_append, List.nil_append, List.cons.injEq]
      refine ⟨?_, ?_, ?_, ?_, ?_, ?_, ?_, ?_, ?_, ?_, ?_, ?_, ?_, ?_, ?_, ?_, ?_, ?_, ?_, ?_, ?_, ?_, ?_, ?_, trivial⟩ <;> omega

theorem mem_alphabet {c : Char} : c ∈ base64Alphabet ↔ (Py.b64Val c).isSome = true := by
  constructor
  · exact (by decide +kernel : ∀ c ∈ base64Alphabet, (Py.b64Val c).isSome = true) c
  · intro h
    have key : ∀ n < 128, (Py.b64Val (Char.ofNat n)).isSome = true → Char.ofNat n ∈ base64Alphabet := by decide +kernel
    have hlt : c.toNat < 128 := by
      unfold Py.b64Val at h
      simp only at h
      repeat' split at h
      all_goals first | omega | cases h
    have := key c.toNat hlt
    rw [Char.ofNat_toNat] at this
    exact this h

theorem a2bLoop_filter (s : Str) (q l p : Nat) :
    Py.a2bLoop q l p s = Py.a2bLoop q l p (s.filter fun c => c ∈ base64Alphabet ∨ c = '=') := by
  induction s generalizing q l p with
  | nil => rfl
  | cons c cs ih =>
    by_cases he : c = '='
    · subst he
      rw [List.filter_cons_of_pos (by decide), Py.a2bLoop, Py.a2bLoop]
      simp only [← ih]
    · cases hv : Py.b64Val c with
      | none =>
        have : c ∉ base64Alphabet := fun h => by rw [mem_alphabet, hv] at h; cases h
        rw [List.filter_cons_of_neg (by simp [this, he]), Py.a2bLoop, if_neg he, hv]
        exact ih q l p
      | some v =>
        have : c ∈ base64Alphabet := mem_alphabet.mpr (by rw [hv]; rfl)
        rw [List.filter_cons_of_pos (by simp [this]), Py.a2bLoop, Py.a2bLoop, if_neg he, if_neg he, hv]
        simp only [← ih]

theorem a2bLoop_letters (s : Str) (hs : ∀ c ∈ s, c ∈ base64Alphabet) (q l p : Nat) (hq : q < 4) :
    (Py.a2bLoop q l p s).isSome = true ↔ (q + s.length) % 4 = 0 := by
  induction s generalizing q l p with
  | nil =>
    rw [Py.a2bLoop]
    split
    next h => simp [h]
    next h => simp only [Option.isSome_none, Bool.false_eq_true, false_iff, List.length_nil]; omega
  | cons c cs ih =>
    have hc := hs c (by simp)
    have he : c ≠ '=' := by rintro rfl; exact absurd hc (by decide)
    have ih := ih fun d hd => hs d (by simp [hd])
    obtain ⟨v, hv⟩ := Option.isSome_iff_exists.mp (mem_alphabet.mp hc)
    rw [Py.a2bLoop, if_neg he, hv]
    simp only [List.length_cons]
    match q, hq with
    | 0, _ =>
      show (Py.a2bLoop 1 v 0 cs).isSome = true ↔ _
      rw [ih 1 _ _ (by omega)]; omega
    | 1, _ => simp only [Option.isSome_map]; rw [ih 2 _ _ (by omega)]; omega
    | 2, _ => simp only [Option.isSome_map]; rw [ih 3 _ _ (by omega)]; omega
    | 3, _ => simp only [Option.isSome_map]; rw [ih 0 _ _ (by omega)]; omega

/-- C110: `b64decode` undoes `b64encode`, skips characters of ASCII which are not used in base64, and fails for text with other
characters, or with missing characters at the end -/
theorem C110_base64_decode (s : Str) (data : Bytes) :
    Py.b64decode (Py.b64encode data) = some data ∧
    ((∃ c ∈ s, 128 ≤ c.toNat) → Py.b64decode s = none) ∧
    ((∀ c ∈ s, c.toNat < 128) → Py.b64decode s = Py.b64decode (s.filter fun c => c ∈ base64Alphabet ∨ c = '=')) ∧
    ((∀ c ∈ s, c ∈ base64Alphabet) → ((Py.b64decode s).isSome = true ↔ s.length % 4 = 0)) := by
  refine ⟨Py.b64decode_b64encode data, ?_, ?_, ?_⟩
  · rintro ⟨c, hc, h⟩
    exact if_neg fun hall => by have := List.all_eq_true.mp hall c hc; simp at this; omega
  · intro h
    rw [Py.b64decode, if_pos (List.all_eq_true.mpr fun c hc => by simpa using h c hc), Py.b64decode,
      if_pos (List.all_eq_true.mpr fun c hc => by simpa using h c (List.mem_filter.mp hc).1)]
    exact a2bLoop_filter s 0 0 0
  · intro h
    have : ∀ c ∈ base64Alphabet, c.toNat < 128 := by decide
    rw [Py.b64decode, if_pos (List.all_eq_true.mpr fun c hc => by simpa using this c (h c hc)), a2bLoop_letters s h 0 0 0 (by omega)]
    omega

/-- C110: `encode("ascii")` gives the codes of the characters, if all of them are ASCII -/
theorem C110_ascii (s : Str) (b : Bytes) : Py.asciiEncode s = some b ↔ b.map UInt8.toNat = s.map Char.toNat ∧ ∀ c ∈ s, c.toNat < 128 := by
  induction s generalizing b with
  | nil => cases b <;> simp [Py.asciiEncode]
  | cons c cs ih =>
    rw [Py.asciiEncode]
    split
    next h =>
      simp only [Option.map_eq_some_iff]
      constructor
      · rintro ⟨b', hb, rfl⟩
        obtain ⟨h1, h2⟩ := (ih b').mp hb
        refine ⟨?_, ?_⟩
        · simp only [List.map_cons, h1, List.cons.injEq, and_true]
          exact UInt8.toNat_ofNat_of_lt' (Nat.lt_trans h (by decide))
        · intro d hd
          rcases List.mem_cons.mp hd with rfl | hd
          · exact h
          · exact h2 d hd
      · rintro ⟨h1, h2⟩
        cases b with
        | nil => cases h1
        | cons x xs =>
          simp only [List.map_cons, List.cons.injEq] at h1
          refine ⟨xs, (ih xs).mpr ⟨h1.2, fun d hd => h2 d (by simp [hd])⟩, ?_⟩
          rw [← h1.1, UInt8.ofNat_toNat]
    next h => simp; omega

/-! ## header fields -/

/-- a field with this name; the case of letters does not matter -/
def Named (name : Str) (f : Str × Str) : Prop := AnyCase f.1 name

/-- the values of the fields with this name, in their order -/
inductive Values (name : Str) : List (Str × Str) → List Str → Prop
  | none : Values name [] []
  | this {f : Str × Str} {fs : List (Str × Str)} {vs : List Str} : Named name f → Values name fs vs → Values name (f :: fs) (f.2 :: vs)
  | other {f : Str × Str} {fs : List (Str × Str)} {vs : List Str} : ¬ Named name f → Values name fs vs → Values name (f :: fs) vs

/-- what remains of the fields without those with this name -/
inductive Without (name : Str) : List (Str × Str) → List (Str × Str) → Prop
  | none : Without name [] []
  | this {f : Str × Str} {fs gs : List (Str × Str)} : Named name f → Without name fs gs → Without name (f :: fs) gs
  | other {f : Str × Str} {fs gs : List (Str × Str)} : ¬ Named name f → Without name fs gs → Without name (f :: fs) (f :: gs)

/-- the content type of a message: of its first `Content-Type` field the text before a semicolon, without the white space around it and
in lower case. If there is no field, or this text does not have exactly one slash: `text/plain`. -/
def HasType (m : Msg) (t : Str) : Prop :=
  ((∀ f ∈ m.headers, ¬ Named (str!"content-type") f) ∧ t = str!"text/plain") ∨
  ∃ before name value after part rest x, m.headers = before ++ (name, value) :: after ∧ AnyCase name (str!"content-type") ∧
    (∀ f ∈ before, ¬ Named (str!"content-type") f) ∧ value = part ++ rest ∧ ';' ∉ part ∧ (rest = [] ∨ rest.head? = some ';') ∧
    Trimmed part x ∧ (x.count '/' = 1 ∧ AnyCase x t ∧ (∀ c ∈ t, ¬ Upper c) ∨ x.count '/' ≠ 1 ∧ t = str!"text/plain")

theorem named_iff {name : Str} {f : Str × Str} : Msg.nameEq f.1 name = true ↔ Named name f := by
  rw [Msg.nameEq, beq_iff_eq, anyCase_iff, Named]

theorem filter_this {name : Str} {f : Str × Str} {fs : List (Str × Str)} (h : Named name f) :
    (f :: fs).filter (fun h => Msg.nameEq h.1 name) = f :: fs.filter (fun h => Msg.nameEq h.1 name) :=
  List.filter_cons_of_pos (p := fun h : Str × Str => Msg.nameEq h.1 name) (named_iff.mpr h)

theorem filter_other {name : Str} {f : Str × Str} {fs : List (Str × Str)} (h : ¬ Named name f) :
    (f :: fs).filter (fun h => Msg.nameEq h.1 name) = fs.filter (fun h => Msg.nameEq h.1 name) :=
  List.filter_cons_of_neg (p := fun h : Str × Str => Msg.nameEq h.1 name) (fun h' => h (named_iff.mp h'))

/-- C110: `get_all`: the values of the fields with a name, in any case of letters -/
theorem C110_get_all (m : Msg) (name : Str) (vs : List Str) : m.getAll name = vs ↔ Values name m.headers vs := by
  unfold Msg.getAll
  generalize m.headers = fs
  constructor
  · rintro rfl
    induction fs with
    | nil => exact .none
    | cons f fs ih =>
      by_cases h : Named name f
      · rw [filter_this h]; exact .this h ih
      · rw [filter_other h]; exact .other h ih
  · intro h
    induction h with
    | none => rfl
    | this hn _ ih => rw [filter_this hn, List.map_cons, ih]
    | other hn _ ih => rw [filter_other hn, ih]

/-- C110: `msg[name]` is the value of the first field with this name; `name in msg` says if there is one -/
theorem C110_get (m : Msg) (name v : Str) :
    (m.get name = some v ↔ ∃ before n after, m.headers = before ++ (n, v) :: after ∧ AnyCase n name ∧ ∀ f ∈ before, ¬ Named name f) ∧
    (m.get name = none ↔ ∀ f ∈ m.headers, ¬ Named name f) ∧ (m.has name = true ↔ ∃ f ∈ m.headers, Named name f) := by
  refine ⟨?_, ?_, ?_⟩
  · unfold Msg.get Msg.getAll
    generalize m.headers = fs
    constructor
    · intro h
      induction fs with
      | nil => cases h
      | cons f fs ih =>
        by_cases hf : Named name f
        · rw [filter_this hf] at h
          cases h
          exact ⟨[], f.1, fs, rfl, hf, by simp⟩
        · rw [filter_other hf] at h
          obtain ⟨b, n, a, rfl, h2, h3⟩ := ih h
          refine ⟨f :: b, n, a, rfl, h2, fun g hg => ?_⟩
          rcases List.mem_cons.mp hg with rfl | hg
          · exact hf
          · exact h3 g hg
    · rintro ⟨b, n, a, rfl, h2, h3⟩
      rw [List.filter_append, List.filter_eq_nil_iff.mpr (fun f hf h => h3 f hf (named_iff.mp h)), List.nil_append,
        filter_this (f := (n, v)) h2]
      rfl
  · unfold Msg.get Msg.getAll
    rw [List.head?_eq_none_iff, List.map_eq_nil_iff, List.filter_eq_nil_iff]
    exact forall_congr' fun f => imp_congr_right fun _ => named_iff.not
  · unfold Msg.has
    rw [List.any_eq_true]
    exact exists_congr fun f => and_congr_right fun _ => named_iff

/-- C110: setting a field adds one after all others, and replaces none; deleting removes all fields with the name and no other. The body
stays. -/
theorem C110_change (m : Msg) (name v : Str) :
    (m.add name v).headers = m.headers ++ [(name, v)] ∧ (m.add name v).payload = m.payload ∧
    Without name m.headers (m.del name).headers ∧ (m.del name).payload = m.payload := by
  refine ⟨rfl, rfl, ?_, rfl⟩
  show Without name m.headers (m.headers.filter fun h => !Msg.nameEq h.1 name)
  generalize m.headers = fs
  induction fs with
  | nil => exact .none
  | cons f fs ih =>
    by_cases h : Msg.nameEq f.1 name = true
    · rw [List.filter_cons_of_neg (by simp [h])]; exact .this (named_iff.mp h) ih
    · rw [List.filter_cons_of_pos (by simp [h])]; exact .other (fun h' => h (named_iff.mpr h')) ih

theorem lower_slash (x : Str) : (Py.lower x).count '/' = x.count '/' := by
  unfold Py.lower
  induction x with
  | nil => rfl
  | cons c cs ih =>
    rw [List.map_cons, List.count_cons, List.count_cons, ih]
    have : Py.lowerChar c = '/' ↔ c = '/' := by
      by_cases hc : 65 ≤ c.toNat ∧ c.toNat ≤ 90
      · have h1 : ∀ x ∈ letters, x.2 ≠ '/' ∧ x.1 ≠ '/' := by decide
        have := h1 _ (lower_pair hc)
        exact ⟨fun h => absurd h this.1, fun h => absurd h this.2⟩
      · rw [lower_other hc]
    simp [this]

/-- C110: `get_content_type` -/
theorem C110_content_type (m : Msg) (t : Str) : m.contentType = t ↔ HasType m t := by
  have value : ∀ {v part : Str} {r : Option Str}, m.get (str!"content-type") = some v → Py.split1 ';' v = (part, r) →
      m.contentType = if (Py.strip part).count '/' = 1 then Py.lower (Py.strip part) else str!"text/plain" := by
    intro v part r h hs
    unfold Msg.contentType
    rw [h]
    dsimp only
    rw [hs, lower_slash]
  constructor
  · rintro rfl
    cases h : m.get (str!"content-type") with
    | none =>
      refine .inl ⟨(C110_get m (str!"content-type") []).2.1.mp h, ?_⟩
      unfold Msg.contentType
      rw [h]
    | some v =>
      obtain ⟨b, n, a, h1, h2, h3⟩ := (C110_get m _ v).1.mp h
      rcases hs : Py.split1 ';' v with ⟨part, r⟩
      obtain ⟨g1, g2⟩ := (C110_split1 ';' v part r).mp hs
      refine .inr ⟨b, n, v, a, part, (r.map (';' :: ·)).getD [], Py.strip part, h1, h2, h3, g2, g1, ?_, (C110_strip _ _).mp rfl, ?_⟩
      · cases r
        · exact .inl rfl
        · exact .inr rfl
      · rw [value h hs]
        split
        next h => exact .inl ⟨h, ((C110_lower _ _).2.mp rfl).1, ((C110_lower _ _).2.mp rfl).2⟩
        next h => exact .inr ⟨h, rfl⟩
  · rintro (⟨h, rfl⟩ | ⟨b, n, v, a, part, rest, x, h1, h2, h3, h4, h5, h6, h7, h8⟩)
    · unfold Msg.contentType
      rw [(C110_get m (str!"content-type") []).2.1.mpr h]
    · have hs : ∃ r, Py.split1 ';' v = (part, r) := by
        cases rest with
        | nil => exact ⟨none, (C110_split1 _ _ _ _).mpr ⟨h5, h4⟩⟩
        | cons c cs =>
          have hc : c = ';' := by simpa using h6
          subst hc
          exact ⟨some cs, (C110_split1 _ _ _ _).mpr ⟨h5, h4⟩⟩
      obtain ⟨r, hs⟩ := hs
      rw [value ((C110_get m _ v).1.mpr ⟨b, n, a, h1, h2, h3⟩) hs, (C110_strip _ _).mpr h7]
      rcases h8 with ⟨h8, h9, h10⟩ | ⟨h8, rfl⟩
      · rw [if_pos h8]
        exact (C110_lower _ _).2.mpr ⟨h9, h10⟩
      · rw [if_neg h8]

/-! ## examples -/

example : Parts ',' (str!"a,,b") [str!"a", [], str!"b"] ∧ Lines (str!"a\r\n\nb\n") [str!"a", [], str!"b"] ∧
    Trimmed (str!" \tx y\n") (str!"x y") := by
  rw [← C110_split, ← C110_splitlines, ← C110_strip]; decide +kernel

example : Base64 [1, 2, 3, 255] (str!"AQID/w==") := by
  have : Py.b64encode [1, 2, 3, 255] = str!"AQID/w==" := by decide +kernel
  exact this ▸ C110_base64 _

example : HasType (.mk [(str!"content-TYPE", str!" Text/HTML ; charset=x"), (str!"Content-Type", str!"a/b")] .none) (str!"text/html") ∧
    HasType (.mk [(str!"Content-Type", str!"text")] .none) (str!"text/plain") := by
  rw [← C110_content_type, ← C110_content_type]; decide +kernel

end Verif
