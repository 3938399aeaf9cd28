import Verif.Model.BinGPG
import Verif.Lemmas.PyStr
import Verif.Props.Listing
import Verif.Spec.Concrete
/-!
# Packets and algorithms which gpg lists (C95)
-/
namespace Verif
open BinGPG

variable {σ K : Type}

/-- a line which begins a packet: its type and value between and after two colons -/
def HeaderLine (l t v : Str) : Prop := ∃ r, l = ':' :: t ++ ':' :: r ∧ ':' ∉ t ∧ v = Py.strip r

/-- lines, split into packets -/
inductive PacketText : List Str → List Packet → Prop
  | nil : PacketText [] []
  | cons {h t v : Str} {ls rest : List Str} {ps : List Packet} : HeaderLine h t v → (∀ l ∈ ls, l.head? ≠ some ':') →
      PacketText rest ps → PacketText (h :: (ls ++ rest)) ((t, v, ls) :: ps)

/-- a comment -/
def Comment (l : Str) : Prop := l.head? = some '#'
/-- a line with a colon at its beginning but no other one -/
def Unterminated (l : Str) : Prop := ∃ r, l = ':' :: r ∧ ':' ∉ r

open Classical in
/-- the lines which count: no comments, and no lines whose only colon is at their beginning; without white space at the ends -/
noncomputable def counted (ls : List Str) : List Str := (ls.map Py.strip).filter fun l => ¬ Comment l ∧ ¬ Unterminated l

theorem split1_none {s a : Str} (h : Py.split1 ':' s = (a, none)) : ':' ∉ s := by
  induction s generalizing a with
  | nil => simp
  | cons c cs ih =>
    rw [Py.split1] at h
    split at h
    · cases h
    · rename_i hc
      obtain ⟨h1, h2⟩ := Prod.mk.inj h
      rw [List.mem_cons, not_or]
      exact ⟨fun he => hc he.symm, ih (a := (Py.split1 ':' cs).1) (Prod.ext rfl h2)⟩

theorem split1_some {s a b : Str} : Py.split1 ':' s = (a, some b) ↔ s = a ++ ':' :: b ∧ ':' ∉ a := by
  induction s generalizing a with
  | nil => simp [Py.split1]
  | cons c cs ih =>
    rw [Py.split1]
    split
    · rename_i hc
      subst hc
      constructor
      · intro h; obtain ⟨rfl, h2⟩ := Prod.mk.inj h; cases h2; simp
      · rintro ⟨h1, h2⟩
        cases a with
        | nil => simp only [List.nil_append, List.cons.injEq, true_and] at h1; rw [h1]
        | cons x xs => simp only [List.cons_append, List.cons.injEq] at h1; exact absurd (h1.1 ▸ List.mem_cons_self ..) h2
    · rename_i hc
      constructor
      · intro h
        obtain ⟨rfl, h2⟩ := Prod.mk.inj h
        obtain ⟨h3, h4⟩ := ih.mp (Prod.ext rfl h2 : Py.split1 ':' cs = ((Py.split1 ':' cs).1, some b))
        refine ⟨by rw [List.cons_append, ← h3], ?_⟩
        rw [List.mem_cons, not_or]; exact ⟨fun he => hc he.symm, h4⟩
      · rintro ⟨h1, h2⟩
        cases a with
        | nil => simp only [List.nil_append, List.cons.injEq] at h1; exact absurd h1.1 hc
        | cons x xs =>
          simp only [List.cons_append, List.cons.injEq] at h1
          obtain ⟨rfl, h1⟩ := h1
          rw [List.mem_cons, not_or] at h2
          have := ih.mpr ⟨h1, h2.2⟩
          rw [this]

theorem counted_skip {raw : Str} {rest : List Str} (h : Comment (Py.strip raw) ∨ Unterminated (Py.strip raw)) : counted (raw :: rest) = counted rest := by
  unfold counted
  rw [List.map_cons, List.filter_cons_of_neg]
  simp only [decide_eq_true_iff]
  rintro ⟨h1, h2⟩
  exact h.elim h1 h2

theorem counted_keep {raw : Str} {rest : List Str} (h1 : ¬ Comment (Py.strip raw)) (h2 : ¬ Unterminated (Py.strip raw)) :
    counted (raw :: rest) = Py.strip raw :: counted rest := by
  unfold counted
  rw [List.map_cons, List.filter_cons_of_pos]
  simp only [decide_eq_true_iff]; exact ⟨h1, h2⟩

theorem HeaderLine.head {l t v : Str} (h : HeaderLine l t v) : l.head? = some ':' := by obtain ⟨r, rfl, -⟩ := h; rfl

theorem packetText_nil {ls : List Str} : PacketText ls [] ↔ ls = [] := ⟨fun h => by cases h; rfl, fun h => h ▸ .nil⟩

/-- what a line means -/
theorem packetLines_cons (last : Option (Str × Str)) (lines : List Str) (raw : Str) (rest : List Str) :
    ((Comment (Py.strip raw) ∨ Unterminated (Py.strip raw)) ∧ packetLines last lines (raw :: rest) = packetLines last lines rest) ∨
    (∃ t v, HeaderLine (Py.strip raw) t v ∧ ¬ Comment (Py.strip raw) ∧ ¬ Unterminated (Py.strip raw) ∧
      packetLines last lines (raw :: rest) = match last with
        | none => packetLines (some (t, v)) lines rest
        | some (t0, v0) => (packetLines (some (t, v)) [] rest).map fun ps => (t0, v0, lines) :: ps) ∨
    ((Py.strip raw).head? ≠ some ':' ∧ ¬ Comment (Py.strip raw) ∧ ¬ Unterminated (Py.strip raw) ∧
      packetLines last lines (raw :: rest) = match last with
        | none => .error .assertionError
        | some _ => packetLines last (lines ++ [Py.strip raw]) rest) := by
  rw [packetLines.eq_def last lines (raw :: rest)]
  dsimp only
  generalize Py.strip raw = l
  split
  · exact Or.inl ⟨Or.inl rfl, rfl⟩
  · rename_i r
    split
    · rename_i a h
      exact Or.inl ⟨Or.inr ⟨r, rfl, split1_none h⟩, rfl⟩
    · rename_i t v h
      obtain ⟨h1, h2⟩ := split1_some.mp h
      refine Or.inr (Or.inl ⟨t, Py.strip v, ⟨v, by rw [h1]; rfl, h2, rfl⟩, (fun hc => by cases hc), ?_, by cases last <;> rfl⟩)
      rintro ⟨r', he, hn⟩
      cases he
      exact hn (h1 ▸ by simp)
  · rename_i h1 h2
    refine Or.inr (Or.inr ⟨?_, ?_, ?_, by cases last <;> rfl⟩)
    · intro h
      cases l with
      | nil => cases h
      | cons c cs => cases h; exact h2 _ rfl
    · intro h
      cases l with
      | nil => cases h
      | cons c cs => cases h; exact h1 _ rfl
    · rintro ⟨r, rfl, -⟩; exact h2 _ rfl

theorem HeaderLine.unique {l t v t' v' : Str} (h : HeaderLine l t v) (h' : HeaderLine l t' v') : t = t' ∧ v = v' := by
  obtain ⟨r, rfl, h1, rfl⟩ := h
  obtain ⟨r', he, h2, rfl⟩ := h'
  simp only [List.cons_append, List.cons.injEq, true_and] at he
  have e1 : Py.split1 ':' (t ++ ':' :: r) = (t, some r) := split1_some.mpr ⟨rfl, h1⟩
  have e2 : Py.split1 ':' (t ++ ':' :: r) = (t', some r') := split1_some.mpr ⟨he, h2⟩
  rw [e1] at e2
  cases e2
  exact ⟨rfl, rfl⟩

theorem packetLines_some (t v : Str) (acc lines : List Str) (ps : List Packet) : packetLines (some (t, v)) acc lines = .ok ps ↔
    ∃ ls rest qs, ps = (t, v, acc ++ ls) :: qs ∧ counted lines = ls ++ rest ∧ (∀ l ∈ ls, l.head? ≠ some ':') ∧ PacketText rest qs := by
  induction lines generalizing t v acc ps with
  | nil =>
    rw [packetLines]
    constructor
    · intro h; cases h; exact ⟨[], [], [], by simp, rfl, (fun _ h => nomatch h), .nil⟩
    · rintro ⟨ls, rest, qs, rfl, h1, -, h2⟩
      obtain ⟨rfl, rfl⟩ := List.append_eq_nil_iff.mp (h1.symm : ls ++ rest = [])
      cases h2
      simp
  | cons raw lines ih =>
    rcases packetLines_cons (some (t, v)) acc raw lines with ⟨hc, he⟩ | ⟨t', v', hh, hc, hu, he⟩ | ⟨hh, hc, hu, he⟩
    · rw [he, ih, counted_skip hc]
    · rw [he, counted_keep hc hu]
      dsimp only
      constructor
      · intro h
        cases hp : packetLines (some (t', v')) [] lines with
        | error e => rw [hp] at h; cases h
        | ok qs =>
          rw [hp] at h; cases h
          obtain ⟨ls, rest, qs', rfl, h1, h2, h3⟩ := (ih ..).mp hp
          exact ⟨[], _, _, by simp; rfl, rfl, (fun _ h => nomatch h), by rw [h1]; exact .cons hh h2 h3⟩
      · rintro ⟨ls, rest, qs, rfl, h1, h2, h3⟩
        cases ls with
        | cons l ls =>
          simp only [List.cons_append, List.cons.injEq] at h1
          exact absurd (h1.1 ▸ hh.head) (h2 l (List.mem_cons_self ..))
        | nil =>
          simp only [List.nil_append] at h1
          rw [← h1] at h3
          generalize hg : Py.strip raw :: counted lines = z at h3
          cases h3 with
          | nil => cases hg
          | cons k1 k2 k3 =>
            obtain ⟨rfl, hg'⟩ := List.cons.inj hg
            obtain ⟨rfl, rfl⟩ := hh.unique k1
            rw [(ih t' v' [] _).mpr ⟨_, _, _, rfl, hg', k2, k3⟩]
            simp [Except.map]
    · rw [he, ih, counted_keep hc hu]
      constructor
      · rintro ⟨ls, rest, qs, rfl, h1, h2, h3⟩
        refine ⟨Py.strip raw :: ls, rest, qs, by simp, by rw [h1]; rfl, fun l hl => ?_, h3⟩
        rcases List.mem_cons.mp hl with rfl | hl
        · exact hh
        · exact h2 l hl
      · rintro ⟨ls, rest, qs, rfl, h1, h2, h3⟩
        cases ls with
        | nil =>
          simp only [List.nil_append] at h1
          rw [← h1] at h3
          generalize hg : Py.strip raw :: counted lines = z at h3
          cases h3 with
          | nil => cases hg
          | cons k1 k2 k3 =>
            obtain ⟨rfl, hg'⟩ := List.cons.inj hg
            exact absurd k1.head hh
        | cons l ls =>
          simp only [List.cons_append, List.cons.injEq] at h1
          obtain ⟨rfl, h1⟩ := h1
          exact ⟨ls, rest, qs, by simp, h1, fun x hx => h2 x (List.mem_cons_of_mem _ hx), h3⟩

theorem packetLines_none (lines : List Str) (ps : List Packet) : packetLines none [] lines = .ok ps ↔ ps ≠ [] ∧ PacketText (counted lines) ps := by
  induction lines with
  | nil =>
    rw [packetLines]
    constructor
    · intro h; cases h
    · rintro ⟨h1, h2⟩
      change PacketText [] ps at h2
      cases h2; exact absurd rfl h1
  | cons raw lines ih =>
    rcases packetLines_cons none [] raw lines with ⟨hc, he⟩ | ⟨t', v', hh, hc, hu, he⟩ | ⟨hh, hc, hu, he⟩
    · rw [he, ih, counted_skip hc]
    · rw [he, counted_keep hc hu]
      dsimp only
      rw [packetLines_some]
      constructor
      · rintro ⟨ls, rest, qs, rfl, h1, h2, h3⟩
        exact ⟨by simp, by rw [h1]; exact .cons hh h2 h3⟩
      · rintro ⟨h1, h2⟩
        generalize hg : Py.strip raw :: counted lines = z at h2
        cases h2 with
        | nil => cases hg
        | cons k1 k2 k3 =>
          obtain ⟨rfl, hg'⟩ := List.cons.inj hg
          obtain ⟨rfl, rfl⟩ := hh.unique k1
          exact ⟨_, _, _, rfl, hg', k2, k3⟩
    · rw [he, counted_keep hc hu]
      constructor
      · intro h; cases h
      · rintro ⟨h1, h2⟩
        generalize hg : Py.strip raw :: counted lines = z at h2
        cases h2 with
        | nil => exact absurd rfl h1
        | cons k1 k2 k3 =>
          obtain ⟨rfl, hg'⟩ := List.cons.inj hg
          exact absurd k1.head hh

/-- C95, what holds: the packets returned are those which gpg lists for the key data, in order, each with its type and value and all
lines up to the next one, without comments. An exception is raised if there is none.

Missing from the full statement: a line whose only colon is at its beginning is left out, see `C95_refuted`. -/
theorem C95_packets_partial {S : StoreImpl σ} {O : Oracle K} {env : Env} {g : BinGPG} {kd : Bytes} {ps : List Packet} {w w' : World σ K}
    (h : run S O (listPackets env g kd) w = (.ok ps, w')) :
    ∃ out text, w'.trace = ⟨.gpg (commandLine g [str!"--list-packets"]) (some kd), (.ok out : Except Exc GpgOut)⟩ :: w.trace ∧ out.ret = 0 ∧
      env.utf8Decode out.out = .ok text ∧ ps ≠ [] ∧ PacketText (counted (Py.splitlines text)) ps := by
  unfold listPackets at h
  simp only [bind_eq] at h
  obtain ⟨text, w1, h1, h2⟩ := run_bind_ok.mp h
  rw [run_ofExcept] at h2
  obtain ⟨g1, g2⟩ := Prod.mk.inj h2
  obtain ⟨out, t, h0, hd, -⟩ := gpgOutText_ok h1
  obtain ⟨k1, k2⟩ := (packetLines_none _ _).mp g1
  exact ⟨out, text, by rw [← g2, t, argv_eq], h0, hd, k1, k2⟩

/-- lines as gpg prints them are returned as the packets they tell -/
theorem C95_listed {lines : List Str} {ps : List Packet} (h : PacketText (counted lines) ps) (hne : ps ≠ []) : packetLines none [] lines = .ok ps :=
  (packetLines_none lines ps).mpr ⟨hne, h⟩

/-- C95 is false: a line is lost -/
theorem C95_refuted : ∃ lines : List Str, str!":abc" ∈ lines ∧ (packetLines none [] lines).toOption = some [(str!"user ID packet", str!"x", [str!"y"])] :=
  ⟨[str!"# off=0", str!":user ID packet: x", str!":abc", str!"\ty"], by simp, by decide +kernel⟩

/-- two packets -/
example : (packetLines none [] [str!"# off=0 ctb=99", str!":public key packet:", str!"\tversion 4, algo 1", str!"\tkeyid: 1234",
      str!"# off=270", str!":user ID packet: \"bob\""]).toOption =
    some [(str!"public key packet", [], [str!"version 4, algo 1", str!"keyid: 1234"]), (str!"user ID packet", str!"\"bob\"", [])] := by
  decide +kernel

/-- C95: whether gpg knows EdDSA is told by the first line of its version which names the algorithms for public keys -/
theorem C95_eddsa {info : Str} : supportsEddsa info = true ↔
    ∃ before l rest, Py.split '\n' info = before ++ (str!"Pubkey:" ++ l) :: rest ∧ (∀ b ∈ before, ¬ (str!"Pubkey:") <+: b) ∧
      ∃ x ∈ Py.split ',' l, Py.lower (Py.strip x) = str!"eddsa" := by
  unfold supportsEddsa
  have hs : ∀ l : Str, (Py.split1 ':' (str!"Pubkey:" ++ l)).2.getD [] = l := by
    intro l
    rw [show Py.split1 ':' (str!"Pubkey:" ++ l) = (str!"Pubkey", some l) from split1_some.mpr ⟨rfl, by decide⟩]; rfl
  constructor
  · intro h
    split at h
    · cases h
    · rename_i l hf
      obtain ⟨h1, before, rest, h2, h3⟩ := List.find?_eq_some_iff_append.mp hf
      obtain ⟨l', rfl⟩ := List.isPrefixOf_iff_prefix.mp h1
      rw [hs, List.contains_iff_mem, List.mem_map] at h
      refine ⟨before, l', rest, h2, fun b hb hp => ?_, h⟩
      have := h3 b hb
      rw [Bool.not_eq_true', ← Bool.not_eq_true] at this
      exact this (List.isPrefixOf_iff_prefix.mpr hp)
  · rintro ⟨before, l, rest, h1, h2, h3⟩
    have hf : (Py.split '\n' info).find? (fun l => Py.startsWith (str!"Pubkey:") l) = some (str!"Pubkey:" ++ l) := by
      refine List.find?_eq_some_iff_append.mpr ⟨List.isPrefixOf_iff_prefix.mpr (List.prefix_append ..), before, rest, h1, fun b hb => ?_⟩
      rw [Bool.not_eq_true', ← Bool.not_eq_true]
      exact fun hp => h2 b hb (List.isPrefixOf_iff_prefix.mp hp)
    rw [hf]
    dsimp only
    rw [hs, List.contains_iff_mem, List.mem_map]
    exact h3

/-- gpg 2.2 knows it, gpg 1.4 doesn't -/
example : supportsEddsa (str!"gpg (GnuPG) 2.2\nPubkey: RSA, ELG, EDDSA\nCipher: AES") = true ∧
    supportsEddsa (str!"gpg (GnuPG) 1.4\nPubkey: RSA, ELG\nCipher: EDDSA") = false := by decide +kernel

end Verif
