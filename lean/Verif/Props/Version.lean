import Verif.Props.GpgOps
import Verif.Props.Text
import Verif.Lemmas.Regex
import Mathlib.Data.List.SplitBy
/-!
# The version of gpg: C105
-/
namespace Verif
open BinGPG

variable {σ K : Type}

/-! ## Specification -/

/-- `int` reads the usual notation of numbers -/
def ReadsInts (env : Env) : Prop := ∀ n : Nat, env.pyInt (Py.natToStr n) = .ok (n : Int)

/-- `2.1.12` for the numbers 2, 1, 12 -/
def dotted : List Nat → Str
  | [] => []
  | [n] => Py.natToStr n
  | n :: ns => Py.natToStr n ++ '.' :: dotted ns

/-- the version `ns` isn't older than `ms`: it begins with `ms`, or the first number which differs is greater -/
def AtLeast (ns ms : List Nat) : Prop :=
  (∃ r, ns = ms ++ r) ∨ ∃ c a b r s, ns = c ++ a :: r ∧ ms = c ++ b :: s ∧ b < a

/-- gpg wrote for `--version` a first line with the version `ns` as its third word, like `gpg (GnuPG) 2.1.12` -/
def Says (env : Env) (out : GpgOut) (ns : List Nat) : Prop :=
  ∃ text line a b rest, env.utf8Decode out.out = .ok text ∧ (text = line ∨ ∃ more, text = line ++ '\n' :: more) ∧ '\n' ∉ line ∧
    line = a ++ ' ' :: (b ++ ' ' :: (dotted ns ++ rest)) ∧ ' ' ∉ a ∧ ' ' ∉ b ∧ (rest = [] ∨ ∃ r, rest = ' ' :: r) ∧ ns ≠ []

/-! ## Dotted numbers -/

theorem natToStr_digit {n : Nat} {c : Char} (h : c ∈ Py.natToStr n) : c.isDigit = true := Nat.isDigit_of_mem_toDigits (by omega) (by omega) h

theorem natToStr_ne_nil (n : Nat) : Py.natToStr n ≠ [] := Nat.toDigits_ne_nil

theorem digit_range {c : Char} (h : c.isDigit = true) : 48 ≤ c.toNat ∧ c.toNat ≤ 57 := by
  simp only [Char.isDigit, ge_iff_le, Bool.and_eq_true, decide_eq_true_eq] at h
  exact ⟨h.1, h.2⟩

theorem class_digit {env : Env} {c : Char} (h : c.isDigit = true) : Py.versionClass env c = 0 := by
  obtain ⟨h1, h2⟩ := digit_range h
  have : c.toNat < 128 := by omega
  simp [Py.versionClass, Env.isDecimal, this, h1, h2]

theorem class_dot (env : Env) : Py.versionClass env '.' = 2 := by
  simp [Py.versionClass, Env.isDecimal]

theorem dotted_cons (n m : Nat) (ns : List Nat) : dotted (n :: m :: ns) = Py.natToStr n ++ '.' :: dotted (m :: ns) := rfl

theorem dotted_head (m : Nat) (ns : List Nat) : ∃ c t, dotted (m :: ns) = c :: t ∧ c.isDigit = true := by
  rcases h : Py.natToStr m with _ | ⟨c, t⟩
  · exact absurd h (natToStr_ne_nil m)
  · have hc : c.isDigit = true := natToStr_digit (n := m) (by rw [h]; simp)
    cases ns with
    | nil => exact ⟨c, t, h, hc⟩
    | cons k ns => exact ⟨c, t ++ '.' :: dotted (k :: ns), by rw [dotted_cons, h]; rfl, hc⟩

theorem dotted_chars {ns : List Nat} {c : Char} (h : c ∈ dotted ns) : c.isDigit = true ∨ c = '.' := by
  induction ns with
  | nil => simp [dotted] at h
  | cons n ns ih =>
    cases ns with
    | nil => exact .inl (natToStr_digit h)
    | cons m ns =>
      rw [dotted_cons, List.mem_append, List.mem_cons] at h
      rcases h with h | h | h
      · exact .inl (natToStr_digit h)
      · exact .inr h
      · exact ih h

theorem dotted_no {ns : List Nat} {c : Char} (hd : c.isDigit = false) (hc : c ≠ '.') : c ∉ dotted ns := by
  intro h
  rcases dotted_chars h with h | h
  · rw [hd] at h; cases h
  · exact hc h

theorem split_number (env : Env) (n : Nat) :
    (Py.natToStr n).splitBy (fun a b => Py.versionClass env a == Py.versionClass env b) = [Py.natToStr n] := by
  refine List.splitBy_of_isChain (natToStr_ne_nil n) ?_
  refine List.Pairwise.isChain (List.pairwise_iff_forall_sublist.mpr fun {a b} h => ?_)
  have ha := class_digit (env := env) (natToStr_digit (h.mem (by simp : a ∈ [a, b])))
  have hb := class_digit (env := env) (natToStr_digit (h.mem (by simp : b ∈ [a, b])))
  simp [ha, hb]

theorem number_no_dot (n : Nat) : (Py.natToStr n).head? ≠ some '.' := by
  intro h
  have : ('.' : Char).isDigit = true := natToStr_digit (n := n) (List.mem_of_mem_head? h)
  exact absurd this (by decide)

theorem pieces_dotted (env : Env) (ns : List Nat) : Py.versionPieces env (dotted ns) = ns.map Py.natToStr := by
  induction ns with
  | nil => rfl
  | cons n ns ih =>
    cases ns with
    | nil => simp [dotted, Py.versionPieces, split_number, number_no_dot]
    | cons m ns =>
      obtain ⟨c, t, ht, hc⟩ := dotted_head m ns
      have h1 : (dotted (n :: m :: ns)).splitBy (fun a b => Py.versionClass env a == Py.versionClass env b) =
          Py.natToStr n :: ['.'] :: (dotted (m :: ns)).splitBy (fun a b => Py.versionClass env a == Py.versionClass env b) := by
        rw [dotted_cons, List.splitBy_append_cons _ (fun x hx => by
          rw [class_digit (natToStr_digit (List.mem_of_mem_getLast? hx)), class_dot]; rfl), split_number]
        have : '.' :: dotted (m :: ns) = ['.'] ++ dotted (m :: ns) := rfl
        rw [this, List.splitBy_append (fun x hx y hy => by
          rw [ht] at hy
          simp only [List.getLast?_singleton, Option.mem_def, Option.some.injEq, List.head?_cons] at hx hy
          subst hx hy
          rw [class_dot, class_digit hc]; rfl)]
        rfl
      rw [Py.versionPieces, h1]
      rw [Py.versionPieces] at ih
      simp [number_no_dot, ih]

theorem mapM_component {env : Env} (hi : ReadsInts env) (ns : List Nat) :
    (ns.map Py.natToStr).mapM (Py.component env) = .ok (ns.map fun n : Nat => Py.Component.num (n : Int)) := by
  induction ns with
  | nil => rfl
  | cons n ns ih =>
    simp only [List.map_cons, List.mapM_cons, ih, Py.component, hi n]
    rfl

theorem loose_dotted {env : Env} (hi : ReadsInts env) {ns : List Nat} (hn : ns ≠ []) :
    Py.looseVersion env (dotted ns) = .ok (ns.map fun n : Nat => Py.Component.num (n : Int)) := by
  have : (dotted ns).isEmpty = false := by
    cases ns with
    | nil => exact absurd rfl hn
    | cons n ns =>
      obtain ⟨c, t, h, -⟩ := dotted_head n ns
      rw [h]; rfl
  simp [Py.looseVersion, this, pieces_dotted, mapM_component hi]

theorem atLeast_nil (ns : List Nat) : AtLeast ns [] := .inl ⟨ns, rfl⟩

theorem not_atLeast (m : Nat) (ms : List Nat) : ¬ AtLeast [] (m :: ms) := by
  rintro (⟨r, h⟩ | ⟨c, a, b, r, s, h, -⟩)
  · cases h
  · cases c <;> cases h

theorem atLeast_cons (n m : Nat) (ns ms : List Nat) : AtLeast (n :: ns) (m :: ms) ↔ m < n ∨ (n = m ∧ AtLeast ns ms) := by
  constructor
  · rintro (⟨r, h⟩ | ⟨c, a, b, r, s, h1, h2, h3⟩)
    · cases h
      exact .inr ⟨rfl, .inl ⟨r, rfl⟩⟩
    · cases c with
      | nil => cases h1; cases h2; exact .inl h3
      | cons x c => cases h1; cases h2; exact .inr ⟨rfl, .inr ⟨c, a, b, r, s, rfl, rfl, h3⟩⟩
  · rintro (h | ⟨rfl, (⟨r, h⟩ | ⟨c, a, b, r, s, h1, h2, h3⟩)⟩)
    · exact .inr ⟨[], n, m, ns, ms, rfl, rfl, h⟩
    · exact .inl ⟨r, by rw [h]; rfl⟩
    · exact .inr ⟨n :: c, a, b, r, s, by rw [h1]; rfl, by rw [h2]; rfl, h3⟩

theorem componentsGe_nums (ns ms : List Nat) :
    ∃ b, Py.componentsGe (ns.map fun n : Nat => Py.Component.num (n : Int)) (ms.map fun n : Nat => Py.Component.num (n : Int)) = .ok b ∧ (b = true ↔ AtLeast ns ms) := by
  induction ns generalizing ms with
  | nil =>
    cases ms with
    | nil => exact ⟨true, rfl, by simp [atLeast_nil]⟩
    | cons m ms => exact ⟨false, rfl, by simp [not_atLeast]⟩
  | cons n ns ih =>
    cases ms with
    | nil => exact ⟨true, rfl, by simp [atLeast_nil]⟩
    | cons m ms =>
      by_cases h : n = m
      · obtain ⟨b, h1, h2⟩ := ih ms
        refine ⟨b, ?_, by rw [h2, atLeast_cons]; simp [h]⟩
        show (if Py.Component.num n = Py.Component.num m then _ else _) = _
        rw [if_pos (by rw [h]), h1]
      · refine ⟨!decide ((n : Int) < m), ?_, ?_⟩
        · show (if Py.Component.num n = Py.Component.num m then _ else _) = _
          rw [if_neg (fun hc => h (by injection hc with hc; omega))]
          rfl
        · rw [atLeast_cons]
          simp only [Bool.not_eq_true', decide_eq_false_iff_not, Int.not_lt]
          omega

theorem says_text {env : Env} {out : GpgOut} {ns : List Nat} (h : Says env out ns) :
    ∃ text, env.utf8Decode out.out = .ok text ∧ versionText text = .ok (dotted ns) ∧ ns ≠ [] := by
  obtain ⟨text, line, a, b, rest, hd, ht, hl, rfl, ha, hb, hr, hn⟩ := h
  refine ⟨text, hd, ?_, hn⟩
  have h1 : (Py.split '\n' text).headD [] = a ++ ' ' :: (b ++ ' ' :: (dotted ns ++ rest)) := by
    rcases ht with rfl | ⟨more, rfl⟩
    · rw [Py.split_of_not_mem hl]; rfl
    · rw [Py.split_append, Py.split_of_not_mem hl]; rfl
  have h2 : ' ' ∉ dotted ns := dotted_no (by decide) (by decide)
  have h3 : ∃ more, Py.split ' ' (dotted ns ++ rest) = dotted ns :: more := by
    rcases hr with rfl | ⟨r, rfl⟩
    · exact ⟨[], by rw [List.append_nil, Py.split_of_not_mem h2]⟩
    · exact ⟨_, by rw [Py.split_append, Py.split_of_not_mem h2]; rfl⟩
  obtain ⟨more, h3⟩ := h3
  rw [versionText, h1, Py.split_append, Py.split_append, Py.split_of_not_mem ha, Py.split_of_not_mem hb, h3]
  rfl

/-- C105: the version which gpg reports is compared number by number, not as a text -/
theorem C105_compare {env : Env} (hi : ReadsInts env) {out : GpgOut} {ns ms : List Nat} (hs : Says env out ns) (hm : ms ≠ []) :
    ∃ text b, env.utf8Decode out.out = .ok text ∧ versionGe env text (dotted ms) = .ok b ∧ (b = true ↔ AtLeast ns ms) := by
  obtain ⟨text, hd, ht, hn⟩ := says_text hs
  obtain ⟨b, h1, h2⟩ := componentsGe_nums ns ms
  refine ⟨text, b, hd, ?_, h2⟩
  rw [versionGe, ht]
  show Py.looseGe env (dotted ns) (dotted ms) = _
  rw [Py.looseGe, loose_dotted hi hn, loose_dotted hi hm]
  exact h1

/-- the first line `line` has a third word which isn't empty -/
def ThirdWord (line w : Str) : Prop :=
  ∃ a b rest, line = a ++ ' ' :: (b ++ ' ' :: (w ++ rest)) ∧ ' ' ∉ a ∧ ' ' ∉ b ∧ ' ' ∉ w ∧ (rest = [] ∨ ∃ r, rest = ' ' :: r) ∧ w ≠ []

theorem third_of_split {line t : Str} (h : (Py.split ' ' line)[2]? = some t) (hn : t ≠ []) : ThirdWord line t := by
  have hp := (C110_split ' ' line _).mp rfl
  revert h
  generalize Py.split ' ' line = ps at hp
  intro h
  cases hp with
  | last _ => cases h
  | more ha hp =>
    cases hp with
    | last _ => cases h
    | more hb hp =>
      cases hp with
      | last hw =>
        cases h
        exact ⟨_, _, [], by rw [List.append_nil], ha, hb, hw, .inl rfl, hn⟩
      | more hw hp =>
        cases h
        exact ⟨_, _, _, rfl, ha, hb, hw, .inr ⟨_, rfl⟩, hn⟩

/-- C105: if the first line has no third word then there is no version: whatever is compared with it, an exception is raised -/
theorem C105_none (env : Env) {text line : Str} (v : Str) (ht : text = line ∨ ∃ more, text = line ++ '\n' :: more) (hl : '\n' ∉ line)
    (hw : ∀ w, ¬ ThirdWord line w) : ∃ e, versionGe env text v = .error e := by
  have h1 : (Py.split '\n' text).headD [] = line := by
    rcases ht with rfl | ⟨more, rfl⟩
    · rw [Py.split_of_not_mem hl]; rfl
    · rw [Py.split_append, Py.split_of_not_mem hl]; rfl
  rw [versionGe, versionText, h1, field]
  cases hs : (Py.split ' ' line)[2]? with
  | none => exact ⟨_, rfl⟩
  | some t =>
    cases t with
    | nil => exact ⟨_, rfl⟩
    | cons c t => exact absurd (third_of_split hs (by simp)) (hw _)

/-- there are such lines -/
example : (∀ w, ¬ ThirdWord (str!"gpg 2.1.12") w) ∧ ThirdWord (str!"gpg (GnuPG) 2.1.12") (str!"2.1.12") := by
  constructor
  · rintro w ⟨a, b, rest, h, ha, hb, -⟩
    have := congrArg (List.count ' ') h
    simp only [List.count_append, List.count_cons_self] at this
    rw [show (str!"gpg 2.1.12").count ' ' = 1 by decide] at this
    omega
  · exact ⟨str!"gpg", str!"(GnuPG)", [], by decide, by decide, by decide, by decide, .inl rfl, by decide⟩

/-- C105: whenever a secret key is used (`Unlocks` in C92, C94 and C95), gpg is told to take the passphrase from the command line
exactly if it is 2.1 or newer -/
theorem C105_loopback {env : Env} (hi : ReadsInts env) {out : GpgOut} {ns : List Nat} (hs : Says env out ns) {opts : List Str}
    (h : Unlocks env out opts) :
    (AtLeast ns [2, 1] ∧ opts = [str!"--passphrase", str!"123", str!"--pinentry-mode=loopback"]) ∨
    (¬ AtLeast ns [2, 1] ∧ opts = [str!"--passphrase", str!"123"]) := by
  obtain ⟨text, b, h1, h2, rfl⟩ := h
  obtain ⟨text', b', g1, g2, g3⟩ := C105_compare hi hs (ms := [2, 1]) (by simp)
  cases h1.symm.trans g1
  have e : dotted [2, 1] = str!"2.1" := by decide
  rw [e, h2] at g2
  cases g2
  cases b
  · exact .inr ⟨fun h => by simpa using g3.mpr h, rfl⟩
  · exact .inl ⟨g3.mp rfl, rfl⟩

/-- the events since `w` -/
def Since (w w' : World σ K) (e : Event) : Prop := ∃ new, w'.trace = new ++ w.trace ∧ e ∈ new

/-- between `w` and `w'` gpg told its version, and was then run with a secret key such that it asks nobody for a passphrase: one is on the
command line, and from 2.1 on gpg is told to use it -/
def Unattended (env : Env) (g : BinGPG) (w w' : World σ K) : Prop :=
  ∃ v before opts after stdin out, Since w w' (Gpg (commandLine g [str!"--version"]) none v) ∧
    Since w w' (Gpg (commandLine g (before ++ opts ++ after)) stdin out) ∧
    ∀ ns, Says env v ns → (AtLeast ns [2, 1] ∧ opts = [str!"--passphrase", str!"123", str!"--pinentry-mode=loopback"]) ∨
      (¬ AtLeast ns [2, 1] ∧ opts = [str!"--passphrase", str!"123"])

theorem Unattended.two {env : Env} (hi : ReadsInts env) {g : BinGPG} {w w' : World σ K} {v out : GpgOut} {before opts after : List Str}
    {stdin : Option Bytes} (h : w'.trace = Gpg (commandLine g (before ++ opts ++ after)) stdin out ::
      Gpg (commandLine g [str!"--version"]) none v :: w.trace) (hu : Unlocks env v opts) : Unattended env g w w' :=
  ⟨v, before, opts, after, stdin, out, ⟨[_, _], h, by simp⟩, ⟨[_, _], h, by simp⟩, fun _ hs => C105_loopback hi hs hu⟩

/-- C105: signing, exporting a secret key, encrypting with a signature, decrypting and making a key -/
theorem C105_unattended {S : StoreImpl σ} {O : Oracle K} {env : Env} (hi : ReadsInts env) {g : BinGPG} {w w' : World σ K} :
    (∀ data kh s, run S O (sign env g data kh) w = (.ok s, w') → Unattended env g w w') ∧
    (∀ kh armor kd, run S O (getSecretKeydata env g kh armor) w = (.ok kd, w') → Unattended env g w w') ∧
    (∀ data rs kh text enc, kh ≠ [] → run S O (encrypt env g data rs kh text) w = (.ok enc, w') → Unattended env g w w') ∧
    (∀ enc data infos, run S O (decrypt env g enc) w = (.ok (data, infos), w') → Unattended env g w w') ∧
    (∀ addr k, (∀ c ∈ addr, Py.isLineBreak c = false) → run S O (genSecretKey env g addr) w = (.ok k, w') → Unattended env g w w') := by
  refine ⟨fun data kh s h => ?_, fun kh armor kd h => ?_, fun data rs kh text enc hk h => ?_, fun enc data infos h => ?_,
    fun addr k ha h => ?_⟩
  · obtain ⟨v, out, opts, ht, -, -, hu⟩ := C92_sign h
    exact Unattended.two hi (before := []) ht hu
  · obtain ⟨v, out, opts, ht, -, -, hu⟩ := C94_export h
    exact Unattended.two hi ht hu
  · obtain ⟨v, out, opts, ht, -, -, hu⟩ := C94_encrypt hk h
    refine Unattended.two hi (before := []) (after := [str!"--encrypt", str!"--always-trust"] ++ (rs.map fun r => [str!"-r", r]).flatten ++
          [str!"--sign", str!"-u", kh] ++ (if text then [str!"--armor"] else [])) (stdin := some data) (out := out) ?_ hu
    simpa only [List.append_assoc, List.nil_append] using ht
  · obtain ⟨v, out, opts, ht, -, -, hu⟩ := C94_decrypt h
    exact Unattended.two hi (before := []) ht hu
  · obtain ⟨request, name, v, out, opts, w1, -, ht, -, hu, _, x, -, -, hn⟩ := C94_generate ha h
    have hw : ∃ l, w'.trace = l ++ w1.trace := by
      rcases hn with ⟨-, -, e⟩ | ⟨-, -, -, o2, t2, e, -⟩
      · exact ⟨[], by rw [e]; rfl⟩
      · exact ⟨[_], e⟩
    obtain ⟨l, hl⟩ := hw
    rw [ht] at hl
    exact ⟨v, [], opts, [str!"--gen-key", name], none, out, ⟨_, hl.trans (List.append_assoc l [_, _, _, _, _] w.trace).symm, by simp⟩,
      ⟨_, hl.trans (List.append_assoc l [_, _, _, _, _] w.trace).symm, by simp⟩, fun _ hs => C105_loopback hi hs hu⟩

/-- the configuration file of the agent of gpg in its home directory -/
def agentConf (home : Str) : Str := home ++ str!"/gpg-agent.conf"

/-- `os.path.exists` answered -/
def Found (p : Str) (b : Bool) : Event := ⟨.pathExists p, b⟩

/-- a file was written -/
def Wrote (p content : Str) : Event := ⟨.writeFile p content, (.ok () : Except Exc Unit)⟩

theorem versionAtLeast_said {S : StoreImpl σ} {O : Oracle K} {env : Env} {g : BinGPG} {v : Str} {b : Bool} {w w' : World σ K}
    (h : run S O (versionAtLeast env g v) w = (.ok b, w')) :
    ∃ out text, w'.trace = Gpg (commandLine g [str!"--version"]) none out :: w.trace ∧ env.utf8Decode out.out = .ok text ∧
      versionGe env text v = .ok b := by
  unfold versionAtLeast versionInfo at h
  simp only [bind_eq] at h
  obtain ⟨text, w2, h3, h4⟩ := run_bind_ok.mp h
  rw [run_ofExcept] at h4
  obtain ⟨out, htr, h0, hdec, -⟩ := gpgOutText_ok h3
  obtain ⟨h5, h6⟩ := Prod.mk.inj h4
  exact ⟨out, text, by rw [← h6, htr, argv_eq]; rfl, hdec, h5⟩

theorem badDefaults_said {S : StoreImpl σ} {O : Oracle K} {env : Env} (hi : ReadsInts env) {g : BinGPG} {b : Bool} {w w' : World σ K} {ns : List Nat}
    (h : run S O (badDefaults env g) w = (.ok b, w')) :
    ∃ vs : List GpgOut, w'.trace = vs.map (fun v => Gpg (commandLine g [str!"--version"]) none v) ++ w.trace ∧
      ((∀ v ∈ vs, Says env v ns) → (b = true ↔ AtLeast ns [2, 0] ∧ ¬ AtLeast ns [2, 1, 12])) := by
  unfold badDefaults at h
  simp only [bind_eq, pure_eq] at h
  obtain ⟨b1, w1, h1, h⟩ := run_bind_ok.mp h
  obtain ⟨o1, t1, e1, d1, g1⟩ := versionAtLeast_said h1
  have c1 : Says env o1 ns → (b1 = true ↔ AtLeast ns [2, 0]) := by
    intro hs
    obtain ⟨text', b', x1, x2, x3⟩ := C105_compare hi hs (ms := [2, 0]) (by simp)
    cases d1.symm.trans x1
    have e : dotted [2, 0] = str!"2.0" := by decide
    rw [e, g1] at x2
    cases x2
    exact x3
  cases b1 with
  | false =>
    cases h
    refine ⟨[o1], e1, fun hs => ?_⟩
    have := c1 (hs o1 (by simp))
    simp only [Bool.false_eq_true, false_iff] at this ⊢
    exact fun hc => this hc.1
  | true =>
    obtain ⟨b2, w2, h2, h⟩ := run_bind_ok.mp h
    obtain ⟨o2, t2, e2, d2, g2⟩ := versionAtLeast_said h2
    cases h
    refine ⟨[o2, o1], by rw [e2, e1]; rfl, fun hs => ?_⟩
    obtain ⟨text', b', x1, x2, x3⟩ := C105_compare hi (hs o2 (by simp)) (ms := [2, 1, 12]) (by simp)
    cases d2.symm.trans x1
    have e : dotted [2, 1, 12] = str!"2.1.12" := by decide
    rw [e, g2] at x2
    cases x2
    have := c1 (hs o1 (by simp))
    simp only [true_iff] at this
    rw [← x3]
    cases b2 <;> simp [this]

theorem find_said {S : StoreImpl σ} {O : Oracle K} {n : Str} {r : Option Str} {w w' : World σ K}
    (h : run S O (Prog.findExecutable n) w = (.ok r, w')) : w'.trace = ⟨.findExecutable n, r⟩ :: w.trace := by
  obtain ⟨h1, rfl⟩ := Prod.mk.inj h
  cases h1
  rfl

theorem exists_said {S : StoreImpl σ} {O : Oracle K} {n : Str} {r : Bool} {w w' : World σ K}
    (h : run S O (Prog.pathExists n) w = (.ok r, w')) : w'.trace = Found n r :: w.trace := by
  obtain ⟨h1, rfl⟩ := Prod.mk.inj h
  cases h1
  rfl

theorem makedirs_said {S : StoreImpl σ} {O : Oracle K} {n : Str} {u : Unit} {w w' : World σ K}
    (h : run S O (Prog.makedirs n) w = (.ok u, w')) : w'.trace = ⟨.makedirs n, (.ok () : Except Exc Unit)⟩ :: w.trace := by
  have h := (run_ofExcept (α := Unit) S O _ _).symm.trans h
  obtain ⟨h1, rfl⟩ := Prod.mk.inj h
  exact congrArg (fun x : Except Exc Unit => (⟨.makedirs n, x⟩ : Event) :: w.trace) h1

theorem write_said {S : StoreImpl σ} {O : Oracle K} {n c : Str} {u : Unit} {w w' : World σ K}
    (h : run S O (Prog.writeFile n c) w = (.ok u, w')) : w'.trace = Wrote n c :: w.trace := by
  have h := (run_ofExcept (α := Unit) S O _ _).symm.trans h
  obtain ⟨h1, rfl⟩ := Prod.mk.inj h
  exact congrArg (fun x : Except Exc Unit => (⟨.writeFile n c, x⟩ : Event) :: w.trace) h1

/-- the second half of `ensureInit` -/
def fixAgent (env : Env) (g : BinGPG) (home : Str) : Prog Unit :=
  (badDefaults env g).bind fun b => if b = true then (Prog.pathExists (agentConf home)).bind fun x => if (!x) = true then
    Prog.writeFile (agentConf home) (str!"allow-loopback-pinentry\n") else Prog.pure () else Prog.pure ()

theorem fixAgent_said {S : StoreImpl σ} {O : Oracle K} {env : Env} (hi : ReadsInts env) {home : Str} {g : BinGPG} (ns : List Nat) {w w' : World σ K}
    (h : run S O (fixAgent env g home) w = (.ok (), w')) :
    ∃ (vs : List GpgOut) (after : List Event) (b : Bool),
      w'.trace = after ++ vs.map (fun v => Gpg (commandLine g [str!"--version"]) none v) ++ w.trace ∧
      ((∀ v ∈ vs, Says env v ns) → (b = true ↔ AtLeast ns [2, 0] ∧ ¬ AtLeast ns [2, 1, 12])) ∧
      ((b = false ∧ after = []) ∨ (b = true ∧ (after = [Found (agentConf home) true] ∨
        after = [Wrote (agentConf home) (str!"allow-loopback-pinentry\n"), Found (agentConf home) false]))) := by
  unfold fixAgent at h
  obtain ⟨b, w1, h1, h⟩ := run_bind_ok.mp h
  obtain ⟨vs, t1, hb⟩ := badDefaults_said (ns := ns) hi h1
  cases b with
  | false =>
    cases h
    exact ⟨vs, [], false, t1, hb, .inl ⟨rfl, rfl⟩⟩
  | true =>
    obtain ⟨x, w2, h2, h⟩ := run_bind_ok.mp h
    have t2 := exists_said h2
    cases x with
    | true =>
      cases h
      exact ⟨vs, [Found (agentConf home) true], true, by rw [t2, t1]; rfl, hb, .inr ⟨rfl, .inl rfl⟩⟩
    | false =>
      have t3 := write_said h
      exact ⟨vs, _, true, by rw [t3, t2, t1]; rfl, hb, .inr ⟨rfl, .inr rfl⟩⟩

/-- what happens when an account's gpg is set up -/
theorem create_said {S : StoreImpl σ} {O : Oracle K} {env : Env} (hi : ReadsInts env) {home path : Str} {g : BinGPG} (ns : List Nat) {w w' : World σ K}
    (h : run S O (create env (some home) path) w = (.ok g, w')) :
    ∃ (vs : List GpgOut) (before after : List Event) (b : Bool),
      w'.trace = after ++ vs.map (fun v => Gpg (commandLine g [str!"--version"]) none v) ++ before ++ w.trace ∧
      ((∀ v ∈ vs, Says env v ns) → (b = true ↔ AtLeast ns [2, 0] ∧ ¬ AtLeast ns [2, 1, 12])) ∧
      (∀ p c r, (⟨.writeFile p c, r⟩ : Event) ∉ before) ∧
      ((b = false ∧ after = []) ∨ (b = true ∧ (after = [Found (agentConf home) true] ∨
        after = [Wrote (agentConf home) (str!"allow-loopback-pinentry\n"), Found (agentConf home) false]))) := by
  unfold create at h
  simp only [bind_eq, pure_eq] at h
  obtain ⟨f, w0, h0, h⟩ := run_bind_ok.mp h
  cases f with
  | none => cases h
  | some p =>
    obtain ⟨⟨⟩, w5, h1, h⟩ := run_bind_ok.mp h
    cases h
    have hp : ensureInit env ⟨some home, p⟩ = (Prog.pathExists home).bind fun e => if (!e) = true then
        (Prog.makedirs home).bind fun _ => fixAgent env ⟨some home, p⟩ home else fixAgent env ⟨some home, p⟩ home := by
      unfold ensureInit fixAgent
      simp only [bind_eq, pure_eq]
      rfl
    rw [hp] at h1
    have t0 := find_said h0
    obtain ⟨e, w1, h2, h1⟩ := run_bind_ok.mp h1
    have t1 := exists_said h2
    cases e with
    | true =>
      obtain ⟨vs, after, b, t2, hb, ha⟩ := fixAgent_said hi ns h1
      exact ⟨vs, [Found home true, ⟨.findExecutable path, some p⟩], after, b, by rw [t2, t1, t0]; simp, hb, fun p c r h => by have h := List.mem_map_of_mem (f := Event.op) h; simp [Found] at h, ha⟩
    | false =>
      obtain ⟨⟨⟩, w2, h3, h1⟩ := run_bind_ok.mp h1
      have t3 := makedirs_said h3
      obtain ⟨vs, after, b, t2, hb, ha⟩ := fixAgent_said hi ns h1
      exact ⟨vs, [⟨.makedirs home, (.ok () : Except Exc Unit)⟩, Found home false, ⟨.findExecutable path, some p⟩], after, b,
        by rw [t2, t3, t1, t0]; simp, hb, fun p c r h => by have h := List.mem_map_of_mem (f := Event.op) h; simp [Found] at h, ha⟩

/-- C105: the home of an account gets a `gpg-agent.conf` which allows the passphrase option exactly if the version is one which needs it, and never
in place of an existing one. Nothing else is written. -/
theorem C105_agent {S : StoreImpl σ} {O : Oracle K} {env : Env} (hi : ReadsInts env) {home path : Str} {g : BinGPG} {ns : List Nat} {w w' : World σ K}
    (h : run S O (create env (some home) path) w = (.ok g, w'))
    (hv : ∀ v, Since w w' (Gpg (commandLine g [str!"--version"]) none v) → Says env v ns) :
    (∀ p content (r : Except Exc Unit), Since w w' ⟨.writeFile p content, r⟩ → p = agentConf home ∧ content = str!"allow-loopback-pinentry\n" ∧
      AtLeast ns [2, 0] ∧ ¬ AtLeast ns [2, 1, 12] ∧ Since w w' (Found (agentConf home) false)) ∧
    (AtLeast ns [2, 0] → ¬ AtLeast ns [2, 1, 12] → Since w w' (Found (agentConf home) true) ∨
      Since w w' (Wrote (agentConf home) (str!"allow-loopback-pinentry\n"))) := by
  obtain ⟨vs, before, after, b, ht, hb, hw, ha⟩ := create_said hi ns h
  have sin : ∀ e, e ∈ after ++ vs.map (fun v => Gpg (commandLine g [str!"--version"]) none v) ++ before ↔ Since w w' e := fun e =>
    ⟨fun he => ⟨_, ht, he⟩, fun ⟨new, hn, he⟩ => by rw [ht] at hn; rwa [List.append_cancel_right hn]⟩
  have hb := hb fun v hv' => hv v ((sin _).mp (by simp; exact .inr (.inl ⟨v, hv', rfl⟩)))
  constructor
  · intro p c r hs
    have hm := (sin _).mpr hs
    rw [List.mem_append, List.mem_append] at hm
    rcases hm with (hm | hm) | hm
    · have hm := List.mem_map_of_mem (f := Event.op) hm
      rcases ha with ⟨-, rfl⟩ | ⟨rfl, rfl | rfl⟩
      · cases hm
      · simp [Found] at hm
      · have := hb.mp rfl
        have hm : p = agentConf home ∧ c = str!"allow-loopback-pinentry\n" := by simpa [Found, Wrote] using hm
        exact ⟨hm.1, hm.2, this.1, this.2, (sin _).mp (by simp)⟩
    · obtain ⟨v, -, hv⟩ := List.mem_map.mp hm
      cases hv
    · exact absurd hm (hw p c r)
  · intro h1 h2
    have : b = true := hb.mpr ⟨h1, h2⟩
    rcases ha with ⟨rfl, -⟩ | ⟨-, rfl | rfl⟩
    · cases this
    · exact .inl ((sin _).mp (by simp))
    · exact .inr ((sin _).mp (by simp))

/-- the answers of an environment without state -/
theorem run_stateless {S : StoreImpl σ} {O : Oracle K} {f : (o : ExtOp) → o.Ret} (hO : ∀ o k, (O.step o k).1 = f o) {α : Type} (p : Prog α) (w : World σ K) :
    Events (fun ev => ev.ret = f ev.op) w (run S O p w).2 := by
  induction p generalizing w with
  | pure a => exact .rfl'
  | raise e => exact .rfl'
  | op o k ih =>
    simp only [run]
    refine .trans ?_ (ih _ _)
    cases o with
    | ext o => exact ⟨[⟨o, (O.step o w.env).1⟩], rfl, by simp [hO]⟩
    | _ => exact ⟨[], rfl, by simp⟩

/-! ## Concrete cases -/

section Examples
open Concrete

theorem concrete_readsInts : ReadsInts env := by
  intro n
  have h1 : digits (Py.natToStr n) = some (n : Int) := by
    have hall : (Py.natToStr n).all (fun c => c.isDigit) = true := List.all_eq_true.mpr fun c hc => natToStr_digit hc
    have hne : (Py.natToStr n).isEmpty = false := by
      cases h : Py.natToStr n with
      | nil => exact absurd h (natToStr_ne_nil n)
      | cons => rfl
    have hf : ∀ (l : Str) (k : Nat), l.foldl (fun (n : Int) c => 10 * n + (c.toNat - 48 : Nat)) k = (Nat.ofDigitChars 10 l k : Nat) := by
      intro l
      induction l with
      | nil => intro k; rfl
      | cons c l ih =>
        intro k
        rw [List.foldl_cons, Nat.ofDigitChars_cons, ← ih]
        rfl
    rw [digits, hall, hne]
    have := hf (Py.natToStr n) 0
    rw [show Nat.ofDigitChars 10 (Py.natToStr n) 0 = n from Nat.ofDigitChars_toDigits (by omega) (by omega)] at this
    simpa using this
  show (match digits (Py.natToStr n) with | some n => Except.ok n | none => Except.error Exc.valueError) = _
  rw [h1]

/-- gpg 2.1.2 -/
def gpg212 : GpgOut := ⟨0, bs (str!"gpg (GnuPG) 2.1.2\nlibgcrypt 1.6.3\n"), []⟩

/-- a machine with gpg 2.1.2 and without home directories -/
def oldGpg : Oracle Unit where
  step o k := match o with
    | .gpg _ _ => (.ok gpg212, k)
    | .pathExists _ => (false, k)
    | o => oracle.step o k

theorem oldGpg_answers (o : ExtOp) (k : Unit) : (oldGpg.step o k).1 = (oldGpg.step o ()).1 := rfl

theorem gpg212_says : Says env gpg212 [2, 1, 2] :=
  ⟨str!"gpg (GnuPG) 2.1.2\nlibgcrypt 1.6.3\n", str!"gpg (GnuPG) 2.1.2", str!"gpg", str!"(GnuPG)", [], by decide +kernel,
    .inr ⟨str!"libgcrypt 1.6.3\n", rfl⟩, by decide, rfl, by decide, by decide, .inl rfl, by simp⟩

/-- 2.1.2 is older than 2.1.12, though not as a text -/
example : AtLeast [2, 1, 2] [2, 0] ∧ AtLeast [2, 1, 2] [2, 1] ∧ ¬ AtLeast [2, 1, 2] [2, 1, 12] ∧ str!"2.1.12" < str!"2.1.2" ∧ AtLeast [2, 1] [2, 1] ∧
    ¬ AtLeast [2] [2, 0] ∧ AtLeast [2, 10] [2, 9, 9] := by
  simp only [atLeast_cons, atLeast_nil, not_atLeast, and_true, and_false, or_false]
  decide

/-- the hypotheses of `C105_loopback` are met -/
example : Unlocks env gpg212 [str!"--passphrase", str!"123", str!"--pinentry-mode=loopback"] :=
  ⟨str!"gpg (GnuPG) 2.1.2\nlibgcrypt 1.6.3\n", true, by decide +kernel, by rfl, rfl⟩

/-- the hypotheses of `C105_unattended` are met -/
example : (run Store.impl oldGpg (sign env ⟨some (str!"/h"), str!"/usr/bin/gpg"⟩ [1, 2] (str!"00AA")) world0).1.toOption.isSome ∧
    (run Store.impl oldGpg (sign env ⟨some (str!"/h"), str!"/usr/bin/gpg"⟩ [1, 2] (str!"00AA")) world0).2.trace.length = 2 := by
  decide +kernel

/-- the configuration of the agent is written for it -/
example : (run Store.impl oldGpg (create env (some (str!"/h")) (str!"gpg")) world0).1.toOption = some ⟨some (str!"/h"), str!"/usr/bin/gpg"⟩ ∧
    (run Store.impl oldGpg (create env (some (str!"/h")) (str!"gpg")) world0).2.trace.length = 7 := by
  decide +kernel

/-- the hypotheses of `C105_agent` are met -/
example : ∀ g w', run Store.impl oldGpg (create env (some (str!"/h")) (str!"gpg")) world0 = (.ok g, w') →
    Since world0 w' (Wrote (str!"/h/gpg-agent.conf") (str!"allow-loopback-pinentry\n")) := by
  intro g w' h
  have ho := run_stateless (S := Store.impl) oldGpg_answers (create env (some (str!"/h")) (str!"gpg")) world0
  rw [h] at ho
  have ho : ∀ o r, Since world0 w' ⟨o, r⟩ → r = (oldGpg.step o ()).1 := by
    rintro o r ⟨new, hn, hm⟩
    obtain ⟨new', hn', hall⟩ := ho
    rw [hn'] at hn
    exact hall _ (List.append_cancel_right hn ▸ hm)
  have hv : ∀ v, Since world0 w' (Gpg (commandLine g [str!"--version"]) none v) → Says env v [2, 1, 2] := by
    intro v hs
    cases (ho _ _ hs : (Except.ok v : Except Exc GpgOut) = .ok gpg212)
    exact gpg212_says
  rcases (C105_agent concrete_readsInts h hv).2 (by simp [atLeast_cons, atLeast_nil]) (by simp [atLeast_cons]) with hf | hf
  · cases (ho _ _ hf : true = false)
  · exact hf

end Examples

end Verif
