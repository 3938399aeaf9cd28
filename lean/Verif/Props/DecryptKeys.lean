import Verif.Props.IncomingScope
import Verif.Props.GpgOps
import Verif.Lemmas.Regex
import Mathlib.Data.List.Forall2
/-!
# The keys to which a message was encrypted: C102
-/
namespace Verif

variable {K : Type}

/-! ## Specification -/

/-- the rest of a line -/
def InLine (s : Str) : Prop := Py.AllOf (fun c => c != '\n') s

/-- `created ..` -/
def FromCreated (s : Str) : Prop := ∃ u, s = str!"created " ++ u

/-- `ID 1234ABCD .. created ..` -/
def FromId (env : Env) (s : Str) : Prop := ∃ u, s = str!"ID " ++ u ∧ Divides (Py.SomeOf env.isWord) (Divides InLine FromCreated) u

/-- `-bit RSA .. ID 1234ABCD .. created ..` -/
def FromBit (env : Env) (s : Str) : Prop := ∃ u, s = str!"-bit " ++ u ∧ Divides (Py.SomeOf env.isWord) (Divides InLine (FromId env)) u

/-- `with 2048-bit RSA .. ID 1234ABCD .. created ..` -/
def FromWith (env : Env) (s : Str) : Prop := ∃ u, s = str!"with " ++ u ∧ Divides (Py.SomeOf env.isDecimal) (FromBit env) u

/-- the line is `gpg .. with bits-bit type .. ID id .. created date`; if it can be read so in several ways then each part is as long as possible, the
first parts first -/
def NamingLine (env : Env) (l bits type id date : Str) : Prop :=
  ∃ x y z s1 s2 s3 s4 s5 s6 s7 rest, l = str!"gpg" ++ s1 ∧ Longest InLine (FromWith env) s1 x (str!"with " ++ s2) ∧
    Longest (Py.SomeOf env.isDecimal) (FromBit env) s2 bits (str!"-bit " ++ s3) ∧
    Longest (Py.SomeOf env.isWord) (Divides InLine (FromId env)) s3 type s4 ∧ Longest InLine (FromId env) s4 y (str!"ID " ++ s5) ∧
    Longest (Py.SomeOf env.isWord) (Divides InLine FromCreated) s5 id s6 ∧ Longest InLine FromCreated s6 z (str!"created " ++ s7) ∧
    Longest InLine (fun _ => True) s7 date rest

/-- the line has this form -/
def IsNamingLine (env : Env) (l : Str) : Prop := ∃ s, l = str!"gpg" ++ s ∧ Divides InLine (FromWith env) s

/-- the line of stderr of gpg names the key `k` -/
def NamesKey (env : Env) (l : Str) (k : BinGPG.KeyInfo) : Prop :=
  ∃ bits, NamingLine env l bits k.type k.id k.date ∧ env.pyInt bits = .ok k.bits

/-- the line has a user id: it is indented by four blanks -/
def UidLine (l : Str) : Prop := ∃ r, l = ' ' :: ' ' :: ' ' :: ' ' :: r

/-- the keys in the lines: those which lines name, in order, each one with the user id in the next line if that has one -/
inductive KeyLines (env : Env) : List Str → List BinGPG.KeyInfo → Prop
  | nil : KeyLines env [] []
  | other (l ls ks) : ¬ IsNamingLine env l → KeyLines env ls ks → KeyLines env (l :: ls) ks
  | key (l u ls k ks) : NamesKey env l k → UidLine u → k.uids = [Py.stripChar '"' (Py.strip u)] → KeyLines env ls ks → KeyLines env (l :: u :: ls) (k :: ks)
  | emptyUid (l u ls k ks) : NamesKey env l k → UidLine u → Py.stripChar '"' (Py.strip u) = [] → k.uids = [] → KeyLines env ls ks →
      KeyLines env (l :: u :: ls) (k :: ks)
  | noUid (l ls k ks) : NamesKey env l k → (∀ u ls', ls = u :: ls' → ¬ UidLine u) → k.uids = [] → KeyLines env ls ks → KeyLines env (l :: ls) (k :: ks)

/-- each line which names a key is followed by one with a user id -/
def UidsFollow (env : Env) (ls : List Str) : Prop :=
  ∀ pre l post, ls = pre ++ l :: post → IsNamingLine env l → ∃ u post', post = u :: post' ∧ UidLine u

/-! ## C102 -/

section
variable (env : Env)

/-- the ways to go on after `created` -/
def wDate (bits type id : Str) (s : Str) : List (Str × Str × Str × Str) :=
  (Py.manyOf (fun c => c != '\n') s).flatMap fun x => [(bits, type, id, x.1)]

theorem wDate_some (bits type id s : Str) : wDate bits type id s ≠ [] ↔ True := by
  refine ⟨fun _ => trivial, fun _ => ?_⟩
  have h : wDate bits type id s ≠ [] ↔ Divides InLine (fun _ => True) s := Py.some_of (fun _ => Py.mem_manyOf) fun _ _ => by simp
  exact h.mpr ⟨[], s, rfl, fun c hc => by simp at hc, trivial⟩

def wCreated (bits type id s : Str) : List (Str × Str × Str × Str) := (Py.literal (str!"created ") s).flatMap (wDate bits type id)

theorem wCreated_some (bits type id s : Str) : wCreated bits type id s ≠ [] ↔ FromCreated s :=
  (Py.literal_some (wDate_some bits type id)).trans ⟨fun ⟨u, h, _⟩ => ⟨u, h⟩, fun ⟨u, h⟩ => ⟨u, h, trivial⟩⟩

def wAfterId (bits type id s : Str) : List (Str × Str × Str × Str) := (Py.manyOf (fun c => c != '\n') s).flatMap fun x => wCreated bits type id x.2

theorem wAfterId_some (bits type id s : Str) : wAfterId bits type id s ≠ [] ↔ Divides InLine FromCreated s :=
  Py.some_of (fun _ => Py.mem_manyOf) fun _ b => wCreated_some bits type id b

def wIdValue (bits type s : Str) : List (Str × Str × Str × Str) := (Py.someOf env.isWord s).flatMap fun x => wAfterId bits type x.1 x.2

theorem wIdValue_some (bits type s : Str) : wIdValue env bits type s ≠ [] ↔ Divides (Py.SomeOf env.isWord) (Divides InLine FromCreated) s :=
  Py.some_of (fun _ => Py.mem_someOf) fun a b => wAfterId_some bits type a b

def wId (bits type s : Str) : List (Str × Str × Str × Str) := (Py.literal (str!"ID ") s).flatMap (wIdValue env bits type)

theorem wId_some (bits type s : Str) : wId env bits type s ≠ [] ↔ FromId env s := Py.literal_some (wIdValue_some env bits type)

def wAfterType (bits type s : Str) : List (Str × Str × Str × Str) := (Py.manyOf (fun c => c != '\n') s).flatMap fun x => wId env bits type x.2

theorem wAfterType_some (bits type s : Str) : wAfterType env bits type s ≠ [] ↔ Divides InLine (FromId env) s :=
  Py.some_of (fun _ => Py.mem_manyOf) fun _ b => wId_some env bits type b

def wType (bits s : Str) : List (Str × Str × Str × Str) := (Py.someOf env.isWord s).flatMap fun x => wAfterType env bits x.1 x.2

theorem wType_some (bits s : Str) : wType env bits s ≠ [] ↔ Divides (Py.SomeOf env.isWord) (Divides InLine (FromId env)) s :=
  Py.some_of (fun _ => Py.mem_someOf) fun a b => wAfterType_some env bits a b

def wBit (bits s : Str) : List (Str × Str × Str × Str) := (Py.literal (str!"-bit ") s).flatMap (wType env bits)

theorem wBit_some (bits s : Str) : wBit env bits s ≠ [] ↔ FromBit env s := Py.literal_some (wType_some env bits)

def wBits (s : Str) : List (Str × Str × Str × Str) := (Py.someOf env.isDecimal s).flatMap fun x => wBit env x.1 x.2

theorem wBits_some (s : Str) : wBits env s ≠ [] ↔ Divides (Py.SomeOf env.isDecimal) (FromBit env) s :=
  Py.some_of (fun _ => Py.mem_someOf) fun a b => wBit_some env a b

def wWith (s : Str) : List (Str × Str × Str × Str) := (Py.literal (str!"with ") s).flatMap (wBits env)

theorem wWith_some (s : Str) : wWith env s ≠ [] ↔ FromWith env s := Py.literal_some (wBits_some env)

def wGpg (s : Str) : List (Str × Str × Str × Str) := (Py.manyOf (fun c => c != '\n') s).flatMap fun x => wWith env x.2

theorem wGpg_some (s : Str) : wGpg env s ≠ [] ↔ Divides InLine (FromWith env) s := Py.some_of (fun _ => Py.mem_manyOf) fun _ b => wWith_some env b

theorem reDecryptLine_eq (l : Str) : BinGPG.reDecryptLine env l = ((Py.literal (str!"gpg") l).flatMap (wGpg env)).head? := by
  have hm : ∀ (b t i : Str) (s : Str), ((Py.manyOf (fun c => c != '\n') s).map fun x => (b, t, i, x.1)) = wDate b t i s := by
    intro b t i s
    rw [wDate, ← List.map_eq_flatMap]
  unfold BinGPG.reDecryptLine
  simp only [hm]
  rfl

/-- a line is recognised exactly if it has the form -/
theorem C102_recognised (l : Str) : BinGPG.reDecryptLine env l ≠ none ↔ IsNamingLine env l := by
  rw [reDecryptLine_eq, Ne, List.head?_eq_none_iff]
  exact Py.literal_some (wGpg_some env)

/-- and its parts are read off as stated -/
theorem C102_parts (l bits type id date : Str) : BinGPG.reDecryptLine env l = some (bits, type, id, date) ↔ NamingLine env l bits type id date := by
  rw [reDecryptLine_eq, Py.literal_first]
  unfold NamingLine
  constructor
  · rintro ⟨s1, rfl, h⟩
    obtain ⟨x, t1, l1, h⟩ := (Py.many_first fun _ b => wWith_some env b).mp h
    obtain ⟨s2, rfl, h2⟩ := Py.literal_first.mp h
    obtain ⟨b, t2, l2, h⟩ := (Py.some_first fun a b => wBit_some env a b).mp h2
    obtain ⟨s3, rfl, h3⟩ := Py.literal_first.mp h
    obtain ⟨t, s4, l3, h⟩ := (Py.some_first fun a c => wAfterType_some env b a c).mp h3
    obtain ⟨y, t4, l4, h⟩ := (Py.many_first fun _ c => wId_some env b t c).mp h
    obtain ⟨s5, rfl, h5⟩ := Py.literal_first.mp h
    obtain ⟨i, s6, l5, h⟩ := (Py.some_first fun a c => wAfterId_some b t a c).mp h5
    obtain ⟨z, t6, l6, h⟩ := (Py.many_first fun _ c => wCreated_some b t i c).mp h
    obtain ⟨s7, rfl, h7⟩ := Py.literal_first.mp h
    obtain ⟨d, rest, l7, h⟩ := (Py.many_first (q := fun _ => True) (by simp)).mp h7
    cases h
    exact ⟨x, y, z, s1, s2, s3, s4, s5, s6, s7, rest, rfl, l1, l2, l3, l4, l5, l6, l7⟩
  · rintro ⟨x, y, z, s1, s2, s3, s4, s5, s6, s7, rest, rfl, l1, l2, l3, l4, l5, l6, l7⟩
    refine ⟨s1, rfl, (Py.many_first fun _ b => wWith_some env b).mpr ⟨x, _, l1, Py.literal_first.mpr ⟨s2, rfl, ?_⟩⟩⟩
    refine (Py.some_first fun a b => wBit_some env a b).mpr ⟨bits, _, l2, Py.literal_first.mpr ⟨s3, rfl, ?_⟩⟩
    refine (Py.some_first fun a c => wAfterType_some env bits a c).mpr ⟨type, s4, l3, ?_⟩
    refine (Py.many_first fun _ c => wId_some env bits type c).mpr ⟨y, _, l4, Py.literal_first.mpr ⟨s5, rfl, ?_⟩⟩
    refine (Py.some_first fun a c => wAfterId_some bits type a c).mpr ⟨id, s6, l5, ?_⟩
    refine (Py.many_first fun _ c => wCreated_some bits type id c).mpr ⟨z, _, l6, Py.literal_first.mpr ⟨s7, rfl, ?_⟩⟩
    exact (Py.many_first (q := fun _ => True) (by simp)).mpr ⟨date, rest, l7, rfl⟩

end

theorem uidLine_iff {l : Str} : Py.startsWith (str!"    ") l = true ↔ UidLine l := by
  unfold Py.startsWith UidLine
  rw [List.isPrefixOf_iff_prefix]
  constructor
  · rintro ⟨r, rfl⟩; exact ⟨r, rfl⟩
  · rintro ⟨r, rfl⟩; exact ⟨r, rfl⟩

theorem decryptInfos_names {env : Env} {uid : Option Str} {ls : List Str} {ks : List BinGPG.KeyInfo} (h : BinGPG.decryptInfos env uid ls = .ok ks) :
    ∃ ls', ls'.Sublist ls ∧ List.Forall₂ (NamesKey env) ls' ks := by
  induction hn : ls.length using Nat.strongRecOn generalizing uid ls ks with
  | _ n ih =>
    cases ls with
    | nil => cases h; exact ⟨[], .refl _, .nil⟩
    | cons l ls =>
      rw [BinGPG.decryptInfos] at h
      split at h
      · obtain ⟨ls', h1, h2⟩ := ih _ (by subst hn; simp) h rfl
        exact ⟨ls', h1.cons _, h2⟩
      · next bits type id date hre =>
        cases ls with
        | nil => cases h
        | cons u ls =>
          dsimp only at h
          split at h
          · cases h
          · split at h
            · cases h
            · next hint =>
              split at h
              · cases h
              · next ks' hks =>
                cases h
                obtain ⟨ls', h1, h2⟩ := ih _ (by subst hn; simp; omega) hks rfl
                exact ⟨l :: ls', (h1.cons _).cons_cons _, .cons ⟨bits, (C102_parts env _ _ _ _ _).mp hre, hint⟩ h2⟩

theorem decryptInfos_lines {env : Env} {uid : Option Str} {ls : List Str} {ks : List BinGPG.KeyInfo} (h : BinGPG.decryptInfos env uid ls = .ok ks)
    (hu : UidsFollow env ls) : KeyLines env ls ks := by
  induction hn : ls.length using Nat.strongRecOn generalizing uid ls ks with
  | _ n ih =>
    cases ls with
    | nil => cases h; exact .nil
    | cons l ls =>
      rw [BinGPG.decryptInfos] at h
      split at h
      · next hre =>
        exact .other _ _ _ (fun h => (C102_recognised env l).mpr h hre) (ih _ (by subst hn; simp) h (fun pre x post e => hu (l :: pre) x post (by rw [e]; rfl)) rfl)
      · next bits type id date hre =>
        obtain ⟨u, post', rfl, hul⟩ := hu [] l ls rfl ((C102_recognised env l).mp (by rw [hre]; simp))
        dsimp only at h
        rw [if_pos (uidLine_iff.mpr hul)] at h
        dsimp only at h
        split at h
        · cases h
        · next hint =>
          split at h
          · cases h
          · next ks' hks =>
            cases h
            have hr := ih _ (by subst hn; simp; omega) hks (fun pre x post e => hu (l :: u :: pre) x post (by rw [e]; rfl)) rfl
            by_cases he : Py.stripChar '"' (Py.strip u) = []
            · exact .emptyUid _ _ _ _ _ ⟨bits, (C102_parts env _ _ _ _ _).mp hre, hint⟩ hul he (by simp only [BinGPG.uidList, he]; rfl) hr
            · refine .key _ _ _ _ _ ⟨bits, (C102_parts env _ _ _ _ _).mp hre, hint⟩ hul ?_ hr
              simp only [BinGPG.uidList]
              rw [if_neg (by simpa using he)]

/-- C102, what holds: if `decrypt` returns then gpg decrypted the data and said what is returned, and the keys returned are named in what it wrote
to stderr, in this order; if a line with a user id follows each such line, then all keys are returned, with their user ids. -/
theorem C102_keys_partial {O : Oracle K} {env : Env} {g : BinGPG} {enc dec : Bytes} {ks : List BinGPG.KeyInfo} {w w' : World Store K}
    (h : exec O (BinGPG.decrypt env g enc) w = (.ok (dec, ks), w')) :
    ∃ new argv out err, w'.trace = Gpg argv (some enc) out :: (new ++ w.trace) ∧ str!"--decrypt" ∈ argv ∧ out.ret = 0 ∧ out.out = dec ∧
      env.utf8Decode out.err = .ok err ∧ (∃ ls, ls.Sublist (Py.splitlines err) ∧ List.Forall₂ (NamesKey env) ls ks) ∧
      (UidsFollow env (Py.splitlines err) → KeyLines env (Py.splitlines err) ks) := by
  unfold BinGPG.decrypt at h
  simp only [bind_eq, pure_eq, exec] at h
  obtain ⟨np, w1, h1, h2⟩ := run_bind_ok.mp h
  obtain ⟨⟨o, er⟩, w2, h3, h4⟩ := run_bind_ok.mp h2
  obtain ⟨inf, w3, h5, h6⟩ := run_bind_ok.mp h4
  rw [run_ofExcept] at h5
  have hw3 : w2 = w3 := congrArg Prod.snd h5
  have hinf : BinGPG.decryptInfos env none (Py.splitlines er) = .ok inf := congrArg Prod.fst h5
  have hw' : w3 = w' := congrArg Prod.snd h6
  have hres : (o, inf) = (dec, ks) := Except.ok.inj (congrArg Prod.fst h6)
  cases hres
  subst hw3
  subst hw'
  obtain ⟨out, g1, g2, g3, g4⟩ := gpgOuterr_said h3
  obtain ⟨new, hn⟩ := run_trace (S := Store.impl) (O := O) (BinGPG.nopassphrase env g) w
  rw [h1] at hn
  exact ⟨new, _, out, er, by rw [g1, ← hn], by simp [commandLine], g2, g3, g4, decryptInfos_names hinf, decryptInfos_lines hinf⟩

/-! ## C102 in full is false -/

namespace Concrete

/-- stderr for a key whose user id is known, and one for which it is not -/
def decErr (second : Str) : Str :=
  str!"gpg: encrypted with 3072-bit RSA key, ID AA, created 2020\n      \"Bob <b@x.org>\"\ngpg: encrypted with 2048-bit ELG key, ID BB, created 2021\n" ++ second

/-- gpg which decrypts -/
def decOracle (err : Str) : Oracle Unit where
  step o _ := match o with
    | .gpg argv i => ((.ok (if str!"--decrypt" ∈ argv then ⟨0, [1, 2], (Py.asciiEncode err).getD []⟩ else gpg argv i) : Except Exc GpgOut), ())
    | o => oracle.step o ()

/-- the keys which `decrypt` returns -/
def decKeys (err : Str) : Option (List BinGPG.KeyInfo) :=
  ((exec (decOracle err) (BinGPG.decrypt env ⟨none, str!"gpg"⟩ [9]) (after [])).1.toOption).map (·.2)

end Concrete

open Concrete

/-- C102 in full is false: the second key gets the user id of the first one, and a key which is named right after another one is left out -/
theorem C102_refuted :
    (∃ (ks : List BinGPG.KeyInfo), decKeys (decErr (str!"gpg: done\n")) = some ks ∧ ¬ KeyLines env (Py.splitlines (decErr (str!"gpg: done\n"))) ks) ∧
    ∃ (ks : List BinGPG.KeyInfo), decKeys (decErr (str!"gpg: encrypted with 2048-bit ELG key, ID CC, created 2021\n")) = some ks ∧ ∀ k ∈ ks, k.id ≠ str!"CC" := by
  refine ⟨⟨[⟨str!"RSA", 3072, str!"AA", [str!"Bob <b@x.org>"], str!"2020"⟩, ⟨str!"ELG", 2048, str!"BB", [str!"Bob <b@x.org>"], str!"2021"⟩], by decide +kernel, ?_⟩,
    ⟨[⟨str!"RSA", 3072, str!"AA", [str!"Bob <b@x.org>"], str!"2020"⟩, ⟨str!"ELG", 2048, str!"BB", [str!"Bob <b@x.org>"], str!"2021"⟩], by decide +kernel, by decide +kernel⟩⟩
  rw [show Py.splitlines (decErr (str!"gpg: done\n")) = [str!"gpg: encrypted with 3072-bit RSA key, ID AA, created 2020", str!"      \"Bob <b@x.org>\"",
    str!"gpg: encrypted with 2048-bit ELG key, ID BB, created 2021", str!"gpg: done"] from by decide +kernel]
  intro h
  cases h with
  | other _ _ _ h => exact absurd ((C102_recognised env _).mp (by decide +kernel)) h
  | noUid _ _ _ _ _ h => exact h _ _ rfl ⟨_, rfl⟩
  | emptyUid _ _ _ _ _ _ _ _ h => cases h
  | key _ _ _ _ _ _ _ _ h =>
    cases h with
    | other _ _ _ h => exact absurd ((C102_recognised env _).mp (by decide +kernel)) h
    | noUid _ _ _ _ _ _ h => cases h
    | emptyUid _ _ _ _ _ _ _ _ h => cases h
    | key _ _ _ _ _ _ h => obtain ⟨r, hr⟩ := h; cases hr

/-- C102: two keys, both with a user id -/
example : decKeys (decErr (str!"      \"Eve <e@x.org>\"\n")) =
      some [⟨str!"RSA", 3072, str!"AA", [str!"Bob <b@x.org>"], str!"2020"⟩, ⟨str!"ELG", 2048, str!"BB", [str!"Eve <e@x.org>"], str!"2021"⟩] ∧
    UidsFollow env (Py.splitlines (decErr (str!"      \"Eve <e@x.org>\"\n"))) := by
  refine ⟨by decide +kernel, ?_⟩
  rw [show Py.splitlines (decErr (str!"      \"Eve <e@x.org>\"\n")) = [str!"gpg: encrypted with 3072-bit RSA key, ID AA, created 2020",
    str!"      \"Bob <b@x.org>\"", str!"gpg: encrypted with 2048-bit ELG key, ID BB, created 2021", str!"      \"Eve <e@x.org>\""] from by decide +kernel]
  intro pre l post h hl
  rcases pre with _ | ⟨_, _ | ⟨_, _ | ⟨_, _ | ⟨_, pre⟩⟩⟩⟩ <;> simp only [List.nil_append, List.cons_append, List.cons.injEq] at h
  · obtain ⟨-, rfl⟩ := h; exact ⟨_, _, rfl, _, rfl⟩
  · obtain ⟨-, rfl, -⟩ := h; exact absurd (by decide +kernel) ((C102_recognised env _).mpr hl)
  · obtain ⟨-, -, -, rfl⟩ := h; exact ⟨_, _, rfl, _, rfl⟩
  · obtain ⟨-, -, -, rfl, -⟩ := h; exact absurd (by decide +kernel) ((C102_recognised env _).mpr hl)
  · obtain ⟨-, -, -, -, h⟩ := h
    cases pre <;> cases h

end Verif
