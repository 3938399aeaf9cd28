import Verif.Model.Chainstore
/-!
# A concrete serializer

Used by examples and witnesses about the store on disk. Values become lists of numbers, numbers are written in base 128
with a continuation bit. Like the real one it needs no information besides the bytes, and it does not accept
truncated data.
-/
namespace Verif.Concrete

/-- a number in base 128; the first argument bounds the number of digits -/
def encNat : Nat → Nat → Bytes
  | 0, n => [UInt8.ofNat (n % 128)]
  | f + 1, n => if n < 128 then [UInt8.ofNat n] else UInt8.ofNat (128 + n % 128) :: encNat f (n / 128)

/-- read a number -/
def decNat : Bytes → Option (Nat × Bytes)
  | [] => none
  | b :: r => if b.toNat < 128 then some (b.toNat, r) else
    match decNat r with
    | some (m, r') => some ((b.toNat - 128) + 128 * m, r')
    | none => none

/-- a way to write values as bytes and to read them back -/
structure Code (α : Type) where
  enc : α → Bytes
  dec : Bytes → Option (α × Bytes)
  ok : ∀ a r, dec (enc a ++ r) = some (a, r)
  short : ∀ a p q, enc a = p ++ q → q ≠ [] → dec p = none

theorem decNat_encNat (f n : Nat) (h : n ≤ f) (r : Bytes) : decNat (encNat f n ++ r) = some (n, r) := by
  induction f generalizing n with
  | zero =>
    have : n = 0 := by omega
    subst this; rfl
  | succ f ih =>
    by_cases hn : n < 128
    · have h1 : n % 256 = n := Nat.mod_eq_of_lt (by omega)
      simp [encNat, hn, decNat, h1]
    · have h1 : (128 + n % 128) % 256 = 128 + n % 128 := Nat.mod_eq_of_lt (by omega)
      have h2 := ih (n / 128) (by omega)
      have h3 : ¬ (128 + n % 128 < 128) := by omega
      simp only [encNat, hn, if_false, List.cons_append, decNat, UInt8.toNat_ofNat', Nat.reducePow, h1, h3, h2,
        Option.some.injEq, Prod.mk.injEq, and_true]
      omega

theorem decNat_short (f n : Nat) (h : n ≤ f) (p q : Bytes) (he : encNat f n = p ++ q) (hq : q ≠ []) :
    decNat p = none := by
  induction f generalizing n p with
  | zero =>
    cases p with
    | nil => rfl
    | cons x p => simp [encNat] at he; exact absurd he.2.2 hq
  | succ f ih =>
    cases p with
    | nil => rfl
    | cons x p =>
      by_cases hn : n < 128
      · simp [encNat, hn] at he; exact absurd he.2.2 hq
      · simp only [encNat, hn, if_false, List.cons_append, List.cons.injEq] at he
        have h1 : (128 + n % 128) % 256 = 128 + n % 128 := Nat.mod_eq_of_lt (by omega)
        have h3 : ¬ (128 + n % 128 < 128) := by omega
        have h2 := ih (n / 128) (by omega) p he.2
        simp only [decNat, ← he.1, UInt8.toNat_ofNat', Nat.reducePow, h1, h3, if_false, h2]

/-- numbers -/
def natCode : Code Nat where
  enc n := encNat n n
  dec := decNat
  ok a r := decNat_encNat a a (Nat.le_refl _) r
  short a p q h hq := decNat_short a a (Nat.le_refl _) p q h hq

/-- read `n` values -/
def decN {α : Type} (dec : Bytes → Option (α × Bytes)) : Nat → Bytes → Option (List α × Bytes)
  | 0, b => some ([], b)
  | n + 1, b => match dec b with
    | none => none
    | some (a, r) => match decN dec n r with
      | none => none
      | some (l, r') => some (a :: l, r')

theorem decN_ok {α : Type} (C : Code α) (l : List α) (r : Bytes) :
    decN C.dec l.length (l.flatMap C.enc ++ r) = some (l, r) := by
  induction l with
  | nil => rfl
  | cons a l ih => simp [decN, List.flatMap_cons, List.append_assoc, C.ok, ih]

/-- a proper beginning of `x ++ y` is a proper beginning of `x`, or `x` and a proper beginning of `y` -/
theorem split_prefix {x y p q : Bytes} (h : x ++ y = p ++ q) :
    (∃ z, z ≠ [] ∧ x = p ++ z) ∨ ∃ z, p = x ++ z ∧ y = z ++ q := by
  rcases List.append_eq_append_iff.1 h with ⟨z, h1, h2⟩ | ⟨z, h1, h2⟩
  · exact Or.inr ⟨z, h1, h2⟩
  · by_cases hz : z = []
    · subst hz
      exact Or.inr ⟨[], by simpa using h1.symm, by simpa using h2.symm⟩
    · exact Or.inl ⟨z, hz, h1⟩

theorem decN_short {α : Type} (C : Code α) (l : List α) (p q : Bytes) (h : l.flatMap C.enc = p ++ q) (hq : q ≠ []) :
    decN C.dec l.length p = none := by
  induction l generalizing p with
  | nil => simp at h; exact absurd h.2 hq
  | cons a l ih =>
    rw [List.flatMap_cons] at h
    rcases split_prefix h with ⟨z, hz, h1⟩ | ⟨z, h1, h2⟩
    · simp [decN, C.short a p z h1 hz]
    · simp [decN, h1, C.ok, ih z h2]

/-- lists -/
def listCode {α : Type} (C : Code α) : Code (List α) where
  enc l := natCode.enc l.length ++ l.flatMap C.enc
  dec b := match natCode.dec b with
    | none => none
    | some (n, r) => decN C.dec n r
  ok l r := by simp only [List.append_assoc, natCode.ok, decN_ok]
  short l p q h hq := by
    rcases split_prefix h with ⟨z, hz, h1⟩ | ⟨z, h1, h2⟩
    · simp only [natCode.short _ p z h1 hz]
    · simp only [h1, natCode.ok, decN_short C l z q h2 hq]

/-- through another type -/
def mapCode {α β : Type} (C : Code β) (f : α → β) (g : β → Option α) (hg : ∀ a, g (f a) = some a) : Code α where
  enc a := C.enc (f a)
  dec b := match C.dec b with
    | none => none
    | some (x, r) => match g x with
      | none => none
      | some a => some (a, r)
  ok a r := by simp only [C.ok, hg]
  short a p q h hq := by simp only [C.short _ p q h hq]

/-- characters as numbers -/
def strNats (s : Str) : List Nat := s.map Char.toNat
/-- and back -/
def natsStr (l : List Nat) : Str := l.map Char.ofNat

theorem natsStr_strNats (s : Str) : natsStr (strNats s) = s := by
  simp [natsStr, strNats, Function.comp_def]

/-- a value as numbers -/
def valNats : Val → List Nat
  | .none => [0]
  | .text s => 1 :: strNats s
  | .bytes b => 2 :: b.map UInt8.toNat
  | .float (.ofNat n) => [3, n]
  | .float (.negSucc n) => [4, n]

/-- and back -/
def natsVal : List Nat → Option Val
  | [0] => some .none
  | 1 :: l => some (.text (natsStr l))
  | 2 :: l => some (.bytes (l.map UInt8.ofNat))
  | [3, n] => some (.float (.ofNat n))
  | [4, n] => some (.float (.negSucc n))
  | _ => none

theorem natsVal_valNats (v : Val) : natsVal (valNats v) = some v := by
  cases v with
  | none => rfl
  | text s => simp [valNats, natsVal, natsStr_strNats]
  | bytes b => simp [valNats, natsVal, Function.comp_def]
  | float t => cases t <;> rfl

/-- lists of values -/
def valsCode : Code (List Val) := listCode (mapCode (listCode natCode) valNats natsVal natsVal_valNats)

/-- pairs of texts as numbers and back -/
def pairNats (x : Str × Str) : List (List Nat) := [strNats x.1, strNats x.2]
/-- and back -/
def natsPair : List (List Nat) → Option (Str × Str)
  | [a, b] => some (natsStr a, natsStr b)
  | _ => none

/-- dictionaries -/
def dictCode : Code (List (Str × Str)) :=
  listCode (mapCode (listCode (listCode natCode)) pairNats natsPair
    (fun x => by simp [pairNats, natsPair, natsStr_strNats]))

/-- the concrete serializer; the "hash" is the data itself with a letter before it -/
def codec : Codec where
  dumpList := valsCode.enc
  loadList b := match valsCode.dec b with
    | some (l, _) => .ok l
    | none => .error (.other 1)
  dumpDict := dictCode.enc
  loadDict b := match dictCode.dec b with
    | some (l, _) => .ok l
    | none => .error (.other 1)
  hash b := 'h' :: b.map (fun x => Char.ofNat x.toNat)

theorem codec_lawful : codec.Lawful where
  load_dump_list l := by
    have := valsCode.ok l []
    rw [List.append_nil] at this
    simp [codec, this]
  load_dump_dict d _ := by
    have := dictCode.ok d []
    rw [List.append_nil] at this
    simp [codec, this]
  hash_ne _ := by simp [codec]

end Verif.Concrete
