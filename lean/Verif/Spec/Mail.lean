import Verif.Model.Account
/-!
# What a mail says: the words used in the statements

The properties speak of addresses, message ids, encrypted mail, recipients and addresses of delivery. These are the
definitions the statements use. They are written from the documents (RFC 3156 for PGP/MIME, the comments of the code for the
rest), not from the model; that the functions of the model compute them is proved below, and every theorem that mentions them
depends on that proof.
-/
namespace Verif

/-- the routable address in a header field, in lower case -/
def address (env : Env) (x : Option Str) : Str := env.lower (env.parseaddr x)

/-- the id by which a mail is known: its first `Message-Id` field; mails without one all share the id "None" -/
def mailId (m : Msg) : Str := (m.get (str!"Message-Id")).getD (str!"None")

/-- encrypted mail in the form of RFC 3156, 4: a `multipart/encrypted` of exactly two parts, the control information
and the data -/
def PgpMime (m : Msg) : Prop :=
  m.contentType = str!"multipart/encrypted" ∧ ∃ control data, m.payload = .multi [control, data] ∧
    control.contentType = str!"application/pgp-encrypted" ∧ data.contentType = str!"application/octet-stream"

/-- a mail called `multipart/encrypted` whose body is missing, or is a text of two characters: it cannot be told whether
it is encrypted, the code stops with an exception -/
def OddMail (m : Msg) : Prop :=
  m.contentType = str!"multipart/encrypted" ∧ (m.payload = .none ∨ ∃ x y, m.payload = .text [x, y])

/-- a mail that is not encrypted -/
def PlainMail (m : Msg) : Prop := ¬ PgpMime m ∧ ¬ OddMail m

/-- the addresses a mail goes to, as they are written in `To` and `Cc` -/
def recipients (env : Env) (m : Msg) : List Str := env.getaddresses (m.getAll (str!"To") ++ m.getAll (str!"Cc"))

/-- the address a mail was delivered to: the one in `Delivered-To`; if there is none, the given one -/
def DeliveredTo (env : Env) (m : Msg) (given : Option Str) (d : Str) : Prop :=
  d ≠ [] ∧ ((d = address env (m.get (str!"Delivered-To"))) ∨
    address env (m.get (str!"Delivered-To")) = [] ∧ ∃ g, given = some g ∧ g ≠ [] ∧ d = address env (some g))

/-- the encrypted data of a mail: the text of its second part, which must be ASCII -/
def EncryptedData (m : Msg) (data : Bytes) : Prop :=
  PgpMime m ∧ ∃ control part s, m.payload = .multi [control, part] ∧ part.payload = .text s ∧
    data = s.map (fun c => UInt8.ofNat c.toNat) ∧ ∀ c ∈ s, c.toNat < 128

/-! ## the functions of the model compute them -/

theorem address_eq : @address = @Mime.parseEmailAddr := rfl

theorem mailId_eq : @mailId = @messageId := by
  funext m; unfold mailId messageId; cases m.get (str!"Message-Id") <;> rfl

theorem pgpMime_iff {m : Msg} : PgpMime m ↔ Mime.isEncrypted m = .ok true := by
  unfold PgpMime Mime.isEncrypted
  split
  case isTrue h =>
    simp only [h, true_and]
    split
    case h_3 a b hp =>
      rw [hp]; simp only [Payload.multi.injEq, List.cons.injEq, and_true, Except.ok.injEq, Bool.and_eq_true, beq_iff_eq]
      constructor
      · rintro ⟨_, _, ⟨rfl, rfl⟩, h⟩; exact h
      · exact fun h => ⟨_, _, ⟨rfl, rfl⟩, h⟩
    case h_1 hp => rw [hp]; simp
    case h_2 s hp => rw [hp]; by_cases hs : s.length = 2 <;> simp [hs]
    case h_4 l hl hp => rw [hp]; simp; intro a b hab; exact absurd hab (hl a b)
  case isFalse h => simp [h]

theorem oddMail_iff {m : Msg} : OddMail m ↔ ∃ e, Mime.isEncrypted m = .error e := by
  unfold OddMail Mime.isEncrypted
  split
  case isTrue h =>
    simp only [h, true_and]
    split
    case h_3 a b hp => rw [hp]; simp
    case h_1 hp => rw [hp]; simp
    case h_2 s hp =>
      rw [hp]
      have : (∃ x y, s = [x, y]) ↔ s.length = 2 := by
        constructor
        · rintro ⟨x, y, rfl⟩; rfl
        · intro h; match s, h with | [x, y], _ => exact ⟨x, y, rfl⟩
      by_cases hs : s.length = 2 <;> simp [hs, this]
    case h_4 l hl hp => rw [hp]; simp
  case isFalse h => simp [h]

theorem plainMail_iff {m : Msg} : PlainMail m ↔ Mime.isEncrypted m = .ok false := by
  unfold PlainMail
  rw [pgpMime_iff, oddMail_iff]
  cases Mime.isEncrypted m with
  | error e => simp
  | ok b => cases b <;> simp

theorem recipients_eq : @recipients = @Mime.getTargetEmailadr := by
  funext env m; rfl

theorem deliveredTo_iff {env : Env} {m : Msg} {g : Option Str} {d : Str} :
    DeliveredTo env m g d ↔ Mime.getDeliveredTo env m g = .ok d := by
  unfold DeliveredTo Mime.getDeliveredTo
  rw [address_eq]
  generalize Mime.parseEmailAddr env (m.get (str!"Delivered-To")) = a
  cases a with
  | nil =>
    cases g with
    | none => simp
    | some g =>
      cases g with
      | nil => simp
      | cons c cs =>
        simp only [List.isEmpty_nil, Option.getD_some, List.isEmpty_cons, Bool.not_false, Bool.and_self, if_true,
          Option.some.injEq, exists_eq_left', ne_eq, reduceCtorEq, not_false_iff, true_and]
        generalize Mime.parseEmailAddr env (some (c :: cs)) = b
        cases b with
        | nil => simp
        | cons x xs =>
          simp only [List.isEmpty_cons, Bool.false_eq_true, if_false, Except.ok.injEq]
          constructor
          · rintro ⟨h1, h | h⟩
            · exact absurd h h1
            · exact h.symm
          · rintro rfl; exact ⟨by simp, .inr rfl⟩
  | cons c cs =>
    simp only [List.isEmpty_cons, Bool.false_and, Bool.false_eq_true, if_false, Except.ok.injEq, reduceCtorEq, false_and, or_false]
    constructor
    · rintro ⟨_, h⟩; exact h.symm
    · rintro rfl; exact ⟨by simp, rfl⟩

theorem asciiEncode_iff {s : Str} {d : Bytes} :
    Py.asciiEncode s = some d ↔ d = s.map (fun c => UInt8.ofNat c.toNat) ∧ ∀ c ∈ s, c.toNat < 128 := by
  induction s generalizing d with
  | nil => simp [Py.asciiEncode, eq_comm]
  | cons c cs ih =>
    unfold Py.asciiEncode
    split
    case isTrue h =>
      simp only [Option.map_eq_some_iff, ih, List.map_cons, List.forall_mem_cons]
      constructor
      · rintro ⟨_, ⟨rfl, h1⟩, rfl⟩; exact ⟨rfl, h, h1⟩
      · rintro ⟨rfl, _, h1⟩; exact ⟨_, ⟨rfl, h1⟩, rfl⟩
    case isFalse h => simp [h]

theorem encryptedData_iff {m : Msg} {d : Bytes} : EncryptedData m d ↔ Account.encData m = .ok d := by
  unfold EncryptedData Account.encData
  rw [pgpMime_iff]
  cases he : Mime.isEncrypted m with
  | error e => simp
  | ok b =>
    cases b with
    | false => simp
    | true =>
      obtain ⟨_, a, b, hp, _⟩ := pgpMime_iff.mpr he
      simp only [hp, true_and, Payload.multi.injEq, List.cons.injEq, and_true]
      cases hb : b.payload with
      | none => simp; intro s h; simp [hb] at h
      | multi l => simp; intro s h; simp [hb] at h
      | text s =>
        constructor
        · rintro ⟨_, _, s', ⟨rfl, rfl⟩, h, hd⟩
          rw [hb] at h; cases h
          simp only [asciiEncode_iff.mpr hd]
        · intro h
          cases hs : Py.asciiEncode s with
          | none => simp [hs] at h
          | some x =>
            simp only [hs, Except.ok.injEq] at h; subst h
            exact ⟨_, _, s, ⟨rfl, rfl⟩, hb, asciiEncode_iff.mp hs⟩

/-! ## Command lines -/

/-- the command line of a gpg object: its program, `--batch`, its home directory and some arguments -/
def commandLine (g : BinGPG) (args : List Str) : List Str :=
  [g.path, str!"--batch"] ++ (match g.home with | none => [] | some h => if h = [] then [] else [str!"--homedir", h]) ++ args

theorem argv_eq (g : BinGPG) (args : List Str) : g.argv args = commandLine g args := by
  unfold BinGPG.argv commandLine BinGPG.homedirflags
  cases g.home with
  | none => rfl
  | some h => cases h <;> rfl

/-- rewrites the words of the statements to the functions of the model -/
macro "spec_mail" : tactic =>
  `(tactic| simp only [address_eq, mailId_eq, pgpMime_iff, plainMail_iff, recipients_eq, deliveredTo_iff, encryptedData_iff] at *)

end Verif
