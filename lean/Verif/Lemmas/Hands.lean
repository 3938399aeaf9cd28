import Verif.Lemmas.KeepsCmd
/-!
# Where the arguments of gpg come from

A condition on every run of gpg which depends on everything that happened before in the same call: each argument is a fixed word, or
came from the user, from a stored entry, from what gpg printed, or is the name of a temporary file.
-/
namespace Verif
open BinGPG
variable {α β : Type}

/-! ## Specification -/

/-- the words which the program itself writes on the command line of gpg -/
def ownWords : List Str :=
  [str!"--version", str!"--skip-verify", str!"--with-colons", str!"--list-public-keys", str!"--list-secret-keys", str!"--passphrase", str!"123",
   str!"--pinentry-mode=loopback", str!"--gen-key", str!"-a", str!"--export-options=export-minimal", str!"--export", str!"--export-secret-key",
   str!"--encrypt", str!"--always-trust", str!"-r", str!"--sign", str!"-u", str!"--armor", str!"--decrypt", str!"--import", str!"--yes", str!"--delete-key"]

/-- a text of the digits 0-9 and A-F, and at least one -/
def KeyDigits (k : Str) : Prop := k ≠ [] ∧ ∀ c ∈ k, c ∈ str!"0123456789ABCDEF"

/-- gpg's messages name the key: `key` or `key ID` and its digits -/
def WritesKey (t k : Str) : Prop := KeyDigits k ∧ (str!"key " ++ k <:+: t ∨ str!"key ID " ++ k <:+: t)

/-- a line of gpg's listing of keys has this as the key id, the fifth field -/
def ListsKey (t k : Str) : Prop := ∃ line ∈ Py.splitlines t, (Py.split ':' line)[4]? = some k

/-- gpg printed the key, in its messages or in a listing -/
def PrintedKey (env : Env) (past : List Did) (k : Str) : Prop :=
  ∃ argv stdin out t, Did.gpg argv stdin (.ok out) ∈ past ∧
    (env.utf8Decode out.err = .ok t ∧ WritesKey t k ∨ env.utf8Decode out.out = .ok t ∧ ListsKey t k)

/-- the handle in an entry -/
def Entry.handle : Entry → Option Str
  | .msg e => some e.keyhandle
  | .gossip e => some e.keyhandle
  | .keygen e => e.keyhandle
  | _ => none

/-- an entry which was read has the handle -/
def StoredKey (past : List Did) (k : Str) : Prop := ∃ h es e, ReadAs past h es ∧ e ∈ es ∧ e.handle = some k

/-- the name of a temporary file which was made -/
def TempName (past : List Did) (k : Str) : Prop := (⟨.ext .mkTemp, Except.ok k⟩ : Did) ∈ past

/-- where an argument may come from, `U` being what the user gave -/
def ArgSource (env : Env) (U : Str → Prop) (past : List Did) (k : Str) : Prop :=
  U k ∨ StoredKey past k ∨ PrintedKey env past k ∨ TempName past k

/-- if gpg is run then each of its arguments is a word of the program or comes from such a source -/
def ArgsKnown (env : Env) (U : Str → Prop) (past : List Did) : Op → Prop
  | .ext (.gpg argv _) => ∃ g args, argv = commandLine g args ∧ ∀ a ∈ args, a ∈ ownWords ∨ ArgSource env U past a
  | _ => True

/-- so it is for all operations, given what happened before -/
def AllKnown (env : Env) (U : Str → Prop) (past l : List Did) : Prop :=
  ∀ pre d post, l = pre ++ d :: post → ArgsKnown env U (past ++ pre) d.op

/-! ## Lemmas -/

variable {env : Env} {U : Str → Prop} {past : List Did}

theorem ArgSource.more {l : List Did} {k : Str} (h : ArgSource env U past k) : ArgSource env U (past ++ l) k := by
  rcases h with h | ⟨hd, es, e, h1, h2⟩ | ⟨a, i, o, t, h1, h2⟩ | h
  · exact .inl h
  · exact .inr (.inl ⟨hd, es, e, h1.mono (by simp), h2⟩)
  · exact .inr (.inr (.inl ⟨a, i, o, t, List.mem_append_left _ h1, h2⟩))
  · exact .inr (.inr (.inr (List.mem_append_left _ h)))

theorem AllKnown.nil : AllKnown env U past [] := fun pre d post h => by simp at h
theorem AllKnown.append {l1 l2 : List Did} (h1 : AllKnown env U past l1) (h2 : AllKnown env U (past ++ l1) l2) :
    AllKnown env U past (l1 ++ l2) := by
  intro pre d post he
  rcases List.append_eq_append_iff.mp he with ⟨x, h3, h4⟩ | ⟨x, h3, h4⟩
  · subst h3; have := h2 _ _ _ h4; simpa using this
  · cases x with
    | nil =>
      have := h2 [] d post (by simpa using h4.symm)
      simpa [h3] using this
    | cons y x => cases h4; exact h1 _ _ _ h3
theorem AllKnown.single {d : Did} (h : ArgsKnown env U past d.op) : AllKnown env U past [d] := by
  intro pre d' post he
  cases pre with
  | nil => cases he; simpa using h
  | cons y x => simp at he

/-- with the texts `hs` at hand the arguments of gpg are known, and so are afterwards the texts `out` of the result -/
def Hands (env : Env) (U : Str → Prop) (hs : List Str) (p : Prog α) (out : α → List Str) : Prop :=
  ∀ past, (∀ k ∈ hs, ArgSource env U past k) → ∀ l r, p.Path l r →
    AllKnown env U past l ∧ ∀ a, r = .ok a → ∀ k ∈ out a, ArgSource env U (past ++ l) k

/-- no handles are needed, none of the result matters -/
abbrev Clean (env : Env) (U : Str → Prop) (p : Prog α) : Prop := Hands env U [] p fun _ => []

variable {hs : List Str}

namespace Hands

theorem up {hs' : List Str} {p : Prog α} {out out' : α → List Str} (h : Hands env U hs p out) (h1 : hs ⊆ hs') (h2 : ∀ a, out' a ⊆ out a) :
    Hands env U hs' p out' := fun past hk l r hp =>
  ⟨(h past (fun k m => hk k (h1 m)) l r hp).1, fun a ha k m => (h past (fun k m => hk k (h1 m)) l r hp).2 a ha k (h2 a m)⟩

theorem bind {p : Prog α} {f : α → Prog β} {o1 : α → List Str} {o2 : β → List Str} (h1 : Hands env U hs p o1) (h2 : ∀ a, Hands env U (hs ++ o1 a) (f a) o2) :
    Hands env U hs (p.bind f) o2 := by
  intro past hk l r h
  rcases Prog.Path.bind.mp h with ⟨a, l1, l2, ha, hb, rfl⟩ | ⟨e, ha, rfl⟩
  · obtain ⟨k1, k2⟩ := h1 past hk _ _ ha
    have hk' : ∀ k ∈ hs ++ o1 a, ArgSource env U (past ++ l1) k := fun k hm =>
      (List.mem_append.mp hm).elim (fun hm => (hk k hm).more) (fun hm => k2 a rfl k hm)
    obtain ⟨k3, k4⟩ := h2 a _ hk' _ _ hb
    refine ⟨k1.append k3, fun b hb k hm => ?_⟩
    have := k4 b hb k hm
    rwa [List.append_assoc] at this
  · exact ⟨(h1 past hk _ _ ha).1, fun a h => by cases h⟩

/-- the first part gives nothing -/
theorem bind0 {p : Prog α} {f : α → Prog β} {o2 : β → List Str} (h1 : Clean env U p) (h2 : ∀ a, Hands env U hs (f a) o2) : Hands env U hs (p.bind f) o2 :=
  .bind (h1.up (List.nil_subset _) fun _ _ h => h) fun a => by simpa using h2 a

theorem pure {a : α} {out : α → List Str} (h : out a ⊆ hs) : Hands env U hs (.pure a) out := by
  rintro past hk l r ⟨rfl, rfl⟩
  exact ⟨.nil, fun b hb k hm => by cases hb; exact (hk k (h hm)).more⟩
theorem raise (e) {out : α → List Str} : Hands env U hs (.raise e : Prog α) out := by
  rintro past hk l r ⟨rfl, rfl⟩
  exact ⟨.nil, fun b hb => by cases hb⟩
theorem op {o : Op} {k : o.Ret → Prog α} (ho : ∀ past, ArgsKnown env U past o) {out : α → List Str} (hk : ∀ r, Hands env U hs (k r) out) :
    Hands env U hs (.op o k) out := by
  rintro past hg _ r ⟨a, l, rfl, h⟩
  obtain ⟨h1, h2⟩ := hk a (past ++ [⟨o, a⟩]) (fun k hm => (hg k hm).more) l r h
  refine ⟨AllKnown.append (l1 := [⟨o, a⟩]) (.single (ho past)) h1, fun b hb k hm => ?_⟩
  have := h2 b hb k hm
  rwa [List.append_assoc] at this
theorem attempt {p : Prog α} {out : α → List Str} (h : Hands env U hs p out) :
    Hands env U hs p.attempt fun r => match r with | .ok a => out a | .error _ => [] := by
  intro past hg l r hp
  obtain ⟨x, hx, rfl⟩ := Prog.Path.attempt.mp hp
  obtain ⟨h1, h2⟩ := h past hg _ _ hx
  refine ⟨h1, fun a ha => ?_⟩
  cases ha
  cases x with
  | ok a => exact h2 a rfl
  | error e => simp
theorem ofExcept {x : Except Exc α} {out : α → List Str} (h : ∀ a, x = .ok a → out a ⊆ hs) : Hands env U hs (Prog.ofExcept x) out := by
  cases x with
  | error e => exact raise e
  | ok a => exact pure (h a rfl)

end Hands

namespace Clean
theorem any {p : Prog α} (h : Clean env U p) : Hands env U hs p fun _ => [] := h.up (List.nil_subset _) fun _ _ h => h
theorem pure (a : α) : Clean env U (.pure a) := Hands.pure (List.nil_subset _)
theorem raise (e) : Clean env U (.raise e : Prog α) := Hands.raise e
theorem bind {p : Prog α} {f : α → Prog β} (h1 : Clean env U p) (h2 : ∀ a, Clean env U (f a)) : Clean env U (p.bind f) := Hands.bind0 h1 h2
/-- results of the first part are used -/
theorem bindHands {p : Prog α} {f : α → Prog β} {out : α → List Str} (h1 : Hands env U [] p out) (h2 : ∀ a, Hands env U (out a) (f a) fun _ => []) :
    Clean env U (p.bind f) := Hands.bind h1 h2
theorem ofHands {p : Prog α} {out : α → List Str} (h : Hands env U [] p out) : Clean env U p := h.up (List.Subset.refl _) fun _ => List.nil_subset _
theorem attempt {p : Prog α} (h : Clean env U p) : Clean env U p.attempt := (Hands.attempt h).up (List.Subset.refl _) fun _ => List.nil_subset _
theorem ofExcept (x : Except Exc α) : Clean env U (Prog.ofExcept x) := Hands.ofExcept fun _ _ => List.nil_subset _
theorem assert (b : Bool) : Clean env U (Prog.assert b) := by cases b; exacts [raise _, pure _]
theorem void {p : Prog α} (h : Clean env U p) : Clean env U p.void := bind h fun _ => pure _
theorem op (o : Op) (k : o.Ret → Prog α) (ho : ∀ past, ArgsKnown env U past o) (hk : ∀ r, Clean env U (k r)) : Clean env U (.op o k) := Hands.op ho hk
theorem now : Clean env U Prog.now := .op _ _ (fun _ => trivial) fun _ => .pure _
theorem chain (h) : Clean env U (Prog.chain h) := .op _ _ (fun _ => trivial) fun _ => ofExcept _
theorem append (h e) : Clean env U (Prog.append h e) := .op _ _ (fun _ => trivial) fun _ => ofExcept _
theorem heads : Clean env U Prog.heads := .op _ _ (fun _ => trivial) fun _ => ofExcept _
theorem removeIf (p) : Clean env U (Prog.removeIf p) := .op _ _ (fun _ => trivial) fun _ => ofExcept _
theorem findExecutable (a) : Clean env U (Prog.findExecutable a) := .op _ _ (fun _ => trivial) fun _ => .pure _
theorem pathExists (a) : Clean env U (Prog.pathExists a) := .op _ _ (fun _ => trivial) fun _ => .pure _
theorem makedirs (a) : Clean env U (Prog.makedirs a) := .op _ _ (fun _ => trivial) fun _ => ofExcept _
theorem writeFile (a b) : Clean env U (Prog.writeFile a b) := .op _ _ (fun _ => trivial) fun _ => ofExcept _
theorem uuid : Clean env U Prog.uuid := .op _ _ (fun _ => trivial) fun _ => .pure _
theorem hookInstantiate (a) : Clean env U (Prog.hookInstantiate a) := .op _ _ (fun _ => trivial) fun _ => ofExcept _
theorem hookIncomingGossip (a b d) : Clean env U (Prog.hookIncomingGossip a b d) := .op _ _ (fun _ => trivial) fun _ => ofExcept _
theorem hookBeforeEnc (a b d e) : Clean env U (Prog.hookBeforeEnc a b d e) := .op _ _ (fun _ => trivial) fun _ => ofExcept _
theorem sendmail (a b) : Clean env U (Prog.sendmail a b) := .op _ _ (fun _ => trivial) fun _ => ofExcept _
theorem emit (a) : Clean env U (Prog.emit a) := .op _ _ (fun _ => trivial) fun _ => ofExcept _
theorem rmtree : Clean env U Prog.rmtree := .op _ _ (fun _ => trivial) fun _ => .op _ _ (fun _ => trivial) fun _ => .pure _
end Clean

/-- decompose a goal `Clean env U p` -/
syntax "clean" ("[" term,* "]")? : tactic
macro_rules
  | `(tactic| clean) => `(tactic| clean [trivial])
  | `(tactic| clean [$ts,*]) => do
    let alts ← ts.getElems.mapM fun t => `(tactic| with_reducible apply $t)
    `(tactic| repeat' (first
      | with_reducible intro _
      | assumption
      $[| $alts:tactic]*
      | with_reducible apply Clean.pure
      | with_reducible apply Clean.raise
      | with_reducible apply Clean.bind
      | with_reducible apply Clean.void
      | with_reducible apply Clean.ofExcept
      | with_reducible apply Clean.assert
      | with_reducible apply Clean.now
      | with_reducible apply Clean.chain
      | with_reducible apply Clean.append
      | with_reducible apply Clean.heads
      | with_reducible apply Clean.removeIf
      | with_reducible apply Clean.findExecutable
      | with_reducible apply Clean.pathExists
      | with_reducible apply Clean.makedirs
      | with_reducible apply Clean.writeFile
      | with_reducible apply Clean.uuid
      | with_reducible apply Clean.hookInstantiate
      | with_reducible apply Clean.hookIncomingGossip
      | with_reducible apply Clean.hookBeforeEnc
      | with_reducible apply Clean.sendmail
      | with_reducible apply Clean.emit
      | with_reducible apply Clean.rmtree
      | with_reducible apply Clean.attempt
      | exact trivial
      | split))

/-! ## What gpg prints -/

/-- what was printed on a run -/
def HandsText (env : Env) (past : List Did) (msgs : Str) : Prop := ∃ argv stdin out, Did.gpg argv stdin (.ok out) ∈ past ∧ env.utf8Decode out.err = .ok msgs

theorem gpgOuterr_known {g : BinGPG} {args : List Str} {stdin : Option Bytes} {s d : Bool} {l : List Did} {r : Except Exc (Bytes × Str)}
    (ha : ∀ a ∈ args, a ∈ ownWords ∨ ArgSource env U past a) (h : (gpgOuterr env g args stdin s d).Path l r) :
    AllKnown env U past l ∧ ∀ y, r = .ok y → HandsText env l y.2 ∧ ∃ argv stdin out, Did.gpg argv stdin (.ok out) ∈ l ∧ out.out = y.1 := by
  obtain ⟨x, rfl, hx⟩ := gpgOuterr_path h
  refine ⟨.single ⟨g, args, rfl, ha⟩, fun y hy => ?_⟩
  obtain ⟨out, rfl, hc⟩ := hx y hy
  refine ⟨⟨_, _, out, List.mem_singleton.mpr rfl, ?_⟩, _, _, out, List.mem_singleton.mpr rfl, ((checkResult_ret hc).2).symm⟩
  unfold checkResult at hc
  split at hc; · cases hc
  split at hc; · cases hc
  split at hc; · cases hc
  split at hc; · cases hc
  cases hc
  assumption

/-- a run of gpg, with handles among `hs` -/
theorem Hands.gpg {g : BinGPG} {args : List Str} {stdin : Option Bytes} (ha : ∀ a ∈ args, a ∈ ownWords ∨ a ∈ hs) (s d : Bool) :
    Hands env U hs (gpgOuterr env g args stdin s d) fun _ => [] := fun past hk l r h =>
  ⟨(gpgOuterr_known (fun a m => (ha a m).imp_right (hk a)) h).1, fun _ _ k hm => by cases hm⟩

namespace BinGPG
variable {g : BinGPG}

theorem isHexUpper_mem {c : Char} (h : isHexUpper c = true) : c ∈ str!"0123456789ABCDEF" := by
  have hc : c = Char.ofNat c.toNat := (Char.ofNat_toNat c).symm
  unfold isHexUpper at h
  simp only [Bool.or_eq_true, Bool.and_eq_true, decide_eq_true_eq] at h
  rw [hc]
  generalize c.toNat = n at h
  have : n ∈ [48, 49, 50, 51, 52, 53, 54, 55, 56, 57, 65, 66, 67, 68, 69, 70] := by simp; omega
  simp only [List.mem_cons, List.not_mem_nil, or_false] at this
  rcases this with rfl | rfl | rfl | rfl | rfl | rfl | rfl | rfl | rfl | rfl | rfl | rfl | rfl | rfl | rfl | rfl <;> decide

theorem hexRun_digits {s k : Str} (h : hexRun s = some k) : KeyDigits k ∧ ∃ r, s = k ++ r := by
  unfold hexRun at h
  simp only at h
  split at h
  · cases h
  · cases h
    rename_i hn
    exact ⟨⟨fun h0 => hn (by simp [h0]), fun c hc => isHexUpper_mem (List.all_eq_true.mp List.all_takeWhile c hc)⟩, _, (List.takeWhile_append_dropWhile ..).symm⟩

theorem startsWith_drop {p s : Str} (h : Py.startsWith p s = true) : s = p ++ s.drop p.length := by
  obtain ⟨t, rfl⟩ := List.isPrefixOf_iff_prefix.mp h
  simp

theorem matchKey_names {s k : Str} (h : matchKey s = some k) : WritesKey s k := by
  unfold matchKey at h
  split at h
  · next h1 =>
    have h1 := startsWith_drop h1
    simp only at h
    split at h
    · next h2 =>
      have h2 := startsWith_drop h2
      obtain ⟨hd, r, hr⟩ := hexRun_digits h
      refine ⟨hd, .inr ⟨[], r, ?_⟩⟩
      rw [h1]
      show str!"key ID " ++ k ++ r = str!"key " ++ s.drop 4
      rw [h2]
      show str!"key ID " ++ k ++ r = str!"key " ++ (str!"ID " ++ (s.drop 4).drop 3)
      rw [hr]; simp
    · obtain ⟨hd, r, hr⟩ := hexRun_digits h
      refine ⟨hd, .inl ⟨[], r, ?_⟩⟩
      rw [h1]
      show str!"key " ++ k ++ r = str!"key " ++ s.drop 4
      rw [hr]; simp
  · cases h

theorem searchKey_names {s k : Str} (h : searchKey s = some k) : WritesKey s k := by
  induction s with
  | nil => cases h
  | cons c cs ih =>
    unfold searchKey at h
    split at h
    · next h1 => cases h; exact matchKey_names h1
    · obtain ⟨h1, h2⟩ := ih h
      exact ⟨h1, h2.imp (fun h => h.trans (List.suffix_cons ..).isInfix) fun h => h.trans (List.suffix_cons ..).isInfix⟩

theorem addUid_ids {infos : List KeyInfo} {i : Nat} {u : Str} {k : KeyInfo} (h : k ∈ addUid infos i u) : ∃ k' ∈ infos, k'.id = k.id := by
  unfold addUid at h
  obtain ⟨j, hj, rfl⟩ := List.getElem_of_mem h
  rw [List.getElem_modify]
  have hj' : j < infos.length := by simpa using hj
  refine ⟨infos[j], List.getElem_mem _, ?_⟩
  split <;> rfl

theorem field_some {parts : List Str} {i : Nat} {x : Str} (h : field parts i = .ok x) : parts[i]? = some x := by
  unfold field at h
  split at h
  · cases h; assumption
  · cases h

theorem parseLine_ids {types : Str × Str} {infos infos' : List KeyInfo} {last last' : Option Nat} {line : Str}
    (h : parseLine env types infos last line = .ok (infos', last')) {k : KeyInfo} (hk : k ∈ infos') :
    (∃ k' ∈ infos, k'.id = k.id) ∨ (Py.split ':' line)[4]? = some k.id := by
  unfold parseLine at h
  simp only [bind, Except.bind, Pure.pure, Except.pure] at h
  split at h
  · repeat (split at h; · cases h)
    cases h
    rcases List.mem_append.mp hk with hk | hk
    · exact .inl ⟨k, hk, rfl⟩
    · rw [List.mem_singleton.mp hk]
      right
      apply field_some
      assumption
  · split at h
    · split at h
      · cases h
      · split at h
        · cases h
        · cases h; exact .inl (addUid_ids hk)
    · cases h; exact .inl ⟨k, hk, rfl⟩

theorem parseLines_ids {types : Str × Str} {infos infos' : List KeyInfo} {last : Option Nat} {lines : List Str}
    (h : parseLines env types infos last lines = .ok infos') {k : KeyInfo} (hk : k ∈ infos') :
    (∃ k' ∈ infos, k'.id = k.id) ∨ ∃ line ∈ lines, (Py.split ':' line)[4]? = some k.id := by
  induction lines generalizing infos last with
  | nil => cases h; exact .inl ⟨k, hk, rfl⟩
  | cons l ls ih =>
    unfold parseLines at h
    split at h
    · cases h
    · next h1 =>
      rcases ih h with ⟨k', h2, h3⟩ | ⟨line, h2, h3⟩
      · rcases parseLine_ids h1 h2 with ⟨k2, h4, h5⟩ | h4
        · exact .inl ⟨k2, h4, h5.trans h3⟩
        · exact .inr ⟨l, List.mem_cons_self, by rw [h4, h3]⟩
      · exact .inr ⟨line, List.mem_cons_of_mem _ h2, h3⟩

theorem parseList_hands {args : List Str} (ha : ∀ a ∈ args, a ∈ ownWords ∨ a ∈ hs) (t : Str × Str) :
    Hands env U hs (parseList env g args t) fun infos => infos.map (·.id) := by
  intro past hk l r h
  unfold parseList gpgOutText at h
  simp only [bind_eq] at h
  rcases Prog.Path.bind.mp h with ⟨t, l1, l2, h1, h2, rfl⟩ | ⟨e, h1, rfl⟩
  · obtain ⟨rfl, e2⟩ := Prog.Path.ofExcept.mp h2
    obtain ⟨y, l3, l4, h3, h4, rfl⟩ := Prog.Path.bind_ok.mp h1
    obtain ⟨rfl, e4⟩ := Prog.Path.ofExcept.mp h4
    obtain ⟨h5, h6⟩ := gpgOuterr_known (fun a m => (ha a m).imp_right (hk a)) h3
    obtain ⟨-, argv, i, out, h7, h8⟩ := h6 y rfl
    rw [List.append_nil, List.append_nil]
    refine ⟨h5, fun infos hi k hm => .inr (.inr (.inl ⟨argv, i, out, t, List.mem_append_right _ h7, .inr ⟨by rw [h8]; exact e4.symm, ?_⟩⟩))⟩
    obtain ⟨x, hx, rfl⟩ := List.mem_map.mp hm
    rcases parseLines_ids (e2.symm.trans hi) hx with ⟨_, hn, _⟩ | hl
    · cases hn
    · exact hl
  · refine ⟨?_, fun a h => by cases h⟩
    rcases Prog.Path.bind.mp h1 with ⟨t, l1, l2, h3, h2, rfl⟩ | ⟨e, h3, -⟩
    · obtain ⟨rfl, -⟩ := Prog.Path.ofExcept.mp h2
      rw [List.append_nil]
      exact (gpgOuterr_known (fun a m => (ha a m).imp_right (hk a)) h3).1
    · exact (gpgOuterr_known (fun a m => (ha a m).imp_right (hk a)) h3).1

theorem listPublic_hands {k : Str} (hk : k ∈ hs) : Hands env U hs (listPublicKeyinfos env g (some k)) fun infos => infos.map (·.id) :=
  parseList_hands (fun a h => by
    simp only [Option.toList_some, List.cons_append, List.nil_append, List.mem_cons, List.not_mem_nil, or_false] at h
    rcases h with rfl | rfl | rfl | rfl
    · exact .inl (by decide)
    · exact .inl (by decide)
    · exact .inl (by decide)
    · exact .inr hk) _

end BinGPG
end Verif
