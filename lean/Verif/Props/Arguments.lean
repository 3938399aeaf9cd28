import Verif.Lemmas.HandsCmd
import Verif.Props.AnyhowIncoming
import Verif.Props.KeyOrigin
/-!
# C136: where the arguments of gpg come from

The specification, `AllKnown`, is in `Verif.Lemmas.Hands`. Nothing which is read from a mail, neither an address nor a header nor the body,
becomes an argument of gpg, so no mail can slip an option to gpg.
-/
namespace Verif
open BinGPG

/-! ## One call or command -/

/-- C136: whatever the store, gpg and the file system answer, in a call of the API each argument of gpg is a word of the program, the key given by
the user in this call, the handle in an entry which was read, a key which gpg printed, or the name of a temporary file, all of them
before in the same call. -/
theorem C136_calls (env : Env) (c : ApiCall) {l : List Did} {r : Except Exc Unit} (h : (c.prog env).Path l r) :
    AllKnown env (fun k => c.key = some k) [] l :=
  (clean_call (U := fun k => c.key = some k) c (fun _ h => h) [] (by simp) l r h).1

/-- C136: the same for the commands. -/
theorem C136_commands (ce : CmdEnv) (be : BotEnv) (env : Env) (c : Cmd.Command) {l : List Did} {r : Except Exc Int} (h : (c.prog ce be env).Path l r) :
    AllKnown env (fun k => c.key = some k) [] l :=
  (clean_command (U := fun k => c.key = some k) c (fun _ h => h) [] (by simp) l r h).1

/-- C136: what runs do, also while other processes work, is such a list of operations -/
theorem C136_runs {σ K : Type} (S : StoreImpl σ) (O : Oracle K) (ce : CmdEnv) (be : BotEnv) (env : Env) (c : Cmd.Command) (a : ApiCall) (w : World σ K) :
    ((∃ l, AllKnown env (fun k => c.key = some k) [] l ∧ (c.prog ce be env).Path l (run S O (c.prog ce be env) w).1 ∧
      ∃ evs, (run S O (c.prog ce be env) w).2.trace = evs ++ w.trace ∧ ∀ ev, ev ∈ evs ↔ SeenIn l ev) ∧
    ∀ others k, ∃ l, AllKnown env (fun k => c.key = some k) [] l ∧ (c.prog ce be env).Path l (runAmid S O others (c.prog ce be env) k w).1) ∧
    (∃ l, AllKnown env (fun k => a.key = some k) [] l ∧ (a.prog env).Path l (run S O (a.prog env) w).1 ∧
      ∃ evs, (run S O (a.prog env) w).2.trace = evs ++ w.trace ∧ ∀ ev, ev ∈ evs ↔ SeenIn l ev) ∧
    ∀ others k, ∃ l, AllKnown env (fun k => a.key = some k) [] l ∧ (a.prog env).Path l (runAmid S O others (a.prog env) k w).1 := by
  refine ⟨⟨?_, fun others k => ?_⟩, ?_, fun others k => ?_⟩
  · obtain ⟨l, hl, h⟩ := run_path S O (c.prog ce be env) w
    exact ⟨l, C136_commands ce be env c hl, hl, h⟩
  · obtain ⟨l, hl⟩ := runAmid_path S O others (c.prog ce be env) k w
    exact ⟨l, C136_commands ce be env c hl, hl⟩
  · obtain ⟨l, hl, h⟩ := run_path S O (a.prog env) w
    exact ⟨l, C136_calls env a hl, hl, h⟩
  · obtain ⟨l, hl⟩ := runAmid_path S O others (a.prog env) k w
    exact ⟨l, C136_calls env a hl, hl⟩

/-! ## Options -/

/-- gpg takes an argument for an option if it begins with a dash -/
def Optional (a : Str) : Prop := a.head? = some '-'

theorem KeyDigits.not_optional {k : Str} (h : KeyDigits k) : ¬ Optional k := by
  obtain ⟨h1, h2⟩ := h
  cases k with
  | nil => exact absurd rfl h1
  | cons c k =>
    intro ho
    have hc : c = '-' := by simpa [Optional] using ho
    subst hc
    have := h2 '-' (List.mem_cons_self ..)
    revert this; decide

/-- C136: if no stored handle, no key id in a listing and no name of a temporary file begins with a dash, and the user gave no such key,
then the options of gpg are those which the program itself writes. -/
theorem C136_options {env : Env} {U : Str → Prop} {l : List Did} (hl : AllKnown env U [] l)
    (hu : ∀ k, U k → ¬ Optional k)
    (hs : ∀ h es e k, ReadAs l h es → e ∈ es → e.handle = some k → ¬ Optional k)
    (hg : ∀ argv stdin out t k, Did.gpg argv stdin (.ok out) ∈ l → env.utf8Decode out.out = .ok t → ListsKey t k → ¬ Optional k)
    (ht : ∀ k, (⟨.ext .mkTemp, Except.ok k⟩ : Did) ∈ l → ¬ Optional k)
    (argv : List Str) (stdin : Option Bytes) (r : Except Exc GpgOut) (h : Did.gpg argv stdin r ∈ l) :
    ∃ g args, argv = commandLine g args ∧ ∀ a ∈ args, Optional a → a ∈ ownWords := by
  obtain ⟨pre, post, rfl⟩ := List.append_of_mem h
  obtain ⟨g, args, h1, h2⟩ := hl pre _ post rfl
  refine ⟨g, args, h1, fun a ha ho => ?_⟩
  have up : ∀ {d}, d ∈ ([] : List Did) ++ pre → d ∈ pre ++ Did.gpg argv stdin r :: post := fun hm => List.mem_append_left _ (by simpa using hm)
  rcases h2 a ha with h | h | ⟨hd, es, e, h3, h4, h5⟩ | ⟨a', i, o, t, h3, h4 | h4⟩ | h
  · exact h
  · exact absurd ho (hu a h)
  · exact absurd ho (hs hd es e a (up h3) h4 h5)
  · exact absurd ho h4.2.1.not_optional
  · exact absurd ho (hg a' i o t a (up h3) h4.1 h4.2)
  · exact absurd ho (ht a (up h))

/-- C136: so is it for a mail which comes in, whatever is in it -/
theorem C136_incoming (env : Env) (n : Str) (m : Msg) (i d : Bool) {l : List Did} {r : Except Exc Unit}
    (hp : ((ApiCall.processIncoming n m i d).prog env).Path l r)
    (hs : ∀ h es e k, ReadAs l h es → e ∈ es → e.handle = some k → ¬ Optional k)
    (hg : ∀ argv stdin out t k, Did.gpg argv stdin (.ok out) ∈ l → env.utf8Decode out.out = .ok t → ListsKey t k → ¬ Optional k)
    (ht : ∀ k, (⟨.ext .mkTemp, Except.ok k⟩ : Did) ∈ l → ¬ Optional k)
    (argv : List Str) (stdin : Option Bytes) (x : Except Exc GpgOut) (h : Did.gpg argv stdin x ∈ l) :
    ∃ g args, argv = commandLine g args ∧ ∀ a ∈ args, Optional a → a ∈ ownWords :=
  C136_options (C136_calls env _ hp) (fun _ h => by cases h) hs hg ht argv stdin x h

/-! ## After any history -/

/-- gpg printed the key, in its messages or in a listing -/
def PrintedIn (env : Env) (t : List Event) (k : Str) : Prop :=
  ∃ argv stdin out text, Gpg argv stdin out ∈ t ∧
    (env.utf8Decode out.err = .ok text ∧ WritesKey text k ∨ env.utf8Decode out.out = .ok text ∧ ListsKey text k)

theorem PrintedIn.mono {env : Env} {t t' : List Event} {k : Str} (h : PrintedIn env t k) (hs : t ⊆ t') : PrintedIn env t' k := by
  obtain ⟨a, i, o, x, h1, h2⟩ := h; exact ⟨a, i, o, x, hs h1, h2⟩

theorem KeyAt.names {s h text pre : Str} (ht : text = pre ++ s) (hk : KeyAt s h) : WritesKey text h := by
  obtain ⟨h1, h2, rest, h3, -⟩ := hk
  refine ⟨⟨h1, fun c hc => isHexUpper_mem (isHexUpper_iff.mpr (h2 c hc))⟩, ?_⟩
  · rcases h3 with rfl | rfl
    · exact .inl ⟨pre, rest, by simp [ht]⟩
    · exact .inr ⟨pre, rest, by simp [ht]⟩

theorem TellsKey.printed {env : Env} {g : BinGPG} {k : Str} {argv stdin} {out : GpgOut} {t0 t : List Event} (h : TellsKey env g out.err k t0 t)
    (hm : Gpg argv stdin out ∈ t) : PrintedIn env t k := by
  obtain ⟨text, x, h1, ⟨pre, s, h2, h3, -⟩, ⟨-, rfl⟩ | ⟨-, -, -, o, listing, h5, -, h6, l, h7, -, h8⟩⟩ := h
  · exact ⟨argv, stdin, out, text, hm, .inl ⟨h1, h3.names h2⟩⟩
  · exact ⟨_, _, o, listing, h5.subset (List.mem_cons_self ..), .inr ⟨h6, l, h7, h8⟩⟩

theorem ImportedAs.printed {env : Env} {n k : Str} {t : List Event} {kd : Bytes} (h : ImportedAs env n t kd k) : PrintedIn env t k := by
  obtain ⟨g, out, t0, -, h1, -, h2⟩ := h
  exact h2.printed (h1.subset (List.mem_cons_self ..))

theorem Sourced.printed {env : Env} {t : List Event} {h : Str} {e : Entry} (hs : Sourced env t h e) {k : Str} (hk : e.handle = some k) :
    k = [] ∨ PrintedIn env t k := by
  cases e with
  | msg e =>
    cases hk
    obtain ⟨n, a, -, -, h | h | ⟨⟨kd, h⟩, -⟩⟩ := hs
    · exact .inl h
    · exact .inr h.printed
    · exact .inr h.printed
  | gossip e =>
    cases hk
    obtain ⟨n, a, -, -, h⟩ := hs
    exact .inr h.printed
  | keygen e =>
    obtain ⟨n, k', kd, -, -, h1, -, g, opts, out, t0, -, h2, -, -, h3⟩ := hs
    cases h1.symm.trans hk
    have hsub : t0 ⊆ t := fun x hx => h2.subset (List.mem_cons_of_mem _ hx)
    refine .inr (PrintedIn.mono ?_ hsub)
    rcases h3 with ⟨g, name, opts, out, t1, -, h4, -, h5⟩ | ⟨asked, g, out, text, t1, -, h4, -, h5, l, h6, -, h7⟩
    · exact h5.printed (h4.subset (List.mem_cons_of_mem _ (List.mem_cons_self ..)))
    · exact ⟨_, _, out, text, h4.subset (List.mem_cons_self ..), .inr ⟨h5, l, h6, h7⟩⟩
  | _ => cases hk

section
variable {K α : Type}

theorem didsOf_trace (S : StoreImpl σ) (O : Oracle K) (p : Prog α) (w : World σ K) :
    ∃ evs, (run S O p w).2.trace = evs ++ w.trace ∧ ∀ ev, ev ∈ evs ↔ SeenIn (didsOf S O p w) ev := by
  induction p generalizing w with
  | pure a => exact ⟨[], rfl, by simp [SeenIn, didsOf]⟩
  | raise e => exact ⟨[], rfl, by simp [SeenIn, didsOf]⟩
  | op o k ih =>
    obtain ⟨evs, h1, h2⟩ := ih (step S O o w).1 (step S O o w).2
    simp only [SeenIn] at h2
    cases o with
    | ext o =>
      refine ⟨evs ++ [⟨o, (O.step o w.env).1⟩], h1.trans (by simp [step]), ?_⟩
      intro ev
      rw [SeenIn, didsOf, List.mem_append, List.mem_singleton, h2, List.mem_cons, or_comm]
      refine or_congr_left ?_
      constructor
      · rintro rfl; rfl
      · intro h
        obtain ⟨o', r'⟩ := ev
        injection h with h1 h2
        injection h1 with h1
        subst h1
        exact congrArg (Event.mk o') (eq_of_heq h2)
    | _ =>
      refine ⟨evs, h1, fun ev => ?_⟩
      rw [SeenIn, didsOf, h2, List.mem_cons]
      refine ⟨.inr, ?_⟩
      rintro (h | h)
      · injection h with h1 _; cases h1
      · exact h

/-- what was read is what was stored at that time -/
theorem didsOf_reads (O : Oracle K) (p : Prog α) (w : World Store K) {h : Str} {es : List Entry} (hr : ReadAs (didsOf Store.impl O p w) h es) :
    ∃ n, (runFor Store.impl O n p w).log h = es ∧ (runFor Store.impl O n p w).trace <:+ (run Store.impl O p w).2.trace := by
  induction p generalizing w with
  | pure a => cases hr
  | raise e => cases hr
  | op o k ih =>
    rcases List.mem_cons.mp hr with hr | hr
    · refine ⟨0, ?_, ?_⟩
      · injection hr with h1 h2
        subst h1
        have := eq_of_heq h2
        exact (Except.ok.inj this).symm
      · obtain ⟨evs, h1, -⟩ := didsOf_trace Store.impl O (.op o k) w
        exact ⟨evs, h1.symm⟩
    · obtain ⟨n, h1, h2⟩ := ih _ _ hr
      exact ⟨n + 1, h1, h2⟩
end

/-- C136: after any calls which were interrupted anywhere, each argument with which a call runs gpg is a word of the program, the key given by the
user in this call, a key which gpg printed at some time, the name of a temporary file, or empty. -/
theorem C136_ever {K : Type} (O : Oracle K) (env : Env) (hist : List (Happening K)) (hh : ∀ c ∈ callsMade hist, ¬ c.Records)
    (w0 : World Store K) (h0 : w0.store = []) (w : World Store K) (hw : w = runHistory Store.impl O env hist w0)
    (c : ApiCall) (hc : ¬ c.Records) (w' : World Store K) (hw' : w' = (run Store.impl O (c.prog env) w).2) :
    ∃ evs, w'.trace = evs ++ w.trace ∧ ∀ ev ∈ evs, ∀ argv stdin, ev.op = .gpg argv stdin →
      ∃ g args, argv = commandLine g args ∧ ∀ a ∈ args, a ∈ ownWords ∨ c.key = some a ∨ PrintedIn env w'.trace a ∨
        (⟨.mkTemp, .ok a⟩ : Event) ∈ evs ∨ a = [] := by
  subst hw hw'
  have hk := kept_call (O := O) c hc (history_sourced O env hist hh w0 h0)
  generalize runHistory Store.impl O env hist w0 = w at *
  obtain ⟨evs, h1, h2⟩ := didsOf_trace Store.impl O (c.prog env) w
  refine ⟨evs, h1, fun ev hev argv stdin hop => ?_⟩
  obtain ⟨o, r⟩ := ev
  cases hop
  obtain ⟨pre, post, hs⟩ := List.append_of_mem ((h2 _).mp hev)
  have hall := C136_calls env c (didsOf_path Store.impl O (c.prog env) w)
  obtain ⟨g, args, h3, h4⟩ := hall pre _ post hs
  refine ⟨g, args, h3, fun a ha => ?_⟩
  have up : ∀ {d}, d ∈ ([] : List Did) ++ pre → d ∈ didsOf Store.impl O (c.prog env) w := fun hm => by
    rw [hs]; exact List.mem_append_left _ (by simpa using hm)
  rcases h4 a ha with h | h | ⟨hd, es, e, h5, h6, h7⟩ | ⟨a', i, o, t, h5, h6⟩ | h
  · exact .inl h
  · exact .inr (.inl h)
  · obtain ⟨n, h8, h9⟩ := didsOf_reads O _ w (up h5)
    rcases (hk n hd e (by rw [h8]; exact h6)).printed h7 with h | h
    · exact .inr (.inr (.inr (.inr h)))
    · exact .inr (.inr (.inl (h.mono h9.subset)))
  · refine .inr (.inr (.inl ⟨a', i, o, t, ?_, h6⟩))
    rw [h1]; exact List.mem_append_left _ ((h2 (Gpg a' i o)).mpr (up h5))
  · exact .inr (.inr (.inr (.inl ((h2 _).mpr (up h)))))

/-! ## Examples -/
open Concrete

/-- gpg is run with this word before such a one -/
def RunsWith (l : List Did) (o : Str) (a : Str → Bool) : Bool :=
  l.any fun d => match d.op with | .ext (.gpg argv _) => argv.zip argv.tail |>.any (fun p => p.1 == o && a p.2) | _ => false

/-- a mail is encrypted: gpg is given a recipient which is neither a word of the program nor the address -/
example : ∃ l r, ((ApiCall.encryptMime (str!"a") (mail bob (str!"1") (str!"100") [7]) [bob]).prog env).Path l r ∧
    RunsWith l (str!"-r") fun k => !ownWords.contains k && k != bob && !k.isEmpty :=
  ⟨_, _, didsOf_path Store.impl oracle _ (after [addA, recv bob (str!"1") (str!"100") [7]]), by decide +kernel⟩

/-- an address on the command line would not be known, neither would an option which the program doesn't use -/
example (a : Str) (ha : a = bob ∨ a = str!"--keyserver-options") :
    ¬ ArgsKnown env (fun _ => False) [] (.ext (.gpg [str!"gpg", str!"--batch", str!"-r", a] none)) := by
  rintro ⟨g, args, h1, h2⟩
  have ho : a ∉ ownWords := by rcases ha with rfl | rfl <;> decide +kernel
  have key : a ∈ args := by
    unfold commandLine at h1
    split at h1
    · have : args = [str!"-r", a] := by simpa using (congrArg (·.drop 2) h1).symm
      simp [this]
    · split at h1
      · have : args = [str!"-r", a] := by simpa using (congrArg (·.drop 2) h1).symm
        simp [this]
      · have := congrArg (·[2]?) h1
        simp at this
  rcases h2 a key with h | h | ⟨_, _, _, h, _⟩ | ⟨_, _, _, _, h, _⟩ | h
  · exact ho h
  · exact h
  all_goals cases h

/-- `C136_options`, `C136_incoming`: a mail from Bob comes in, gpg is run and lists keys or names them, and none of them begins with a dash -/
example : ∃ l r, ((ApiCall.processIncoming (str!"a") (mail bob (str!"1") (str!"100") [7]) false false).prog env).Path l r ∧
    (∃ argv stdin x, Did.gpg argv stdin x ∈ l) ∧
    (l.all fun d => match d with
      | ⟨.chain _, .ok es⟩ => es.all fun e => match e.handle with | some k => k.head? != some '-' | none => true
      | ⟨.ext (.gpg _ _), .ok out⟩ => match env.utf8Decode out.out with
        | .ok t => (Py.splitlines t).all fun line => match (Py.split ':' line)[4]? with | some k => k.head? != some '-' | none => true
        | .error _ => true
      | ⟨.ext .mkTemp, .ok k⟩ => k.head? != some '-'
      | _ => true) = true := by
  refine ⟨_, _, didsOf_path Store.impl oracle _ (after [addA]), ?_, by decide +kernel⟩
  have : ((didsOf Store.impl oracle ((ApiCall.processIncoming (str!"a") (mail bob (str!"1") (str!"100") [7]) false false).prog env) (after [addA])).any
      fun d => match d.op with | .ext (.gpg _ _) => true | _ => false) = true := by decide +kernel
  obtain ⟨⟨o, r⟩, h1, h2⟩ := List.any_eq_true.mp this
  cases o with
  | ext o =>
    cases o with
    | gpg argv stdin => exact ⟨argv, stdin, r, h1⟩
    | _ => cases h2
  | _ => cases h2

/-- `C136_ever`: after keys were recorded in all ways a mail is encrypted to them -/
example : (∀ c ∈ callsMade keyHistory, ¬ c.Records) ∧ world0.store = [] ∧
    ((run Store.impl oracle ((ApiCall.encryptMime (str!"a") (mail (str!"a@x.org") (str!"m3") (str!"300") []) [bob, carol]).prog env)
      (runHistory Store.impl oracle env keyHistory world0)).2.trace.any fun ev => match ev.op with
        | .gpg argv _ => argv.contains (str!"AAAAAAAAAAAA0102") && argv.contains (str!"AAAAAAAAAAAA0708") && argv.contains (str!"--encrypt")
        | _ => false) = true := by
  refine ⟨?_, rfl, by decide +kernel⟩
  rintro c ⟨h, hh, hm⟩
  simp only [keyHistory, List.mem_cons, List.not_mem_nil, or_false] at hh
  rcases hh with rfl | rfl | rfl | rfl | rfl <;> cases hm <;> exact id

end Verif
