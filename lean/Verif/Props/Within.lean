import Verif.Props.Relevant
/-!
# What of decrypted mail matters (C118)
-/
namespace Verif
open Mime

variable {σ K : Type}

/-! ## Specification -/

/-- the same environment, but other messages come out of decrypted data -/
abbrev Env.parsing (env : Env) (f : Bytes → Msg) : Env := { env with messageFromBytes := f }

/-- a message with nothing but its fields of these names -/
def keepOnly (names : List Str) (m : Msg) : Msg := .mk (m.headers.filter fun h => names.any fun x => Msg.nameEq h.1 x) (.text [])

/-! ## Lemmas -/

theorem AlikeProgs.attempt {α : Type} {p p' : Prog α} (h : AlikeProgs p p') : AlikeProgs (Prog.attempt p) (Prog.attempt p') := by
  induction h with
  | pure a => exact .pure _
  | raise e => exact .pure _
  | op o _ ih => exact .op o ih
  | hook a key d d' _ ih => exact .hook a key d d' ih

section
variable (env : Env) (f : Bytes → Msg)

theorem parseAttrs_parsing (s : ParseState) (l : List Str) : parseAttrs (env.parsing f) s l = parseAttrs env s l := by
  induction l generalizing s with
  | nil => rfl
  | cons x xs ih => unfold parseAttrs; simp only [ih]; rfl

theorem parseAcHeadervalue_parsing (v : Str) : parseAcHeadervalue (env.parsing f) v = parseAcHeadervalue env v := by
  unfold parseAcHeadervalue; rw [parseAttrs_parsing]

theorem parseLines_parsing (t : Str × Str) (i : List BinGPG.KeyInfo) (n : Option Nat) (l : List Str) :
    BinGPG.parseLines (env.parsing f) t i n l = BinGPG.parseLines env t i n l := by
  induction l generalizing i n with
  | nil => rfl
  | cons x xs ih => unfold BinGPG.parseLines; simp only [ih]; rfl

theorem collectAc_parsing (l : List Str) (vs : List Str) : collectAc (env.parsing f) l vs = collectAc env l vs := by
  induction vs with
  | nil => rfl
  | cons v vs ih => unfold collectAc; rw [ih, parseAcHeadervalue_parsing]

theorem collectGossip_parsing (d : List (Str × ACResult)) (vs : List Str) : collectGossip (env.parsing f) d vs = collectGossip env d vs := by
  induction vs generalizing d with
  | nil => rfl
  | cons v vs ih => unfold collectGossip; simp only [ih, parseAcHeadervalue_parsing]

theorem decryptInfos_parsing (u : Option Str) (l : List Str) : BinGPG.decryptInfos (env.parsing f) u l = BinGPG.decryptInfos env u l := by
  have hre : ∀ l, BinGPG.reDecryptLine (env.parsing f) l = BinGPG.reDecryptLine env l := fun _ => rfl
  generalize hk : l.length = k
  induction k using Nat.strongRecOn generalizing u l with
  | _ k ih =>
    cases l with
    | nil => rfl
    | cons l1 rest =>
      unfold BinGPG.decryptInfos
      rw [hre]
      cases BinGPG.reDecryptLine env l1 with
      | none => exact ih rest.length (by simp at hk; omega) u rest rfl
      | some x =>
        cases rest with
        | nil => rfl
        | cons l2 rest' =>
          have := fun u => ih rest'.length (by simp at hk; omega) u rest' rfl
          simp only [this]

theorem findKeyhandle_parsing (g : BinGPG) (t : Str) : BinGPG.findKeyhandle (env.parsing f) g t = BinGPG.findKeyhandle env g t := by
  unfold BinGPG.findKeyhandle BinGPG.listPublicKeyinfos BinGPG.parseList
  simp only [parseLines_parsing]
  rfl

theorem importKeydata_parsing (g : BinGPG) (kd : Bytes) (b : Bool) :
    BinGPG.importKeydata (env.parsing f) g kd b = BinGPG.importKeydata env g kd b := by
  unfold BinGPG.importKeydata
  simp only [findKeyhandle_parsing]
  rfl

theorem importPah_parsing (n : Str) (p : ACResult) : Account.importPah (env.parsing f) n p = Account.importPah env n p := by
  unfold Account.importPah Account.importKey
  simp only [importKeydata_parsing]
  rfl

theorem gossipLoop_parsing (n : Str) (a : List (Str × ACResult)) (d : Time) (i : Str) (p : List (Str × ACResult)) (rs : List Str) :
    Account.gossipLoop (env.parsing f) n a d i p rs = Account.gossipLoop env n a d i p rs := by
  induction rs generalizing p with
  | nil => rfl
  | cons r rs ih => unfold Account.gossipLoop; simp only [ih, importPah_parsing]; rfl

theorem processGossipHeaders_parsing (n : Str) (m : Msg) (d : Time) (i : Str) :
    Account.processGossipHeaders (env.parsing f) n m d i = Account.processGossipHeaders env n m d i := by
  unfold Account.processGossipHeaders getGossipHeadersFromMsg
  simp only [gossipLoop_parsing, collectGossip_parsing]
  rfl

theorem processAutocryptHeader_parsing (n : Str) (m : Msg) (fr hd : Str) (d : Time) (i : Str) :
    Account.processAutocryptHeader (env.parsing f) n m fr hd d i = Account.processAutocryptHeader env n m fr hd d i := by
  unfold Account.processAutocryptHeader parseOneAcHeaderFromMsg
  simp only [importPah_parsing, collectAc_parsing]
  rfl

theorem decrypt_parsing (g : BinGPG) (e : Bytes) : BinGPG.decrypt (env.parsing f) g e = BinGPG.decrypt env g e := by
  unfold BinGPG.decrypt
  simp only [decryptInfos_parsing]
  rfl

theorem patterns_parsing (l : List Str) : Manager.patterns (env.parsing f) l = Manager.patterns env l := by
  induction l with
  | nil => rfl
  | cons r rs ih => unfold Manager.patterns; simp only [ih]; rfl

theorem matchPatterns_parsing (x : Str) (l : List (Str × Str)) : Manager.matchPatterns (env.parsing f) x l = Manager.matchPatterns env x l := by
  induction l with
  | nil => rfl
  | cons r rs ih => unfold Manager.matchPatterns; simp only [ih]

theorem matchAddrs_parsing (l : List (Str × Str)) (as : List Str) : Manager.matchAddrs (env.parsing f) l as = Manager.matchAddrs env l as := by
  induction as with
  | nil => rfl
  | cons r rs ih => unfold Manager.matchAddrs; simp only [ih, matchPatterns_parsing]

theorem firstMatch_parsing (x : Str) (l : List Str) : Manager.firstMatch (env.parsing f) x l = Manager.firstMatch env x l := by
  induction l with
  | nil => rfl
  | cons r rs ih => unfold Manager.firstMatch; simp only [ih]; rfl

theorem getMatchingAccount_parsing (m : Msg) : Manager.getMatchingAccount (env.parsing f) m = Manager.getMatchingAccount env m := by
  unfold Manager.getMatchingAccount Manager.getAccountFromEmailadr
  simp only [patterns_parsing, matchAddrs_parsing, firstMatch_parsing]
  rfl

end

/-- the processing of decrypted messages which have the same gossip fields -/
theorem gossip_within {a b : Msg} (h : SameFields gossipFields a b) (m : Msg) (env : Env) (n : Str) (d : Time) (i : Str) :
    Account.processGossipHeaders env n (transferNonContentHeaders m a) d i =
      Account.processGossipHeaders env n (transferNonContentHeaders m b) d i := by
  have ht : ∀ a : Msg, (transferNonContentHeaders m a).getAll (str!"to") = a.getAll (str!"To") ++ m.getAll (str!"To") := fun a => by
    rw [getAll_transfer m a (by decide), getAll_congr m (a := str!"to") (b := str!"To") (by decide),
      getAll_congr a (a := str!"to") (b := str!"To") (by decide)]
  have hc : ∀ a : Msg, (transferNonContentHeaders m a).getAll (str!"cc") = a.getAll (str!"Cc") ++ m.getAll (str!"Cc") := fun a => by
    rw [getAll_transfer m a (by decide), getAll_congr m (a := str!"cc") (b := str!"Cc") (by decide),
      getAll_congr a (a := str!"cc") (b := str!"Cc") (by decide)]
  unfold Account.processGossipHeaders getGossipHeadersFromMsg getTargetEmailadr
  rw [ht, ht, hc, hc, getAll_transfer m a (by decide), getAll_transfer m b (by decide), h (str!"To") (by decide), h (str!"Cc") (by decide),
    h (str!"Autocrypt-Gossip") (by decide)]

section
variable {env : Env} {f : Bytes → Msg} (hf : ∀ b, SameFields gossipFields (f b) (env.messageFromBytes b))
include hf

theorem within_incoming (n : Str) (m : Msg) (i nd : Bool) :
    AlikeProgs (Account.processIncoming (env.parsing f) n m i nd) (Account.processIncoming env n m i nd) := by
  unfold Account.processIncoming
  simp only [bind_eq, pure_eq, processAutocryptHeader_parsing, processGossipHeaders_parsing]
  refine .bind (.refl _) fun _ => .bind (.refl _) fun _ => .bind (.refl _) fun b => ?_
  split
  · exact .refl _
  · refine .bind (.refl _) fun _ => .bind (.refl _) fun e => .bind ?_ fun _ => .refl _
    split
    · unfold Account.decryptMime
      simp only [bind_eq, pure_eq, Prog.bind_assoc, decrypt_parsing]
      refine .bind (.refl _) fun _ => .bind (.refl _) fun _ => .bind (.refl _) fun x => ?_
      simp only [Prog.bind]
      rw [gossip_within (hf x.1)]
      refine .bind (.refl _) fun _ => .bind (.refl _) fun _ => .bind ?_ fun _ => .refl _
      exact .hook _ _ _ _ fun _ => .refl _
    · exact .refl _

theorem within_cmdIncoming (a : Option Str) (r nd : Bool) (m : Msg) :
    AlikeProgs (Cmd.processIncoming (env.parsing f) a r nd m) (Cmd.processIncoming env a r nd m) := by
  unfold Cmd.processIncoming
  simp only [bind_eq, pure_eq, getMatchingAccount_parsing]
  exact .bind (.refl _) fun n => .bind (within_incoming hf n m _ nd) fun _ => .refl _

theorem within_scanRoutable (r : Bool) (m : Msg) :
    AlikeProgs (Cmd.scanRoutable (env.parsing f) r m) (Cmd.scanRoutable env r m) := by
  unfold Cmd.scanRoutable
  simp only [bind_eq, pure_eq, getMatchingAccount_parsing]
  refine .bind (.refl _) fun x => ?_
  split
  · exact .refl _
  · exact .refl _
  · exact .bind (within_incoming hf _ m _ false).attempt fun _ => .refl _

theorem within_scanFile (r : Bool) (t : Time) (x : Cmd.MailFile) :
    AlikeProgs (Cmd.scanFile (env.parsing f) r t x) (Cmd.scanFile env r t x) := by
  unfold Cmd.scanFile
  simp only [bind_eq, pure_eq]
  split
  · exact .refl _
  · split
    · exact .refl _
    · refine .bind (.refl _) fun _ => .bind (.refl _) fun _ => ?_
      split
      · exact .refl _
      · exact within_scanRoutable hf r _

theorem within_scanFiles (ce : CmdEnv) (r : Bool) (t : Time) (i : Nat) (l : List Cmd.MailFile) :
    AlikeProgs (Cmd.scanFiles ce (env.parsing f) r t i l) (Cmd.scanFiles ce env r t i l) := by
  induction l generalizing i with
  | nil => exact .refl _
  | cons x xs ih =>
    unfold Cmd.scanFiles
    simp only [bind_eq, pure_eq]
    exact .bind (within_scanFile hf r t x) fun _ => .bind (.refl _) fun _ => .bind (ih _) fun _ => .refl _

end

theorem keepOnly_same (names : List Str) (m : Msg) : SameFields names (keepOnly names m) m := by
  intro x hx
  unfold Msg.getAll keepOnly
  simp only [Msg.headers, List.filter_filter]
  congr 1
  refine List.filter_congr fun h _ => ?_
  cases hh : Msg.nameEq h.1 x
  · simp
  · simp only [Bool.true_and, List.any_eq_true]
    exact ⟨x, hx, hh⟩

/-! ## The property -/

/-- C118: of a decrypted message only the values of To, Cc and Autocrypt-Gossip matter. If other messages with the same values came out of
the decrypted data, then the result, the stored state and all that is run would be the same; only the message which plugins get would differ. -/
theorem C118_incoming (S : StoreImpl σ) {O : Oracle K} (hO : PluginsBlind O) {env : Env} {f : Bytes → Msg}
    (hf : ∀ b, SameFields gossipFields (f b) (env.messageFromBytes b)) (n : Str) (m : Msg) (i nd : Bool) (w : World σ K) :
    (run S O (Account.processIncoming (env.parsing f) n m i nd) w).1 = (run S O (Account.processIncoming env n m i nd) w).1 ∧
    AlikeWorlds (run S O (Account.processIncoming (env.parsing f) n m i nd) w).2 (run S O (Account.processIncoming env n m i nd) w).2 :=
  alike_run hO (within_incoming hf n m i nd) (.refl w)

/-- C118 for the command line: `process-incoming` and `scandir-incoming` end alike and print the same (what is printed is part of the
trace, and `AlikeWorlds` compares it) -/
theorem C118_commands (S : StoreImpl σ) {O : Oracle K} (hO : PluginsBlind O) {env : Env} {f : Bytes → Msg}
    (hf : ∀ b, SameFields gossipFields (f b) (env.messageFromBytes b)) (ce : CmdEnv) (be : BotEnv) (cmd : Cmd.Command)
    (hc : (∃ n r nd m, cmd = .processIncoming n r nd m) ∨ ∃ r files, cmd = .scandir r files) (w : World σ K) :
    (run S O (cmd.prog ce be (env.parsing f)) w).1 = (run S O (cmd.prog ce be env) w).1 ∧
    AlikeWorlds (run S O (cmd.prog ce be (env.parsing f)) w).2 (run S O (cmd.prog ce be env) w).2 := by
  have hb : AlikeProgs (cmd.body ce be (env.parsing f)) (cmd.body ce be env) := by
    rcases hc with ⟨n, r, nd, m, rfl⟩ | ⟨r, files, rfl⟩
    · unfold Cmd.Command.body
      simp only [bind_eq, pure_eq]
      exact .bind (within_cmdIncoming hf n r nd m) fun _ => .refl _
    · unfold Cmd.Command.body Cmd.scandir
      simp only [bind_eq, pure_eq]
      exact .bind (.bind (.refl _) fun _ => within_scanFiles hf ce r _ 0 files) fun _ => .refl _
  refine alike_run hO ?_ (.refl w)
  unfold Cmd.Command.prog
  simp only [bind_eq, pure_eq]
  exact .bind hb.attempt fun _ => .refl _

/-- C118: so neither the body nor another field of decrypted messages can get into the store or into what is printed: all is as if the
messages had only these fields -/
theorem C118_only (S : StoreImpl σ) {O : Oracle K} (hO : PluginsBlind O) (env : Env) (n : Str) (m : Msg) (i nd : Bool) (w : World σ K) :
    (run S O (Account.processIncoming (env.parsing fun b => keepOnly gossipFields (env.messageFromBytes b)) n m i nd) w).2.store =
      (run S O (Account.processIncoming env n m i nd) w).2.store :=
  (C118_incoming S hO (fun b => keepOnly_same gossipFields (env.messageFromBytes b)) n m i nd w).2.store

section examples
open Concrete

/-- decrypted messages with a subject and another body -/
def embellished (b : Bytes) : Msg := .mk ((str!"Subject", str!"secret") :: (env.messageFromBytes b).headers) (.text (str!"what a day"))

/-- the hypotheses are met, the messages aren't the same, and Carol's key is found in them -/
example : PluginsBlind oracle ∧ (∀ b, SameFields gossipFields (embellished b) (env.messageFromBytes b)) ∧
    (embellished []).get (str!"Subject") ≠ (env.messageFromBytes []).get (str!"Subject") ∧
    (carols (run Store.impl oracle (Account.processIncoming (env.parsing embellished) (str!"a")
      (encMail (str!"1") (str!"100") [] [gossipField carol [9]]) false false) (after [addA])).2).length = 1 := by
  refine ⟨fun _ _ _ _ _ => rfl, fun b x hx => ?_, by decide +kernel, by decide +kernel⟩
  have : Msg.nameEq (str!"Subject") x = false := by
    simp only [gossipFields, List.mem_cons, List.not_mem_nil, or_false] at hx
    rcases hx with rfl | rfl | rfl <;> decide
  simp [embellished, Msg.getAll, Msg.headers, this]

/-- the fields in the list are read within: without Autocrypt-Gossip there is no key -/
example : carols (run Store.impl oracle (Account.processIncoming (env.parsing fun b => keepOnly [str!"To", str!"Cc"] (env.messageFromBytes b))
      (str!"a") (encMail (str!"1") (str!"100") [] [gossipField carol [9]]) false false) (after [addA])).2 = [] := by
  decide +kernel

/-- Dan, who is only named within, as a recipient, or in no field which is read -/
example : ∀ x ∈ [str!"To", str!"Cc"],
    (run Store.impl oracle (Account.processIncoming env (str!"a")
      (encMail (str!"1") (str!"100") [] [(x, str!"dan@x"), gossipField (str!"dan@x") [9]]) false false) (after [addA])).1.toOption.map
        (·.map (·.gossip.map (·.1))) = some (some [str!"dan@x"]) ∧
    (run Store.impl oracle (Account.processIncoming (env.parsing fun b => keepOnly [str!"Autocrypt-Gossip"] (env.messageFromBytes b)) (str!"a")
      (encMail (str!"1") (str!"100") [] [(x, str!"dan@x"), gossipField (str!"dan@x") [9]]) false false) (after [addA])).1.toOption.map
        (·.map (·.gossip.map (·.1))) = some (some []) := by
  decide +kernel

end examples

end Verif
