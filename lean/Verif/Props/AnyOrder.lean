import Verif.Props.AnyTime
import Verif.Props.IncomingScope
/-!
# C130: mail about different people may be processed in any order
-/
namespace Verif
open BinGPG
variable {α β K : Type}

/-! ## Specification -/

/-- what gpg, the files and the hooks answer does not depend on what was asked before -/
def Indifferent (O : Oracle K) : Prop := ∀ o k k', (O.step o k).1 = (O.step o k').1

/-- what gpg can give for the encrypted part of a mail -/
def DecryptsTo (O : Oracle K) (m : Msg) (dec : Bytes) : Prop :=
  ∃ argv enc k out, EncryptedData m enc ∧ str!"--decrypt" ∈ argv ∧
    (O.step (.gpg argv (some enc)) k).1 = (.ok out : Except Exc GpgOut) ∧ out.ret = 0 ∧ out.out = dec

/-- a mail which comes in, and how it is to be processed -/
structure Arrival where
  msg : Msg
  ignoreExisting : Bool
  noDecrypt : Bool

/-- the addresses a mail is about: that of the sender; if it is decrypted also those to whom the message in it is written -/
def Arrival.Concerns (O : Oracle K) (env : Env) (x : Arrival) (a : Str) : Prop :=
  a = senderAddr env x.msg ∨
    (x.noDecrypt = false ∧ ∃ dec r, DecryptsTo O x.msg dec ∧ r ∈ decRecipients env x.msg dec ∧ a = address env (some r))

/-- two mails which are not about the same address -/
def Arrival.Apart (O : Oracle K) (env : Env) (x y : Arrival) : Prop := ∀ a, ¬ (x.Concerns O env a ∧ y.Concerns O env a)

/-- the date of the mail is never later than what the clock shows -/
def Arrival.Past (env : Env) (w : World Store K) (x : Arrival) : Prop := ∀ d, DateOf env x.msg d → ∀ i, d ≤ w.clock i

/-- process a mail -/
def Arrival.process (O : Oracle K) (env : Env) (n : Str) (x : Arrival) (w : World Store K) :
    Except Exc (Option Account.IncomingResult) × World Store K :=
  exec O (Account.processIncoming env n x.msg x.ignoreExisting x.noDecrypt) w

/-- process mails one after the other; an exception for one does not keep the following ones from being processed. Each mail is given with its result. -/
def processAll (O : Oracle K) (env : Env) (n : Str) :
    List Arrival → World Store K → List (Arrival × Except Exc (Option Account.IncomingResult)) × World Store K
  | [], w => ([], w)
  | x :: xs, w =>
    let r := x.process O env n w
    let rest := processAll O env n xs r.2
    ((x, r.1) :: rest.1, rest.2)

/-! ## Programs -/

/-- with the answers of `O`, all logs read are in `R` and all logs written are in `W`; the clock is not read -/
def Footprint (O : Oracle K) (R W : Str → Prop) : Prog α → Prop
  | .pure _ => True
  | .raise _ => True
  | .op (.chain h) k => R h ∧ ∀ r, Footprint O R W (k r)
  | .op (.append h _) k => W h ∧ ∀ r, Footprint O R W (k r)
  | .op (.ext o) k => ∀ e, Footprint O R W (k (O.step o e).1)
  | .op _ _ => False

/-- with the answers of `O`, what is returned satisfies `Q` -/
def Yields (O : Oracle K) (Q : α → Prop) : Prog α → Prop
  | .pure a => Q a
  | .raise _ => True
  | .op (.ext o) k => ∀ e, Yields O Q (k (O.step o e).1)
  | .op _ k => ∀ r, Yields O Q (k r)

namespace Yields
variable {O : Oracle K} {Q : α → Prop} {Q' : β → Prop}
theorem of_returns {p : Prog α} (h : p.Returns Q) : Yields O Q p := by
  induction p with
  | pure a => exact h
  | raise e => trivial
  | op o k ih => cases o <;> first | exact fun r => ih r (h r) | exact fun e => ih _ (h _)
theorem bind {p : Prog α} {f : α → Prog β} (h : Yields O Q p) (hf : ∀ a, Q a → Yields O Q' (f a)) : Yields O Q' (p.bind f) := by
  induction p with
  | pure a => exact hf a h
  | raise e => trivial
  | op o k ih => cases o <;> first | exact fun r => ih r (h r) | exact fun e => ih _ (h e)
end Yields

namespace Footprint
variable {O : Oracle K} {R W : Str → Prop}
theorem bindYields {p : Prog α} {Q : α → Prop} {f : α → Prog β} (h : Footprint O R W p) (hq : Yields O Q p) (hf : ∀ a, Q a → Footprint O R W (f a)) :
    Footprint O R W (p.bind f) := by
  induction p with
  | pure a => exact hf a hq
  | raise e => trivial
  | op o k ih =>
    cases o with
    | chain x => exact ⟨h.1, fun r => ih r (h.2 r) (hq r)⟩
    | append x y => exact ⟨h.1, fun r => ih r (h.2 r) (hq r)⟩
    | ext o => exact fun e => ih _ (h e) (hq e)
    | now => exact h.elim
    | heads => exact h.elim
    | removeIf _ => exact h.elim
    | wipe => exact h.elim
theorem bind {p : Prog α} {f : α → Prog β} (h : Footprint O R W p) (hf : ∀ a, Footprint O R W (f a)) : Footprint O R W (p.bind f) :=
  bindYields h (Yields.of_returns (Prog.Returns.trivially p)) fun a _ => hf a
theorem pure (a : α) : Footprint O R W (.pure a) := trivial
theorem raise (e : Exc) : Footprint O R W (.raise e : Prog α) := trivial
theorem ofExcept (x : Except Exc α) : Footprint O R W (Prog.ofExcept x) := by cases x <;> trivial
theorem chain {h : Str} (hh : R h) : Footprint O R W (Prog.chain h) := ⟨hh, fun _ => ofExcept _⟩
theorem append {h : Str} (hh : W h) (e) : Footprint O R W (Prog.append h e) := ⟨hh, fun _ => ofExcept _⟩
theorem ro {p : Prog α} (h : Looks ⟨R, False, False⟩ p) (h2 : p.AllOps Op.readOnly) : Footprint O R W p := by
  induction p with
  | pure a => trivial
  | raise e => trivial
  | op o k ih =>
    cases o with
    | chain x => exact ⟨h.1, fun r => ih r (h.2 r) (h2.2 r)⟩
    | append x y => exact h2.1.elim
    | ext o => exact fun e => ih _ (h.2 _) (h2.2 _)
    | now => exact h.1.elim
    | heads => exact h.1.elim
    | removeIf _ => exact h2.1.elim
    | wipe => exact h2.1.elim

/-! ## Runs -/

theorem frame {p : Prog α} (h : Footprint O R W p) (w : World Store K) : (exec O p w).2.clock = w.clock ∧
    ∀ x, ¬ W x → (exec O p w).2.log x = w.log x := by
  induction p generalizing w with
  | pure a => exact ⟨rfl, fun _ _ => rfl⟩
  | raise e => exact ⟨rfl, fun _ _ => rfl⟩
  | op o k ih =>
    cases o with
    | chain x => exact ih _ (h.2 _) _
    | append y e =>
      obtain ⟨h1, h2⟩ := ih _ (h.2 _) (step Store.impl O (.append y e) w).2
      refine ⟨h1, fun x hx => (h2 x hx).trans ?_⟩
      show (w.store.push y e).get x = w.store.get x
      rw [Store.get_push, if_neg fun hy => hx (by rw [hy]; exact h.1)]
    | ext o => exact ih _ (h _) _
    | now => exact h.elim
    | heads => exact h.elim
    | removeIf _ => exact h.elim
    | wipe => exact h.elim

theorem same {p : Prog α} (h : Footprint O R W p) (hO : Indifferent O) {w w' : World Store K} (hw : ∀ x, R x → w.log x = w'.log x) :
    (exec O p w).1 = (exec O p w').1 ∧ ∀ x, R x → (exec O p w).2.log x = (exec O p w').2.log x := by
  induction p generalizing w w' with
  | pure a => exact ⟨rfl, hw⟩
  | raise e => exact ⟨rfl, hw⟩
  | op o k ih =>
    cases o with
    | chain x =>
      show (exec O (k (.ok (w.log x))) w).1 = (exec O (k (.ok (w'.log x))) w').1 ∧
        ∀ y, R y → (exec O (k (.ok (w.log x))) w).2.log y = (exec O (k (.ok (w'.log x))) w').2.log y
      rw [hw x h.1]
      exact ih _ (h.2 _) hw
    | append y e =>
      refine ih _ (h.2 _) fun x hx => ?_
      show (w.store.push y e).get x = (w'.store.push y e).get x
      rw [Store.get_push, Store.get_push, show w.store.get x = w'.store.get x from hw x hx]
    | ext o =>
      show (exec O (k (O.step o w.env).1) _).1 = (exec O (k (O.step o w'.env).1) _).1 ∧
        ∀ y, R y → (exec O (k (O.step o w.env).1) _).2.log y = (exec O (k (O.step o w'.env).1) _).2.log y
      rw [hO o w'.env w.env]
      exact ih _ (h _) hw
    | now => exact h.elim
    | heads => exact h.elim
    | removeIf _ => exact h.elim
    | wipe => exact h.elim

end Footprint

/-! ## Incoming mail -/

theorem decrypt_yields (O : Oracle K) (env : Env) (g : BinGPG) (enc : Bytes) : Yields O (fun r => ∃ argv k out, str!"--decrypt" ∈ argv ∧
    (O.step (.gpg argv (some enc)) k).1 = (.ok out : Except Exc GpgOut) ∧ out.ret = 0 ∧ out.out = r.1) (BinGPG.decrypt env g enc) := by
  unfold BinGPG.decrypt BinGPG.gpgOuterr
  simp only [bind_eq, pure_eq]
  refine .bind (.of_returns (.trivially _)) fun np _ => ?_
  refine .bind (Q := fun r => ∃ argv k out, str!"--decrypt" ∈ argv ∧
    (O.step (.gpg argv (some enc)) k).1 = (.ok out : Except Exc GpgOut) ∧ out.ret = 0 ∧ out.out = r.1) ?_ fun r hr =>
      .bind (.of_returns (.trivially _)) fun _ _ => by exact hr
  refine .bind (Q := fun out => ∃ k, (O.step (.gpg (g.argv (np ++ [str!"--with-colons", str!"--decrypt"])) (some enc)) k).1 =
    (.ok out : Except Exc GpgOut)) ?_ ?_
  · intro e
    cases he : (O.step (.gpg (g.argv (np ++ [str!"--with-colons", str!"--decrypt"])) (some enc)) e).1 with
    | error _ => trivial
    | ok out => exact ⟨e, he⟩
  · rintro out ⟨k, hk⟩
    cases hc : BinGPG.checkResult env false false out with
    | error _ => trivial
    | ok r =>
      refine ⟨_, k, out, ?_, hk, ?_⟩
      · simp [BinGPG.argv]
      · unfold BinGPG.checkResult at hc
        split at hc
        · cases hc
        · split at hc
          · cases hc
          · simp only [Bool.false_eq_true, if_false] at hc
            split at hc
            · cases hc
            · rename_i h
              cases hc
              exact ⟨Classical.byContradiction fun h' => h (.inl h'), rfl⟩

theorem decryptMime_yields (O : Oracle K) (env : Env) (n : Str) (m : Msg) : Yields O (fun r =>
    ∃ dec, DecryptsTo O m dec ∧ r.decMsg = Mime.transferNonContentHeaders m (env.messageFromBytes dec)) (Account.decryptMime env n m) := by
  unfold Account.decryptMime
  simp only [bind_eq, pure_eq]
  refine .bind (.of_returns Prog.Returns.ofExcept) fun enc henc => .bind (.of_returns (.trivially _)) fun g _ =>
    .bind (decrypt_yields O env g enc) fun r hr => ?_
  obtain ⟨argv, k, out, h1, h2, h3, h4⟩ := hr
  exact ⟨r.1, ⟨argv, enc, k, out, encryptedData_iff.mpr henc, h1, h2, h3, h4⟩, rfl⟩

/-- the logs processing a mail can read -/
def Arrival.reads (O : Oracle K) (env : Env) (n : Str) (x : Arrival) (h : Str) : Prop :=
  h = managerHead ∨ h = ownHead n ∨ h = oobHead n ∨ ∃ a, x.Concerns O env a ∧ h = peerHead n a
/-- the logs it can write -/
def Arrival.writes (O : Oracle K) (env : Env) (n : Str) (x : Arrival) (h : Str) : Prop := ∃ a, x.Concerns O env a ∧ h = peerHead n a

section
variable {O : Oracle K} {env : Env} {n : Str}

theorem updateFromMsg_footprint {R W : Str → Prop} {h : Str} (h1 : R h) (h2 : W h) (u) : Footprint O R W (Peer.updateFromMsg h u) := by
  unfold Peer.updateFromMsg
  simp only [bind_eq, pure_eq]
  refine .bind (.chain h1) fun _ => .bind (.ofExcept _) fun x => ?_
  cases x with
  | none => exact .pure _
  | some e => exact .append h2 _

theorem updateFromGossip_footprint {R W : Str → Prop} {h : Str} (h1 : R h) (h2 : W h) (u) : Footprint O R W (Peer.updateFromGossip h u) := by
  unfold Peer.updateFromGossip
  simp only [bind_eq, pure_eq]
  refine .bind (.chain h1) fun _ => .bind (.ofExcept _) fun x => ?_
  cases x with
  | none => exact .pure _
  | some e => exact .append h2 _

theorem gossipLoop_footprint {R W : Str → Prop} (hs : Sees ⟨R, False, False⟩ n) (x d i p l)
    (hl : ∀ a ∈ l, R (Account.peerHeadOf env n a) ∧ W (Account.peerHeadOf env n a)) : Footprint O R W (Account.gossipLoop env n x d i p l) := by
  induction l generalizing p with
  | nil => exact .pure _
  | cons r rs ih =>
    obtain ⟨h1, h2⟩ := hl r List.mem_cons_self
    replace ih := fun p => ih p fun a ha => hl a (List.mem_cons_of_mem _ ha)
    unfold Account.gossipLoop
    simp only [bind_eq]
    split
    · exact ih _
    · exact .bind (.ro (Account.looks_importPah env hs _) (Account.importPah_ops permissive_readOnly env n _)) fun y =>
        .bind (updateFromGossip_footprint h1 h2 _) fun _ => ih _

theorem incomingRest_footprint (x : Arrival) (d : Time) :
    Footprint O (x.reads O env n) (x.writes O env n) (Account.incomingRest env n x.msg x.ignoreExisting x.noDecrypt d) := by
  have hs : Sees ⟨x.reads O env n, False, False⟩ n := ⟨.inl rfl, .inr (.inl rfl), .inr (.inr (.inl rfl))⟩
  have hr : ∀ {a}, x.Concerns O env a → x.reads O env n (peerHead n a) := fun h => .inr (.inr (.inr ⟨_, h, rfl⟩))
  have hw : ∀ {a}, x.Concerns O env a → x.writes O env n (peerHead n a) := fun h => ⟨_, h, rfl⟩
  have h0 : x.Concerns O env (senderAddr env x.msg) := .inl rfl
  unfold Account.incomingRest
  simp only [bind_eq, pure_eq]
  refine .bind ?_ fun known => ?_
  · split
    · exact .bind (.chain (hr h0)) fun _ => .pure _
    · exact .pure _
  split
  · exact .pure _
  refine .bind ?_ fun pah => ?_
  · unfold Account.processAutocryptHeader
    simp only [bind_eq, pure_eq]
    refine .bind (.ofExcept _) fun p => .bind ?_ fun y => .bind (updateFromMsg_footprint (hr h0) (hw h0) _) fun _ => .pure _
    split
    · exact .pure _
    · exact .ro (Account.looks_importPah env hs _) (Account.importPah_ops permissive_readOnly env n _)
  refine .bindYields (Q := fun e => e = true → x.noDecrypt = false) ?_ (.of_returns ?_) fun enc he => ?_
  · split
    · exact .pure _
    · exact .ofExcept _
  · split
    · exact fun h => by cases h
    · rename_i h
      exact (Prog.Returns.trivially _).mono fun _ _ _ => by simpa using h
  · refine .bind ?_ fun _ => .pure _
    split
    · rename_i h
      refine .bindYields (.ro (Account.looks_decryptMime env hs _) (Account.decryptMime_ops permissive_readOnly env n _)) (decryptMime_yields O env n x.msg)
        fun r hd => ?_
      obtain ⟨dec, h1, h2⟩ := hd
      refine .bind ?_ fun g => .bind (.ro (Account.looks_ownKeyhandle hs) (Account.ownKeyhandle_ops permissive_readOnly n)) fun _ =>
        .bind (.ro (.hookIncomingGossip ..) (.hookIncomingGossip trivial)) fun _ => .pure _
      unfold Account.processGossipHeaders
      simp only [bind_eq]
      refine .bind (.ofExcept _) fun p => gossipLoop_footprint hs _ _ _ _ _ fun a ha => ?_
      rw [h2, target_transfer] at ha
      have h3 : x.Concerns O env (address env (some a)) := .inr ⟨he h, dec, a, h1, ha, rfl⟩
      exact ⟨hr h3, hw h3⟩
    · exact .pure _

/-- what is done with a mail of the past: the clock makes no difference -/
def Arrival.prog (env : Env) (n : Str) (x : Arrival) : Prog (Option Account.IncomingResult) :=
  (Prog.ofExcept (parseDateToFloat env (x.msg.get (str!"Date")))).bind fun d => Account.incomingRest env n x.msg x.ignoreExisting x.noDecrypt d

theorem Arrival.prog_footprint (x : Arrival) : Footprint O (x.reads O env n) (x.writes O env n) (x.prog env n) :=
  .bind (.ofExcept _) fun d => incomingRest_footprint x d

theorem Arrival.process_prog {x : Arrival} {w : World Store K} (h : x.Past env w) :
    ∃ t, x.process O env n w = exec O (x.prog env n) { w with tick := t } := by
  unfold Arrival.process Arrival.prog exec
  rw [Account.run_processIncoming]
  simp only [run_bind, run_ofExcept]
  cases hd : parseDateToFloat env (x.msg.get (str!"Date")) with
  | error e => exact ⟨w.tick, rfl⟩
  | ok d =>
    refine ⟨w.tick + 1, ?_⟩
    simp only
    rw [Int.min_eq_left (h d (parseDateToFloat_ok.mp hd) _)]

theorem Arrival.process_frame {x : Arrival} {w : World Store K} (h : x.Past env w) : (x.process O env n w).2.clock = w.clock ∧
    ∀ y, ¬ x.writes O env n y → (x.process O env n w).2.log y = w.log y := by
  obtain ⟨t, ht⟩ := Arrival.process_prog (O := O) (n := n) h
  rw [ht]
  exact x.prog_footprint.frame _

theorem Arrival.process_same {x : Arrival} {w w' : World Store K} (h : x.Past env w) (h' : x.Past env w') (hO : Indifferent O)
    (hw : ∀ y, x.reads O env n y → w.log y = w'.log y) : (x.process O env n w).1 = (x.process O env n w').1 ∧
    ∀ y, x.reads O env n y → (x.process O env n w).2.log y = (x.process O env n w').2.log y := by
  obtain ⟨t, ht⟩ := Arrival.process_prog (O := O) (n := n) h
  obtain ⟨t', ht'⟩ := Arrival.process_prog (O := O) (n := n) h'
  rw [ht, ht']
  exact x.prog_footprint.same hO hw

theorem Arrival.Apart.symm {x y : Arrival} (h : x.Apart O env y) : y.Apart O env x := fun a ha => h a ha.symm

theorem Arrival.Apart.reads {x y : Arrival} (h : x.Apart O env y) {z : Str} (hz : x.reads O env n z) : ¬ y.writes O env n z := by
  rintro ⟨a, ha, rfl⟩
  rcases hz with hz | hz | hz | ⟨b, hb, hz⟩
  · exact managerHead_ne_peerHead _ _ hz.symm
  · exact ownHead_ne_peerHead _ _ _ hz.symm
  · exact oobHead_ne_peerHead _ _ _ hz.symm
  · cases peerHead_inj_addr.mp hz
    exact h a ⟨hb, ha⟩

theorem Arrival.writes.reads {x : Arrival} {z : Str} (h : x.writes O env n z) : x.reads O env n z := .inr (.inr (.inr h))

end

/-! ## C130 -/

/-- **C130, two mails**: they are about different addresses, and their dates are past. Whichever of them is processed first, the result for each of them is
the same, and all that is stored is the same in the end. -/
theorem C130_two {O : Oracle K} (hO : Indifferent O) (env : Env) (n : Str) (x y : Arrival) (w : World Store K) (hx : x.Past env w) (hy : y.Past env w)
    (ha : x.Apart O env y) :
    (x.process O env n w).1 = (x.process O env n (y.process O env n w).2).1 ∧
    (y.process O env n w).1 = (y.process O env n (x.process O env n w).2).1 ∧
    ∀ h, (y.process O env n (x.process O env n w).2).2.log h = (x.process O env n (y.process O env n w).2).2.log h := by
  obtain ⟨cx, fx⟩ := Arrival.process_frame (O := O) (n := n) hx
  obtain ⟨cy, fy⟩ := Arrival.process_frame (O := O) (n := n) hy
  have hx' : x.Past env (y.process O env n w).2 := fun d hd i => by rw [cy]; exact hx d hd i
  have hy' : y.Past env (x.process O env n w).2 := fun d hd i => by rw [cx]; exact hy d hd i
  obtain ⟨_, fx'⟩ := Arrival.process_frame (O := O) (n := n) hx'
  obtain ⟨_, fy'⟩ := Arrival.process_frame (O := O) (n := n) hy'
  obtain ⟨rx, lx⟩ := Arrival.process_same (n := n) hx hx' hO fun z hz => (fy z (ha.reads hz)).symm
  obtain ⟨ry, ly⟩ := Arrival.process_same (n := n) hy hy' hO fun z hz => (fx z (ha.symm.reads hz)).symm
  refine ⟨rx, ry, fun h => ?_⟩
  by_cases h1 : x.writes O env n h
  · rw [fy' h (ha.reads h1.reads), lx h h1.reads]
  · by_cases h2 : y.writes O env n h
    · rw [fx' h h1, ly h h2.reads]
    · rw [fy' h h2, fx h h1, fx' h h1, fy h h2]

theorem processAll_same {O : Oracle K} (hO : Indifferent O) (env : Env) (n : Str) (l : List Arrival) (w w' : World Store K)
    (hc : w.clock = w'.clock) (hw : ∀ h, w.log h = w'.log h) (hp : ∀ x ∈ l, x.Past env w) :
    (processAll O env n l w).1 = (processAll O env n l w').1 ∧ ∀ h, (processAll O env n l w).2.log h = (processAll O env n l w').2.log h := by
  induction l generalizing w w' with
  | nil => exact ⟨rfl, hw⟩
  | cons x xs ih =>
    have hx := hp x List.mem_cons_self
    have hx' : x.Past env w' := fun d hd i => by rw [← hc]; exact hx d hd i
    obtain ⟨c, f⟩ := Arrival.process_frame (O := O) (n := n) hx
    obtain ⟨c', f'⟩ := Arrival.process_frame (O := O) (n := n) hx'
    obtain ⟨r, l⟩ := Arrival.process_same (n := n) hx hx' hO fun z _ => hw z
    obtain ⟨h1, h2⟩ := ih (x.process O env n w).2 (x.process O env n w').2 (by rw [c, c', hc]) (fun h => by
      by_cases hh : x.writes O env n h
      · exact l h hh.reads
      · rw [f h hh, f' h hh, hw h]) fun y hy d hd i => by rw [c]; exact hp y (List.mem_cons_of_mem _ hy) d hd i
    simp only [processAll]
    exact ⟨by rw [r, h1], h2⟩

/-- **C130, any number of mails**: no two of them are about the same address, and their dates are past. In whatever order they are processed, each has the same
result, and all that is stored is the same in the end. -/
theorem C130_all {O : Oracle K} (hO : Indifferent O) (env : Env) (n : Str) (l l' : List Arrival) (w : World Store K) (hl : l.Perm l')
    (hp : ∀ x ∈ l, x.Past env w) (ha : l.Pairwise (Arrival.Apart O env)) :
    (processAll O env n l w).1.Perm (processAll O env n l' w).1 ∧ ∀ h, (processAll O env n l w).2.log h = (processAll O env n l' w).2.log h := by
  induction hl generalizing w with
  | nil => exact ⟨.refl _, fun _ => rfl⟩
  | cons x _ ih =>
    obtain ⟨c, _⟩ := Arrival.process_frame (O := O) (n := n) (hp x List.mem_cons_self)
    obtain ⟨h1, h2⟩ := ih (x.process O env n w).2 (fun y hy d hd i => by rw [c]; exact hp y (List.mem_cons_of_mem _ hy) d hd i) (List.pairwise_cons.mp ha).2
    simp only [processAll]
    exact ⟨.cons _ h1, h2⟩
  | swap x y l =>
    have hy := hp y List.mem_cons_self
    have hx := hp x (List.mem_cons_of_mem _ List.mem_cons_self)
    obtain ⟨h1, h2, h3⟩ := C130_two hO env n x y w hx hy ((List.pairwise_cons.mp ha).1 x List.mem_cons_self).symm
    obtain ⟨cx, _⟩ := Arrival.process_frame (O := O) (n := n) hx
    obtain ⟨cy, _⟩ := Arrival.process_frame (O := O) (n := n) hy
    obtain ⟨cxy, _⟩ := Arrival.process_frame (O := O) (n := n) (x := x) (w := (y.process O env n w).2) fun d hd i => by rw [cy]; exact hx d hd i
    obtain ⟨cyx, _⟩ := Arrival.process_frame (O := O) (n := n) (x := y) (w := (x.process O env n w).2) fun d hd i => by rw [cx]; exact hy d hd i
    obtain ⟨h4, h5⟩ := processAll_same hO env n l (x.process O env n (y.process O env n w).2).2 (y.process O env n (x.process O env n w).2).2
      (by rw [cxy, cyx, cx, cy]) (fun h => (h3 h).symm) fun z hz d hd i => by
        rw [cxy, cy]; exact hp z (List.mem_cons_of_mem _ (List.mem_cons_of_mem _ hz)) d hd i
    simp only [processAll]
    exact ⟨by rw [h1, h2, h4]; exact .swap _ _ _, h5⟩
  | trans h1 _ ih1 ih2 =>
    obtain ⟨a, b⟩ := ih1 w hp ha
    obtain ⟨c, d⟩ := ih2 w (fun x hx => hp x (h1.mem_iff.mpr hx)) (ha.perm h1 fun h => h.symm)
    exact ⟨a.trans c, fun h => (b h).trans (d h)⟩

/-! ## An example -/

/-- a gpg which always decrypts -/
def Concrete.decrypting : Oracle Unit where
  step o k := match o with
    | .gpg a i => if str!"--decrypt" ∈ a then (.ok ⟨0, i.getD [], []⟩, k) else oracle.step (.gpg a i) k
    | o => oracle.step o k

theorem Concrete.decrypting_indifferent : Indifferent decrypting := fun _ _ _ => rfl

/-- Bob writes to Carol, with her key -/
def Concrete.fromBob : Arrival := ⟨encMail (str!"1") (str!"100") [] [gossipField carol [8, 1]], false, false⟩
/-- Dave writes -/
def Concrete.fromDave : Arrival := ⟨mail (str!"dave@x.org") (str!"2") (str!"90") [9, 1], true, false⟩

theorem Concrete.past {x : Arrival} (w : World Store Unit) (hw : w.clock = world0.clock)
    (h : ∃ d, d ≤ sec 1000 ∧ parseDateToFloat env (x.msg.get (str!"Date")) = .ok d) : x.Past env w := fun d hd i => by
  obtain ⟨d', h1, h2⟩ := h
  rw [parseDateToFloat_ok.mpr hd] at h2
  cases h2
  rw [hw]
  refine Int.le_trans h1 ?_
  show sec 1000 ≤ sec (1000 + i)
  unfold sec
  omega

theorem Concrete.bob_dave : fromBob.Apart decrypting env fromDave := by
  have hd : ∀ a, fromDave.Concerns decrypting env a → a = str!"dave@x.org" := by
    rintro a (h | ⟨_, dec, r, ⟨_, enc, _, _, h, _⟩, _⟩)
    · exact h.trans (by decide +kernel)
    · rw [encryptedData_iff] at h
      exact absurd (congrArg Except.toOption h) (by
        rw [show (Account.encData fromDave.msg).toOption = none by decide +kernel]; exact fun h => by cases h)
  have hb : ∀ a, fromBob.Concerns decrypting env a → a = bob ∨ a = carol := by
    rintro a (h | ⟨_, dec, r, ⟨argv, enc, k, out, h, hv, ho, _, rfl⟩, hr, rfl⟩)
    · exact .inl (h.trans (by decide +kernel))
    · rw [encryptedData_iff] at h
      have he : some enc = (Account.encData fromBob.msg).toOption := by rw [h]; rfl
      have ho : out = ⟨0, enc, []⟩ := by
        simp only [decrypting, hv, if_true] at ho
        exact Except.ok.inj ho.symm
      subst ho
      have : ∀ e, some e = (Account.encData fromBob.msg).toOption → ∀ r ∈ decRecipients env fromBob.msg e, address env (some r) = carol := by
        intro e he
        have h2 : (Account.encData fromBob.msg).toOption = some (flat (.mk [gossipField carol [8, 1]] (.text (str!"hi")))) := by decide +kernel
        rw [h2] at he
        cases he
        decide +kernel
      exact .inr (this enc he r hr)
  rintro a ⟨h1, h2⟩
  cases hd a h2
  rcases hb _ h1 with h | h
  · exact absurd h (by decide)
  · exact absurd h (by decide)

open Concrete

/-- the hypotheses of `C130_all` hold for these mails -/
example : ∀ h, (processAll decrypting env (str!"a") [fromBob, fromDave] (after [addA])).2.log h =
    (processAll decrypting env (str!"a") [fromDave, fromBob] (after [addA])).2.log h :=
  (C130_all decrypting_indifferent env (str!"a") _ _ _ (.swap _ _ _) (by
    intro x hx
    rcases List.mem_cons.mp hx with rfl | hx
    · exact past _ (by rfl) ⟨sec 100, by decide +kernel, by decide +kernel⟩
    · cases List.mem_singleton.mp hx
      exact past _ (by rfl) ⟨sec 90, by decide +kernel, by decide +kernel⟩)
    (List.pairwise_cons.mpr ⟨fun y hy => by cases List.mem_singleton.mp hy; exact bob_dave, List.pairwise_singleton ..⟩)).2

/-- both leave something: entries about Bob, Carol and Dave -/
example : (processAll decrypting env (str!"a") [fromBob, fromDave] (after [addA])).2.store.names =
    [str!".", str!"own:a", peerHead (str!"a") bob, peerHead (str!"a") carol, peerHead (str!"a") (str!"dave@x.org")] := by decide +kernel

/-- mails of the same person are not claimed to be interchangeable: a later one processed first keeps the earlier one from being recorded -/
example : (bobs (processAll oracle env (str!"a") [⟨mail bob (str!"1") (str!"100") [8, 1], false, false⟩, ⟨mail bob (str!"2") (str!"200") [9, 1], false, false⟩]
    (after [addA])).2).length = 2 ∧
    (bobs (processAll oracle env (str!"a") [⟨mail bob (str!"2") (str!"200") [9, 1], false, false⟩, ⟨mail bob (str!"1") (str!"100") [8, 1], false, false⟩]
    (after [addA])).2).length = 1 := by decide +kernel

end Verif
