import Verif.Model.Views
import Verif.Model.States
import Verif.Props.Storage
import Verif.Props.Crash
/-!
# Walking over a chain (C108)
-/
namespace Verif

open Chainstore

variable {c : Codec}

/-- From the first cid, following parent links over readable block files, one finds these blocks and gets to the second
cid. Nothing is said about what comes then. -/
inductive Reaches (c : Codec) (blocks : List (Str × Bytes)) : Option Str → List (Str × Entry) → Option Str → Prop
  | nil (o : Option Str) : Reaches c blocks o [] o
  | cons {cid : Str} {b : Bytes} {e : Entry} {parent : Option Str} {t : Time} {l : List (Str × Entry)} {o : Option Str}
      (file : Disk.lookup blocks cid = some b) (content : c.loadList b = .ok (blockData e parent t))
      (known : parent ≠ some []) (rest : Reaches c blocks parent l o) :
      Reaches c blocks (some cid) ((cid, e) :: l) o

theorem Linked.ne (hl : c.Lawful) {blocks : List (Str × Bytes)} {o : Option Str} {l : List (Str × Entry)}
    (h : Linked c blocks o l) : o ≠ some [] := by
  rintro rfl
  exact h.cid_ne hl rfl

theorem Linked.reaches (hl : c.Lawful) {blocks : List (Str × Bytes)} {o : Option Str} {l : List (Str × Entry)}
    (h : Linked c blocks o l) : Reaches c blocks o l none := by
  induction h with
  | nil => exact .nil _
  | cons file named content rest ih => exact .cons file content (rest.ne hl) ih

/-- the parent of a block as the code computes it -/
theorem parent_some {cid : Str} {ty tm : Val} {args : List Val} {p : Str} (hp : p ≠ []) :
    parent c ⟨cid, ty, parentVal (some p), tm, args⟩ = getBlock c p := by
  cases p with
  | nil => exact absurd rfl hp
  | cons x xs => rfl

/-- the entry a walk is looking for: the newest one of a class which is accepted -/
def Fits (tag : Str) (found : Entry → Bool) (e : Entry) : Bool := e.tag = tag && found e

theorem searchFrom_reaches {d : Disk} {tag : Str} {found : Entry → Bool} {cid : Str} {l : List (Str × Entry)}
    {o : Option Str} (h : Reaches c d.blocks (some cid) l o) (hx : o = none ∨ l.any (fun x => Fits tag found x.2))
    (hne : l ≠ []) {n : Nat} (hn : l.length ≤ n) (t : Time) :
    ∃ blk, (getBlock c cid).run c t d = (.ok (some blk), d) ∧
      (searchFrom c tag found n (some blk)).run c t d = (.ok (some ((l.map (·.2)).find? (Fits tag found))), d) := by
  generalize ho : some cid = o' at h
  induction h generalizing cid n with
  | nil => exact absurd rfl hne
  | @cons cid' b e par t' l o file content known rest ih =>
    cases ho
    cases n with
    | zero => simp at hn
    | succ n =>
      simp only [List.length_cons, Nat.add_le_add_iff_right] at hn
      refine ⟨_, run_getBlock file content t, ?_⟩
      -- the walk behind this block
      have next : Fits tag found e = false → ((parent c ⟨cid', .text e.tag, parentVal par, .float t', e.args⟩).bind
          (searchFrom c tag found n)).run c t d = (.ok (some ((l.map (·.2)).find? (Fits tag found))), d) := by
        intro hw
        cases par with
        | none =>
          cases rest with
          | nil => simp [parent, parentVal, FProg.run_bind]; cases n <;> rfl
        | some p =>
          have hp : p ≠ [] := fun h => known (h ▸ rfl)
          have hx' : o = none ∨ l.any (fun x => Fits tag found x.2) := by
            simpa [hw] using hx
          have hne' : l ≠ [] := by
            rintro rfl
            cases rest
            simp at hx'
          obtain ⟨blk, h1, h2⟩ := ih hx' hne' hn rfl
          rw [parent_some hp, FProg.run_bind, h1]
          exact h2
      by_cases htag : e.tag = tag
      · subst htag
        by_cases hf : found e = true
        · simp [searchFrom, entry_ofBlock, FProg.run_bind, Fits, hf]
        · have hw : Fits e.tag found e = false := by simp [Fits, hf]
          simp only [searchFrom, entry_ofBlock, FProg.bind_eq, FProg.ofExcept, FProg.bind, if_true, hf,
            List.map_cons, List.find?_cons, hw]
          exact next hw
      · have hw : Fits tag found e = false := by simp [Fits, htag]
        have h1 : ¬ ((Val.text e.tag) = .text tag) := by simpa using htag
        simp only [searchFrom, FProg.bind_eq, h1, if_false, List.map_cons, List.find?_cons, hw]
        exact next hw

theorem run_search_none {d : Disk} {name : Str} {tag : Str} {found : Entry → Bool} {t : Time} (fuel : Nat)
    (h : (getHeadBlock c name).run c t d = (.ok none, d)) :
    (search c fuel name tag found).run c t d = (.ok (some none), d) := by
  simp only [search, FProg.bind_eq, FProg.run_bind, h]
  cases fuel <;> rfl

/-- **C108.** On files which hold logs, a walk over a chain which stops at the first entry of a class which it accepts,
finds the newest such entry of the log, or nothing if there is none. It changes nothing. -/
theorem C108_search (hl : c.Lawful) {d : Disk} {s : Store} (h : Represents c d s) (name tag : Str) (found : Entry → Bool)
    {fuel : Nat} (hf : d.blocks.length ≤ fuel) (t : Time) :
    (search c fuel name tag found).run c t d =
      (.ok (some ((s.get name).find? fun e => e.tag = tag && found e)), d) := by
  obtain ⟨-, hs, hh, hfa⟩ := h
  rcases run_getHeadBlock hl hh hfa name t with ⟨h1, -, h3⟩ | ⟨cid, l, blk, h1, h2, h3, h4, h5, h6⟩
  · rw [run_search_none fuel h1, h3]; rfl
  · have hne : l ≠ [] := by rintro rfl; cases h4
    obtain ⟨blk', g1, g2⟩ := searchFrom_reaches (tag := tag) (found := found) (h4.reaches hl) (Or.inl rfl) hne
      (Nat.le_trans h4.length_le hf) t
    rw [h6] at g1
    cases g1
    simp only [search, FProg.bind_eq, FProg.run_bind, h1, g2, h5]
    rfl

/-- **C108**, on damaged files: if the heads file can be read and the blocks from the head down to an accepted entry can
be read, the walk finds the newest accepted entry whatever happened to all other files. -/
theorem C108_search_damaged {d : Disk} {hs : List (Str × Str)} (hh : HeadsAre c d hs) {name cid : Str}
    (hc : headOf hs name = some cid) (hne : cid ≠ []) {l : List (Str × Entry)} {o : Option Str}
    (h : Reaches c d.blocks (some cid) l o) {tag : Str} {found : Entry → Bool} {x : Str × Entry} (hx : x ∈ l)
    (ht : x.2.tag = tag) (hfx : found x.2 = true) {fuel : Nat} (hf : l.length ≤ fuel) (t : Time) :
    ∃ e, (search c fuel name tag found).run c t d = (.ok (some (some e)), d) ∧
      (l.map (·.2)).find? (fun e => e.tag = tag && found e) = some e := by
  have hany : l.any (fun x => Fits tag found x.2) = true :=
    List.any_eq_true.2 ⟨x, hx, by simp [Fits, ht, hfx]⟩
  have hl0 : l ≠ [] := by rintro rfl; cases hx
  obtain ⟨blk, g1, g2⟩ := searchFrom_reaches h (Or.inr hany) hl0 hf t
  have hsome : ((l.map (·.2)).find? (Fits tag found)).isSome := by
    rw [List.find?_isSome]
    exact ⟨x.2, List.mem_map_of_mem hx, by simp [Fits, ht, hfx]⟩
  obtain ⟨e, he⟩ := Option.isSome_iff_exists.1 hsome
  refine ⟨e, ?_, he⟩
  have hgh : (getHeadBlock c name).run c t d = (getBlock c cid).run c t d := by
    cases cid with
    | nil => exact absurd rfl hne
    | cons y ys => simp [getHeadBlock, getHeadCid, FProg.run_bind, run_getheads hh, hc]
  simp only [search, FProg.bind_eq, FProg.run_bind, hgh, g1, g2, he]

/-! ## the getters of `states.py` -/

theorem find_class {α : Type} (es : List Entry) (sel : Entry → Option α) (mk : α → Entry) (tag : Str) (p : α → Bool)
    (h1 : ∀ e a, sel e = some a → e = mk a ∧ e.tag = tag) (h2 : ∀ e, sel e = none → e.tag ≠ tag) (q : Entry → Bool)
    (hq : ∀ a, q (mk a) = p a) :
    es.find? (fun e => e.tag = tag && q e) = ((es.filterMap sel).find? p).map mk := by
  induction es with
  | nil => rfl
  | cons e es ih =>
    cases hs : sel e with
    | none =>
      have := h2 e hs
      simp [List.find?_cons, hs, this, ih]
    | some a =>
      obtain ⟨rfl, ht⟩ := h1 e a hs
      simp only [List.find?_cons, List.filterMap_cons, hs, ht, hq, decide_true, Bool.true_and]
      cases p a with
      | true => rfl
      | false => exact ih

theorem head_find {α : Type} (l : List α) : l.head? = l.find? (fun _ => true) := by cases l <;> rfl

/-- **C108**, for the getters: what the views of `states.py` compute from the whole log is what the walks over the files
find. -/
theorem C108_getters (hl : c.Lawful) {d : Disk} {s : Store} (h : Represents c d s) (name : Str) {fuel : Nat}
    (hf : d.blocks.length ≤ fuel) (t : Time) :
    (latestEntryOf c fuel name (str!"msg")).run c t d =
      (.ok (some ((Peer.latestMsg (s.get name)).map .msg)), d) ∧
    (latestEntryOf c fuel name (str!"mge")).run c t d =
      (.ok (some ((Peer.latestGossip (s.get name)).map .gossip)), d) ∧
    (latestEntryOf c fuel name (str!"keygen")).run c t d =
      (.ok (some ((Own.latestKeygen (s.get name)).map .keygen)), d) ∧
    (latestEntryOf c fuel name (str!"cfg")).run c t d =
      (.ok (some ((Own.latestConfig (s.get name)).map .cfg)), d) ∧
    (latestEntryOf c fuel name (str!"acfg")).run c t d =
      (.ok (some ((Mgr.version (s.get name)).map .acfg)), d) ∧
    (∀ found : Entry → Bool, (∀ m : MsgEntry, found (.msg m) = !m.keydata.isEmpty) →
      (search c fuel name (str!"msg") found).run c t d =
        (.ok (some ((Peer.latestAc (s.get name)).map .msg)), d)) ∧
    (∀ (i : Str) (found : Entry → Bool), (∀ m : MsgEntry, found (.msg m) = (m.msgId == i)) →
      (search c fuel name (str!"msg") found).run c t d =
        (.ok (some ((Peer.getMessageEntry (s.get name) i).map .msg)), d)) ∧
    (∀ (i : Str) (found : Entry → Bool), (∀ m : GossipEntry, found (.gossip m) = (m.msgId == i)) →
      (search c fuel name (str!"mge") found).run c t d =
        (.ok (some ((Peer.getGossipEntry (s.get name) i).map .gossip)), d)) ∧
    (∀ (a : Str) (found : Entry → Bool), (∀ v : Verification, found (.oob v) = (a == v.addr)) →
      (search c fuel name (str!"oobverify") found).run c t d =
        (.ok (some ((OOB.lookup (s.get name) a).map .oob)), d)) := by
  have msg := fun p q hq => find_class (s.get name) Entry.msg? .msg (str!"msg") p
    (by intro e a h; cases e <;> simp [Entry.msg?] at h; subst h; exact ⟨rfl, rfl⟩)
    (by intro e h; cases e <;> simp [Entry.msg?] at h <;> simp only [Entry.tag] <;> decide) q hq
  have mge := fun p q hq => find_class (s.get name) Entry.gossip? .gossip (str!"mge") p
    (by intro e a h; cases e <;> simp [Entry.gossip?] at h; subst h; exact ⟨rfl, rfl⟩)
    (by intro e h; cases e <;> simp [Entry.gossip?] at h <;> simp only [Entry.tag] <;> decide) q hq
  have kg := fun p q hq => find_class (s.get name) Entry.keygen? .keygen (str!"keygen") p
    (by intro e a h; cases e <;> simp [Entry.keygen?] at h; subst h; exact ⟨rfl, rfl⟩)
    (by intro e h; cases e <;> simp [Entry.keygen?] at h <;> simp only [Entry.tag] <;> decide) q hq
  have cf := fun p q hq => find_class (s.get name) Entry.cfg? .cfg (str!"cfg") p
    (by intro e a h; cases e <;> simp [Entry.cfg?] at h; subst h; exact ⟨rfl, rfl⟩)
    (by intro e h; cases e <;> simp [Entry.cfg?] at h <;> simp only [Entry.tag] <;> decide) q hq
  have ac := fun p q hq => find_class (s.get name) Entry.acfg? .acfg (str!"acfg") p
    (by intro e a h; cases e <;> simp [Entry.acfg?] at h; subst h; exact ⟨rfl, rfl⟩)
    (by intro e h; cases e <;> simp [Entry.acfg?] at h <;> simp only [Entry.tag] <;> decide) q hq
  have oo := fun p q hq => find_class (s.get name) Entry.oob? .oob (str!"oobverify") p
    (by intro e a h; cases e <;> simp [Entry.oob?] at h; subst h; exact ⟨rfl, rfl⟩)
    (by intro e h; cases e <;> simp [Entry.oob?] at h <;> simp only [Entry.tag] <;> decide) q hq
  have key := fun tag found => C108_search hl h name tag found hf t
  refine ⟨?_, ?_, ?_, ?_, ?_, fun found hq => ?_, fun i found hq => ?_, fun i found hq => ?_, fun a found hq => ?_⟩
  · rw [latestEntryOf, key, msg (fun _ => true) _ fun _ => rfl, ← head_find]; rfl
  · rw [latestEntryOf, key, mge (fun _ => true) _ fun _ => rfl, ← head_find]; rfl
  · rw [latestEntryOf, key, kg (fun _ => true) _ fun _ => rfl, ← head_find]; rfl
  · rw [latestEntryOf, key, cf (fun _ => true) _ fun _ => rfl, ← head_find]; rfl
  · rw [latestEntryOf, key, ac (fun _ => true) _ fun _ => rfl, ← head_find]; rfl
  · rw [key, msg _ found hq]; rfl
  · rw [key, msg _ found hq]; rfl
  · rw [key, mge _ found hq]; rfl
  · rw [key, oo _ found hq]; rfl

/-! ## the other walks -/

/-- **C108**, for `len(chain)`: the number of entries of the log. -/
theorem C108_length (hl : c.Lawful) {d : Disk} {s : Store} (h : Represents c d s) (name : Str) {fuel : Nat}
    (hf : d.blocks.length ≤ fuel) (t : Time) :
    (chainLength c fuel name).run c t d = (.ok (some (s.get name).length), d) := by
  obtain ⟨-, hs, hh, hfa⟩ := h
  rcases run_getHeadBlock hl hh hfa name t with ⟨h1, -, h3⟩ | ⟨cid, l, blk, h1, h2, h3, h4, h5, h6⟩
  · simp only [chainLength, FProg.bind_eq, FProg.run_bind, h1, h3]
    cases fuel <;> rfl
  · obtain ⟨blk', bs, g1, g2, g3, g4, g5⟩ := h4.run_ancestors hl (Nat.le_trans h4.length_le hf) t
    rw [h6] at g1
    cases g1
    have : bs.length = l.length := by simpa using congrArg List.length g5
    simp [chainLength, FProg.run_bind, h1, g3, h5, this]

theorem containsCid_linked (hl : c.Lawful) {d : Disk} {cid : Str} {l : List (Str × Entry)}
    (h : Linked c d.blocks (some cid) l) (x : Str) {n : Nat} (hn : l.length ≤ n) (t : Time) :
    ∃ blk, (getBlock c cid).run c t d = (.ok (some blk), d) ∧
      (containsCid c x n (some blk)).run c t d = (.ok (some (decide (x ∈ l.map (·.1)))), d) := by
  generalize ho : some cid = o at h
  induction h generalizing cid n with
  | nil => cases ho
  | @cons cid' b e par t' l file named content rest ih =>
    cases ho
    cases n with
    | zero => simp at hn
    | succ n =>
      simp only [List.length_cons, Nat.add_le_add_iff_right] at hn
      refine ⟨_, run_getBlock file content t, ?_⟩
      by_cases hc : cid' = x
      · simp [containsCid, hc]
      · have hc' : x ≠ cid' := fun h => hc h.symm
        simp only [containsCid, hc, if_false, FProg.bind_eq, FProg.run_bind, List.map_cons, List.mem_cons, hc', false_or]
        cases par with
        | none => cases rest; simp only [parent, parentVal]; cases n <;> simp [containsCid]
        | some p =>
          obtain ⟨blk, h1, h2⟩ := ih hn rfl
          rw [parent_some (rest.cid_ne hl), h1]
          exact h2

/-- **C108**, for `contains_cid`: it finds exactly the cids of the linked blocks. -/
theorem C108_contains (hl : c.Lawful) {d : Disk} {cid : Str} {l : List (Str × Entry)}
    (h : Linked c d.blocks (some cid) l) (x : Str) {fuel : Nat} (hf : d.blocks.length ≤ fuel) (t : Time) :
    ((getBlock c cid).bind (containsCid c x fuel)).run c t d = (.ok (some (decide (x ∈ l.map (·.1)))), d) := by
  obtain ⟨blk, h1, h2⟩ := containsCid_linked hl h x (Nat.le_trans h.length_le hf) t
  rw [FProg.run_bind, h1]
  exact h2

theorem lastParent_linked (hl : c.Lawful) {d : Disk} {cid : Str} {l : List (Str × Entry)}
    (h : Linked c d.blocks (some cid) l) {n : Nat} (hn : l.length ≤ n) (t : Time) :
    ∃ blk, (getBlock c cid).run c t d = (.ok (some blk), d) ∧
      ∃ b x, (lastParent c n blk).run c t d = (.ok (some b), d) ∧ l.getLast? = some x ∧ b.cid = x.1 ∧
        b.type = .text x.2.tag ∧ b.args = x.2.args ∧ b.parent = .none := by
  generalize ho : some cid = o at h
  induction h generalizing cid n with
  | nil => cases ho
  | @cons cid' b e par t' l file named content rest ih =>
    cases ho
    cases n with
    | zero => simp at hn
    | succ n =>
      simp only [List.length_cons, Nat.add_le_add_iff_right] at hn
      refine ⟨_, run_getBlock file content t, ?_⟩
      cases par with
      | none =>
        cases rest
        exact ⟨_, _, rfl, rfl, rfl, rfl, rfl, rfl⟩
      | some p =>
        obtain ⟨blk, h1, b', x, h2, h3, h4⟩ := ih hn rfl
        refine ⟨b', x, ?_, ?_, h4⟩
        · simp only [lastParent, FProg.bind_eq, FProg.run_bind, parent_some (rest.cid_ne hl), h1]
          exact h2
        · cases l with
          | nil => cases h3
          | cons y ys => rw [List.getLast?_cons_cons]; exact h3

/-- **C108**, for `get_last_parent`: it gives the block of the oldest entry, which has no parent. -/
theorem C108_last_parent (hl : c.Lawful) {d : Disk} {cid : Str} {l : List (Str × Entry)}
    (h : Linked c d.blocks (some cid) l) {fuel : Nat} (hf : d.blocks.length ≤ fuel) (t : Time) :
    ∃ blk, (getBlock c cid).run c t d = (.ok (some blk), d) ∧
      ∃ b x, (lastParent c fuel blk).run c t d = (.ok (some b), d) ∧ l.getLast? = some x ∧ b.cid = x.1 ∧
        b.type = .text x.2.tag ∧ b.args = x.2.args ∧ b.parent = .none :=
  lastParent_linked hl h (Nat.le_trans h.length_le hf) t

theorem Linked.run_blocks (hl : c.Lawful) {d : Disk} {cid : Str} {l : List (Str × Entry)}
    (h : Linked c d.blocks (some cid) l) {n : Nat} (hn : l.length ≤ n) (t : Time) :
    ∃ blk bs, (getBlock c cid).run c t d = (.ok (some blk), d) ∧
      (ancestors c n (some blk)).run c t d = (.ok (some bs), d) ∧
      bs.map (fun x => (x.type, x.args)) = l.map (fun x => (Val.text x.2.tag, x.2.args)) := by
  generalize ho : some cid = o at h
  induction h generalizing cid n with
  | nil => cases ho
  | @cons cid' b e par t' l file named content rest ih =>
    cases ho
    cases n with
    | zero => simp at hn
    | succ n =>
      simp only [List.length_cons, Nat.add_le_add_iff_right] at hn
      cases par with
      | none =>
        cases rest
        refine ⟨_, [⟨cid', .text e.tag, parentVal none, .float t', e.args⟩], run_getBlock file content t, ?_, rfl⟩
        simp only [ancestors, parent, parentVal, FProg.bind_eq, FProg.pure_eq, FProg.run_bind, FProg.run_pure]
      | some p =>
        obtain ⟨blk, bs, h1, h3, h5⟩ := ih hn rfl
        refine ⟨_, ⟨cid', .text e.tag, parentVal (some p), .float t', e.args⟩ :: bs, run_getBlock file content t, ?_,
          by simp only [List.map_cons, h5]⟩
        simp only [ancestors, FProg.bind_eq, FProg.pure_eq, FProg.run_bind, FProg.run_pure,
          parent_some (rest.cid_ne hl), h1, h3]

/-- **C108**, for `dump`: a line for every entry of the log, oldest first, with its tag and its values; a chain without
entries raises `TypeError`. -/
theorem C108_dump (hl : c.Lawful) {d : Disk} {s : Store} (h : Represents c d s) (name : Str) {fuel : Nat}
    (hf : d.blocks.length ≤ fuel) (t : Time) :
    (s.get name = [] ∧ (dump c fuel name).run c t d = (.error .typeError, d)) ∨
    ∃ lines, (dump c fuel name).run c t d = (.ok (some lines), d) ∧
      lines.map (·.2) = (s.get name).reverse.map fun e => (Val.text e.tag, e.args) := by
  obtain ⟨-, hs, hh, hfa⟩ := h
  rcases run_getHeadBlock hl hh hfa name t with ⟨h1, -, h3⟩ | ⟨cid, l, blk, h1, h2, h3, h4, h5, h6⟩
  · refine Or.inl ⟨h3, ?_⟩
    simp only [dump, FProg.bind_eq, FProg.run_bind, h1]
    rfl
  · obtain ⟨blk', bs, g1, g3, g4⟩ := h4.run_blocks hl (Nat.le_trans h4.length_le hf) t
    rw [h6] at g1
    cases g1
    refine Or.inr ⟨bs.reverse.map fun x => (x.timestamp, x.type, x.args), ?_, ?_⟩
    · simp [dump, FProg.run_bind, h1, g3]
    · rw [List.map_map, h5, ← List.map_reverse, List.map_map, List.map_reverse, List.map_reverse]
      exact congrArg List.reverse g4

/-! ## examples -/

namespace Concrete

/-- a chain with three entries: a configuration, a key, another configuration -/
def threeBlocks : Disk :=
  let d := ((Disk.impl codec).append {} (str!"own:a") (.cfg ⟨.nopreference, str!"a", str!"x", .own, str!"gpg"⟩) 5).2
  let d := ((Disk.impl codec).append d (str!"own:a") (.keygen ⟨some [1], some (str!"K")⟩) 6).2
  ((Disk.impl codec).append d (str!"own:a") (.cfg ⟨.mutual, str!"a", str!"y", .own, str!"gpg"⟩) 7).2

/-- its logs -/
def threeLog : Store := [(str!"own:a", [.cfg ⟨.mutual, str!"a", str!"y", .own, str!"gpg"⟩,
  .keygen ⟨some [1], some (str!"K")⟩, .cfg ⟨.nopreference, str!"a", str!"x", .own, str!"gpg"⟩])]

theorem threeBlocks_represents : Represents codec threeBlocks threeLog := by
  have h1 := (impl_append codec_lawful (c := codec) (d := {}) (s := []) ⟨List.nodup_nil, [], Or.inl ⟨rfl, rfl⟩, .nil⟩
    (str!"own:a") (.cfg ⟨.nopreference, str!"a", str!"x", .own, str!"gpg"⟩) 5 (by decide +kernel)).2
  have h2 := (impl_append codec_lawful h1 (str!"own:a") (.keygen ⟨some [1], some (str!"K")⟩) 6 (by decide +kernel)).2
  exact (impl_append codec_lawful h2 (str!"own:a") (.cfg ⟨.mutual, str!"a", str!"y", .own, str!"gpg"⟩) 7
    (by decide +kernel)).2

/-- `C108_search`, `C108_getters` and `C108_length` can be used: three entries, the newest configuration is found -/
example : threeBlocks.blocks.length ≤ 3 ∧ (Own.latestConfig (threeLog.get (str!"own:a"))).map (·.emailRegex) = some (str!"y") ∧
    (((latestEntryOf codec 3 (str!"own:a") (str!"cfg")).run codec 0 threeBlocks).1).toOption =
      some (some (some (.cfg ⟨.mutual, str!"a", str!"y", .own, str!"gpg"⟩))) ∧
    (((chainLength codec 3 (str!"own:a")).run codec 0 threeBlocks).1).toOption = some (some 3) := by decide +kernel

/-- the oldest block is lost -/
def damaged : Disk := { threeBlocks with blocks := threeBlocks.blocks.drop 1 }

/-- the key is still found, and reading all entries stops short without an error: an old block which is gone looks like
the end of the chain -/
example : (((latestEntryOf codec 3 (str!"own:a") (str!"keygen")).run codec 0 damaged).1).toOption =
      some (some (some (.keygen ⟨some [1], some (str!"K")⟩))) ∧
    ((((iterEntries codec 3 (str!"own:a")).run codec 0 damaged).1).toOption).map (·.map (·.length)) = some (some 2) := by
  decide +kernel

/-- the oldest block is emptied: the key is still found, reading all entries raises -/
def emptied : Disk := { threeBlocks with blocks := (threeBlocks.blocks.take 1).map (fun x => (x.1, [])) ++ threeBlocks.blocks.drop 1 }

/-- the hypotheses of `C108_search_damaged` are met there -/
example : ∃ hs cid l o, HeadsAre codec emptied hs ∧ headOf hs (str!"own:a") = some cid ∧ cid ≠ [] ∧
    Reaches codec emptied.blocks (some cid) l o ∧ (∃ x ∈ l, x.2.tag = str!"keygen") ∧
    ((iterEntries codec 3 (str!"own:a")).run codec 0 emptied).1.toOption = none := by
  obtain ⟨-, hs, h1, h2⟩ := threeBlocks_represents
  cases h2 with
  | @cons x _ hs _ h3 h4 =>
  cases h4
  obtain ⟨n, cid⟩ := x
  obtain ⟨rfl, l, h5, h6⟩ := h3
  have hb : codec.loadDict (threeBlocks.heads.getD []) = .ok [(str!"own:a", cid)] := by
    rcases h1 with ⟨h, -⟩ | ⟨b, h, hb⟩
    · exact absurd h (by decide +kernel)
    · rw [h]; exact hb
  have hcid : cid = ((threeBlocks.blocks.drop 2).map (·.1)).headD [] := by
    have := congrArg (fun x => x.toOption) hb
    have h : (codec.loadDict (threeBlocks.heads.getD [])).toOption =
      some [(str!"own:a", ((threeBlocks.blocks.drop 2).map (·.1)).headD [])] := by decide +kernel
    rw [h] at this
    simpa [Except.toOption] using this.symm
  subst hcid
  refine ⟨_, ((threeBlocks.blocks.drop 2).map (·.1)).headD [],
    [(_, .cfg ⟨.mutual, str!"a", str!"y", .own, str!"gpg"⟩), (_, .keygen ⟨some [1], some (str!"K")⟩)],
    _, h1, by decide +kernel, by decide +kernel,
    .cons (b := codec.dumpList (blockData (.cfg ⟨.mutual, str!"a", str!"y", .own, str!"gpg"⟩)
        (some (((threeBlocks.blocks.drop 1).map (·.1)).headD [])) 7)) (by decide +kernel)
      (codec_lawful.load_dump_list _) (by decide +kernel)
      (.cons (b := codec.dumpList (blockData (.keygen ⟨some [1], some (str!"K")⟩)
        (some ((threeBlocks.blocks.map (·.1)).headD [])) 6)) (by decide +kernel)
      (codec_lawful.load_dump_list _) (by decide +kernel) (.nil _)), ⟨_, List.mem_cons_of_mem _ List.mem_cons_self, rfl⟩,
    by decide +kernel⟩

/-- the hypotheses of `C108_contains` and `C108_last_parent` are met: every head has linked blocks -/
example : ∃ cid l, Linked codec threeBlocks.blocks (some cid) l ∧ l.length = 3 := by
  obtain ⟨-, hs, h1, h2⟩ := threeBlocks_represents
  cases h2 with
  | @cons x _ hs _ h3 h4 =>
  obtain ⟨-, l, h5, h6⟩ := h3
  exact ⟨_, l, h5, by simpa [threeLog] using (congrArg List.length h6).symm⟩

end Concrete

end Verif
