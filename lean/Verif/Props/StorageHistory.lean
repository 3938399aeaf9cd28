import Verif.Props.Storage
import Verif.Model.Api
import Verif.Spec.ConcreteCodec
import Verif.Spec.Concrete
/-!
# Histories of store operations (C01, C02)
-/
namespace Verif

open Chainstore

variable {c : Codec}

/-! ## what has been appended -/

/-- operations which change the store -/
inductive StoreChange where
  | append (name : Str) (e : Entry)
  | remove (p : Str → Bool)
  | wipe

/-- as a program -/
def StoreChange.prog : StoreChange → Prog Unit
  | .append n e => Prog.append n e
  | .remove p => Prog.removeIf p
  | .wipe => .op .wipe (fun _ => .pure ())

/-- a history as a program; the oldest change is the last of the list -/
def changesProg : List StoreChange → Prog Unit
  | [] => .pure ()
  | x :: older => (changesProg older).bind fun _ => x.prog

/-- the entries appended under a name since it was created or last removed, newest first -/
def appendedSince (name : Str) : List StoreChange → List Entry
  | [] => []
  | .append n e :: older => if n = name then e :: appendedSince name older else appendedSince name older
  | .remove p :: older => if p name then [] else appendedSince name older
  | .wipe :: _ => []

/-- was the name created and not removed since? -/
def isPresent (name : Str) : List StoreChange → Bool
  | [] => false
  | .append n _ :: older => n = name || isPresent name older
  | .remove p :: older => !p name && isPresent name older
  | .wipe :: _ => false

/-- a directory without files -/
def freshDisk {K : Type} (clock : Nat → Time) (k : K) : World Disk K :=
  { store := {}, clock, tick := 0, env := k, trace := [] }

/-- a map without names -/
def freshStore {K : Type} (clock : Nat → Time) (k : K) : World Store K :=
  { store := [], clock, tick := 0, env := k, trace := [] }

theorem fresh_same {K : Type} (clock : Nat → Time) (k : K) :
    SameWorld c (freshDisk clock k) (freshStore clock k) :=
  ⟨⟨List.nodup_nil, [], Or.inl ⟨rfl, rfl⟩, .nil⟩, rfl, rfl, rfl, rfl⟩

theorem changes_store {K : Type} (O : Oracle K) (hist : List StoreChange) (w : World Store K)
    (hw : w.store = []) :
    ∃ w', run Store.impl O (changesProg hist) w = (.ok (), w') ∧
      (∀ name, w'.store.get name = appendedSince name hist) ∧
      (∀ name, name ∈ w'.store.names ↔ isPresent name hist = true) := by
  induction hist with
  | nil => exact ⟨w, rfl, fun _ => by rw [hw]; rfl, fun _ => by rw [hw]; simp [Store.names, isPresent]⟩
  | cons x hist ih =>
    obtain ⟨w1, h1, h2, h3⟩ := ih
    simp only [changesProg, run_bind, h1]
    cases x with
    | append n e =>
      refine ⟨_, rfl, fun name => ?_, fun name => ?_⟩
      · simp only [step, Store.impl, appendedSince]
        rw [Store.get_push]
        by_cases h : n = name
        · subst h; simp [h2]
        · have : name ≠ n := fun x => h x.symm
          simp [h, this, h2]
      · simp only [step, Store.impl, isPresent, Bool.or_eq_true, decide_eq_true_eq]
        rw [Store.mem_names_push, h3]
        exact or_congr_left eq_comm
    | remove p =>
      refine ⟨_, rfl, fun name => ?_, fun name => ?_⟩
      · simp only [step, Store.impl, appendedSince, Store.get_removeIf, h2]
      · simp only [step, Store.impl, isPresent, Store.mem_names_removeIf, h3, Bool.and_eq_true, Bool.not_eq_true']
        exact and_comm
    | wipe => exact ⟨_, rfl, fun name => rfl, fun name => by simp [step, Store.impl, Store.names, isPresent]⟩

/-- **C01** for histories: after any history of appends, removals and wipes in a fresh directory without hash
collision, no operation has failed, reading a chain gives exactly the entries appended under that name since it was
created or last removed, newest first, and the names listed, each once, are those present. -/
theorem C01_history {K : Type} (hl : c.Lawful) (O : Oracle K) (hist : List StoreChange) (clock : Nat → Time) (k : K)
    {r : Except Exc Unit} {w : World Disk K}
    (hrun : run (Disk.impl c) O (changesProg hist) (freshDisk clock k) = (r, w))
    (hc : w.store.collided = false) :
    r = .ok () ∧
    (∀ name, (Disk.impl c).chain w.store name = .ok (appendedSince name hist)) ∧
    ∃ names, (Disk.impl c).heads w.store = .ok names ∧ names.Nodup ∧
      ∀ name, name ∈ names ↔ isPresent name hist = true := by
  have h := C01_refinement hl O (changesProg hist) (fresh_same clock k) (by rw [hrun]; exact hc)
  obtain ⟨w', h1, h2, h3⟩ := changes_store O hist (freshStore clock k) rfl
  rw [hrun, h1] at h
  obtain ⟨h4, h5⟩ := h
  refine ⟨h4, fun name => ?_, _, impl_heads h5.store, h5.store.1, h3⟩
  rw [impl_chain hl h5.store name, h2]

/-- **C01** for the public API: after any history of calls, the files hold the logs which the calls leave in a map from
names to logs; clock, environment and external operations are the same. -/
theorem C01_api {K : Type} (hl : c.Lawful) (O : Oracle K) (env : Env) (calls : List ApiCall) {w : World Disk K}
    {v : World Store K} (hw : SameWorld c w v)
    (hc : (runCalls (Disk.impl c) O env calls w).store.collided = false) :
    SameWorld c (runCalls (Disk.impl c) O env calls w) (runCalls Store.impl O env calls v) := by
  induction calls generalizing w v with
  | nil => exact hw
  | cons x calls ih =>
    have key : ∀ (l : List ApiCall) (w : World Disk K), (runCalls (Disk.impl c) O env l w).store.collided = false →
        w.store.collided = false := by
      intro l
      induction l with
      | nil => exact fun w h => h
      | cons y l ih' => exact fun w h => run_collided O _ _ (ih' _ h)
    exact ih (C01_refinement hl O (x.prog env) hw (key _ _ hc)).2 hc

/-! ## C02 -/

/-- every block file is the start of a complete chain -/
def AllLinked (c : Codec) (d : Disk) : Prop :=
  ∀ cid b, Disk.lookup d.blocks cid = some b → ∃ l, Linked c d.blocks (some cid) l

theorem append_allLinked (hl : c.Lawful) {d : Disk} {s : Store} (h : Represents c d s) (ha : AllLinked c d)
    (name : Str) (e : Entry) (t : Time) (hc : ((Disk.impl c).append d name e t).2.collided = false) :
    AllLinked c ((Disk.impl c).append d name e t).2 := by
  obtain ⟨hnd, hs, hh, hf⟩ := h
  obtain ⟨parent, l, h1, h2, h3, h4⟩ := run_appendEntry hl hh hf name e t
  have hrun : (Disk.impl c).append d name e t = (appendEntry c name e).run c t d := rfl
  rw [hrun, h4] at hc ⊢
  generalize hb : c.dumpList (blockData e parent t) = b at hc ⊢
  have hcol : d.collision c (c.hash b) b = false := by
    simp only [Disk.write, Bool.or_eq_false_iff] at hc
    exact hc.2
  intro cid b' hcid
  simp only [Disk.write] at hcid ⊢
  by_cases he : c.hash b = cid
  · subst he
    exact ⟨_, .cons (Disk.lookup_put_self ..) rfl (by rw [← hb]; exact hl.load_dump_list _) (h1.put hcol)⟩
  · rw [Disk.lookup_put_ne _ _ he] at hcid
    obtain ⟨l', h⟩ := ha cid b' hcid
    exact ⟨l', h.put hcol⟩

theorem run_allLinked {K : Type} (hl : c.Lawful) (O : Oracle K) {α : Type} (p : Prog α) {w : World Disk K}
    {v : World Store K} (hw : SameWorld c w v) (ha : AllLinked c w.store)
    (hc : (run (Disk.impl c) O p w).2.store.collided = false) :
    AllLinked c (run (Disk.impl c) O p w).2.store := by
  induction p generalizing w v with
  | pure a => exact ha
  | raise e => exact ha
  | op o k ih =>
    have hc1 : (step (Disk.impl c) O o w).2.store.collided = false := run_collided O _ _ hc
    have h1 := step_same hl O o hw hc1
    refine ih _ h1.2 ?_ hc
    cases o with
    | append name e => exact append_allLinked hl hw.store ha name e _ hc1
    | removeIf p =>
      have hb := (impl_removeIf hl hw.store p).2.2.2
      intro cid b h
      simp only [step] at h ⊢
      rw [hb] at h ⊢
      exact ha cid b h
    | wipe => intro cid b h; cases h
    | _ => exact ha

/-- **C02.** After any program run in a fresh directory without hash collision: every block file is named by the hash
of its bytes and holds a list with an entry and the cid of a parent or `None`; the parent exists as well. The loop over
a block and its ancestors ends after at most as many rounds as there are block files. It visits no block twice, each
one is the parent of the one before, and the last one has none. -/
theorem C02_blocks {K : Type} (hl : c.Lawful) (O : Oracle K) {α : Type} (p : Prog α) (clock : Nat → Time) (k : K)
    {r : Except Exc α} {w : World Disk K} (hrun : run (Disk.impl c) O p (freshDisk clock k) = (r, w))
    (hc : w.store.collided = false) (cid : Str) (b : Bytes) (hb : Disk.lookup w.store.blocks cid = some b) :
    c.hash b = cid ∧
    (∃ type parent time args, c.loadList b = .ok (type :: parentVal parent :: time :: args) ∧
      ∀ q, parent = some q → ∃ b', Disk.lookup w.store.blocks q = some b') ∧
    ∃ blk bs, (getBlock c cid).run c 0 w.store = (.ok (some blk), w.store) ∧ blk.cid = cid ∧
      (∀ n, w.store.blocks.length ≤ n → (ancestors c n (some blk)).run c 0 w.store = (.ok (some bs), w.store)) ∧
      bs.head? = some blk ∧ (bs.map (·.cid)).Nodup ∧
      bs.IsChain (fun x y => x.parent = .text y.cid) ∧ (bs.getLast?.map (·.parent)) = some .none := by
  have ha : AllLinked c w.store := by
    have := run_allLinked (c := c) hl O p (fresh_same clock k) (fun cid b h => by cases h)
      (by rw [hrun]; exact hc)
    rwa [hrun] at this
  obtain ⟨l, hlink⟩ := ha cid b hb
  have hblocks : ∀ {o : Option Str} {l : List (Str × Entry)}, Linked c w.store.blocks o l → ∀ cid, o = some cid →
      ∃ blk bs, (getBlock c cid).run c 0 w.store = (.ok (some blk), w.store) ∧ blk.cid = cid ∧
      (∀ n, l.length ≤ n → (ancestors c n (some blk)).run c 0 w.store = (.ok (some bs), w.store)) ∧
      bs.head? = some blk ∧ bs.map (·.cid) = l.map (·.1) ∧
      bs.IsChain (fun x y => x.parent = .text y.cid) ∧ (bs.getLast?.map (·.parent)) = some .none := by
    intro o l hlk
    induction hlk with
    | nil => intro cid h; cases h
    | @cons cid' b e par t' l file named content rest ih =>
      intro cid h
      cases h
      cases par with
      | none =>
        cases rest
        refine ⟨_, [⟨cid', .text e.tag, parentVal none, .float t', e.args⟩], run_getBlock file content 0, rfl,
          ?_, rfl, rfl, List.IsChain.singleton _, rfl⟩
        intro n hn
        cases n with
        | zero => simp at hn
        | succ n =>
          simp only [ancestors, parent, parentVal, FProg.bind_eq, FProg.pure_eq, FProg.run_bind, FProg.run_pure]
      | some p =>
        have hp : p ≠ [] := rest.cid_ne hl
        obtain ⟨blk, bs, h1, h2, h3, h4, h5, h6, h7⟩ := ih p rfl
        have hpar : (parent c ⟨cid', .text e.tag, parentVal (some p), .float t', e.args⟩) = getBlock c p := by
          cases p with
          | nil => exact absurd rfl hp
          | cons x xs => rfl
        refine ⟨_, ⟨cid', .text e.tag, parentVal (some p), .float t', e.args⟩ :: bs, run_getBlock file content 0, rfl,
          ?_, rfl, by simp [h5], ?_, ?_⟩
        · intro n hn
          cases n with
          | zero => simp at hn
          | succ n =>
            have := h3 n (by simpa using hn)
            simp only [ancestors, FProg.bind_eq, FProg.pure_eq, FProg.run_bind, FProg.run_pure, hpar, h1, this]
        · cases bs with
          | nil => cases h4
          | cons x xs =>
            cases h4
            exact .cons_cons (by rw [h2]; rfl) h6
        · cases bs with
          | nil => cases h4
          | cons x xs => simpa using h7
  obtain ⟨blk, bs, h1, h2, h3, h4, h5, h6, h7⟩ := hblocks hlink cid rfl
  refine ⟨?_, ?_, blk, bs, h1, h2, fun n hn => h3 n (Nat.le_trans hlink.length_le hn), h4, by rw [h5]; exact hlink.nodup,
    h6, h7⟩
  · cases hlink with
    | cons file named content rest => rw [hb] at file; cases file; exact named
  · cases hlink with
    | cons file named content rest =>
      rw [hb] at file; cases file
      refine ⟨_, _, _, _, content, ?_⟩
      rintro q rfl
      cases rest with
      | cons file' _ _ _ => exact ⟨_, file'⟩

/-- **C02**, the heads: after such a program every name in the heads file has a block file, from which
`C02_blocks` starts. -/
theorem C02_heads {K : Type} (hl : c.Lawful) (O : Oracle K) {α : Type} (p : Prog α) (clock : Nat → Time) (k : K)
    {r : Except Exc α} {w : World Disk K} (hrun : run (Disk.impl c) O p (freshDisk clock k) = (r, w))
    (hc : w.store.collided = false) :
    ∃ hs, (getheads c).run c 0 w.store = (.ok hs, w.store) ∧
      ∀ name cid, (name, cid) ∈ hs → ∃ b, Disk.lookup w.store.blocks cid = some b := by
  have h := (C01_refinement hl O p (fresh_same clock k) (by rw [hrun]; exact hc)).2
  rw [hrun] at h
  obtain ⟨-, hs, h1, h2⟩ := h.store
  refine ⟨hs, run_getheads h1 0, fun name cid hm => ?_⟩
  obtain ⟨i, hi, hx⟩ := List.mem_iff_getElem.1 hm
  have hlen := h2.length_eq
  have := List.forall₂_iff_get.1 h2 |>.2 i hi (hlen ▸ hi)
  obtain ⟨-, l, g, -⟩ := this
  simp only [List.get_eq_getElem, hx] at g
  cases g with
  | cons file _ _ _ => exact ⟨_, file⟩

/-! ## a concrete run -/

namespace Concrete

/-- two chains, one removed again, one with two entries -/
def changes : List StoreChange :=
  [.append (str!"a") (.acfg (str!"2")), .remove (fun n => n = str!"b"), .append (str!"b") (.acfg (str!"x")),
   .append (str!"a") (.acfg (str!"1"))]

/-- the disk after it -/
def diskWorld : World Disk Unit :=
  (run (Disk.impl codec) ⟨fun o k => match o with
    | .gpg _ _ => (.error (.other 0), k)
    | .findExecutable _ => (none, k)
    | .pathExists _ => (false, k)
    | .makedirs _ => (.ok (), k)
    | .writeFile _ _ => (.ok (), k)
    | .mkTemp => (.ok [], k)
    | .writeTemp _ _ => (.ok (), k)
    | .rmTemp _ => (.ok (), k)
    | .uuid => ([], k)
    | .hookInstantiate _ => (.ok (), k)
    | .hookIncomingGossip _ _ _ => (.ok (), k)
    | .hookBeforeEnc _ _ _ m => (.ok m, k)
    | .rmtree => ((), k)
    | .sendmail _ _ => (.ok 0, k)
    | .emit _ => (.ok (), k)⟩ (changesProg changes) (freshDisk (fun n => n) ())).2

example : codec.Lawful ∧ diskWorld.store.collided = false ∧
    appendedSince (str!"a") changes = [.acfg (str!"2"), .acfg (str!"1")] ∧
    appendedSince (str!"b") changes = [] ∧ diskWorld.store.blocks.length = 3 := by
  refine ⟨codec_lawful, by decide +kernel, by decide +kernel, by decide +kernel, by decide +kernel⟩

example : ((Disk.impl codec).chain diskWorld.store (str!"a")).toOption = some [.acfg (str!"2"), .acfg (str!"1")] := by
  decide +kernel

end Concrete

end Verif
