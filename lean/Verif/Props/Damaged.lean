import Verif.Props.Removal
/-!
# Files which were changed by somebody else (C144)

A block file is named by the hash of its content, and it contains the name of the block before it. Nothing of this is looked at when
files are read: `get_block` (chainstore.py:39-45) takes whatever the file contains and returns nothing if there is no file.
-/
namespace Verif

open Chainstore

variable {c : Codec}

/-- the claim: if a chain is not read as before then the read ends with an exception -/
def ReadOrRaised (c : Codec) (d' : Disk) (name : Str) (log : List Entry) : Prop :=
  (Disk.impl c).chain d' name = .ok log ∨ ∃ e, e ≠ diverges ∧ (Disk.impl c).chain d' name = .error e

/-- the head of a chain is the block with this cid, and from there on one finds these blocks -/
def ChainIs (c : Codec) (d : Disk) (name cid : Str) (l : List (Str × Entry)) : Prop :=
  (∃ b hs, d.heads = some b ∧ c.loadDict b = .ok hs ∧ headOf hs name = some cid) ∧ Linked c d.blocks (some cid) l

/-- this block file is as it was -/
def SameFile (d d' : Disk) (cid : Str) : Prop := Disk.lookup d'.blocks cid = Disk.lookup d.blocks cid

theorem run_headBlock {d : Disk} {b : Bytes} {hs : List (Str × Str)} {name cid : Str} (hb : d.heads = some b) (hld : c.loadDict b = .ok hs)
    (hc : headOf hs name = some cid) (hne : cid ≠ []) (t : Time) : (getHeadBlock c name).run c t d = (getBlock c cid).run c t d := by
  have hh : HeadsAre c d hs := Or.inr ⟨b, hb, hld⟩
  cases cid with
  | nil => exact absurd rfl hne
  | cons x xs => simp [getHeadBlock, getHeadCid, FProg.run_bind, run_getheads hh, hc]

/-- every chain of a store is of this form -/
theorem chainIs_of_represents {d : Disk} {s : Store} (h : Represents c d s) {name : Str} (hn : name ∈ s.names) :
    ∃ cid l, ChainIs c d name cid l ∧ s.get name = l.map (·.2) := by
  obtain ⟨hnd, hs, hh, hf⟩ := h
  rcases headOf_forall hf name with ⟨h1, -⟩ | ⟨cid, l, h1, h2, h3⟩
  · exfalso
    rw [← heads_nodup hf] at hn
    clear hf hh
    induction hs with
    | nil => cases hn
    | cons x hs ih =>
      obtain ⟨n, v⟩ := x
      by_cases e : n = name
      · simp [headOf, e] at h1
      · simp only [headOf, e, if_false] at h1
        rcases List.mem_cons.1 hn with h | h
        · exact e h.symm
        · exact ih h h1
  · rcases hh with ⟨-, rfl⟩ | ⟨b, hb, hld⟩
    · cases h1
    · exact ⟨cid, l, ⟨⟨b, hs, hb, hld, h1⟩, h2⟩, h3⟩

variable {d d' : Disk} {name cid : Str} {l : List (Str × Entry)}

theorem chain_of_cut (hl : c.Lawful) (hh : d'.heads = d.heads) (h : ChainIs c d name cid l) {gone : Str → Prop} {m : List (Str × Entry)}
    (hm : Cut c gone d'.blocks (some cid) m) : (Disk.impl c).chain d' name = .ok (m.map (·.2)) := by
  obtain ⟨⟨b, hs, hb, hld, hc⟩, -⟩ := h
  obtain ⟨blk, bs, k1, -, -, k4, k5⟩ := hm.run_ancestors hl hm.length_le 0
  have hgh := run_headBlock (hh.trans hb) hld hc (hm.cid_ne hl) 0
  rw [k1] at hgh
  simp [Disk.impl, iterEntries, FProg.run_bind, hgh, k4, k5]

/-- **C144**, for a chain whose own files are as they were: it is read as before, whatever was done to other block files -/
theorem C144_untouched_partial (hl : c.Lawful) (hh : d'.heads = d.heads) (h : ChainIs c d name cid l) (hs : ∀ x ∈ l, SameFile d d' x.1) :
    (Disk.impl c).chain d' name = .ok (l.map (·.2)) := by
  have key : ∀ {o : Option Str} {m : List (Str × Entry)}, Linked c d.blocks o m → (∀ x ∈ m, SameFile d d' x.1) →
      Cut c (fun _ => True) d'.blocks o m := by
    intro o m hm
    induction hm with
    | nil => exact fun _ => .nil
    | cons file named content rest ih =>
      intro hx
      exact .cons ((hx _ List.mem_cons_self).trans file) named content (ih fun x hm => hx x (List.mem_cons_of_mem _ hm))
  exact chain_of_cut hl hh h (key h.2 hs)

/-- **C144**, if somebody would look at the hashes: if all block files (of the changed store) are named by the hash of their content, and
no two contents have the same hash, then a chain is read as before or ends earlier, where a file is missing. So a change of a file is
noticed by comparing its name. -/
theorem C144_hashed_partial (hl : c.Lawful) (hh : d'.heads = d.heads) (h : ChainIs c d name cid l)
    (hn : ∀ x b, Disk.lookup d'.blocks x = some b → c.hash b = x)
    (hc : ∀ x b b', Disk.lookup d.blocks x = some b → Disk.lookup d'.blocks x = some b' → c.hash b = c.hash b' → b = b') :
    ∃ m, (Disk.impl c).chain d' name = .ok (m.map (·.2)) ∧ m <+: l ∧
      (m ≠ l → ∃ x ∈ l, Disk.lookup d'.blocks x.1 = none) := by
  have key : ∀ {o : Option Str} {k : List (Str × Entry)}, Linked c d.blocks o k →
      ∃ m, Cut c (fun _ => True) d'.blocks o m ∧ m <+: k ∧ (m ≠ k → ∃ x ∈ k, Disk.lookup d'.blocks x.1 = none) := by
    intro o k hk
    induction hk with
    | nil => exact ⟨[], .nil, List.prefix_rfl, fun h => absurd rfl h⟩
    | @cons cid b e par t k file named content rest ih =>
      obtain ⟨m, h1, h2, h3⟩ := ih
      cases hb : Disk.lookup d'.blocks cid with
      | none =>
        exact ⟨[], .stop (by rw [← named]; exact hl.hash_ne _) trivial hb, List.nil_prefix, fun _ => ⟨_, List.mem_cons_self, hb⟩⟩
      | some b' =>
        have : b = b' := hc cid b b' file hb (named.trans (hn cid b' hb).symm)
        subst this
        refine ⟨(cid, e) :: m, .cons hb named content h1, List.cons_prefix_cons.2 ⟨rfl, h2⟩, fun hne => ?_⟩
        obtain ⟨x, hx, hx'⟩ := h3 (fun e' => hne (by rw [e']))
        exact ⟨x, List.mem_cons_of_mem _ hx, hx'⟩
  obtain ⟨m, h1, h2, h3⟩ := key h.2
  exact ⟨m, chain_of_cut hl hh h h1, h2, h3⟩

theorem getBlock_disk {d d' : Disk} {cid : Str} {t : Time} {r : Except Exc (Option Block)} (h : (getBlock c cid).run c t d = (r, d')) : d' = d := by
  cases hb : Disk.lookup d.blocks cid with
  | none => rw [run_getBlock_none hb t] at h; cases h; rfl
  | some b =>
    simp only [getBlock, FProg.bind_eq, FProg.run_bind, FProg.run_read, Disk.read, hb] at h
    cases hld : c.loadList b with
    | error e => simp [hld] at h; exact h.2.symm
    | ok v =>
      cases hv : Block.ofData cid v with
      | error e => simp [hld, hv] at h; exact h.2.symm
      | ok v' => simp [hld, hv] at h; exact h.2.symm

/-- the walk over blocks of which the newer ones are as they were -/
theorem ancestors_newer (hl : c.Lawful) {o : Option Str} {k l₁ l₂ : List (Str × Entry)} (hk : Linked c d.blocks o k) (he : k = l₁ ++ l₂)
    (hs : ∀ x ∈ l₁, SameFile d d' x.1) {cid : Str} (ho : o = some cid) {n : Nat} {blk : Option Block} {bs : List Block} {es : List Entry} {d₁ d₂ : Disk} {t : Time}
    (h1 : (getBlock c cid).run c t d' = (.ok blk, d₁)) (h2 : (ancestors c n blk).run c t d' = (.ok (some bs), d₂))
    (h3 : entriesOf bs = .ok es) : l₁.map (·.2) <+: es := by
  induction hk generalizing l₁ cid n blk bs es d₁ d₂ with
  | nil => cases ho
  | @cons cid' b e par t' k file named content rest ih =>
    cases ho
    cases l₁ with
    | nil => exact List.nil_prefix
    | cons y l₁ =>
      simp only [List.cons_append, List.cons.injEq] at he
      obtain ⟨rfl, he⟩ := he
      have file' : Disk.lookup d'.blocks cid' = some b := (hs _ List.mem_cons_self).trans file
      rw [run_getBlock file' content t] at h1
      cases h1
      cases n with
      | zero => cases h2
      | succ n =>
        simp only [ancestors, FProg.bind_eq, FProg.pure_eq, FProg.run_bind] at h2
        cases par with
        | none =>
          cases rest
          have : l₁ = [] := by
            cases l₁ with
            | nil => rfl
            | cons _ _ => cases he
          subst this
          simp only [parent, parentVal, FProg.pure_eq, FProg.run_pure, ancestors] at h2
          cases h2
          simp [entriesOf, entry_ofBlock, bind, Except.bind, pure, Except.pure] at h3
          subst h3
          exact List.prefix_rfl
        | some p =>
          have hp : p ≠ [] := by
            cases rest with
            | cons _ named' _ _ => rw [← named']; exact hl.hash_ne _
          have hpar : (parent c ⟨cid', .text e.tag, parentVal (some p), .float t', e.args⟩) = getBlock c p := by
            cases p with
            | nil => exact absurd rfl hp
            | cons x xs => rfl
          rw [hpar] at h2
          rcases hg : (getBlock c p).run c t d' with ⟨r, d₃⟩
          cases getBlock_disk hg
          rw [hg] at h2
          cases r with
          | error e => cases h2
          | ok blk' =>
            simp only at h2
            rcases ha : (ancestors c n blk').run c t d' with ⟨r', d₄⟩
            rw [ha] at h2
            rcases r' with e' | _ | bs'
            · cases h2
            · cases h2
            · simp only [FProg.run_pure, Prod.mk.injEq, Except.ok.injEq, Option.some.injEq] at h2
              obtain ⟨rfl, -⟩ := h2
              simp only [entriesOf, entry_ofBlock, bind, Except.bind, pure, Except.pure] at h3
              cases h4 : entriesOf bs' with
              | error e' => rw [h4] at h3; cases h3
              | ok es' =>
                rw [h4] at h3
                cases h3
                exact List.cons_prefix_cons.2 ⟨rfl, ih he (fun x hx => hs x (List.mem_cons_of_mem _ hx)) rfl hg ha h4⟩

/-- **C144**, for the newer part of a chain: whatever was done to the older block files, a read which does not raise gives the entries of
the files which are as they were, in their order, before anything else. -/
theorem C144_newer_partial (hl : c.Lawful) (hh : d'.heads = d.heads) {l₁ l₂ : List (Str × Entry)} (h : ChainIs c d name cid (l₁ ++ l₂))
    (hs : ∀ x ∈ l₁, SameFile d d' x.1) {es : List Entry} (hr : (Disk.impl c).chain d' name = .ok es) : l₁.map (·.2) <+: es := by
  obtain ⟨⟨b, hd, hb, hld, hc⟩, hk⟩ := h
  have hgh := run_headBlock (hh.trans hb) hld hc (hk.cid_ne hl) 0
  rcases hg : (getBlock c cid).run c 0 d' with ⟨r, d₁⟩
  cases getBlock_disk hg
  rw [hg] at hgh
  simp only [Disk.impl, iterEntries, FProg.bind_eq, FProg.run_bind, hgh] at hr
  cases r with
  | error e => cases hr
  | ok blk =>
    simp only at hr
    rcases ha : (ancestors c d'.blocks.length blk).run c 0 d' with ⟨r', d₂⟩
    rw [ha] at hr
    rcases r' with e' | _ | bs
    · cases hr
    · cases hr
    · simp only at hr
      cases he : entriesOf bs with
      | error e => rw [he] at hr; cases hr
      | ok es' =>
        rw [he] at hr
        have hr' : (Except.ok es' : Except Exc (List Entry)) = .ok es := hr
        cases hr'
        exact ancestors_newer hl hk rfl hs rfl hg ha he

/-- the walk which comes to a file which cannot be read -/
theorem ancestors_unreadable (hl : c.Lawful) {o : Option Str} {k l₁ l₂ : List (Str × Entry)} {x : Str × Entry} {b : Bytes} {e : Exc}
    (hk : Linked c d.blocks o k) (he : k = l₁ ++ x :: l₂) (hs : ∀ y ∈ l₁, SameFile d d' y.1) (hx : Disk.lookup d'.blocks x.1 = some b)
    (hb : c.loadList b = .error e) {cid : Str} (ho : o = some cid) {n : Nat} (hn : l₁.length ≤ n) {t : Time} :
    (getBlock c cid).run c t d' = (.error e, d') ∨
    ∃ blk, (getBlock c cid).run c t d' = (.ok blk, d') ∧ (ancestors c n blk).run c t d' = (.error e, d') := by
  induction hk generalizing l₁ cid n with
  | nil => cases ho
  | @cons cid' b' e' par t' k file named content rest ih =>
    cases ho
    cases l₁ with
    | nil =>
      simp only [List.nil_append, List.cons.injEq] at he
      obtain ⟨rfl, he⟩ := he
      left
      simp [getBlock, FProg.run_bind, Disk.read, hx, hb]
    | cons y l₁ =>
      simp only [List.cons_append, List.cons.injEq] at he
      obtain ⟨rfl, he⟩ := he
      have file' : Disk.lookup d'.blocks cid' = some b' := (hs _ List.mem_cons_self).trans file
      right
      refine ⟨_, run_getBlock file' content t, ?_⟩
      cases n with
      | zero => simp at hn
      | succ n =>
        simp only [List.length_cons, Nat.add_le_add_iff_right] at hn
        cases par with
        | none => cases rest; simp at he
        | some p =>
          have hp : p ≠ [] := by
            cases rest with
            | cons _ named' _ _ => rw [← named']; exact hl.hash_ne _
          have hpar : (parent c ⟨cid', .text e'.tag, parentVal (some p), .float t', e'.args⟩) = getBlock c p := by
            cases p with
            | nil => exact absurd rfl hp
            | cons x xs => rfl
          simp only [ancestors, FProg.bind_eq, FProg.pure_eq, FProg.run_bind, hpar]
          rcases ih he (fun z hz => hs z (List.mem_cons_of_mem _ hz)) rfl hn with h1 | ⟨blk, h1, h2⟩
          · rw [h1]
          · rw [h1]; simp only [h2]

/-- **C144**, for files which the serializer cannot read: if a file of a chain became one and the newer files of the chain are as they
were, then the read raises what the serializer raised. -/
theorem C144_unreadable_partial (hl : c.Lawful) (hh : d'.heads = d.heads) {l₁ l₂ : List (Str × Entry)} {x : Str × Entry}
    (h : ChainIs c d name cid (l₁ ++ x :: l₂)) (hs : ∀ y ∈ l₁, SameFile d d' y.1) {b : Bytes} {e : Exc}
    (hx : Disk.lookup d'.blocks x.1 = some b) (hb : c.loadList b = .error e) : (Disk.impl c).chain d' name = .error e := by
  obtain ⟨⟨b', hd, hb', hld, hc⟩, hk⟩ := h
  have hgh := run_headBlock (hh.trans hb') hld hc (hk.cid_ne hl) 0
  have hlen : l₁.length ≤ d'.blocks.length := by
    have h1 : (l₁.map (·.1)).Nodup := by
      have := hk.nodup
      rw [List.map_append] at this
      exact (List.nodup_append.1 this).1
    have h2 : l₁.map (·.1) ⊆ d'.blocks.map (·.1) := by
      intro z hz
      obtain ⟨y, hy, rfl⟩ := List.mem_map.1 hz
      have h3 : Disk.lookup d.blocks y.1 ≠ none := by
        clear hs hgh h1 hz hc
        generalize hgen : l₁ ++ x :: l₂ = k at hk
        generalize some cid = o at hk
        have hy' : y ∈ k := by rw [← hgen]; exact List.mem_append_left _ hy
        clear hgen
        induction hk with
        | nil => cases hy'
        | cons file named content rest ih =>
          rcases List.mem_cons.1 hy' with rfl | h
          · rw [file]; exact Option.some_ne_none _
          · exact ih h
      have h4 : Disk.lookup d'.blocks y.1 ≠ none := by rw [hs y hy]; exact h3
      obtain ⟨v, hv⟩ := Option.ne_none_iff_exists'.1 h4
      exact List.mem_map_of_mem (f := (·.1)) (Disk.lookup_some_mem hv)
    have := (h1.subperm h2).length_le
    simpa using this
  rcases ancestors_unreadable hl hk rfl hs hx hb rfl hlen (t := 0) with h1 | ⟨blk, h1, h2⟩
  · rw [h1] at hgh
    simp [Disk.impl, iterEntries, FProg.run_bind, hgh]
  · rw [h1] at hgh
    simp [Disk.impl, iterEntries, FProg.run_bind, hgh, h2]

/-! ## what is not noticed -/

namespace Concrete

/-- the entry which is put in the place of the newest one of `twoEntries` -/
def otherEntry : Bytes := codec.dumpList (blockData (.acfg (str!"9")) none 6)
/-- the name of the file of the newest entry -/
def newestCid : Str := (twoEntries.blocks.map (·.1)).getLastD []
/-- the newest file was overwritten by another entry -/
def overwritten : Disk := { twoEntries with blocks := Disk.put twoEntries.blocks newestCid otherEntry }
/-- the newest file names itself as the one before it -/
def selfParent : Disk :=
  { twoEntries with blocks := Disk.put twoEntries.blocks newestCid (codec.dumpList (blockData (.acfg (str!"2")) (some newestCid) 6)) }
/-- the older file was overwritten by another entry -/
def olderOverwritten : Disk :=
  { twoEntries with blocks := Disk.put twoEntries.blocks ((twoEntries.blocks.map (·.1)).headD []) otherEntry }
/-- the newest file ends too early -/
def shortened : Disk := { twoEntries with blocks := Disk.put twoEntries.blocks newestCid [] }

end Concrete

open Concrete in
/-- **C144** is false of the code. Nothing compares the name of a file with its content: another entry in the place of the newest one is
read like the original, and the rest of the chain is not. A missing file ends the chain. An older heads file brings back an older state.
A block which names itself is read forever. -/
theorem C144_refuted : Represents codec twoEntries twoLog ∧ twoLog.get (str!"a") = [.acfg (str!"2"), .acfg (str!"1")] ∧
    (overwritten.heads = twoEntries.heads ∧ (Disk.impl codec).chain overwritten (str!"a") = .ok [.acfg (str!"9")]) ∧
    (Disk.impl codec).chain (twoEntries.removing [.block newestCid]) (str!"a") = .ok [] ∧
    (Disk.impl codec).chain { twoEntries with heads := oneChain.heads } (str!"a") = .ok [.acfg (str!"1")] ∧
    (selfParent.heads = twoEntries.heads ∧ (Disk.impl codec).chain selfParent (str!"a") = .error diverges) ∧
    ¬ ReadOrRaised codec overwritten (str!"a") (twoLog.get (str!"a")) ∧
    ¬ ReadOrRaised codec selfParent (str!"a") (twoLog.get (str!"a")) := by
  have h1 : (Disk.impl codec).chain overwritten (str!"a") = .ok [.acfg (str!"9")] := Except.eq_ok_of_toOption (by decide +kernel)
  have h2 : (Disk.impl codec).chain selfParent (str!"a") = .error diverges := by
    have : (match (Disk.impl codec).chain selfParent (str!"a") with | .error e => decide (e = diverges) | .ok _ => false) = true := by
      decide +kernel
    revert this
    cases (Disk.impl codec).chain selfParent (str!"a") with
    | ok _ => simp
    | error e => intro h; rw [of_decide_eq_true h]
  have h3 : twoLog.get (str!"a") = [.acfg (str!"2"), .acfg (str!"1")] := by decide +kernel
  refine ⟨twoEntries_represents, h3, ⟨rfl, h1⟩, Except.eq_ok_of_toOption (by decide +kernel),
    Except.eq_ok_of_toOption (by decide +kernel), ⟨rfl, h2⟩, ?_, ?_⟩
  · rintro (h | ⟨e, -, h⟩)
    · rw [h1, h3] at h; revert h; simp
    · rw [h1] at h; cases h
  · rintro (h | ⟨e, hne, h⟩)
    · rw [h2] at h; cases h
    · rw [h2] at h; cases h; exact hne rfl

namespace Concrete

/-- the name of the file of the older entry -/
def olderCid : Str := (twoEntries.blocks.map (·.1)).headD []

theorem twoEntries_chain : ChainIs codec twoEntries (str!"a") newestCid [(newestCid, .acfg (str!"2")), (olderCid, .acfg (str!"1"))] := by
  refine ⟨⟨_, [(str!"a", newestCid)], rfl, Except.eq_ok_of_toOption (by decide +kernel), rfl⟩, ?_⟩
  refine .cons (b := (Disk.lookup twoEntries.blocks newestCid).getD []) (parent := some olderCid) (t := 6) (by decide +kernel) (by decide +kernel)
    (Except.eq_ok_of_toOption (by decide +kernel)) ?_
  exact .cons (b := (Disk.lookup twoEntries.blocks olderCid).getD []) (parent := none) (t := 5) (by decide +kernel) (by decide +kernel)
    (Except.eq_ok_of_toOption (by decide +kernel)) .nil

/-- `C144_untouched_partial`: a file which is not of the chain is added -/
example : (Disk.impl codec).chain { twoEntries with blocks := (str!"x", otherEntry) :: twoEntries.blocks } (str!"a") =
    .ok [.acfg (str!"2"), .acfg (str!"1")] :=
  C144_untouched_partial codec_lawful rfl twoEntries_chain (by
    intro x hx
    rcases List.mem_cons.1 hx with rfl | hx
    · unfold SameFile; decide +kernel
    · rcases List.mem_cons.1 hx with rfl | hx
      · unfold SameFile; decide +kernel
      · cases hx)

/-- `C144_newer_partial`: the older file was overwritten -/
example : (Disk.impl codec).chain olderOverwritten (str!"a") = .ok [.acfg (str!"2"), .acfg (str!"9")] :=
  Except.eq_ok_of_toOption (by decide +kernel)
example {es : List Entry} (h : (Disk.impl codec).chain olderOverwritten (str!"a") = .ok es) : [Entry.acfg (str!"2")] <+: es :=
  C144_newer_partial (d := twoEntries) (d' := olderOverwritten) (l₁ := [(newestCid, .acfg (str!"2"))]) codec_lawful rfl twoEntries_chain (by
    intro x hx
    rcases List.mem_cons.1 hx with rfl | hx
    · unfold SameFile; decide +kernel
    · cases hx) h

/-- `C144_unreadable_partial`: an empty file cannot be read -/
example : ∃ e, codec.loadList [] = .error e ∧ (Disk.impl codec).chain shortened (str!"a") = .error e :=
  ⟨_, rfl, C144_unreadable_partial (d := twoEntries) (d' := shortened) (l₁ := []) codec_lawful rfl twoEntries_chain (fun _ h => by cases h) (b := [])
    (by decide +kernel) rfl⟩

/-- `C144_hashed_partial`: the names of the files of `twoEntries` are the hashes, that of the overwritten file is not -/
example : (twoEntries.blocks.all fun x => codec.hash x.2 == x.1) = true ∧ (overwritten.blocks.all fun x => codec.hash x.2 == x.1) = false := by
  decide +kernel

end Concrete

end Verif
