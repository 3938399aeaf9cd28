import Verif.Lemmas.Hands
/-!
# Where the arguments of gpg come from: the programs of the model
-/
namespace Verif
open BinGPG
variable {α β : Type} {ce : CmdEnv} {be : BotEnv} {env : Env} {U : Str → Prop} {hs : List Str}

/-- all words are known -/
theorem words_mem {args : List Str} (h : (args.all fun a => ownWords.contains a) = true) : ∀ a ∈ args, a ∈ ownWords ∨ a ∈ hs :=
  fun a ha => .inl (by simpa using List.all_eq_true.mp h a ha)

theorem mem_cat {l l' : List Str} (h : ∀ a ∈ l, a ∈ ownWords ∨ a ∈ hs) (h' : ∀ a ∈ l', a ∈ ownWords ∨ a ∈ hs) : ∀ a ∈ l ++ l', a ∈ ownWords ∨ a ∈ hs :=
  fun a ha => (List.mem_append.mp ha).elim (h a) (h' a)

theorem mem_one {k : Str} (h : k ∈ hs) : ∀ a ∈ [k], a ∈ ownWords ∨ a ∈ hs := fun a ha => by rw [List.mem_singleton.mp ha]; exact .inr h

namespace BinGPG
variable {g : BinGPG}

theorem clean_gpgWords {args : List Str} (h : (args.all fun a => ownWords.contains a) = true) (i s d) : Clean env U (gpgOuterr env g args i s d) :=
  .gpg (words_mem h) _ _

theorem clean_versionAtLeast (v) : Clean env U (versionAtLeast env g v) := by
  unfold versionAtLeast versionInfo gpgOutText; simp only [bind_eq]
  exact .bind (.bind (clean_gpgWords (by decide) _ _ _) fun _ => .ofExcept _) fun _ => .ofExcept _

theorem clean_ensureInit : Clean env U (BinGPG.ensureInit env g) := by
  unfold BinGPG.ensureInit badDefaults; simp only [bind_eq, pure_eq]; clean [clean_versionAtLeast]

theorem clean_create (h p) : Clean env U (BinGPG.create env h p) := by
  unfold BinGPG.create; simp only [bind_eq, pure_eq]; clean [clean_ensureInit]

/-- the options against passphrases and what is done with them -/
theorem Hands.unasked {f : List Str → Prog β} {out : β → List Str} (h : ∀ np, Unasked np → Hands env U hs (f np) out) :
    Hands env U hs ((nopassphrase env g).bind f) out := by
  unfold nopassphrase; simp only [bind_eq, pure_eq, Prog.bind_assoc]
  refine .bind0 (clean_versionAtLeast _) fun b => ?_
  cases b
  · exact h _ (.inl rfl)
  · exact h _ (.inr rfl)

theorem unasked_mem {np : List Str} (h : Unasked np) : ∀ a ∈ np, a ∈ ownWords ∨ a ∈ hs := by
  rcases h with rfl | rfl <;> exact words_mem (by decide)

theorem says_source {l past : List Did} {t k : Str} (h : HandsText env l t) (hn : WritesKey t k) : ArgSource env U (past ++ l) k :=
  let ⟨a, i, o, h1, h2⟩ := h
  .inr (.inr (.inl ⟨a, i, o, t, List.mem_append_right _ h1, .inl ⟨h2, hn⟩⟩))

theorem find_after {p : Prog (Bytes × Str)}
    (hp : ∀ past, (∀ k ∈ hs, ArgSource env U past k) → ∀ l r, p.Path l r → AllKnown env U past l ∧ ∀ y, r = .ok y → HandsText env l y.2) :
    Hands env U hs (p.bind fun r => findKeyhandle env g r.2) fun k => [k] := by
  intro past hk l r h
  rcases Prog.Path.bind.mp h with ⟨y, l1, l2, h1, h2, rfl⟩ | ⟨e, h1, rfl⟩
  · obtain ⟨h3, h4⟩ := hp past hk _ _ h1
    have h4 := h4 y rfl
    have hall : ∀ k ∈ hs, ArgSource env U (past ++ l1) k := fun k hm => (hk k hm).more
    -- the handles named in the messages are known from here on
    have hfind : ∀ past', (∃ l', past' = past ++ l1 ++ l') → ∀ k, WritesKey y.2 k → ArgSource env U past' k := by
      rintro _ ⟨l', rfl⟩ k hn; exact (says_source h4 hn).more
    unfold findKeyhandle at h2
    split at h2
    · rw [h2.1, h2.2]; exact ⟨by rw [List.append_nil]; exact h3, fun a h => by cases h⟩
    · next z hz =>
      have hz' := hfind _ ⟨[], (List.append_nil _).symm⟩ z (searchKey_names hz)
      have := (show Hands env U [z] (if z.length ≤ 8 then (listPublicKeyinfos env g (some z)).bind fun infos =>
          match infos.find? (fun k => idMatch k.id z) with | some k => Prog.pure k.id | none => .raise .valueError else Prog.pure z) fun k => [k] from by
        split
        · refine .bind (listPublic_hands (by simp)) fun infos => ?_
          split
          · next k hk =>
            refine .pure ?_
            intro z hz
            rw [List.mem_singleton.mp hz]
            exact List.mem_append_right _ (List.mem_map_of_mem (List.mem_of_find?_eq_some hk))
          · exact .raise _
        · exact .pure (by simp)) (past ++ l1) (fun k hm => by rw [List.mem_singleton.mp hm]; exact hz') l2 r h2
      refine ⟨h3.append this.1, fun a ha k hm => ?_⟩
      rw [← List.append_assoc]
      exact this.2 a ha k hm
  · exact ⟨(hp past hk _ _ h1).1, fun a h => by cases h⟩

theorem import_hands (d : Bytes) : Hands env U hs ((gpgOuterr env g [str!"--skip-verify", str!"--import"] (some d)).bind fun r => findKeyhandle env g r.2) fun k => [k] :=
  find_after fun past hk l r h => by
    obtain ⟨h1, h2⟩ := gpgOuterr_known (U := U) (past := past) (fun a m => (words_mem (hs := []) (by decide) a m).imp_right nofun) h
    exact ⟨h1, fun y hy => (h2 y hy).1⟩

theorem getPublicKeydata_hands {k : Str} (hk : k ∈ hs) (a) : Hands env U hs (getPublicKeydata env g k a) fun _ => [] := by
  unfold getPublicKeydata; simp only [bind_eq, pure_eq]
  refine .bind (.gpg ?_ _ _) fun _ => .pure (List.nil_subset _)
  cases a
  · exact mem_cat (l := [_, _]) (words_mem (by decide)) (mem_one hk)
  · exact mem_cat (l := [_, _, _]) (words_mem (by decide)) (mem_one hk)

theorem getSecretKeydata_hands {k : Str} (hk : k ∈ hs) (a) : Hands env U hs (getSecretKeydata env g k a) fun _ => [] := by
  unfold getSecretKeydata; simp only [bind_eq, pure_eq]
  refine Hands.unasked fun np hnp => .bind (.gpg ?_ _ _) fun _ => .pure (List.nil_subset _)
  refine mem_cat (mem_cat ?_ (unasked_mem hnp)) (mem_cat (l := [_, _]) (words_mem (by decide)) (mem_one hk))
  cases a <;> exact words_mem (by decide)

theorem delete_hands {k : Str} (hk : k ∈ hs) : Hands env U hs (gpgOuterr env g [str!"--yes", str!"--delete-key", k]) fun _ => [] :=
  .gpg (mem_cat (l := [_, _]) (words_mem (by decide)) (mem_one hk)) _ _

theorem importKeydata_hands (d m) : Hands env U hs (importKeydata env g d m) fun k => [k] := by
  unfold importKeydata; simp only [bind_eq, pure_eq]
  rw [← Prog.bind_assoc]
  refine .bind (import_hands d) fun k => ?_
  split
  · refine .bind (getPublicKeydata_hands (by simp) _) fun kd => .bind (delete_hands (by simp)) fun _ => ?_
    rw [← Prog.bind_assoc]
    refine .bind (import_hands kd) fun k2 => .bind0 (.assert _) fun _ => .pure (by simp)
  · exact .pure (by simp)

theorem selectSecret_mem {k k' : Str} {infos : List KeyInfo} (h : selectSecret k infos = some k') : k' ∈ infos.map (·.id) := by
  unfold selectSecret at h
  obtain ⟨x, h1, rfl⟩ := Option.map_eq_some_iff.mp h
  exact List.mem_map_of_mem (List.mem_of_find?_eq_some h1)

theorem getSecretKeyhandle_hands {k : Str} (hk : k ∈ hs) : Hands env U hs (getSecretKeyhandle env g k) fun r => r.toList := by
  unfold getSecretKeyhandle; simp only [bind_eq, pure_eq]
  refine .bind (o1 := fun infos => infos.map (·.id)) (parseList_hands (mem_cat (l := [_, _, _]) (words_mem (by decide)) (mem_one hk)) _) fun infos => .pure ?_
  intro x hx
  cases hs' : selectSecret k infos with
  | none => rw [hs'] at hx; cases hx
  | some y =>
    rw [hs'] at hx
    rw [List.mem_singleton.mp hx]
    exact List.mem_append_right _ (selectSecret_mem hs')

theorem encrypt_hands {rs : List Str} {s : Str} (hr : ∀ r ∈ rs, r ∈ hs) (hs' : s ∈ hs) (d) : Hands env U hs (encrypt env g d rs s true) fun _ => [] := by
  unfold encrypt; simp only [bind_eq, pure_eq]
  refine Hands.unasked fun np hnp => .bind (.gpg ?_ _ _) fun _ => .pure (List.nil_subset _)
  unfold encryptOpts
  refine mem_cat (mem_cat (mem_cat (mem_cat (unasked_mem hnp) (words_mem (by decide))) ?_) ?_) (words_mem (by decide))
  · intro a ha
    obtain ⟨r, h1, h2⟩ := List.mem_flatMap.mp ha
    exact mem_cat (l := [_]) (words_mem (by decide)) (mem_one (hr r h1)) a h2
  · split
    · exact nofun
    · exact mem_cat (l := [_, _]) (words_mem (by decide)) (mem_one hs')

theorem clean_decrypt (d) : Clean env U (decrypt env g d) := by
  unfold decrypt; simp only [bind_eq, pure_eq]
  refine Hands.unasked fun np hnp => .bind (.gpg ?_ _ _) fun _ => .bind (.ofExcept fun _ _ => List.nil_subset _) fun _ => .pure (List.nil_subset _)
  exact mem_cat (unasked_mem hnp) (words_mem (by decide))

theorem mkTemp_hands : Hands env U hs Prog.mkTemp fun n => [n] := by
  rintro past hk l r ⟨a, l', rfl, h⟩
  obtain ⟨rfl, rfl⟩ := Prog.Path.ofExcept.mp h
  refine ⟨.single trivial, fun n hn k hm => .inr (.inr (.inr ?_))⟩
  rw [List.mem_singleton.mp hm]
  subst hn
  simp [TempName]

theorem clean_writeTemp (a b) : Clean env U (Prog.writeTemp a b) := .op _ _ (fun _ => trivial) fun _ => .ofExcept _
theorem clean_rmTemp (a) : Clean env U (Prog.rmTemp a) := .op _ _ (fun _ => trivial) fun _ => .ofExcept _

theorem withTempFile_hands {d : Bytes} {b : Str → Prog α} (h : ∀ n, Hands env U (hs ++ [n]) (b n) fun _ => []) : Hands env U hs (withTempFile d b) fun _ => [] := by
  unfold withTempFile Prog.finally_; simp only [bind_eq]
  refine .bind mkTemp_hands fun n => .bind0 (clean_writeTemp _ _) fun _ => .bind (h n).attempt fun r => .bind0 (clean_rmTemp _) fun _ => ?_
  cases r
  · exact .raise _
  · exact .pure (List.nil_subset _)

theorem withTempFile_path {d : Bytes} {b : Str → Prog α} {l : List Did} {y : α} (h : (withTempFile d b).Path l (.ok y)) :
    ∃ n l1, (b n).Path l1 (.ok y) ∧ ∀ x ∈ l1, x ∈ l := by
  unfold withTempFile Prog.finally_ at h; simp only [bind_eq] at h
  obtain ⟨n, l1, l2, -, h2, rfl⟩ := Prog.Path.bind_ok.mp h
  obtain ⟨u, l3, l4, -, h4, rfl⟩ := Prog.Path.bind_ok.mp h2
  obtain ⟨r, l5, l6, h5, h6, rfl⟩ := Prog.Path.bind_ok.mp h4
  obtain ⟨x, h1, he⟩ := Prog.Path.attempt.mp h5
  cases he
  obtain ⟨u, l7, l8, -, h8, rfl⟩ := Prog.Path.bind_ok.mp h6
  cases r with
  | error e => exact absurd h8.2 nofun
  | ok a =>
    have := h8.2
    cases this
    exact ⟨n, l5, h1, fun x hx => by simp [hx]⟩

theorem genSecretKey_hands (e) : Hands env U hs (genSecretKey env g e) fun k => [k] := by
  unfold genSecretKey; simp only [bind_eq]
  refine find_after fun past hk l r h => ⟨?_, ?_⟩
  · refine (withTempFile_hands (hs := hs) (fun n => ?_) past hk l r h).1
    exact Hands.unasked fun np hnp => .gpg (mem_cat (unasked_mem hnp) (mem_cat (l := [_]) (words_mem (by decide)) (mem_one (by simp)))) _ _
  · rintro y rfl
    obtain ⟨n, l1, h1, h2⟩ := withTempFile_path h
    obtain ⟨np, l2, l3, -, h3, rfl⟩ := Prog.Path.bind_ok.mp h1
    obtain ⟨x, rfl, hx⟩ := gpgOuterr_path h3
    obtain ⟨-, h4⟩ := gpgOuterr_known (U := fun _ => True) (past := []) (fun a _ => .inr (.inl trivial)) h3
    obtain ⟨⟨a, i, o, h5, h6⟩, -⟩ := h4 y rfl
    exact ⟨a, i, o, h2 _ (List.mem_append_right _ h5), h6⟩
end BinGPG

/-- reading a log gives the handles in it -/
theorem chain_hands (h) : Hands env U hs (Prog.chain h) fun es => es.filterMap Entry.handle := by
  rintro past hk l r ⟨a, l', rfl, hp⟩
  obtain ⟨rfl, rfl⟩ := Prog.Path.ofExcept.mp hp
  refine ⟨.single trivial, fun es he k hm => .inr (.inl ?_)⟩
  subst he
  obtain ⟨e, h1, h2⟩ := List.mem_filterMap.mp hm
  exact ⟨h, es, e, by simp [ReadAs, Did.chain], h1, h2⟩

theorem Own.clean_config (n) : Clean env U (Own.config n) := by
  unfold Own.config; simp only [bind_eq, pure_eq]; clean
theorem Own.clean_changeConfig (n k) : Clean env U (Own.changeConfig n k) := by
  unfold Own.changeConfig; simp only [bind_eq, pure_eq]; clean
theorem Peer.clean_updateFromMsg (h u) : Clean env U (Peer.updateFromMsg h u) := by
  unfold Peer.updateFromMsg; simp only [bind_eq, pure_eq]; clean
theorem Peer.clean_updateFromGossip (h u) : Clean env U (Peer.updateFromGossip h u) := by
  unfold Peer.updateFromGossip; simp only [bind_eq, pure_eq]; clean
theorem OOB.clean_getVerification (n a) : Clean env U (OOB.getVerification n a) := by
  unfold OOB.getVerification; simp only [bind_eq, pure_eq]; clean
theorem clean_getAccountNames : Clean env U getAccountNames := by
  unfold getAccountNames; simp only [bind_eq, pure_eq]; clean
theorem clean_getPeernameList (n) : Clean env U (getPeernameList n) := by
  unfold getPeernameList; simp only [bind_eq, pure_eq]; clean

theorem Peer.publicKeyhandle_mem {es : List Entry} (h : Peer.publicKeyhandle es ≠ []) : Peer.publicKeyhandle es ∈ es.filterMap Entry.handle := by
  have hg : ∀ g, Peer.latestGossip es = some g → g.keyhandle ∈ es.filterMap Entry.handle := fun g hg =>
    List.mem_filterMap.mpr ⟨.gossip g, (latestGossip_iff.mp hg).mem, rfl⟩
  unfold Peer.publicKeyhandle Peer.entryForEncryption at h ⊢
  cases hm : Peer.latestAc es with
  | none =>
    rw [hm] at h
    cases hq : Peer.latestGossip es with
    | none => rw [hq] at h; exact absurd rfl h
    | some g => exact hg g hq
  | some m =>
    rw [hm] at h
    simp only at h ⊢
    split
    · next hs =>
      split at hs
      · cases hs
        exact List.mem_filterMap.mpr ⟨_, (latestAc_iff.mp hm).mem, rfl⟩
      · cases hq : Peer.latestGossip es <;> rw [hq] at hs <;> cases hs
    · next hs =>
      split at hs
      · cases hs
      · cases hq : Peer.latestGossip es with
        | none => rw [hq] at hs; cases hs
        | some g' => rw [hq] at hs; cases hs; exact hg _ hq
    · next hs => rw [hs] at h; exact absurd rfl h

namespace Account
open BinGPG
variable (n : Str)
theorem clean_bingpg : Clean env U (bingpg env n) := by
  unfold bingpg; simp only [bind_eq]; clean [Own.clean_config, clean_create]
theorem clean_effectiveDate (d) : Clean env U (effectiveDate d) := by
  unfold effectiveDate; simp only [bind_eq, pure_eq]; clean
theorem ownKeyhandle_hands : Hands env U hs (ownKeyhandle n) fun k => [k] := by
  unfold ownKeyhandle Own.keyhandle; simp only [bind_eq, pure_eq, Prog.bind_assoc]
  refine .bind (chain_hands _) fun es => ?_
  cases hk : Own.latestKeygen es with
  | none => exact .raise _
  | some e =>
    obtain ⟨d, o⟩ := e
    cases o with
    | none => exact .raise _
    | some k => exact .pure fun x hx => List.mem_append_right _ (List.mem_filterMap.mpr ⟨_, (latestKeygen_iff.mp hk).mem, by rw [List.mem_singleton.mp hx]; rfl⟩)
theorem clean_ownKeyhandle : Clean env U (ownKeyhandle n) := .ofHands (ownKeyhandle_hands n)
theorem clean_exists_ : Clean env U (exists_ n) := by
  unfold exists_; simp only [bind_eq, pure_eq]; clean
theorem createKey_hands (k : Option Str) (hU : ∀ x ∈ k, U x) : Hands env U hs (createKey env n k) fun k => [k] := by
  unfold createKey; simp only [bind_eq, pure_eq]
  split
  · exact .bind0 .uuid fun _ => .bind0 (clean_bingpg n) fun _ => genSecretKey_hands _
  · next x =>
    refine .bind0 (clean_bingpg n) fun g => ?_
    have : Hands env U (hs ++ [x]) ((getSecretKeyhandle env g x).bind fun r => match r with | some k' => Prog.pure k' | none => .raise .valueError) fun k => [k] := by
      refine .bind (getSecretKeyhandle_hands (by simp)) fun r => ?_
      split
      · exact .pure (by simp)
      · exact .raise _
    exact fun past hk => this past fun k hm => (List.mem_append.mp hm).elim (hk k) fun hm => by rw [List.mem_singleton.mp hm]; exact .inl (hU x rfl)
theorem clean_create (r k b m) (hU : ∀ x ∈ k, U x) : Clean env U (create env n r k b m) := by
  unfold create Own.newConfig Own.appendKeygen; simp only [bind_eq, pure_eq]
  refine .bind ?_ fun mode => .bind ?_ fun _ => .bindHands (createKey_hands n k hU) fun k => .bind0 (clean_bingpg n) fun g => .bind (getSecretKeydata_hands (by simp) _) fun kd => Clean.any ?_
  all_goals clean
theorem clean_modify (r k b p) : Clean env U (modify n r k b p) := Own.clean_changeConfig _ _
theorem clean_makeAcHeader (a) : Clean env U (makeAcHeader env n a) := by
  unfold makeAcHeader; simp only [bind_eq]
  refine .bind (clean_bingpg n) fun g => .bindHands (ownKeyhandle_hands n) fun k => .bind (getPublicKeydata_hands (by simp) _) fun kd => Clean.any ?_
  clean [Own.clean_config]
theorem clean_exportPublicKey (k) (hU : ∀ x ∈ k, U x) : Clean env U (exportPublicKey env n k) := by
  unfold exportPublicKey; simp only [bind_eq, pure_eq]
  refine .bindHands (out := fun k => [k]) ?_ fun k => .bind0 (clean_bingpg n) fun g => getPublicKeydata_hands (by simp) _
  cases k with
  | none => exact ownKeyhandle_hands n
  | some k =>
    rintro past hk l r ⟨rfl, rfl⟩
    exact ⟨.nil, fun a ha x hx => by cases ha; rw [List.mem_singleton.mp hx]; exact .inl (hU _ rfl)⟩
theorem clean_exportSecretKey : Clean env U (exportSecretKey env n) := by
  unfold exportSecretKey; simp only [bind_eq]
  exact .bind (clean_bingpg n) fun g => .bindHands (ownKeyhandle_hands n) fun k => getSecretKeydata_hands (by simp) _
theorem clean_importKeydata (g d m) : Clean env U (importKeydata env g d m) := .ofHands (importKeydata_hands d m)
theorem clean_importKey (k) : Clean env U (importKey env n k) := by
  unfold importKey; simp only [bind_eq, pure_eq]
  clean [clean_importKeydata, clean_bingpg]
theorem clean_importPah (p) : Clean env U (importPah env n p) := by
  unfold importPah; simp only [bind_eq, pure_eq]; clean [clean_importKey]
theorem clean_processAutocryptHeader (m f h d i) : Clean env U (processAutocryptHeader env n m f h d i) := by
  unfold processAutocryptHeader; simp only [bind_eq, pure_eq]; clean [clean_importPah, Peer.clean_updateFromMsg]
theorem clean_gossipLoop (x d i p l) : Clean env U (gossipLoop env n x d i p l) := by
  induction l generalizing p with
  | nil => exact .pure _
  | cons r rs ih =>
    unfold gossipLoop; simp only [bind_eq]; clean [clean_importPah, Peer.clean_updateFromGossip, ih]
theorem clean_processGossipHeaders (m d i) : Clean env U (processGossipHeaders env n m d i) := by
  unfold processGossipHeaders; simp only [bind_eq]; clean [clean_gossipLoop]
theorem clean_decryptMime (m) : Clean env U (decryptMime env n m) := by
  unfold decryptMime; simp only [bind_eq, pure_eq]; clean [clean_decrypt, clean_bingpg]
theorem clean_processIncoming (m a b) : Clean env U (processIncoming env n m a b) := by
  unfold processIncoming; simp only [bind_eq, pure_eq]
  clean [clean_effectiveDate, clean_processAutocryptHeader, clean_decryptMime, clean_processGossipHeaders, clean_ownKeyhandle]
theorem clean_readPeers (l) : Clean env U (readPeers env n l) := by
  induction l with
  | nil => exact .pure _
  | cons r rs ih => unfold readPeers; simp only [bind_eq, pure_eq]; clean
theorem clean_recommendation (a r f) : Clean env U (recommendation env n a r f) := by
  unfold recommendation; simp only [bind_eq]; clean [Own.clean_config, clean_readPeers]
theorem encLoop_hands (a l) (ha : ∀ k ∈ a.keyhandles, k ∈ hs) : Hands env U hs (encLoop env n a l) fun a => a.keyhandles := by
  induction l generalizing a hs with
  | nil => exact .pure ha
  | cons r rs ih =>
    unfold encLoop; simp only [bind_eq]
    refine .bind (chain_hands _) fun es => ?_
    split
    · refine .bind0 (Own.clean_config n) fun c => .bind0 (.ofExcept _) fun b => ?_
      split
      · refine .bind (ownKeyhandle_hands n) fun k => ih _ fun x hx => ?_
        simp only [List.mem_append, List.mem_singleton] at hx ⊢
        exact hx.imp (fun h => .inl (ha x h)) id
      · exact .raise _
    · next hk =>
      refine .bind0 (.ofExcept _) fun b => ih _ fun x hx => ?_
      rcases List.mem_append.mp hx with hx | hx
      · exact List.mem_append_left _ (ha x hx)
      · rw [List.mem_singleton.mp hx]
        exact List.mem_append_right _ (Peer.publicKeyhandle_mem fun h => hk (by rw [h]; rfl))
theorem clean_encryptMime (m a) : Clean env U (encryptMime env n m a) := by
  unfold encryptMime; simp only [bind_eq, pure_eq]
  exact .bind (.assert _) fun _ => .bindHands (encLoop_hands n _ _ nofun) fun acc => .bind0 (clean_ownKeyhandle n) fun _ => .bind0 (.hookBeforeEnc _ _ _ _) fun _ =>
    .bind0 (.ofExcept _) fun _ => .bind0 (clean_bingpg n) fun g => .bind (ownKeyhandle_hands n) fun own =>
    .bind (encrypt_hands (fun r hr => List.mem_append_left _ hr) (by simp) _) fun _ => .pure (List.nil_subset _)
theorem clean_outgoingBody (m e) : Clean env U (outgoingBody env n m e) := by
  unfold outgoingBody; simp only [bind_eq, pure_eq]; clean [clean_recommendation, clean_encryptMime]
theorem clean_processOutgoing (m) : Clean env U (processOutgoing env n m) := by
  unfold processOutgoing; simp only [bind_eq, pure_eq]; clean [clean_makeAcHeader, clean_outgoingBody]
theorem importLoop_hands (p k l) (hk : k ∈ hs) : Hands env U hs (importLoop env n p k l) fun _ => [] := by
  induction l with
  | nil => exact .pure (List.nil_subset _)
  | cons r rs ih =>
    unfold importLoop; simp only [bind_eq]
    exact .bind0 .now fun _ => .bind0 (clean_bingpg n) fun g => .bind (getPublicKeydata_hands hk _) fun _ =>
      .bind0 (Peer.clean_updateFromMsg _ _) fun _ => by rw [List.append_nil]; exact ih
theorem clean_importKeydataAsAutocrypt (a k p) : Clean env U (importKeydataAsAutocrypt env n a k p) := by
  unfold importKeydataAsAutocrypt; simp only [bind_eq, pure_eq]
  refine .bind (clean_bingpg n) fun g => .bindHands (importKeydata_hands k _) fun kh => .bind (o1 := fun _ => []) ?_ fun as => .bind0 (clean_bingpg n) fun g => .bind (importKeydata_hands k _) fun kh2 =>
    .bind (importLoop_hands n _ _ _ (by simp)) fun _ => .bind0 (clean_bingpg n) fun g => .bind (getPublicKeydata_hands (by simp) _) fun _ => .pure (List.nil_subset _)
  split
  · exact .pure (List.nil_subset _)
  · exact .bind0 (clean_bingpg n) fun g => .bind (listPublic_hands (by simp)) fun _ => .pure (List.nil_subset _)
end Account

namespace Manager
open Account
variable (n : Str)
theorem clean_init : Clean env U Manager.init := by
  unfold Manager.init Mgr.setVersion; simp only [bind_eq]; clean
theorem clean_ensureInit : Clean env U Manager.ensureInit := by
  unfold Manager.ensureInit; simp only [bind_eq, pure_eq]; clean [clean_init]
theorem clean_account : Clean env U (Manager.account env n) := .assert _
theorem clean_getAccount (x) : Clean env U (getAccount env n x) := by
  unfold getAccount; simp only [bind_eq, pure_eq]; clean [clean_ensureInit, clean_account, clean_exists_]
theorem clean_addAccount (r k b m) (hU : ∀ x ∈ k, U x) : Clean env U (addAccount env n r k b m) := by
  unfold addAccount; simp only [bind_eq, pure_eq]
  refine .bind (clean_getAccount n _) fun a => .bind (clean_exists_ a) fun _ => ?_
  split
  · exact .raise _
  · exact .bind (Account.clean_create _ _ _ _ _ hU) fun _ => .pure _
theorem clean_modAccount (r k b m) : Clean env U (modAccount env n r k b m) := by
  unfold modAccount; simp only [bind_eq, pure_eq]; clean [clean_getAccount, clean_modify]
theorem clean_delAccount : Clean env U (delAccount env n) := by
  unfold delAccount removeAccount; simp only [bind_eq]; clean [clean_getAccount]
theorem clean_firstMatch (a l) : Clean env U (firstMatch env a l) := by
  induction l with
  | nil => exact .pure _
  | cons r rs ih => unfold firstMatch; simp only [bind_eq, pure_eq]; clean [clean_getAccount, Own.clean_config]
theorem clean_getAccountFromEmailadr (a r) : Clean env U (getAccountFromEmailadr env a r) := by
  unfold getAccountFromEmailadr; simp only [bind_eq, pure_eq]; clean [clean_getAccountNames, clean_firstMatch]
theorem clean_patterns (l) : Clean env U (patterns env l) := by
  induction l with
  | nil => exact .pure _
  | cons r rs ih => unfold patterns; simp only [bind_eq, pure_eq]; clean [clean_getAccount, Own.clean_config]
theorem clean_getMatchingAccount (m) : Clean env U (getMatchingAccount env m) := by
  unfold getMatchingAccount; simp only [bind_eq, pure_eq]
  clean [clean_getAccountNames, clean_patterns, clean_getAccountFromEmailadr]
end Manager



namespace Cmd
theorem clean_say (s) : Clean env U (say s) := .emit _
theorem clean_kecho (a b) : Clean env U (kecho a b) := .emit _
theorem clean_processOutgoing (m) : Clean env U (Cmd.processOutgoing env m) := by
  unfold Cmd.processOutgoing; simp only [bind_eq, pure_eq]
  clean [Manager.clean_getAccountFromEmailadr, Account.clean_processOutgoing]
theorem clean_processIncoming (a r d m) : Clean env U (Cmd.processIncoming env a r d m) := by
  unfold Cmd.processIncoming; simp only [bind_eq, pure_eq]
  clean [Manager.clean_getMatchingAccount, Manager.clean_getAccount, Account.clean_processIncoming]
theorem clean_sayReport (m r) : Clean env U (sayReport m r) := by
  unfold sayReport; simp only [bind_eq]; clean [clean_say]
theorem clean_scanRoutable (r m) : Clean env U (scanRoutable env r m) := by
  unfold scanRoutable; simp only [bind_eq, pure_eq]
  clean [Manager.clean_getMatchingAccount, Account.clean_processIncoming]
theorem clean_scanFile (r n f) : Clean env U (scanFile env r n f) := by
  unfold scanFile; simp only [bind_eq, pure_eq]; clean [Account.clean_effectiveDate, clean_scanRoutable]
theorem clean_sayOpt (o) : Clean env U (sayOpt o) := by
  unfold sayOpt; simp only [pure_eq]; clean [clean_say]
theorem clean_scanFiles (r n i l) : Clean env U (scanFiles ce env r n i l) := by
  induction l generalizing i with
  | nil => exact .pure _
  | cons f fs ih => unfold scanFiles; simp only [bind_eq, pure_eq]; clean [clean_scanFile, clean_sayOpt, ih]
theorem clean_scandir (r l) : Clean env U (scandir ce env r l) := by
  unfold scandir; simp only [bind_eq]; clean [clean_scanFiles]
theorem clean_managerExists : Clean env U managerExists := by
  unfold managerExists; simp only [bind_eq, pure_eq]; clean
theorem clean_destroyAll (y) : Clean env U (destroyAll y) := by
  unfold destroyAll Manager.remove; simp only [bind_eq, pure_eq]; clean [clean_managerExists]
theorem clean_peerstate (a b) : Clean env U (peerstate ce env a b) := by
  unfold peerstate; simp only [bind_eq]; clean [clean_say]
theorem clean_sayUids (l) : Clean env U (sayUids l) := by
  induction l with
  | nil => exact .pure _
  | cons f fs ih => unfold sayUids; simp only [bind_eq]; clean [clean_say, clean_kecho]
theorem clean_sayPeers (a l) : Clean env U (sayPeers ce env a l) := by
  induction l with
  | nil => exact .pure _
  | cons f fs ih => unfold sayPeers; simp only [bind_eq]; clean [clean_say]
theorem clean_statusAccount (a v) : Clean env U (statusAccount ce env a v) := by
  unfold statusAccount; simp only [bind_eq, pure_eq]
  refine .bind (Own.clean_config _) fun c => .bind (clean_say _) fun _ => .bind (clean_kecho _ _) fun _ => .bind ?_ fun _ => .bind ?_ fun _ => .bind (clean_kecho _ _) fun _ =>
    .bind (Account.clean_bingpg a) fun g => .bindHands (Account.ownKeyhandle_hands a) fun kh => .bind (BinGPG.listPublic_hands (by simp)) fun infos => Clean.any ?_
  · clean [clean_kecho, Account.clean_bingpg]
  · clean [clean_kecho]
  · clean [clean_say, clean_kecho, clean_sayUids, clean_getPeernameList, clean_sayPeers]
theorem clean_statusAll (v l) : Clean env U (statusAll ce env v l) := by
  induction l with
  | nil => exact .pure _
  | cons f fs ih => unfold statusAll; simp only [bind_eq]; clean [clean_say, Manager.clean_getAccount, clean_statusAccount]
theorem clean_status (v) : Clean env U (status ce env v) := by
  unfold status; simp only [bind_eq]; clean [clean_say, clean_getAccountNames, clean_statusAll]
theorem clean_sayAddrs (l) : Clean env U (sayAddrs l) := by
  induction l with
  | nil => exact .pure _
  | cons f fs ih => unfold sayAddrs; simp only [bind_eq]; clean [clean_say]
theorem clean_accountFor (a) : Clean env U (accountFor env a) := by
  unfold accountFor; simp only [bind_eq, pure_eq]; clean [Manager.clean_getAccountFromEmailadr]
theorem clean_sendmail (a m) : Clean env U (Cmd.sendmail ce env a m) := by
  unfold Cmd.sendmail; simp only [bind_eq, pure_eq]; clean [clean_say, clean_processOutgoing]
end Cmd

namespace Bot
open Account
theorem clean_deliver (s r) : Clean env U (deliver env s r) := by
  unfold deliver; simp only [bind_eq]; clean
theorem clean_makeReply (v a d f e m) : Clean env U (makeReply env be v a d f e m) := by
  unfold makeReply; simp only [bind_eq, pure_eq]; clean [clean_makeAcHeader, clean_encryptMime]
theorem clean_replyNoFrom (a d m) : Clean env U (replyNoFrom env be a d m) := by
  unfold replyNoFrom; simp only [bind_eq]; clean [clean_makeAcHeader]
theorem clean_keysOf (a m) : Clean env U (keysOf env a m) := by
  unfold keysOf; simp only [bind_eq, pure_eq]; clean [clean_decryptMime]
theorem clean_recFor (a m) : Clean env U (recFor env a m) := by
  unfold recFor; simp only [bind_eq, pure_eq]; clean [clean_recommendation]
theorem clean_processed (r m i) : Clean env U (Report.processed env r m i) := by
  unfold Report.processed; simp only [bind_eq, pure_eq]; clean
theorem clean_answer (v s d a m r) : Clean env U (answer env be v s d a m r) := by
  unfold answer; simp only [bind_eq, pure_eq]
  clean [clean_processed, clean_keysOf, clean_ownKeyhandle, clean_recFor, clean_replyNoFrom, clean_makeReply, clean_deliver]
theorem clean_reply (v s f m) : Clean env U (reply env be v s f m) := by
  unfold reply; simp only [bind_eq]
  clean [Manager.clean_getAccountFromEmailadr, clean_processIncoming, clean_answer]
end Bot



/-- the key given by the user -/
def Cmd.Command.key : Cmd.Command → Option Str
  | .addAccount _ _ k _ _ => k
  | .exportPublicKey _ k => k
  | _ => none

/-- the key given by the user -/
def ApiCall.key : ApiCall → Option Str
  | .addAccount _ _ k _ _ => k
  | .exportPublicKey _ k => k
  | _ => none

theorem clean_body (cmd : Cmd.Command) (hU : ∀ x ∈ cmd.key, U x) : Clean env U (cmd.body ce be env) := by
  unfold Cmd.Command.body Cmd.modAccount Cmd.addAccount; simp only [bind_eq, pure_eq]
  clean [Cmd.clean_say, Cmd.clean_status, Cmd.clean_statusAccount, Manager.clean_getAccount, Manager.clean_modAccount, Manager.clean_addAccount,
    Manager.clean_delAccount, Cmd.clean_accountFor, Cmd.clean_processIncoming, Cmd.clean_sayReport, Cmd.clean_scandir, Account.clean_exportPublicKey,
    Account.clean_importKeydataAsAutocrypt, Cmd.clean_sayAddrs, Cmd.clean_peerstate, Account.clean_recommendation, Cmd.clean_processOutgoing, Cmd.clean_sendmail,
    Account.clean_makeAcHeader, Account.clean_exportSecretKey, Bot.clean_reply, Cmd.clean_managerExists, Cmd.clean_destroyAll]
  all_goals exact hU _ ‹_›

theorem clean_command (cmd : Cmd.Command) (hU : ∀ x ∈ cmd.key, U x) : Clean env U (cmd.prog ce be env) := by
  have := clean_body (ce := ce) (be := be) (env := env) cmd hU
  unfold Cmd.Command.prog; simp only [bind_eq, pure_eq]; clean [Cmd.clean_say]

theorem clean_onAccount {p : Prog α} {n : Str} (h : Clean env U p) : Clean env U (onAccount env n p) :=
  .bind (.assert _) fun _ => .void h

theorem clean_call (call : ApiCall) (hU : ∀ x ∈ call.key, U x) : Clean env U (call.prog env) := by
  cases call with
  | init => exact Manager.clean_init
  | getAccount => exact .void (by apply Manager.clean_getAccount)
  | addAccount => exact .void (Manager.clean_addAccount _ _ _ _ _ hU)
  | modAccount => exact .void (by apply Manager.clean_modAccount)
  | delAccount => apply Manager.clean_delAccount
  | listAccountNames => exact .void clean_getAccountNames
  | accountFromEmailadr => exact .void (by apply Manager.clean_getAccountFromEmailadr)
  | matchingAccount => exact .void (by apply Manager.clean_getMatchingAccount)
  | removeAll => exact .rmtree
  | peernames => exact clean_onAccount (clean_getPeernameList _)
  | recommendation => exact clean_onAccount (by apply Account.clean_recommendation)
  | makeAcHeader => exact clean_onAccount (by apply Account.clean_makeAcHeader)
  | exportPublicKey => exact clean_onAccount (Account.clean_exportPublicKey _ _ hU)
  | exportSecretKey => exact clean_onAccount (by apply Account.clean_exportSecretKey)
  | processIncoming => exact clean_onAccount (by apply Account.clean_processIncoming)
  | processOutgoing => exact clean_onAccount (by apply Account.clean_processOutgoing)
  | encryptMime => exact clean_onAccount (by apply Account.clean_encryptMime)
  | decryptMime => exact clean_onAccount (by apply Account.clean_decryptMime)
  | importKey => exact clean_onAccount (by apply Account.clean_importKeydataAsAutocrypt)
  | peerMsg => exact clean_onAccount (by apply Peer.clean_updateFromMsg)
  | peerGossip => exact clean_onAccount (by apply Peer.clean_updateFromGossip)
  | verifySelf => exact clean_onAccount (.append _ _)
  | verifyPeer => exact clean_onAccount (.append _ _)
  | getVerification => exact clean_onAccount (by apply OOB.clean_getVerification)

end Verif
