import Verif.Props.CommandOutput
import Verif.Props.Header
/-!
# What process-incoming and scandir-incoming print: C98, C99
-/
namespace Verif
open Mime

variable {K : Type}

/-! ## Specification -/

/-- the date of the newest entry with `P`, 0 if there is none -/
inductive DateOfNewest (P : Entry → Prop) (es : List Entry) : Time → Prop
  | some (m : MsgEntry) : Newest P es (.msg m) → DateOfNewest P es m.date
  | none : (∀ e ∈ es, ¬ P e) → DateOfNewest P es 0

/-- the newest message of a peer has the date of the newest message with a key -/
def KeyIsRecent (es : List Entry) : Prop := ∃ t, DateOfNewest Entry.IsKeyMsg es t ∧ DateOfNewest Entry.IsMsg es t

/-- `account` is the one to use: the named one, which must be configured, or the one for the message -/
def AccountToUse (env : Env) (w : World Store K) (m : Msg) (name : Option Str) (a : Str) : Prop :=
  (∃ n, name = some n ∧ a = n ∧ Configured w n) ∨ (name = none ∧ AccountFor env w m a)

/-- the text for the value of a header which may be missing -/
inductive IdText (m : Msg) : Str → Prop
  | some (v) : m.get (str!"Message-Id") = some v → IdText m v
  | none : m.get (str!"Message-Id") = none → IdText m (str!"None")

/-- the line of `process-incoming` for a message processed in the state `w` for account `a`, with `w'` afterwards -/
inductive IncomingLine (env : Env) (reparse : Bool) (m : Msg) (a : Str) (w w' : World Store K) : Str → Prop
  | known (id) : reparse = false → Recorded env w a m → w'.store = w.store → IdText m id →
      IncomingLine env reparse m a w w' (str!"message with " ++ id ++ str!" already known, skipping processing")
  | found (kh) : (reparse = true ∨ ¬ Recorded env w a m) → KeyIsRecent (w'.log (peerHead a (senderAddr env m))) →
      ShownKey (w'.log (peerHead a (senderAddr env m))) kh →
      IncomingLine env reparse m a w w'
        (str!"processed mail for account '" ++ a ++ str!"', found: PeerState addr=" ++ senderAddr env m ++ str!" key=" ++ kh)
  | noHeader : (reparse = true ∨ ¬ Recorded env w a m) → ¬ KeyIsRecent (w'.log (peerHead a (senderAddr env m))) →
      IncomingLine env reparse m a w w' (str!"processed mail for account '" ++ a ++ str!"', no Autocrypt header found")

/-- what is said about a faulty attribute of a header -/
inductive AttrFault : Str × Option Str → Str → Prop
  | noValue (n) : AttrFault (n, none) (str!"malformed setting")
  | key (v) : Py.b64decode (Py.removeSpace v) = none → AttrFault (str!"keydata", some v) (str!"failed to decode keydata")
  | pref (v) : v ≠ str!"nopreference" → v ≠ str!"mutual" →
      AttrFault (str!"prefer-encrypt", some v) (str!"unknown prefer-encrypt setting '" ++ v ++ str!"'")
  | unknown (n v) : n ≠ str!"addr" → n ≠ str!"keydata" → n ≠ str!"prefer-encrypt" → n ≠ [] → n.head? ≠ some '_' →
      AttrFault (n, some v) (str!"unknown critical attr '" ++ n ++ str!"'")

/-- what is said about a header which is not valid for the sender: its first faulty attribute counts, then missing attributes,
then the address -/
inductive HeaderFault (ce : CmdEnv) (env : Env) (sender v : Str) : Str → Prop
  | attr (pre p post t) : attrPairs v = pre ++ p :: post → (∀ q ∈ pre, GoodAttr q) → AttrFault p t → HeaderFault ce env sender v t
  | noKey : (∀ q ∈ attrPairs v, GoodAttr q) → lastValue (str!"keydata") (attrPairs v) = none →
      HeaderFault ce env sender v (str!"critical attr 'keydata' missing")
  | noAddr : (∀ q ∈ attrPairs v, GoodAttr q) → lastValue (str!"keydata") (attrPairs v) ≠ none → lastValue (str!"addr") (attrPairs v) = none →
      HeaderFault ce env sender v (str!"critical attr 'addr' missing")
  | other (x) : (∀ q ∈ attrPairs v, GoodAttr q) → lastValue (str!"keydata") (attrPairs v) ≠ none → lastValue (str!"addr") (attrPairs v) = some x →
      address env (some x) ≠ sender →
      HeaderFault ce env sender v (str!"addr " ++ ce.repr (address env (some x)) ++ str!" does not match [" ++ ce.repr sender ++ str!"]")

/-- the header is valid for the sender of the message -/
def ValidHeader (env : Env) (m : Msg) (v : Str) : Prop := ∃ r, ValidFor env (senderAddr env m) v r

/-- a message whose headers are looked at -/
def Regular (env : Env) (m : Msg) : Prop :=
  m.contentType ≠ str!"multipart/report" ∧ (env.getaddresses (m.getAll (str!"From"))).length ≤ 1

/-- what is said about a message whose headers give no key for account `a` -/
inductive Complaint (O : Oracle K) (ce : CmdEnv) (env : Env) (m : Msg) (a : Str) : Str → Prop
  | report : m.contentType = str!"multipart/report" → Complaint O ce env m a (str!"Ignoring 'multipart/report' message.")
  | froms : m.contentType ≠ str!"multipart/report" → 1 < (env.getaddresses (m.getAll (str!"From"))).length →
      Complaint O ce env m a (str!"Ignoring message with more than one address in From header.")
  | several (pre v mid v' post) : Regular env m → m.getAll (str!"Autocrypt") = pre ++ v :: mid ++ v' :: post → ValidHeader env m v → ValidHeader env m v' →
      Complaint O ce env m a (str!"more than one valid Autocrypt header found")
  | noHeader : Regular env m → m.getAll (str!"Autocrypt") = [] → Complaint O ce env m a (str!"no valid Autocrypt header found")
  | faulty (v vs t) : Regular env m → m.getAll (str!"Autocrypt") = v :: vs → (∀ x ∈ v :: vs, ¬ ValidHeader env m x) →
      HeaderFault ce env (senderAddr env m) v t → Complaint O ce env m a t
  | refused (v r k) (u u' : World Store K) : Regular env m → OnlyOne (ValidHeader env m) (m.getAll (str!"Autocrypt")) v →
      ValidFor env (senderAddr env m) v r → r.keydata = some k → exec O (Account.importKey env a k) u = (.ok none, u') →
      Complaint O ce env m a (str!"failed to import key")

/-- a file which is recent, has an id and a recent date -/
def Current (env : Env) (now : Time) (f : Cmd.MailFile) (w : World Store K) (id : Str) (d : Time) : Prop :=
  Recent now f.mtime ∧ f.msg.get (str!"Message-Id") = some id ∧ DateOf env f.msg d ∧ Recent now (min d (w.clock w.tick))

/-- complaints are red, except that there is no valid header -/
inductive Coloured (ce : CmdEnv) : Str → Str → Prop
  | plain (t) : str!"no valid Autocrypt header" <:+: t → Coloured ce t t
  | red (t) : ¬ str!"no valid Autocrypt header" <:+: t → Coloured ce t (ce.red t)

/-- the text after the number in the line for a file (if there is one), with the states before and after -/
inductive FileText (O : Oracle K) (ce : CmdEnv) (env : Env) (reparse : Bool) (now : Time) (f : Cmd.MailFile) (w w' : World Store K) : Option Str → Prop
  | oldFile : ¬ Recent now f.mtime → w'.store = w.store →
      FileText O ce env reparse now f w w' (some (str!"msgfile " ++ f.name ++ str!" older than 90 days, skipped"))
  | noId : Recent now f.mtime → f.msg.get (str!"Message-Id") = none → w'.store = w.store → FileText O ce env reparse now f w w' none
  | oldDate (id d) : Recent now f.mtime → f.msg.get (str!"Message-Id") = some id → DateOf env f.msg d → ¬ Recent now (min d (w.clock w.tick)) →
      w'.store = w.store →
      FileText O ce env reparse now f w w' (some (str!"message " ++ id ++ str!" older than 90 days, skipped"))
  | unroutable (id d e) : Current env now f w id d → (exec O (Manager.getMatchingAccount env f.msg) { w with tick := w.tick + 1 }).1 = .error e →
      e = .accountNotFound ∨ e = .valueError ∨ e = .unicodeError → w'.store = w.store →
      FileText O ce env reparse now f w w' (some (str!"msg " ++ id ++ str!": " ++ ce.excText e))
  | undecryptable (id d a) (u u' : World Store K) : Current env now f w id d → Due env reparse now f w a → u.store = w.store → w'.store = u'.store →
      exec O (Account.processIncoming env a f.msg (!reparse) false) u = (.error .invocationFailure, u') →
      FileText O ce env reparse now f w w' (some (str!"msg could not decrypt " ++ id ++ str!", skipping"))
  | known (id d a) : Current env now f w id d → AccountFor env w f.msg a → reparse = false → Recorded env w a f.msg → w'.store = w.store →
      FileText O ce env reparse now f w w' (some (str!"[" ++ a ++ str!"] msg " ++ id ++ str!" -- already known message, skipped processing"))
  | found (id d a v kh t upd i) : Current env now f w id d → Due env reparse now f w a →
      Regular env f.msg → OnlyOne (ValidHeader env f.msg) (f.msg.getAll (str!"Autocrypt")) v →
      ShownKey (w'.log (peerHead a (senderAddr env f.msg))) kh → DateOfNewest Entry.IsKeyMsg (w'.log (peerHead a (senderAddr env f.msg))) t →
      w.tick < i → (min d (w.clock i) = t ∧ upd = ce.green (str!" (updated)") ∨ min d (w.clock i) ≠ t ∧ upd = str!" (old)") →
      FileText O ce env reparse now f w w' (some (str!"[" ++ a ++ str!"] msg " ++ id ++ str!" -- found Autocrypt addr=" ++ senderAddr env f.msg ++
        str!" keyhandle=" ++ kh ++ upd))
  | complaint (id d a t c) : Current env now f w id d → Due env reparse now f w a → Complaint O ce env f.msg a t → Coloured ce t c →
      FileText O ce env reparse now f w w' (some (str!"[" ++ a ++ str!"] msg " ++ id ++ str!" -- " ++ c))

/-- the lines for files, numbered from `i`, one after the other -/
inductive ScanOutput (O : Oracle K) (ce : CmdEnv) (env : Env) (reparse : Bool) (now : Time) :
    Nat → World Store K → List Cmd.MailFile → List Str → World Store K → Prop
  | done (i w) : ScanOutput O ce env reparse now i w [] [] w
  | line (i w w1 w' f fs t ls) : FileText O ce env reparse now f w w1 (some t) → ScanOutput O ce env reparse now (i + 1) w1 fs ls w' →
      ScanOutput O ce env reparse now i w (f :: fs) ((str!"[" ++ ce.intRepr i ++ str!"] " ++ t) :: ls) w'
  | nothing (i w w1 w' f fs ls) : FileText O ce env reparse now f w w1 none → ScanOutput O ce env reparse now (i + 1) w1 fs ls w' →
      ScanOutput O ce env reparse now i w (f :: fs) ls w'

/-! ## Processing a message -/

theorem acDate (es : List Entry) : DateOfNewest Entry.IsKeyMsg es (Peer.acTimestamp es) := by
  unfold Peer.acTimestamp
  cases h : Peer.latestAc es with
  | none => exact .none (no_newest_key h)
  | some m => exact .some m (latestAc_iff.mp h)

theorem seenDate (es : List Entry) : DateOfNewest Entry.IsMsg es (Peer.lastSeen es) := by
  unfold Peer.lastSeen
  cases h : Peer.latestMsg es with
  | none => exact .none (no_newest_msg h)
  | some m => exact .some m (latestMsg_iff.mp h)

theorem DateOfNewest.key_unique {es : List Entry} {t : Time} (h : DateOfNewest Entry.IsKeyMsg es t) : t = Peer.acTimestamp es := by
  unfold Peer.acTimestamp
  cases h with
  | some m h => rw [latestAc_iff.mpr h]
  | none h =>
    cases h1 : Peer.latestAc es with
    | none => rfl
    | some m =>
      obtain ⟨_, _, h2, h3, _⟩ := latestAc_iff.mp h1
      exact absurd h3 (h _ (by rw [h2]; simp))

theorem DateOfNewest.seen_unique {es : List Entry} {t : Time} (h : DateOfNewest Entry.IsMsg es t) : t = Peer.lastSeen es := by
  unfold Peer.lastSeen
  cases h with
  | some m h => rw [latestMsg_iff.mpr h]
  | none h =>
    cases h1 : Peer.latestMsg es with
    | none => rfl
    | some m =>
      obtain ⟨_, _, h2, h3, _⟩ := latestMsg_iff.mp h1
      exact absurd h3 (h _ (by rw [h2]; simp))

theorem keyIsRecent_iff {es : List Entry} : KeyIsRecent es ↔ Peer.acTimestamp es = Peer.lastSeen es :=
  ⟨fun ⟨_, h1, h2⟩ => h1.key_unique.symm.trans h2.seen_unique, fun h => ⟨_, acDate es, h ▸ seenDate es⟩⟩

/-- the date in the result -/
theorem incomingRest_date (env : Env) (n : Str) (m : Msg) (i nd : Bool) (date : Time) : (Account.incomingRest env n m i nd date).Returns
    fun o => ∀ x, o = some x → x.date = date := by
  unfold Account.incomingRest
  simp only [bind_eq, pure_eq]
  refine .bind (.trivially _) fun _ _ => ?_
  split
  · exact fun x h => nomatch h
  · refine .bind (.trivially _) fun _ _ => .bind (.trivially _) fun _ _ => .bind (.trivially _) fun _ _ => ?_
    intro x h; cases h; rfl

theorem processHeader_ok {O : Oracle K} {env : Env} {n : Str} {m : Msg} {f hd : Str} {date : Time} {id : Str} {w w' : World Store K} {pah : ACResult}
    (h : run Store.impl O (Account.processAutocryptHeader env n m f hd date id) w = (.ok pah, w')) :
    ∃ p, parseOneAcHeaderFromMsg env m [f] = .ok p ∧ (pah = p ∨ p.error = none ∧ pah.error = some .importFailed ∧
      ∃ u u' : World Store K, exec O (Account.importKey env n (p.keydata.getD [])) u = (.ok none, u')) := by
  unfold Account.processAutocryptHeader at h
  simp only [bind_eq, pure_eq] at h
  obtain ⟨p, w1, h1, g⟩ := run_bind_ok.mp h
  obtain ⟨e1, g1⟩ := ofExcept_said h1
  refine ⟨p, g1.symm, ?_⟩
  obtain ⟨q, w2, h2, g2⟩ := run_bind_ok.mp g
  obtain ⟨_, w3, h3, g3⟩ := run_bind_ok.mp g2
  have hq : pah = q.2 := (Except.ok.inj (congrArg Prod.fst g3)).symm
  subst hq
  cases he : p.error with
  | some e =>
    rw [he, if_pos (by rfl)] at h2
    cases h2
    exact .inl rfl
  | none =>
    rw [he, if_neg (by simp)] at h2
    unfold Account.importPah at h2
    simp only [bind_eq, pure_eq] at h2
    obtain ⟨o, w4, h4, h2⟩ := run_bind_ok.mp h2
    cases o with
    | some kh => cases h2; exact .inl rfl
    | none => cases h2; exact .inr ⟨rfl, rfl, _, _, h4⟩

/-- what processing a message means if it does not raise -/
theorem incoming_ok {O : Oracle K} {env : Env} {n : Str} {m : Msg} {i nd : Bool} {w w' : World Store K} {o : Option Account.IncomingResult}
    (h : run Store.impl O (Account.processIncoming env n m i nd) w = (.ok o, w')) :
    ∃ d, DateOf env m d ∧ ((o = none ∧ i = true ∧ Recorded env w n m ∧ w'.store = w.store) ∨
      ∃ r p, o = some r ∧ (i = false ∨ ¬ Recorded env w n m) ∧ r.peer = peerHead n (senderAddr env m) ∧ r.account = n ∧
        r.date = min d (w.clock w.tick) ∧ parseOneAcHeaderFromMsg env m [fromAddr env m] = .ok p ∧
        (r.pah = p ∨ p.error = none ∧ r.pah.error = some .importFailed ∧
          ∃ u u' : World Store K, exec O (Account.importKey env n (p.keydata.getD [])) u = (.ok none, u'))) := by
  have hret := (processIncoming_returns env n m i nd).of_run h
  have hrec := fun hk => C16_known_message_skipped_partial O env w n m nd hk
  have hrun := h
  rw [Account.run_processIncoming] at h
  cases hd : parseDateToFloat env (m.get (str!"Date")) with
  | error e => rw [hd] at h; cases h
  | ok d =>
    rw [hd] at h
    dsimp only at h
    refine ⟨d, parseDateToFloat_ok.mp hd, ?_⟩
    have hdate := (incomingRest_date env n m i nd _).of_run h
    cases o with
    | none =>
      left
      unfold Account.incomingRest at h
      simp only [bind_eq, pure_eq] at h
      obtain ⟨b, w1, h1, h⟩ := run_bind_ok.mp h
      cases b with
      | false =>
        rw [if_neg (by simp)] at h
        obtain ⟨_, _, _, h⟩ := run_bind_ok.mp h
        obtain ⟨_, _, _, h⟩ := run_bind_ok.mp h
        obtain ⟨_, _, _, h⟩ := run_bind_ok.mp h
        cases h
      | true =>
        rw [if_pos rfl] at h
        cases h
        cases i with
        | false => cases h1
        | true =>
          rw [if_pos rfl, run_bind, run_chain] at h1
          have h2 : Peer.hasMessage (w.store.get (peerHead n (senderAddr env m))) (messageId m) = true := by
            have := Except.ok.inj (congrArg Prod.fst h1)
            exact this
          have h3 : w'.store = w.store := (congrArg (fun x => x.2.store) h1).symm
          refine ⟨rfl, rfl, ?_, h3⟩
          simp only [Peer.hasMessage, Peer.getMessageEntry, List.find?_isSome] at h2
          obtain ⟨e, he, hid⟩ := h2
          simp only [Peer.msgs, List.mem_filterMap] at he
          obtain ⟨x, hx, hxe⟩ := he
          cases x <;> cases hxe
          exact ⟨e, hx, by simpa [mailId_eq] using hid⟩
    | some r =>
      right
      obtain ⟨h1, h2⟩ := hret r rfl
      have hp : ∃ (w1 w2 : World Store K), run Store.impl O (Account.processAutocryptHeader env n m (parseEmailAddr env (m.get (str!"From")))
          (Account.peerHeadOf env n (parseEmailAddr env (m.get (str!"From")))) (min d (w.clock w.tick)) (messageId m)) w1 = (.ok r.pah, w2) := by
        unfold Account.incomingRest at h
        simp only [bind_eq, pure_eq] at h
        obtain ⟨b, w1, h1, h⟩ := run_bind_ok.mp h
        cases b with
        | true => rw [if_pos rfl] at h; cases h
        | false =>
          rw [if_neg (by simp)] at h
          obtain ⟨pah, w2, h3, h⟩ := run_bind_ok.mp h
          obtain ⟨_, _, _, h⟩ := run_bind_ok.mp h
          obtain ⟨_, _, _, h⟩ := run_bind_ok.mp h
          have : r.pah = pah := by cases h; rfl
          exact ⟨w1, w2, by rw [this]; exact h3⟩
      obtain ⟨w1, w2, hp⟩ := hp
      obtain ⟨p, hp1, hp2⟩ := processHeader_ok hp
      refine ⟨r, p, rfl, ?_, h1, h2, hdate r rfl, hp1, hp2⟩
      cases i with
      | false => exact .inl rfl
      | true =>
        refine .inr fun hk => ?_
        have := (hrec hk _ _ hrun).2.2.2 d (parseDateToFloat_ok.mp hd)
        cases this

/-! ## Faults of headers -/

theorem parseAttr_fault {ce : CmdEnv} {env : Env} {s : ParseState} {x snd : Str} {e : AcErr} (h : parseAttr env s x = .ret e) :
    AttrFault (attrPair x) (Cmd.acErrText ce snd e) := by
  unfold parseAttr at h
  split at h
  · rename_i n hs
    cases h
    rw [attrPair, hs]
    exact .noValue _
  rename_i n v hs
  rw [attrPair, hs]
  dsimp only [Option.map_some] at h ⊢
  split at h
  · rename_i hk
    split at h
    · rename_i hb
      cases h
      rw [hk]
      exact .key _ hb
    · cases h
  rename_i hk
  split at h
  · rename_i hp
    split at h
    · cases h
    · rename_i hv
      cases h
      rw [hp]
      exact .pref _ (fun h => hv (.inl h)) (fun h => hv (.inr h))
  rename_i hp
  split at h
  · cases h
  rename_i ha
  split at h
  · cases h
  · rename_i c t hn
    split at h
    · rename_i hc
      cases h
      exact .unknown _ _ ha hk hp (by rw [hn]; simp) (by rw [hn]; simpa using hc)
    · cases h

theorem parseAttrs_fault {ce : CmdEnv} {env : Env} {snd : Str} {l : List Str} {s : ParseState} {e : AcErr} (h : parseAttrs env s l = .ok (.error e)) :
    ∃ pre x post, l = pre ++ x :: post ∧ (∀ y ∈ pre, GoodAttr (attrPair y)) ∧ AttrFault (attrPair x) (Cmd.acErrText ce snd e) := by
  induction l generalizing s with
  | nil => cases h
  | cons x l ih =>
    unfold parseAttrs at h
    split at h
    · rename_i s' hs
      obtain ⟨pre, y, post, h1, h2, h3⟩ := ih h
      refine ⟨x :: pre, y, post, by rw [h1]; rfl, ?_, h3⟩
      intro z hz
      rcases List.mem_cons.mp hz with rfl | hz
      · exact parseAttr_next hs
      · exact h2 z hz
    · rename_i e' hs
      cases h
      exact ⟨[], x, l, rfl, by simp, parseAttr_fault hs⟩
    · cases h

theorem lastValue_none {env : Env} {v : Str} (hg : ∀ p ∈ attrPairs v, GoodAttr p) :
    (((attrPairs v).foldl (updAttr env) {}).keydata = none ↔ lastValue (str!"keydata") (attrPairs v) = none) ∧
    (((attrPairs v).foldl (updAttr env) {}).addr = (lastValue (str!"addr") (attrPairs v)).map fun x => parseEmailAddr env (some x)) := by
  obtain ⟨h1, h2, -⟩ := foldl_updAttr env (attrPairs v) hg {}
  constructor
  · rw [h2]
    constructor
    · intro h
      cases hl : lastValue (str!"keydata") (attrPairs v) with
      | none => rfl
      | some x =>
        rw [hl] at h
        simp only [Option.bind_some, Option.or_none] at h
        unfold lastValue at hl
        cases hf : (attrPairs v).reverse.find? (fun p => p.1 = str!"keydata") with
        | none => rw [hf] at hl; cases hl
        | some p =>
          rw [hf] at hl
          have hn := List.find?_some hf
          obtain ⟨val, hv, hx⟩ := hg p (List.mem_reverse.mp (List.mem_of_find?_eq_some hf))
          have hxv : x = val := by
            simp only [Option.bind_some] at hl
            rw [hv] at hl
            exact (Option.some.inj hl).symm
          subst hxv
          have hn : p.1 = str!"keydata" := by simpa using hn
          rw [hn] at hx
          rcases hx with hx | ⟨-, hx⟩ | ⟨hx, -⟩ | hx
          · exact absurd hx (by decide)
          · rw [h] at hx; cases hx
          · exact absurd hx (by decide)
          · exact absurd hx (by decide)
    · intro h; rw [h]; rfl
  · rw [h1]; simp

theorem parse_err {ce : CmdEnv} {env : Env} {v snd : Str} {r : ACResult} {e : AcErr} (h : parseAcHeadervalue env v = .ok r) (he : r.error = some e) :
    HeaderFault ce env snd v (Cmd.acErrText ce snd e) := by
  unfold parseAcHeadervalue at h
  split at h
  · cases h
  · rename_i e' hp
    cases h
    cases he
    obtain ⟨pre, x, post, h1, h2, h3⟩ := parseAttrs_fault (ce := ce) (snd := snd) hp
    refine .attr (pre.map attrPair) (attrPair x) (post.map attrPair) _ ?_ ?_ h3
    · rw [attrPairs_eq, h1]; simp
    · intro q hq
      obtain ⟨y, hy, rfl⟩ := List.mem_map.mp hq
      exact h2 y hy
  · rename_i s hp
    obtain ⟨hg, hs⟩ := parseAttrs_ok_iff.mp hp
    have hg' : ∀ p ∈ attrPairs v, GoodAttr p := by
      intro p hp
      rw [attrPairs_eq] at hp
      obtain ⟨y, hy, rfl⟩ := List.mem_map.mp hp
      exact hg y hy
    have hs' : s = (attrPairs v).foldl (updAttr env) {} := by rw [hs, attrPairs_eq, List.foldl_map]
    obtain ⟨h1, h2⟩ := lastValue_none (env := env) hg'
    rw [← hs'] at h1 h2
    split at h
    · rename_i hk
      cases h
      cases he
      exact .noKey hg' (h1.mp hk)
    · rename_i ha hk
      cases h
      cases he
      refine .noAddr hg' (fun hn => ?_) ?_
      · exact hk (h1.mpr hn)
      · rw [ha] at h2
        exact Option.map_eq_none_iff.mp h2.symm
    · cases h
      cases he

/-- errors of headers, in the order of headers -/
theorem collectAc_faults {ce : CmdEnv} {env : Env} {a : Str} {vs : List Str} {rs es : List ACResult} (h : collectAc env [a] vs = .ok (rs, es))
    (hn : ∀ v ∈ vs, ¬ ∃ r, ValidFor env a v r) : (vs = [] → es = []) ∧
    ∀ v vs', vs = v :: vs' → ∃ r e es', es = r :: es' ∧ r.error = some e ∧ HeaderFault ce env a v (Cmd.acErrText ce a e) := by
  constructor
  · rintro rfl; cases h; rfl
  · rintro v vs' rfl
    simp only [collectAc] at h
    cases hp : parseAcHeadervalue env v with
    | error e => rw [hp] at h; cases h
    | ok r =>
      rw [hp] at h
      dsimp only at h
      cases hc : collectAc env [a] vs' with
      | error e => rw [hc] at h; cases h
      | ok q =>
        obtain ⟨rs', es'⟩ := q
        rw [hc] at h
        dsimp only at h
        rcases parseAcHeadervalue_shape hp with ⟨e, rfl⟩ | ⟨k, a', pe, ext, rfl⟩
        · rw [if_pos (by rfl)] at h
          cases h
          exact ⟨_, e, _, rfl, rfl, parse_err hp rfl⟩
        · rw [if_neg (by simp)] at h
          by_cases ha : a' = a
          · subst ha
            exact absurd ⟨_, hp, rfl, rfl⟩ (hn v (List.mem_cons_self ..))
          · rw [if_pos (by simp [ha])] at h
            cases h
            obtain ⟨hg, ⟨b64, hb, -⟩, ⟨x, hx, rfl⟩, -⟩ := (C27_parse_iff env v k a' pe.toStr).mp ⟨ext, hp⟩
            exact ⟨_, _, _, rfl, rfl, .other x hg (by rw [hb]; simp) hx ha⟩

theorem two_of_filterMap {α β : Type} {f : α → Option β} {l : List α} {x y : β} {t : List β} (h : l.filterMap f = x :: y :: t) :
    ∃ pre v mid v' post, l = pre ++ v :: mid ++ v' :: post ∧ f v = some x ∧ f v' = some y := by
  obtain ⟨pre, v, rest, h1, -, h2, h3⟩ := List.filterMap_eq_cons_iff.mp h
  obtain ⟨mid, v', post, h4, -, h5, -⟩ := List.filterMap_eq_cons_iff.mp h3
  exact ⟨pre, v, mid, v', post, by rw [h1, h4]; simp, h2, h5⟩

/-- what is wrong with a message whose headers give no key -/
theorem parseOne_complaint {O : Oracle K} {ce : CmdEnv} {env : Env} {m : Msg} {n : Str} {p : ACResult} {e : AcErr}
    (h : parseOneAcHeaderFromMsg env m [fromAddr env m] = .ok p) (he : p.error = some e) :
    Complaint O ce env m n (Cmd.acErrText ce (senderAddr env m) e) := by
  unfold parseOneAcHeaderFromMsg at h
  split at h
  · cases h; cases he; exact .report (by assumption)
  rename_i hr
  split at h
  · cases h; cases he; exact .froms hr (by assumption)
  rename_i hf
  have hreg : Regular env m := ⟨hr, by omega⟩
  rw [List.map_singleton, show parseEmailAddr env (some (fromAddr env m)) = senderAddr env m from rfl] at h
  cases hc : collectAc env [senderAddr env m] (m.getAll (str!"Autocrypt")) with
  | error e' => rw [hc] at h; cases h
  | ok q =>
    obtain ⟨rs, es⟩ := q
    rw [hc] at h
    obtain ⟨hv, -⟩ := collectAc_valid hc
    match rs, es, h with
    | [r], _, h =>
      cases h
      obtain ⟨_, v, _, _, _, h2, _⟩ := List.filterMap_eq_cons_iff.mp hv.symm
      rw [(validOf_iff.mp h2).2.1] at he
      cases he
    | _ :: _ :: _, _, h =>
      cases h
      cases he
      obtain ⟨pre, v, mid, v', post, h1, h2, h3⟩ := two_of_filterMap hv.symm
      exact .several pre v mid v' post hreg h1 ⟨_, validOf_iff.mp h2⟩ ⟨_, validOf_iff.mp h3⟩
    | [], es, h =>
      have hn : ∀ v ∈ m.getAll (str!"Autocrypt"), ¬ ∃ r, ValidFor env (senderAddr env m) v r := by
        rintro v hm ⟨r, hr⟩
        have := List.filterMap_eq_nil_iff.mp hv.symm v hm
        rw [validOf_iff.mpr hr] at this
        cases this
      obtain ⟨h1, h2⟩ := collectAc_faults (ce := ce) hc hn
      cases hl : m.getAll (str!"Autocrypt") with
      | nil =>
        rw [h1 hl] at h
        cases h
        cases he
        exact .noHeader hreg hl
      | cons v vs =>
        obtain ⟨r, e', es', h3, h4, h5⟩ := h2 v vs hl
        subst h3
        cases h
        rw [h4] at he
        cases he
        exact .faulty v vs _ hreg hl (by rw [← hl]; exact hn) h5

/-- a message whose headers give a key -/
theorem parseOne_good {env : Env} {m : Msg} {p : ACResult}
    (h : parseOneAcHeaderFromMsg env m [fromAddr env m] = .ok p) (he : p.error = none) :
    Regular env m ∧ ∃ v k, OnlyOne (ValidHeader env m) (m.getAll (str!"Autocrypt")) v ∧ ValidFor env (senderAddr env m) v p ∧ p.keydata = some k := by
  have hk : ∃ k, p.keydata = some k := by
    rcases parseOne_shape h with ⟨x, rfl⟩ | ⟨_, _, h9⟩
    · cases he
    · obtain ⟨_, v, _, _, _, h2, _⟩ := List.filterMap_eq_cons_iff.mp h9
      rw [accepted_eq_some] at h2
      rcases parseAcHeadervalue_shape h2.1 with ⟨z, hz⟩ | ⟨k, z, _, _, hz⟩
      · rw [hz] at he; cases he
      · rw [hz]; exact ⟨k, rfl⟩
  obtain ⟨k, hk⟩ := hk
  obtain ⟨h1, h2, v, h3, h4⟩ := parseOne_key h hk
  exact ⟨⟨h1, h2⟩, v, k, h3, h4, hk⟩

theorem AccountFor.of_store {env : Env} {w v : World Store K} {m : Msg} {a : Str} (hs : v.store = w.store) (h : AccountFor env v m a) : AccountFor env w m a := by
  obtain ⟨s, c, t, k, tr⟩ := v
  dsimp only at hs
  subst hs
  exact h

/-! ## C98 -/

theorem getMatchingAccount_silent (env : Env) (m : Msg) : (Manager.getMatchingAccount env m).AllOps Op.silent := by
  have hp : ∀ l, (Manager.patterns env l).AllOps Op.silent := by
    intro l
    induction l with
    | nil => trivial
    | cons n l ih =>
      unfold Manager.patterns; simp only [bind_eq, pure_eq]
      exact .bind (getAccount_silent env n _) fun _ => .bind (Account.config_ops permissive_silent _) fun _ => .bind ih fun _ => trivial
  unfold Manager.getMatchingAccount; simp only [bind_eq, pure_eq]
  refine .bind (.bind (.heads trivial) fun _ => trivial) fun _ => .bind (hp _) fun _ => .bind (.ofExcept _) fun _ => ?_
  split
  · trivial
  · exact .bind (.ofExcept _) fun _ => lookup_silent env _ _

theorem AccountFor.configured {env : Env} {w : World Store K} {m : Msg} {a : Str} (h : AccountFor env w m a) : Configured w a := by
  rcases h with ⟨_, _, _, _, h, _⟩ | ⟨_, h, _⟩
  · exact h.1.1
  · exact h.1.1

theorem routing_said {O : Oracle K} {env : Env} {w w' : World Store K} (hw : Sane env w) {m : Msg} {r : Except Exc (Option Str)}
    (h : run Store.impl O (Manager.getMatchingAccount env m) w = (r, w')) :
    Said w w' [] ∧ ∀ o, r = .ok o → ∃ a, o = some a ∧ AccountFor env w m a ∧ env.isalnum a = true := by
  obtain ⟨h1, h2⟩ := silent_printed (getMatchingAccount_silent env m) h
  have hst := routing_store (O := O) hw m
  rw [exec, h] at hst
  refine ⟨⟨hst, by rw [h1, List.append_nil], h2, trace_le h⟩, ?_⟩
  rintro o rfl
  obtain ⟨a, rfl, ha⟩ := routing_sound (O := O) (env := env) hw.wf m (o := o) (by rw [exec, h])
  exact ⟨a, rfl, ha, hw.alnum a (AccountFor.configured ha).log_ne⟩

/-- C98: `process-incoming` with status 0 prints one line. It processed the message for the account to use and touched only peers of
this account. A message which is recorded is not processed again unless asked for. -/
theorem C98_process_incoming {O : Oracle K} {ce : CmdEnv} {be : BotEnv} {env : Env} {n : Option Str} {reparse nd : Bool} {m : Msg}
    {w w' : World Store K} (hw : Reachable O env w)
    (h : exec O ((Cmd.Command.processIncoming n reparse nd m).prog ce be env) w = (.ok 0, w')) :
    ∃ a line, AccountToUse env w m n a ∧ w'.printed = w.printed ++ [.line line] ∧ w'.piped = w.piped ∧
      (∀ hd, (∀ p, hd ≠ peerHead a p) → w'.log hd = w.log hd) ∧ IncomingLine env reparse m a w w' line := by
  have hb := ok0_body h
  simp only [Cmd.Command.body, bind_eq, pure_eq] at hb
  obtain ⟨rep, w1, h1, g1⟩ := run_bind_ok.mp hb
  obtain ⟨_, w2, h2, g2⟩ := run_bind_ok.mp g1
  have e2 : w2 = w' := congrArg Prod.snd g2
  subst e2
  unfold Cmd.processIncoming at h1
  simp only [bind_eq, pure_eq] at h1
  obtain ⟨a, w3, h3, g3⟩ := run_bind_ok.mp h1
  obtain ⟨o, w4, h4, g4⟩ := run_bind_ok.mp g3
  have hacc : AccountToUse env w m n a ∧ env.isalnum a = true ∧ Said w w3 [] := by
    cases n with
    | some x =>
      obtain ⟨rfl, f1, f2, f3⟩ := getAccount_said hw.sane h3
      exact ⟨.inl ⟨_, rfl, rfl, f1⟩, f2, f3⟩
    | none =>
      dsimp only at h3
      obtain ⟨o, w5, h5, g5⟩ := run_bind_ok.mp h3
      obtain ⟨f1, f2⟩ := routing_said hw.sane h5
      obtain ⟨b, rfl, f3, f4⟩ := f2 o rfl
      cases g5
      exact ⟨.inr ⟨rfl, f3⟩, f4, f1⟩
  obtain ⟨k1, k2, k3⟩ := hacc
  obtain ⟨p1, p2⟩ := silent_printed (processIncoming_silent env a m (!reparse) nd) h4
  have hframe : ∀ hd, (∀ p, hd ≠ peerHead a p) → w4.log hd = w.log hd := by
    intro hd hne
    have := incoming_frame (O := O) (env := env) (n := a) (m := m) (i := !reparse) (nd := nd) w3 hd hne
    rw [exec, h4] at this
    exact this.trans (k3.log hd)
  have hrec : Recorded env w3 a m ↔ Recorded env w a m := by unfold Recorded; rw [k3.log]
  obtain ⟨d, -, ⟨rfl, i1, i2, i3⟩ | ⟨r, p, rfl, i1, i2, i3, -⟩⟩ := incoming_ok h4
  · cases g4
    have s2 := say_said h2
    refine ⟨a, _, k1, ?_, ?_, fun hd hne => (s2.log hd).trans (hframe hd hne),
      .known (Cmd.optStr (m.get (str!"Message-Id"))) (by simpa using i1) (hrec.mp i2) (s2.store.trans (i3.trans k3.store)) ?_⟩
    · rw [s2.printed, p1, k3.printed, List.append_nil]
    · rw [s2.piped, p2, k3.piped]
    · cases hid : m.get (str!"Message-Id") with
      | none => exact .none hid
      | some v => exact .some v hid
  · have hnew : reparse = true ∨ ¬ Recorded env w a m := i1.imp (by simp) fun h hr => h (hrec.mpr hr)
    dsimp only at g4
    rw [run_bind, run_chain, i2, i3] at g4
    dsimp only at g4
    split at g4
    · rename_i heq
      cases g4
      unfold Cmd.sayReport at h2
      simp only [bind_eq, pure_eq] at h2
      rw [run_bind, run_chain] at h2
      have s2 := say_said h2
      rw [C06_addr env k2] at s2
      refine ⟨a, _, k1, ?_, ?_, fun hd hne => (s2.log hd).trans (hframe hd hne), .found (Peer.publicKeyhandle (w2.log (peerHead a (senderAddr env m)))) hnew ?_ (shownKey _)⟩
      · rw [s2.printed, s2.log, p1, k3.printed, List.append_nil]; rfl
      · rw [s2.piped, p2, k3.piped]
      · rw [s2.log]; exact keyIsRecent_iff.mpr heq
    · rename_i heq
      cases g4
      have s2 := say_said h2
      refine ⟨a, _, k1, ?_, ?_, fun hd hne => (s2.log hd).trans (hframe hd hne), .noHeader hnew ?_⟩
      · rw [s2.printed, p1, k3.printed, List.append_nil]
      · rw [s2.piped, p2, k3.piped]
      · rw [s2.log]; exact fun hx => heq (keyIsRecent_iff.mp hx)

/-! ## C99 -/

theorem scanFile_silent (env : Env) (reparse : Bool) (now : Time) (f : Cmd.MailFile) : (Cmd.scanFile env reparse now f).AllOps Op.silent := by
  have h1 := getMatchingAccount_silent env f.msg
  have h2 := fun a => processIncoming_silent env a f.msg (!reparse) false
  unfold Cmd.scanFile Cmd.scanRoutable effectiveDate
  simp only [bind_eq, pure_eq]
  split
  · trivial
  split
  · trivial
  refine .bind (.ofExcept _) fun d => .bind (.bind (.now trivial) fun _ => trivial) fun t => ?_
  split
  · trivial
  refine .bind (.attempt h1) fun x => ?_
  split
  · split <;> trivial
  · trivial
  · refine .bind (.attempt (h2 _)) fun x => ?_
    split
    · split <;> trivial
    · trivial
    · split
      · trivial
      · exact .bind (.chain trivial) fun _ => trivial

theorem coloured {ce : CmdEnv} {t : Str} : Coloured ce t (if Py.contains (str!"no valid Autocrypt header") t then t else ce.red t) := by
  split
  · rename_i h; exact .plain t (contains_iff.mp h)
  · rename_i h; exact .red t fun hc => h (contains_iff.mpr hc)

/-- the text in the line, without the number -/
def numbered (ce : CmdEnv) (i : Nat) (t : Str) : Str := str!"[" ++ ce.intRepr i ++ str!"] " ++ t

theorem FileText.of_store {O : Oracle K} {ce : CmdEnv} {env : Env} {reparse : Bool} {now : Time} {f : Cmd.MailFile} {w w1 w2 : World Store K} {o : Option Str}
    (hs : w2.store = w1.store) (h : FileText O ce env reparse now f w w1 o) : FileText O ce env reparse now f w w2 o := by
  have hl : ∀ hd, w2.log hd = w1.log hd := fun hd => by unfold World.log; rw [hs]
  cases h with
  | oldFile a b => exact .oldFile a (hs.trans b)
  | noId a b c => exact .noId a b (hs.trans c)
  | oldDate id d a b c e g => exact .oldDate id d a b c e (hs.trans g)
  | unroutable id d e a b c g => exact .unroutable id d e a b c (hs.trans g)
  | undecryptable id d a u u' b c e g k => exact .undecryptable id d a u u' b c e (hs.trans g) k
  | known id d a b c e g k => exact .known id d a b c e g (hs.trans k)
  | found id d a v kh t upd i b c e g k l m n => exact .found id d a v kh t upd i b c e g (by rw [hl]; exact k) (by rw [hl]; exact l) m n
  | complaint id d a t c b e g k => exact .complaint id d a t c b e g k

theorem scanFile_text {O : Oracle K} {ce : CmdEnv} {env : Env} {w : World Store K} (hw : Sane env w) (reparse : Bool) (now : Time) (f : Cmd.MailFile) (i : Nat)
    {r : Cmd.ScanResult} {w' : World Store K} (h : run Store.impl O (Cmd.scanFile env reparse now f) w = (.ok r, w')) :
    ∃ o, Cmd.scanLine ce env i f r = o.map (numbered ce i) ∧ FileText O ce env reparse now f w w' o := by
  have hspec := C68_file hw reparse now f h
  unfold Cmd.scanFile at h
  cases hold : Cmd.isTooOld now f.mtime with
  | true =>
    rw [hold, if_pos rfl] at h
    cases h
    refine ⟨_, ?_, .oldFile (fun hr => by rw [isTooOld_false.mpr hr] at hold; cases hold) rfl⟩
    simp [Cmd.scanLine, numbered]
  | false =>
    have hrec := isTooOld_false.mp hold
    rw [hold, if_neg (by simp)] at h
    cases hid : f.msg.get (str!"Message-Id") with
    | none =>
      rw [show f.msg.get (str!"message-id") = none from hid, if_pos (by rfl)] at h
      cases h
      exact ⟨none, rfl, .noId hrec hid rfl⟩
    | some id =>
      have hid' : f.msg.get (str!"message-id") = some id := hid
      rw [hid', if_neg (by simp)] at h
      simp only [bind_eq, pure_eq] at h
      rw [run_bind, run_ofExcept] at h
      cases hd : parseDateToFloat env (f.msg.get (str!"Date")) with
      | error e => rw [hd] at h; cases h
      | ok d =>
        rw [hd] at h
        have hdate := parseDateToFloat_ok.mp hd
        dsimp only at h
        unfold effectiveDate at h
        simp only [bind_eq, pure_eq] at h
        rw [run_bind, run_bind, run_now] at h
        dsimp only [run] at h
        cases hold2 : Cmd.isTooOld now (min d (w.clock w.tick)) with
        | true =>
          rw [hold2, if_pos rfl] at h
          cases h
          refine ⟨_, ?_, .oldDate id d hrec hid hdate (fun hr => by rw [isTooOld_false.mpr hr] at hold2; cases hold2) rfl⟩
          simp [Cmd.scanLine, hid', numbered]
        | false =>
          have hcur : Current env now f w id d := ⟨hrec, hid, hdate, isTooOld_false.mp hold2⟩
          rw [hold2, if_neg (by simp)] at h
          unfold Cmd.scanRoutable at h
          simp only [bind_eq, pure_eq] at h
          rw [run_bind, run_attempt] at h
          have hw1 : Sane env { w with tick := w.tick + 1 } := ⟨hw.wf, hw.alnum, hw.init⟩
          have hclk := run_clock (S := Store.impl) (O := O) (Manager.getMatchingAccount env f.msg) { w with tick := w.tick + 1 }
          rcases hm : run Store.impl O (Manager.getMatchingAccount env f.msg) { w with tick := w.tick + 1 } with ⟨e | o, w2⟩ <;>
            rw [hm] at h hclk <;> obtain ⟨s2, a2⟩ := routing_said hw1 hm <;> dsimp only at h
          · split at h
            · rename_i he
              cases h
              refine ⟨_, ?_, .unroutable id d e hcur (by rw [exec, hm]) ?_ s2.store⟩
              · simp [Cmd.scanLine, hid', numbered]
              · simpa [Cmd.isValueError] using he
            · cases h
          obtain ⟨a, rfl, hfor, hal⟩ := a2 o rfl
          have hfor : AccountFor env w f.msg a := hfor
          have hst2 : w2.store = w.store := s2.store
          dsimp only at h
          rw [run_bind, run_attempt] at h
          rcases hp : run Store.impl O (Account.processIncoming env a f.msg (!reparse) false) w2 with ⟨e | x, w3⟩ <;> rw [hp] at h <;> dsimp only at h
          · split at h
            · rename_i he
              cases h
              have hb : Due env reparse now f w a := by
                refine ⟨hrec, by rw [hid]; rfl, ⟨d, hdate, isTooOld_false.mp hold2⟩, hfor, ?_⟩
                cases reparse with
                | true => exact .inl rfl
                | false =>
                  refine .inr fun hk => ?_
                  have hk2 : Recorded env w2 a f.msg := by
                    unfold Recorded at hk ⊢
                    rw [show w2.log = w.log by funext hd; unfold World.log; rw [hst2]]
                    exact hk
                  have := (C16_known_message_skipped_partial O env w2 a f.msg false hk2 _ _ hp).2.2.2 d (parseDateToFloat_ok.mp hd)
                  cases this
              refine ⟨_, ?_, .undecryptable id d a w2 _ hcur hb hst2 rfl (by rw [← he]; exact hp)⟩
              simp [Cmd.scanLine, hid', numbered]
            · cases h
          obtain ⟨d2, hd2, hcase⟩ := incoming_ok hp
          have hdd : d2 = d := by
            have := parseDateToFloat_ok.mpr hd2
            rw [hd] at this
            exact (Except.ok.inj this).symm
          subst hdd
          rcases hcase with ⟨rfl, i1, i2, i3⟩ | ⟨r', p, rfl, i1, i2, i3, i4, i5, i6⟩
          · cases h
            refine ⟨_, ?_, .known id d2 a hcur hfor (by simpa using i1) ?_ (i3.trans hst2)⟩
            · simp [Cmd.scanLine, Cmd.scanStatus, hid', numbered]
            · unfold Recorded at i2 ⊢
              rw [show w.log = w2.log by funext hd; unfold World.log; rw [hst2]]
              exact i2
          · dsimp only at h
            split at h
            · rename_i e he
              cases h
              obtain ⟨b, hb, hb2, -⟩ := hspec (.inr ⟨_, rfl, trivial⟩)
              have : a = b := hb2 _ _ rfl rfl
              subst this
              refine ⟨_, ?_, .complaint id d2 a (Cmd.acErrText ce (senderAddr env f.msg) e) _ hcur hb ?_ coloured⟩
              · simp [Cmd.scanLine, Cmd.scanStatus, hid', numbered, senderAddr]; rfl
              · rcases i6 with rfl | ⟨j1, j2, u, u', j3⟩
                · exact parseOne_complaint i5 he
                · rw [j2] at he
                  cases he
                  obtain ⟨k1, v, k, k2, k3, k4⟩ := parseOne_good i5 j1
                  rw [k4] at j3
                  exact .refused v p k u u' k1 k2 k3 k4 j3
            · rename_i he
              rw [run_bind, run_chain] at h
              cases h
              obtain ⟨b, hb, hb2, -⟩ := hspec (.inr ⟨_, rfl, trivial⟩)
              have : a = b := hb2 _ _ rfl rfl
              subst this
              have hpe : p.error = none := by
                rcases i6 with rfl | ⟨j1, -⟩
                · exact he
                · exact j1
              obtain ⟨k1, v, k, k2, k3, k4⟩ := parseOne_good i5 hpe
              refine ⟨_, ?_, .found id d2 a v _ _
                (if r'.date = Peer.acTimestamp (w'.log (peerHead a (senderAddr env f.msg))) then ce.green (str!" (updated)") else str!" (old)")
                w2.tick hcur hb k1 k2 (shownKey _) (acDate _) ?_ ?_⟩
              · rw [i2, C06_addr env hal]
                simp [Cmd.scanLine, Cmd.scanStatus, hid', numbered, World.log]; rfl
              · have := hclk.2; dsimp only at this; omega
              · have hc : w2.clock = w.clock := hclk.1
                rw [i4, hc]
                split
                · exact .inl ⟨by assumption, rfl⟩
                · exact .inr ⟨by assumption, rfl⟩

theorem sayOpt_said {O : Oracle K} {o : Option Str} {w w' : World Store K} {r : Except Exc Unit} (h : run Store.impl O (Cmd.sayOpt o) w = (r, w')) :
    Said w w' (o.toList.map .line) := by
  cases o with
  | none => cases h; exact .rfl' _
  | some l => exact say_said h

theorem Sane.of_store {env : Env} {w w' : World Store K} (hs : w'.store = w.store) (h : Sane env w) : Sane env w' := by
  have hl : ∀ hd, w'.log hd = w.log hd := fun hd => by unfold World.log; rw [hs]
  exact ⟨by rw [hs]; exact h.wf, fun n hn => h.alnum n (by rw [← hl]; exact hn), fun n hn => by
    obtain ⟨v, hv⟩ := h.init n (by rw [← hl]; exact hn)
    exact ⟨v, by rw [hl]; exact hv⟩⟩

theorem scanFiles_output {O : Oracle K} {ce : CmdEnv} {env : Env} (reparse : Bool) (now : Time) (i : Nat) (files : List Cmd.MailFile) {w : World Store K}
    (hw : Sane env w) {rs : List Cmd.ScanResult} {w' : World Store K}
    (h : run Store.impl O (Cmd.scanFiles ce env reparse now i files) w = (.ok rs, w')) :
    ∃ ls, w'.printed = w.printed ++ ls.map .line ∧ w'.piped = w.piped ∧ ScanOutput O ce env reparse now i w files ls w' := by
  induction files generalizing i w rs w' with
  | nil => cases h; exact ⟨[], by simp, rfl, .done _ _⟩
  | cons f fs ih =>
    unfold Cmd.scanFiles at h
    simp only [bind_eq, pure_eq] at h
    obtain ⟨r, w1, h1, g1⟩ := run_bind_ok.mp h
    obtain ⟨_, w2, h2, g2⟩ := run_bind_ok.mp g1
    obtain ⟨rs', w3, h3, g3⟩ := run_bind_ok.mp g2
    have e3 : w3 = w' := congrArg Prod.snd g3
    subst e3
    have hs := Sane.scan (O := O) (safe_scanFile env reparse now f) hw
    rw [exec, h1] at hs
    obtain ⟨p1, p2⟩ := silent_printed (scanFile_silent env reparse now f) h1
    obtain ⟨o, t1, t2⟩ := scanFile_text (ce := ce) hw reparse now f i h1
    have s2 := sayOpt_said h2
    obtain ⟨ls, q1, q2, q3⟩ := ih (i + 1) (hs.of_store s2.store) h3
    have t3 := t2.of_store s2.store
    rw [t1] at s2
    cases o with
    | none =>
      refine ⟨ls, ?_, by rw [q2, s2.piped, p2], .nothing i w w2 w3 f fs ls t3 q3⟩
      rw [q1, s2.printed, p1]; simp
    | some t =>
      refine ⟨numbered ce i t :: ls, ?_, by rw [q2, s2.piped, p2], .line i w w2 w3 f fs t ls t3 q3⟩
      rw [q1, s2.printed, p1]; simp

/-- C99: `scandir-incoming` with status 0 prints, in the order of the files, one numbered line for every file, except for recent files whose
message has no id. The line tells what happened to the file. -/
theorem C99_scandir {O : Oracle K} {ce : CmdEnv} {be : BotEnv} {env : Env} {reparse : Bool} {files : List Cmd.MailFile} {w w' : World Store K}
    (hw : Reachable O env w) (h : exec O ((Cmd.Command.scandir reparse files).prog ce be env) w = (.ok 0, w')) :
    ∃ ls, w'.printed = w.printed ++ ls.map .line ∧ w'.piped = w.piped ∧
      ScanOutput O ce env reparse (w.clock w.tick) 0 { w with tick := w.tick + 1 } files ls w' := by
  have hb := ok0_body h
  simp only [Cmd.Command.body, bind_eq, pure_eq] at hb
  obtain ⟨rs, w1, h1, g1⟩ := run_bind_ok.mp hb
  have e1 : w1 = w' := congrArg Prod.snd g1
  subst e1
  have h' : run Store.impl O (Cmd.scanFiles ce env reparse (w.clock w.tick) 0 files) { w with tick := w.tick + 1 } = (.ok rs, w1) := h1
  exact scanFiles_output reparse _ 0 files (w := { w with tick := w.tick + 1 }) ⟨hw.sane.wf, hw.sane.alnum, hw.sane.init⟩ h'

open Concrete in
/-- C98: a message with a key, the same again, and one without key -/
example : lines (cmd [addA] (.processIncoming none false false (mail bob (str!"1") (str!"100") [7, 8]))).2.printed =
      [str!"processed mail for account 'a', found: PeerState addr=bob@x.org key=AAAAAAAAAAAA0708"] ∧
    (cmd [addA] (.processIncoming none false false (mail bob (str!"1") (str!"100") [7, 8]))).1.toOption = some 0 ∧
    lines (cmd twoMails (.processIncoming (some (str!"a")) false false (mail bob (str!"1") (str!"100") [7, 8]))).2.printed =
      [str!"message with 1 already known, skipping processing"] ∧
    lines (cmd [addA] (.processIncoming none false false (mail bob (str!"1") (str!"100") []))).2.printed =
      [str!"processed mail for account 'a', no Autocrypt header found"] :=
  ⟨by decide +kernel, by decide +kernel, by decide +kernel, by decide +kernel⟩

namespace Concrete

/-- an old file, a message without id, a new message, the same again, one without key, one with a broken header and one for nobody -/
def directory : List Cmd.MailFile :=
  [⟨str!"f0", 0, mail bob (str!"1") (str!"9999999") [7]⟩, ⟨str!"f1", sec 9999999, .mk [(str!"From", bob), (str!"To", str!"a@x.org")] (.text [])⟩,
   ⟨str!"f2", sec 9999999, mail bob (str!"1") (str!"9999999") [7]⟩, ⟨str!"f3", sec 9999999, mail bob (str!"1") (str!"9999999") [7]⟩,
   ⟨str!"f4", sec 9999999, mail bob (str!"2") (str!"9999999") []⟩,
   ⟨str!"f5", sec 9999999, (mail bob (str!"3") (str!"9999999") []).add (str!"Autocrypt") (str!"addr=bob@x.org; color=blue; keydata=AQI=")⟩,
   ⟨str!"f6", sec 9999999, .mk [(str!"From", bob), (str!"Message-Id", str!"4"), (str!"Date", str!"9999999")] (.text [])⟩]

end Concrete

open Concrete in
/-- C99 -/
example : lines (exec oracle ((Cmd.Command.scandir false directory).prog cmdEnv botEnv env) { after [addA] with clock := fun _ => sec 10000000 }).2.printed =
    [str!"[0] msgfile f0 older than 90 days, skipped",
     str!"[2] [a] msg 1 -- found Autocrypt addr=bob@x.org keyhandle=AAAAAAAAAAAA07<green> (updated)",
     str!"[3] [a] msg 1 -- already known message, skipped processing",
     str!"[4] [a] msg 2 -- no valid Autocrypt header found",
     str!"[5] [a] msg 3 -- <red>unknown critical attr 'color'",
     str!"[6] msg 4: error"] ∧
    (exec oracle ((Cmd.Command.scandir false directory).prog cmdEnv botEnv env) { after [addA] with clock := fun _ => sec 10000000 }).1.toOption = some 0 :=
  ⟨by decide +kernel, by decide +kernel⟩

end Verif
