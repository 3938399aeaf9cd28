import Verif.Props.Bot
/-!
# Bots which answer bots (C138)

The reply of a bot may reach other bots. Here any number of bots is considered, each with its own installation, state and environment, and
mails which reach one of them after the other.
-/
namespace Verif
open Mime

variable {K : Type}

/-! ## Specification -/

/-- somewhere there is a bot which gets the mail `m`, delivered to the address `d`, and sends the reply `x` -/
def BotAnswers (d : Str) (m x : Msg) : Prop :=
  ∃ (K : Type) (O : Oracle K) (env : Env) (be : BotEnv) (v : BotStamp) (smtp fallback : Option Str) (w w' : World Store K) (res : Except Exc Unit),
    SetOrder be ∧ exec O (Bot.reply env be v smtp fallback m) w = (res, w') ∧ Replied w w' x ∧ DeliveredTo env m fallback d

/-- the mail `x` arrives as `m`: on the way everything but From and To may change -/
def OnTheWay (x m : Msg) : Prop := m.getAll (str!"From") = x.getAll (str!"From") ∧ m.getAll (str!"To") = x.getAll (str!"To")

/-- bots answer the mail `m`, then the reply, then the reply to this and so on: the addresses of the bots and their replies -/
inductive Conversation : Msg → List (Str × Msg) → Prop
  | done (m : Msg) : Conversation m []
  | answer {d : Str} {m x m' : Msg} {l : List (Str × Msg)} : BotAnswers d m x → OnTheWay x m' → Conversation m' l → Conversation m ((d, x) :: l)

/-! ## Lemmas -/

theorem DeliveredTo.unique {env : Env} {m : Msg} {g : Option Str} {d d' : Str} (h : DeliveredTo env m g d) (h' : DeliveredTo env m g d') : d = d' := by
  obtain ⟨h1, h2⟩ := h
  obtain ⟨h1', h2'⟩ := h'
  rcases h2 with h2 | ⟨h2, x, h3, h4, h5⟩ <;> rcases h2' with h2' | ⟨h2', y, h3', h4', h5'⟩
  · rw [h2, h2']
  · rw [h2'] at h2; exact absurd h2 h1
  · rw [h2] at h2'; exact absurd h2' h1'
  · rw [h3] at h3'; cases h3'; rw [h5, h5']

theorem get_head (m : Msg) (x : Str) : m.get x = (m.getAll x).head? := by
  unfold Msg.get Msg.getAll
  rw [List.head?_map, List.head?_filter]

/-- a bot answers to the sender, if its address is in the text of To -/
theorem BotAnswers.facts {d : Str} {m x : Msg} (h : BotAnswers d m x) :
    ∃ f t, m.get (str!"From") = some f ∧ m.get (str!"To") = some t ∧ d ≠ [] ∧ d <:+: t ∧ x.getAll (str!"From") = [d] ∧ x.getAll (str!"To") = [f] := by
  obtain ⟨K, O, env, be, v, smtp, fallback, w, w', res, hs, hr, hx, hd⟩ := h
  obtain ⟨d1, t, h1, h2, h3⟩ := C63_partial hr hx
  obtain ⟨d2, a, f, own, g1, _, g2, _, g3, g4, _⟩ := C64_partial hs hr hx
  cases h1.unique hd
  cases g1.unique hd
  exact ⟨f, t, g2, h2, hd.1, h3, g3, g4⟩

/-! ## The property -/

/-- C138, the part which holds: if no address of the bots is part of the text of From then bots answer the mail, but no bot answers their replies. -/
theorem C138_people_partial {m : Msg} {l : List (Str × Msg)} (h : Conversation m l) {f : Str} (hf : m.get (str!"From") = some f)
    (hp : ∀ p ∈ l, ¬ p.1 <:+: f) : l.length ≤ 1 := by
  cases h with
  | done => exact Nat.zero_le _
  | answer h1 h2 h3 =>
    cases h3 with
    | done => exact Nat.le_refl _
    | @answer d' _ x' m'' l' h4 h5 h6 =>
      obtain ⟨f', _, g1, _, _, _, _, g2⟩ := h1.facts
      obtain ⟨_, t, _, k1, _, k2, _⟩ := h4.facts
      rw [hf] at g1
      cases g1
      rw [get_head, h2.2, g2] at k1
      cases k1
      exact absurd k2 (hp (d', x') (List.mem_cons_of_mem _ (List.mem_cons_self ..)))

/-- in a conversation the bot after the next one has an address which is part of the address of this one -/
theorem Conversation.next {m : Msg} {l : List (Str × Msg)} (h : Conversation m l) {i : Nat} {p q : Str × Msg} (hp : l[i]? = some p)
    (hq : l[i + 2]? = some q) : q.1 <:+: p.1 := by
  induction h generalizing i with
  | done => cases hp
  | @answer d m x m' l h1 h2 h3 ih =>
    cases i with
    | succ i => exact ih (by simpa using hp) (by simpa using hq)
    | zero =>
      simp only [List.getElem?_cons_zero, Option.some.injEq] at hp
      subst hp
      cases h3 with
      | done => simp at hq
      | answer h4 h5 h6 =>
        cases h6 with
        | done => simp at hq
        | @answer d'' _ x'' _ l'' h7 h8 h9 =>
          simp only [Nat.zero_add, List.getElem?_cons_succ, List.getElem?_cons_zero, Option.some.injEq] at hq
          subst hq
          obtain ⟨_, _, _, _, _, _, g1, _⟩ := h1.facts
          obtain ⟨f, _, k0, _, _, _, _, k1⟩ := h4.facts
          obtain ⟨_, t, _, j1, _, j2, _⟩ := h7.facts
          rw [get_head, h2.1, g1] at k0
          cases k0
          rw [get_head, h5.2, k1] at j1
          cases j1
          exact j2

/-- C138, the part which holds: if no bot has an address which is part of the address of another one, then in every conversation there are at most two
bots which take turns, and the second one is the sender of the first mail (its address is part of From). -/
theorem C138_two_partial {m : Msg} {l : List (Str × Msg)} (h : Conversation m l) (ha : ∀ p ∈ l, ∀ q ∈ l, p.1 <:+: q.1 → p.1 = q.1) :
    (∀ i p q, l[i]? = some p → l[i + 2]? = some q → q.1 = p.1) ∧
    ∀ q, l[1]? = some q → ∃ f, m.get (str!"From") = some f ∧ q.1 <:+: f := by
  refine ⟨fun i p q hp hq => ha q (List.mem_of_getElem? hq) p (List.mem_of_getElem? hp) (h.next hp hq), fun q hq => ?_⟩
  cases h with
  | done => simp at hq
  | answer h1 h2 h3 =>
    cases h3 with
    | done => simp at hq
    | @answer d' _ x' m'' l' h4 h5 h6 =>
      simp only [List.getElem?_cons_succ, List.getElem?_cons_zero, Option.some.injEq] at hq
      subst hq
      obtain ⟨f, _, g1, _, _, _, _, g2⟩ := h1.facts
      obtain ⟨_, t, _, k1, _, k2, _⟩ := h4.facts
      rw [get_head, h2.2, g2] at k1
      cases k1
      exact ⟨f, g1, k2⟩

/-! ## It is false in general -/

section
open Concrete

/-- the state of the bots is the one of the examples for C63, its account serves all addresses -/
def botTurn (to_ from_ : Str) : Msg :=
  .mk [(str!"Delivered-To", to_), (str!"From", from_), (str!"To", to_), (str!"Message-ID", str!"7"), (str!"Date", str!"100"), (str!"Subject", str!"s")]
    (.text (str!"hi"))

theorem botTurn_answers {a b : Str}
    (h : (delivered (botRun none (botTurn a b)).2.trace).map (fun x => (x.getAll (str!"From"), x.getAll (str!"To"))) = [([a], [b])])
    (hd : DeliveredTo Concrete.env (botTurn a b) none a) :
    ∃ y, BotAnswers a (botTurn a b) y ∧ y.getAll (str!"From") = [a] ∧ y.getAll (str!"To") = [b] := by
  obtain ⟨y, hy, he⟩ := botRun_replied h
  simp only [Prod.mk.injEq] at he
  exact ⟨y, ⟨Unit, oracle, Concrete.env, botEnv, botValues, none, none, recWorld, _, _, botEnv_set, rfl, hy, hd⟩, he⟩

/-- a mail from Bob, who is no bot: the bot answers. So the hypotheses of `C138_people_partial` hold. -/
example : ∃ x, Conversation (botTurn (str!"bot@x.org") bob) [(str!"bot@x.org", x)] ∧ ¬ str!"bot@x.org" <:+: bob := by
  obtain ⟨x, hx, _⟩ := botTurn_answers (a := str!"bot@x.org") (b := bob) (by decide +kernel) (by spec_mail; decide +kernel)
  exact ⟨x, .answer hx (m' := x) ⟨rfl, rfl⟩ (.done _), by decide⟩

/-- The state after a turn, with the reply as it arrives at the other bot: here an installation with two addresses is both of them. Each turn is
answered, though the bot has answered before. -/
def botSteps : Nat → World Store Unit × Msg
  | 0 => (recWorld, botTurn (str!"bot@x.org") (str!"carol@x.org"))
  | n + 1 =>
    let (w, m) := botSteps n
    let r := exec oracle (Bot.reply Concrete.env botEnv botValues none none m) w
    match (delivered r.2.trace).head? with
    | some x => (r.2, .mk ((str!"Delivered-To", (x.get (str!"To")).getD []) :: x.headers) x.payload)
    | none => (r.2, m)

example : (delivered (botSteps 4).1.trace).map (fun x => (x.getAll (str!"From"), x.getAll (str!"To"), x.getAll (str!"Subject"))) =
    [([str!"carol@x.org"], [str!"bot@x.org"], [str!"Re: Re: Re: Re: s"]), ([str!"bot@x.org"], [str!"carol@x.org"], [str!"Re: Re: Re: s"]),
     ([str!"carol@x.org"], [str!"bot@x.org"], [str!"Re: Re: s"]), ([str!"bot@x.org"], [str!"carol@x.org"], [str!"Re: s"])] := by
  decide +kernel

/-- C138 is false: two bots answer each other without end, if one of them is the sender of a mail to the other one. -/
theorem C138_refuted (n : Nat) : ∃ (m : Msg) (l : List (Str × Msg)), m.getAll (str!"From") = [str!"carol@x.org"] ∧
    Conversation m l ∧ l.length = n := by
  obtain ⟨x, hx, h1, h2⟩ := botTurn_answers (a := str!"bot@x.org") (b := str!"carol@x.org") (by decide +kernel) (by spec_mail; decide +kernel)
  obtain ⟨y, hy, h3, h4⟩ := botTurn_answers (a := str!"carol@x.org") (b := str!"bot@x.org") (by decide +kernel) (by spec_mail; decide +kernel)
  have key : ∀ n, (∃ l, Conversation (botTurn (str!"bot@x.org") (str!"carol@x.org")) l ∧ l.length = n) ∧
      ∃ l, Conversation (botTurn (str!"carol@x.org") (str!"bot@x.org")) l ∧ l.length = n := by
    intro n
    induction n with
    | zero => exact ⟨⟨[], .done _, rfl⟩, ⟨[], .done _, rfl⟩⟩
    | succ n ih =>
      obtain ⟨⟨l, i1, i2⟩, ⟨l', i3, i4⟩⟩ := ih
      refine ⟨⟨_, .answer hx ⟨?_, ?_⟩ i3, by rw [List.length_cons, i4]⟩, ⟨_, .answer hy ⟨?_, ?_⟩ i1, by rw [List.length_cons, i2]⟩⟩
      · rw [h1]; decide +kernel
      · rw [h2]; decide +kernel
      · rw [h3]; decide +kernel
      · rw [h4]; decide +kernel
  obtain ⟨⟨l, h5, h6⟩, _⟩ := key n
  exact ⟨_, l, by decide +kernel, h5, h6⟩

end

end Verif
