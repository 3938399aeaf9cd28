import Verif.Props.BotReply
/-!
# All fields of the bot's reply (C64)

`C64_partial` tells the values of some fields of the reply. Here is that there are no others: nothing else of the message which is answered gets into
the fields of the reply, which are readable for everybody even if it is encrypted.
-/
namespace Verif
open Mime

variable {K : Type}

/-- **C64**, the fields: apart from those about the content, a reply has From, To, Cc if there are other recipients, Message-ID, Subject, Date,
In-Reply-To and Autocrypt, in this order, each once, and no others, encrypted or not. Message-ID and Date are those which were made for the reply. The
fields about the content are Content-Type, and in a reply which is not encrypted MIME-Version and Content-Transfer-Encoding. -/
theorem C64_fields {O : Oracle K} {env : Env} {be : BotEnv} {v : BotStamp} {smtp fallback : Option Str} {m : Msg} {w w' : World Store K}
    {res : Except Exc Unit} (h : exec O (Bot.reply env be v smtp fallback m) w = (res, w')) {x : Msg} (hx : Replied w w' x) :
    (∃ content cc : List Str, x.headers.map Prod.fst = content ++ [str!"From", str!"To"] ++ cc ++
        [str!"Message-ID", str!"Subject", str!"Date", str!"In-Reply-To", str!"Autocrypt"] ∧
      (content = [str!"Content-Type", str!"MIME-Version", str!"Content-Transfer-Encoding"] ∧ isEncrypted x = .ok false ∨
        content = [str!"Content-Type"] ∧ isEncrypted x = .ok true) ∧
      (cc = [] ∨ cc = [str!"Cc"])) ∧
    x.getAll (str!"Message-ID") = [v.msgId] ∧ x.getAll (str!"Date") = [v.date] := by
  obtain ⟨d, a, f, r, pr, told, keys, kh, w1, w2, w3, w4, w5, w6, w7, -, hs⟩ := reply_sent h hx
  have hm := hs.made
  clear hs h
  obtain ⟨vv, hvv, hv⟩ : ∃ vv : BotValues, (⟨v, be.rep.encodeText (Report.text (Report.script be.rep m d pr.account told keys kh r))⟩ : BotValues) = vv ∧
    vv.toBotStamp = v := ⟨_, rfl, rfl⟩
  rw [hvv] at hm
  subst hv
  simp only [Bot.makeReply, bind_eq, pure_eq] at hm
  obtain ⟨cc, w8, h8, hm⟩ := run_bind_ok.mp hm
  obtain ⟨ac, w9, h9, hm⟩ := run_bind_ok.mp hm
  obtain ⟨kd, c, -, -, k7⟩ := makeAcHeader_ok h9
  have hac := makeAcHeaderValue_ne k7
  obtain ⟨y, ys, rfl⟩ := List.exists_cons_of_ne_nil hac
  split at hm
  · obtain ⟨er, w10, h10, hm⟩ := run_bind_ok.mp hm
    obtain ⟨ok, w11, h11, hm⟩ := run_bind_ok.mp hm
    obtain ⟨_, w12, h12, hm⟩ := run_bind_ok.mp hm
    cases hm
    obtain ⟨new7, e7⟩ := trace_le h10
    obtain ⟨khs, own, r2k, p, p', data, argv, out', -, -, -, -, -, -, p7, -⟩ := encryptMime_ok h10 e7.symm
    rw [p7]
    refine ⟨⟨[str!"Content-Type"], if cc.isEmpty then [] else [str!"Cc"], ?_, .inr ⟨rfl, isEncrypted_encMessage _ _⟩, ?_⟩, ?_, ?_⟩
    · cases cc <;> rfl
    · cases cc <;> simp
    · rw [getAll_encMessage _ _ (by decide)]; cases cc <;> rfl
    · rw [getAll_encMessage _ _ (by decide)]; cases cc <;> rfl
  · cases hm
    refine ⟨⟨_, if cc.isEmpty then [] else [str!"Cc"], ?_, .inl ⟨rfl, rfl⟩, ?_⟩, ?_, ?_⟩ <;> cases cc <;> first | rfl | simp

section
open Concrete

/-- an instance of C64_fields: the fields of a reply to a message with another recipient -/
example : ∃ x, Replied recWorld (botRun none (botMail bob (str!"bot@x.org") (str!"carol@x.org"))).2 x ∧
    x.headers.map Prod.fst = [str!"Content-Type", str!"From", str!"To", str!"Cc", str!"Message-ID", str!"Subject", str!"Date", str!"In-Reply-To",
      str!"Autocrypt"] := by
  obtain ⟨x, hx, h⟩ := botRun_replied (smtp := none) (m := botMail bob (str!"bot@x.org") (str!"carol@x.org")) (g := fun x => x.headers.map Prod.fst)
    (y := [str!"Content-Type", str!"From", str!"To", str!"Cc", str!"Message-ID", str!"Subject", str!"Date", str!"In-Reply-To", str!"Autocrypt"])
    (by decide +kernel)
  exact ⟨x, hx, h⟩

end

end Verif
