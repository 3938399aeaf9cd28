import Verif.Props.Arguments
import Verif.Props.Bot
import Verif.Props.OutgoingExamples

/-!
C136 for commands after any history (`cmdline.py:41-367`, `bot.py:29-128`).
-/
namespace Verif
open Mime

/-- no command records a key given by its caller as that of a mail -/
theorem Cmd.Command.makes_no_record {cmd : Cmd.Command} {c : ApiCall} (h : cmd.makes c) : ¬ c.Records := by
  intro hr
  have hc : ∀ n ad u u', c ≠ .peerMsg n ad u ∧ c ≠ .peerGossip n ad u' := by
    intro n ad u u'
    rcases h with h | h
    · constructor <;> (rintro rfl; exact h)
    · unfold Cmd.Command.changes at h
      split at h
      all_goals first
        | (subst h; exact ⟨nofun, nofun⟩)
        | (obtain ⟨_, rfl⟩ := h; exact ⟨nofun, nofun⟩)
        | (obtain ⟨_, _, _, rfl⟩ := h; exact ⟨nofun, nofun⟩)
        | exact h.elim
  cases c with
  | peerMsg n ad u => exact (hc n ad u ⟨[], 0, none, none⟩).1 rfl
  | peerGossip n ad u => exact (hc n ad ⟨[], 0, none, none, none⟩ u).2 rfl
  | _ => exact hr

/-- C136: after any calls and commands which were interrupted anywhere, each argument with which a command runs gpg is a word of the program, the key given
by the user in this command, a key which gpg printed at some time, the name of a temporary file, or empty. -/
theorem C136_ever_commands {K : Type} (O : Oracle K) (env : Env) (hist : List (Happening K)) (hh : ∀ c ∈ callsMade hist, ¬ c.Records)
    (w0 : World Store K) (h0 : w0.store = []) (w : World Store K) (hw : w = runHistory Store.impl O env hist w0)
    (ce : CmdEnv) (be : BotEnv) (c : Cmd.Command) (w' : World Store K) (hw' : w' = (run Store.impl O (c.prog ce be env) w).2) :
    ∃ evs, w'.trace = evs ++ w.trace ∧ ∀ ev ∈ evs, ∀ argv stdin, ev.op = .gpg argv stdin →
      ∃ g args, argv = commandLine g args ∧ ∀ a ∈ args, a ∈ ownWords ∨ c.key = some a ∨ PrintedIn env w'.trace a ∨
        (⟨.mkTemp, .ok a⟩ : Event) ∈ evs ∨ a = [] := by
  subst hw hw'
  have hk : ∀ n, AllSourced env (runFor Store.impl O n (c.prog ce be env) (runHistory Store.impl O env hist w0)) := by
    intro n
    have := history_sourced O env (hist ++ [.commandKilled ce be c n]) (by
      rintro x ⟨h, hm, hx⟩
      rcases List.mem_append.mp hm with hm | hm
      · exact hh x ⟨h, hm, hx⟩
      · cases List.mem_singleton.mp hm
        exact Cmd.Command.makes_no_record hx) w0 h0
    rw [runHistory_append] at this
    exact this
  generalize runHistory Store.impl O env hist w0 = w at *
  obtain ⟨evs, h1, h2⟩ := didsOf_trace Store.impl O (c.prog ce be env) w
  refine ⟨evs, h1, fun ev hev argv stdin hop => ?_⟩
  obtain ⟨o, r⟩ := ev
  cases hop
  obtain ⟨pre, post, hs⟩ := List.append_of_mem ((h2 _).mp hev)
  have hall := C136_commands ce be env c (didsOf_path Store.impl O (c.prog ce be env) w)
  obtain ⟨g, args, h3, h4⟩ := hall pre _ post hs
  refine ⟨g, args, h3, fun a ha => ?_⟩
  have up : ∀ {d}, d ∈ ([] : List Did) ++ pre → d ∈ didsOf Store.impl O (c.prog ce be env) w := fun hm => by
    rw [hs]; exact List.mem_append_left _ (by simpa using hm)
  rcases h4 a ha with h | h | ⟨hd, es, e, h5, h6, h7⟩ | ⟨a', i, o, t, h5, h6⟩ | h
  · exact .inl h
  · exact .inr (.inl h)
  · obtain ⟨n, h8, h9⟩ := didsOf_reads O _ w (up h5)
    rcases (hk n hd e (by rw [h8]; exact h6)).printed h7 with h | h
    · exact .inr (.inr (.inr (.inr h)))
    · exact .inr (.inr (.inl (h.mono h9.subset)))
  · refine .inr (.inr (.inl ⟨a', i, o, t, ?_, h6⟩))
    rw [h1]; exact List.mem_append_left _ ((h2 (Gpg a' i o)).mpr (up h5))
  · exact .inr (.inr (.inr (.inl ((h2 _).mpr (up h)))))

open Concrete in
/-- after keys were recorded in all ways and one more command was interrupted, a command encrypts a mail to one of them -/
example : (∀ c ∈ callsMade (keyHistory ++ [.commandKilled cmdEnv botEnv (.addAccount (str!"b") false none (str!"gpg") none) 5]), ¬ c.Records) ∧
    world0.store = [] ∧
    ((run Store.impl oracle ((Cmd.Command.processOutgoing (letter (str!"yes"))).prog cmdEnv botEnv env)
      (runHistory Store.impl oracle env (keyHistory ++ [.commandKilled cmdEnv botEnv (.addAccount (str!"b") false none (str!"gpg") none) 5]) world0)).2.trace.any
        fun ev => match ev.op with
          | .gpg argv _ => argv.contains (str!"AAAAAAAAAAAA0102") && argv.contains (str!"--encrypt")
          | _ => false) = true := by
  refine ⟨?_, rfl, by decide +kernel⟩
  rintro c ⟨h, hh, hm⟩
  simp only [keyHistory, List.mem_append, List.mem_cons, List.not_mem_nil, or_false] at hh
  rcases hh with (rfl | rfl | rfl | rfl | rfl) | rfl
  iterate 5 (cases hm; exact id)
  exact Cmd.Command.makes_no_record hm

end Verif
