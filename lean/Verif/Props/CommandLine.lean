/-
C118: the words of a command line.
-/
import Verif.Model.CommandLine
import Verif.Spec.CommandLine

namespace Toron.CommandLine

open Toron.Selectors (PyStr)

theorem isHelp_iff (w : PyStr) : isHelp w = true ↔ Help w := by
  unfold isHelp Help
  rw [Bool.or_eq_true, beq_iff_eq, beq_iff_eq]
  exact Iff.rfl

theorem isPositional_iff (w : PyStr) : isPositional w = true ↔ Word w := by
  unfold isPositional Word
  rw [bne_iff_ne]
  cases w with
  | nil => simp
  | cons a t => simp

theorem any_help_iff (args : List PyStr) : args.any isHelp = true ↔ AsksHelp args := by
  rw [List.any_eq_true]
  exact exists_congr fun w => and_congr_right fun _ => isHelp_iff w

theorem not_help_of_word {w : PyStr} (h : Word w) : ¬ Help w := by
  rintro (rfl | rfl)
  · exact h ⟨_, rfl⟩
  · exact h ⟨_, rfl⟩

theorem positionals_append {o : List PyStr} (ho : Options o) (l : List PyStr) : positionals (o ++ l) = positionals l := by
  induction o with
  | nil => rfl
  | cons w o ih =>
    have hw := ho w (List.mem_cons_self ..)
    have h1 : isHelp w = false := by rw [← Bool.not_eq_true, isHelp_iff]; exact hw.2
    have h2 : isPositional w = false := by rw [← Bool.not_eq_true, isPositional_iff]; exact hw.1
    rw [← ih fun x hx => ho x (List.mem_cons_of_mem _ hx)]
    unfold positionals
    rw [List.cons_append, List.takeWhile_cons_of_pos (by rw [h1]; rfl), List.filter_cons_of_neg (by rw [h2]; simp)]

theorem positionals_word {f : PyStr} (hf : Word f) (l : List PyStr) : positionals (f :: l) = f :: positionals l := by
  have h1 : isHelp f = false := by rw [← Bool.not_eq_true, isHelp_iff]; exact not_help_of_word hf
  have h2 : isPositional f = true := (isPositional_iff f).2 hf
  unfold positionals
  rw [List.takeWhile_cons_of_pos (by rw [h1]; rfl), List.filter_cons_of_pos h2]

/-- Either there is no word before the first request for help, or the first one can be split off. -/
theorem positionals_cases (args : List PyStr) :
    positionals args = [] ∨ ∃ o f rest, args = o ++ f :: rest ∧ Options o ∧ Word f ∧
      positionals args = f :: positionals rest := by
  induction args with
  | nil => exact .inl rfl
  | cons w l ih =>
    by_cases hw : Word w
    · exact .inr ⟨[], w, l, rfl, fun _ h => absurd h List.not_mem_nil, hw, positionals_word hw l⟩
    · by_cases hh : Help w
      · left
        unfold positionals
        rw [List.takeWhile_cons_of_neg (by rw [(isHelp_iff w).2 hh]; simp)]
        rfl
      · have ho : Options [w] := fun x hx => by rw [List.mem_singleton.1 hx]; exact ⟨hw, hh⟩
        have h1 : positionals (w :: l) = positionals l := positionals_append ho l
        rcases ih with h | ⟨o, f, rest, rfl, h2, h3, h4⟩
        · exact .inl (by rw [h1, h])
        · refine .inr ⟨w :: o, f, rest, rfl, ?_, h3, by rw [h1, h4]⟩
          intro x hx
          rcases List.mem_cons.1 hx with rfl | hx
          · exact ⟨hw, hh⟩
          · exact h2 x hx

theorem startsWith_iff (args : List PyStr) (f : PyStr) : StartsWith args f ↔ (positionals args)[0]? = some f := by
  constructor
  · rintro ⟨o, rest, rfl, ho, hf⟩
    rw [positionals_append ho, positionals_word hf]
    rfl
  · intro h
    rcases positionals_cases args with h1 | ⟨o, g, rest, rfl, ho, hg, h1⟩
    · rw [h1] at h
      cases h
    · rw [h1] at h
      cases h
      exact ⟨o, rest, rfl, ho, hg⟩

theorem reads_iff (args : List PyStr) (f c : PyStr) :
    Reads args f c ↔ (positionals args)[0]? = some f ∧ (positionals args)[1]? = some c := by
  constructor
  · rintro ⟨o, o', rest, rfl, ho, ho', hf, hc⟩
    rw [positionals_append ho, positionals_word hf, positionals_append ho', positionals_word hc]
    exact ⟨rfl, rfl⟩
  · rintro ⟨h0, h1⟩
    rcases positionals_cases args with h2 | ⟨o, g, rest, rfl, ho, hg, h2⟩
    · rw [h2] at h0
      cases h0
    · rw [h2] at h0 h1
      cases h0
      change (positionals rest)[0]? = some c at h1
      obtain ⟨o', rest', rfl, ho', hc⟩ := (startsWith_iff rest c).2 h1
      exact ⟨o, o', rest', rfl, ho, ho', hg, hc⟩

theorem isCommand_some (choices : List PyStr) (w : PyStr) : isCommand choices (some w) = decide (w ∈ choices) := rfl

/-- No word is lost or changes its place: a file name may be put in front when help is asked for, and `info` at the end of a single
word, nothing else. -/
theorem C118_words (choices : List PyStr) (isFile : PyStr → Bool) (args : List PyStr) :
    (preprocess choices isFile args = args) ∨
    (AsksHelp args ∧ preprocess choices isFile args = "<dummy-filename>".toList :: args) ∨
    (¬ AsksHelp args ∧ (∃ w, args = [w]) ∧ preprocess choices isFile args = args ++ ["info".toList]) := by
  unfold preprocess
  by_cases hh : args.any isHelp = true
  · rw [if_pos hh]
    dsimp only
    split
    · exact .inr (.inl ⟨(any_help_iff args).1 hh, rfl⟩)
    · exact .inl rfl
  · rw [if_neg hh]
    split
    · rename_i h1
      exact .inr (.inr ⟨fun h => hh ((any_help_iff args).2 h), List.length_eq_one_iff.1 h1, rfl⟩)
    · exact .inl rfl

/-- A single word is a file, and its command is `info`. -/
theorem C118_info (choices : List PyStr) (isFile : PyStr → Bool) {f : PyStr} (h : ¬ Help f) :
    preprocess choices isFile [f] = [f, "info".toList] := by
  unfold preprocess
  rw [if_neg]
  · rfl
  · rw [any_help_iff]
    rintro ⟨w, hw, hh⟩
    rw [List.mem_singleton.1 hw] at hh
    exact h hh

example : preprocess ["info".toList, "init".toList] (fun _ => true) ["x.toron".toList] = ["x.toron".toList, "info".toList] := by
  decide +kernel

/-- Whoever asks for help about a command gets help about this command, with or without a file: if the second word is a command it
is taken as the command, and otherwise, if the first word is a command, this one is. -/
theorem C118_help {choices : List PyStr} (isFile : PyStr → Bool) {args : List PyStr} (hh : AsksHelp args) :
    (∀ f c, Reads args f c → c ∈ choices → preprocess choices isFile args = args) ∧
    (∀ c, StartsWith args c → c ∈ choices → (∀ c', Reads args c c' → c' ∉ choices) →
      ∃ f, Reads (preprocess choices isFile args) f c ∧ AsksHelp (preprocess choices isFile args)) := by
  have hh' := (any_help_iff args).2 hh
  unfold preprocess
  rw [if_pos hh']
  dsimp only
  constructor
  · intro f c hr hc
    obtain ⟨h0, h1⟩ := (reads_iff args f c).1 hr
    rw [h1, isCommand_some, decide_eq_true hc]
    rfl
  · intro c hs hc hno
    have h0 := (startsWith_iff args c).1 hs
    have h1 : isCommand choices (positionals args)[1]? = false := by
      cases h : (positionals args)[1]? with
      | none => rfl
      | some c' =>
        rw [isCommand_some, decide_eq_false_iff_not]
        exact hno c' ((reads_iff args c c').2 ⟨h0, h⟩)
    rw [h1, h0, isCommand_some, decide_eq_true hc]
    refine ⟨dummy, ?_, ?_⟩
    · obtain ⟨o, rest, rfl, ho, hw⟩ := hs
      refine ⟨[], o, rest, rfl, fun _ h => absurd h List.not_mem_nil, ho, ?_, hw⟩
      rintro ⟨t, ht⟩
      cases ht
    · obtain ⟨w, hw, h⟩ := hh
      exact ⟨w, List.mem_cons_of_mem _ hw, h⟩

example : AsksHelp ["init".toList, "-h".toList] ∧ StartsWith ["init".toList, "-h".toList] "init".toList ∧
    ∀ c', ¬ Reads ["init".toList, "-h".toList] "init".toList c' := by
  refine ⟨⟨_, List.mem_cons_of_mem _ (List.mem_singleton.2 rfl), .inl rfl⟩, (startsWith_iff _ _).2 (by decide +kernel), ?_⟩
  intro c' h
  have h1 := ((reads_iff _ _ _).1 h).2
  have h2 : (positionals ["init".toList, "-h".toList])[1]? = none := by decide +kernel
  rw [h2] at h1
  cases h1

/-- A request for help that names no command and no file, or only a file that exists, is given on as it is: the help about the
program. -/
theorem C118_program_help {choices : List PyStr} {isFile : PyStr → Bool} {args : List PyStr} (hh : AsksHelp args)
    (h : ∀ f, StartsWith args f → f ∉ choices ∧ isFile f = true) : preprocess choices isFile args = args := by
  have hh' := (any_help_iff args).2 hh
  unfold preprocess
  rw [if_pos hh']
  dsimp only
  rw [if_neg]
  rw [Bool.and_eq_true, not_and]
  intro _
  cases h0 : (positionals args)[0]? with
  | none => simp [isCommand]
  | some f =>
    obtain ⟨h1, h2⟩ := h f ((startsWith_iff args f).2 h0)
    rw [isCommand_some, decide_eq_false h1]
    simp [h2]

example : preprocess ["init".toList] (fun _ => false) ["--help".toList] = ["--help".toList] := by decide +kernel

/-- Violated: a file name for which there is no file, with a request for help, is taken as a command (and the program complains
about an unknown command instead of printing its help). -/
theorem C118_violated_no_file {choices : List PyStr} {isFile : PyStr → Bool} {f : PyStr} (hw : Word f) (h0 : f ≠ [])
    (hf : isFile f = false) (hc : f ∉ choices) :
    ∃ d, Reads (preprocess choices isFile [f, "-h".toList]) d f := by
  have h1 : positionals [f, "-h".toList] = [f] := by
    rw [positionals_word hw]
    rfl
  have hh : [f, "-h".toList].any isHelp = true :=
    (any_help_iff _).2 ⟨_, List.mem_cons_of_mem _ (List.mem_singleton.2 rfl), .inl rfl⟩
  unfold preprocess
  rw [if_pos hh, h1]
  dsimp only
  refine ⟨dummy, ?_⟩
  rw [if_pos (by simp [isCommand, h0, hf])]
  refine ⟨[], [], ["-h".toList], rfl, fun _ h => absurd h List.not_mem_nil, fun _ h => absurd h List.not_mem_nil, ?_, hw⟩
  rintro ⟨t, ht⟩
  cases ht

example : Word "new.toron".toList := (isPositional_iff _).1 (by decide +kernel)

/-- Violated: a command line that names a file and no command does not get the command `info` if there is anything else in it, such
as the mark `--` for the end of the options. -/
theorem C118_violated_no_command (choices : List PyStr) (isFile : PyStr → Bool) {f : PyStr} (hw : Word f) :
    (∀ c, ¬ Reads ["--".toList, f] f c) ∧ preprocess choices isFile ["--".toList, f] = ["--".toList, f] := by
  have ho : Options ["--".toList] := by
    intro x hx
    rw [List.mem_singleton.1 hx]
    exact ⟨fun h => h ⟨_, rfl⟩, by rintro (h | h) <;> revert h <;> decide +kernel⟩
  constructor
  · intro c h
    have h1 := ((reads_iff _ _ _).1 h).2
    have h2 : positionals ["--".toList, f] = [f] := by
      rw [show ["--".toList, f] = ["--".toList] ++ [f] from rfl, positionals_append ho, positionals_word hw]
      rfl
    rw [h2] at h1
    cases h1
  · unfold preprocess
    rw [if_neg]
    · rfl
    · rw [any_help_iff]
      rintro ⟨w, hm, hh⟩
      rcases List.mem_cons.1 hm with rfl | hm
      · exact (ho _ (List.mem_singleton.2 rfl)).2 hh
      · rw [List.mem_singleton.1 hm] at hh
        exact not_help_of_word hw hh

/-- An empty command line is not given to the parser. -/
theorem C118_empty (choices : List PyStr) (isFile : PyStr → Bool) (args : List PyStr) :
    wordsFor choices isFile args = none ↔ args = [] := by
  unfold wordsFor
  split
  · simp [*]
  · simp [*]

end Toron.CommandLine
