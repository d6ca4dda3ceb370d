import Verif.Spec.CommandLine
import Verif.Model.CommandLine
import Verif.Props.WholeProcess
/-! # C239: the command line -/

namespace Httpd
open Spec

theorem IsHelp.flag {a : Bytes} (h : IsHelp a) : ¬ NoFlag a ∧ a ≠ b!"--" := by
  rcases h with rfl | ⟨t, rfl⟩
  · simp [NoFlag]
  · simp [NoFlag]

/-- What one argument is, before `--`. -/
theorem arg_cases (a : Bytes) : a = b!"--" ∨ (a ≠ b!"--" ∧ IsHelp a) ∨ (a ≠ b!"--" ∧ ¬ IsHelp a ∧ ¬ NoFlag a) ∨ (a ≠ b!"--" ∧ ¬ IsHelp a ∧ NoFlag a) := by
  by_cases h1 : a = b!"--"
  · exact Or.inl h1
  · by_cases h2 : IsHelp a
    · exact Or.inr (Or.inl ⟨h1, h2⟩)
    · by_cases h3 : NoFlag a
      · exact Or.inr (Or.inr (Or.inr ⟨h1, h2, h3⟩))
      · exact Or.inr (Or.inr (Or.inl ⟨h1, h2, h3⟩))

theorem args_help (got : Option Str) (a : Bytes) (rest : List Bytes) (h : IsHelp a) : parseArgs false got (a :: rest) = .help := by
  rcases h with rfl | ⟨t, rfl⟩
  · simp [parseArgs]
  · simp [parseArgs]

theorem args_flag (got : Option Str) (a : Bytes) (rest : List Bytes) (h1 : a ≠ b!"--") (h2 : ¬ IsHelp a) (h3 : ¬ NoFlag a) : parseArgs false got (a :: rest) = .mistake := by
  simp only [NoFlag, not_or, Decidable.not_not] at h3
  simp only [IsHelp, not_or] at h2
  obtain ⟨t, rfl⟩ : ∃ t, a = 45 :: t := by
    cases a with
    | nil => simp at h3
    | cons x t => exact ⟨t, by have := h3.2; simp at this; rw [this]⟩
  simp only [parseArgs, Bool.not_false, Bool.true_and, decide_eq_true_eq, if_neg h1]
  split
  · rw [if_neg h2.1]
  · rw [if_pos (by simpa [List.isPrefixOf] using h3.1), if_neg (by rw [List.isPrefixOf_iff_prefix]; exact h2.2)]

theorem args_plain (got : Option Str) (a : Bytes) (rest : List Bytes) (h : NoFlag a) : parseArgs false got (a :: rest) =
    match got with
    | some _ => .mistake
    | none => match decodeUtf8 a with | none => .mistake | some f => parseArgs false (some f) rest := by
  have hn : ¬ (b!"--").isPrefixOf a = true ∧ (b!"-" <+: a → a = b!"-") ∧ a ≠ b!"--" := by
    rcases h with rfl | h
    · exact ⟨by decide, fun _ => rfl, by decide⟩
    · cases a with
      | nil => exact ⟨by decide, fun h => by simp at h, by decide⟩
      | cons x t =>
        have hx : x ≠ 45 := by simpa using h
        exact ⟨by simp [List.isPrefixOf, Ne.symm hx], fun h => absurd (List.cons_prefix_cons.1 h).1.symm hx, by simp [hx]⟩
  have h2 : ¬ ((!false && (b!"-").isPrefixOf a && a != b!"-") = true) := by
    simp only [Bool.not_false, Bool.true_and, Bool.and_eq_true, bne_iff_ne, ne_eq, not_and, Decidable.not_not, List.isPrefixOf_iff_prefix]
    exact hn.2.1
  simp only [parseArgs]
  rw [if_neg (by simpa using hn.2.2), if_neg (by simpa using hn.1), if_neg h2]
  cases got <;> rfl

theorem args_trailing (got : Option Str) (a : Bytes) (rest : List Bytes) : parseArgs true got (a :: rest) =
    match got with
    | some _ => .mistake
    | none => match decodeUtf8 a with | none => .mistake | some f => parseArgs true (some f) rest := by
  simp only [parseArgs, Bool.not_true, Bool.false_and, Bool.false_eq_true, if_false]
  cases got <;> rfl

theorem args_trailing_some (f : Str) (rest : List Bytes) (c : CmdLine) : parseArgs true (some f) rest = c ↔ (rest = [] ∧ c = .file f) ∨ (rest ≠ [] ∧ c = .mistake) := by
  cases rest with
  | nil => simp [parseArgs, eq_comm]
  | cons a rest => simp [args_trailing, eq_comm]

theorem args_dashes (got : Option Str) (rest : List Bytes) : parseArgs false got (b!"--" :: rest) = parseArgs true got rest := by simp [parseArgs]

/-- What comes after a file. -/
theorem args_after (f : Str) (rest : List Bytes) : (rest = [] ∨ rest = [b!"--"]) ∧ parseArgs false (some f) rest = .file f ∨
    (∃ h t, rest = h :: t ∧ IsHelp h) ∧ parseArgs false (some f) rest = .help ∨
    (rest ≠ [] ∧ rest ≠ [b!"--"] ∧ ¬ ∃ h t, rest = h :: t ∧ IsHelp h) ∧ parseArgs false (some f) rest = .mistake := by
  cases rest with
  | nil => exact Or.inl ⟨Or.inl rfl, rfl⟩
  | cons a t =>
    rcases arg_cases a with rfl | ⟨h1, h2⟩ | ⟨h1, h2, h3⟩ | ⟨h1, h2, h3⟩
    · rw [args_dashes]
      cases t with
      | nil => exact Or.inl ⟨Or.inr rfl, rfl⟩
      | cons b t =>
        refine Or.inr (Or.inr ⟨⟨by simp, by simp, ?_⟩, by rw [args_trailing]⟩)
        rintro ⟨h, t', he, hh⟩
        cases he
        exact (IsHelp.flag hh).2 rfl
    · exact Or.inr (Or.inl ⟨⟨a, t, rfl, h2⟩, args_help _ a t h2⟩)
    · exact Or.inr (Or.inr ⟨⟨by simp, by simp [h1], by rintro ⟨h, t', he, hh⟩; cases he; exact h2 hh⟩, args_flag _ a t h1 h2 h3⟩)
    · exact Or.inr (Or.inr ⟨⟨by simp, by simp [h1], by rintro ⟨h, t', he, hh⟩; cases he; exact h2 hh⟩, by rw [args_plain _ a t h3]⟩)

theorem args_all (argv : List Bytes) : (∃ f, Names argv f ∧ parseArgs false none argv = .file f) ∨ (AsksHelp argv ∧ parseArgs false none argv = .help) ∨
    ((¬ ∃ f, Names argv f) ∧ ¬ AsksHelp argv ∧ parseArgs false none argv = .mistake) := by
  cases argv with
  | nil => exact Or.inl ⟨[], .none, rfl⟩
  | cons a t =>
    rcases arg_cases a with rfl | ⟨h1, h2⟩ | ⟨h1, h2, h3⟩ | ⟨h1, h2, h3⟩
    · rw [args_dashes]
      cases t with
      | nil => exact Or.inl ⟨[], .dashes, rfl⟩
      | cons b t =>
        rw [args_trailing]
        have hno : ¬ AsksHelp (b!"--" :: b :: t) := by
          intro h
          cases h with
          | first _ _ h => exact (IsHelp.flag h).2 rfl
          | second _ _ _ h => simp [NoFlag] at h
        cases hd : decodeUtf8 b with
        | none =>
          refine Or.inr (Or.inr ⟨?_, hno, rfl⟩)
          rintro ⟨f, h⟩
          cases h with
          | oneDashes _ _ h => simp [NoFlag] at h
          | dashesOne _ _ h => rw [hd] at h; cases h
        | some f =>
          cases t with
          | nil => exact Or.inl ⟨f, .dashesOne b f hd, rfl⟩
          | cons x t =>
            refine Or.inr (Or.inr ⟨?_, hno, by simp only [args_trailing]⟩)
            rintro ⟨f, h⟩
            cases h
    · exact Or.inr (Or.inl ⟨.first a t h2, args_help _ a t h2⟩)
    · refine Or.inr (Or.inr ⟨?_, ?_, args_flag _ a t h1 h2 h3⟩)
      · rintro ⟨f, h⟩
        cases h with
        | dashes => exact h1 rfl
        | one _ _ h => exact h3 h
        | oneDashes _ _ h => exact h3 h
        | dashesOne _ _ _ => exact h1 rfl
      · intro h
        cases h with
        | first _ _ h => exact h2 h
        | second _ _ _ h => exact h3 h
    · rw [args_plain _ a t h3]
      simp only
      cases hd : decodeUtf8 a with
      | none =>
        refine Or.inr (Or.inr ⟨?_, ?_, rfl⟩)
        · rintro ⟨f, h⟩
          cases h with
          | dashes => exact h1 rfl
          | one _ _ _ h => rw [hd] at h; cases h
          | oneDashes _ _ _ h => rw [hd] at h; cases h
          | dashesOne _ _ _ => exact h1 rfl
        · intro h
          cases h with
          | first _ _ h => exact h2 h
          | second _ _ _ _ h => rw [hd] at h; cases h
      | some f =>
        simp only
        rcases args_after f t with ⟨h4, h5⟩ | ⟨⟨h, t', h4, h6⟩, h5⟩ | ⟨⟨h4, h6, h7⟩, h5⟩
        · rw [h5]
          rcases h4 with rfl | rfl
          · exact Or.inl ⟨f, .one a f h3 hd, rfl⟩
          · exact Or.inl ⟨f, .oneDashes a f h3 hd, rfl⟩
        · rw [h5, h4]
          exact Or.inr (Or.inl ⟨.second a h t' h3 (by rw [hd]; rfl) h6, rfl⟩)
        · rw [h5]
          refine Or.inr (Or.inr ⟨?_, ?_, rfl⟩)
          · rintro ⟨g, h⟩
            cases h with
            | dashes => exact h4 rfl
            | one _ _ _ _ => exact h4 rfl
            | oneDashes _ _ _ _ => exact h6 rfl
            | dashesOne _ _ _ => exact h1 rfl
          · intro h
            cases h with
            | first _ _ h => exact h2 h
            | second _ h' r _ _ h => exact h7 ⟨h', r, rfl, h⟩

theorem dashes_flag : ¬ NoFlag b!"--" := by simp [NoFlag]

/-- **C239**, one meaning: a command line names at most one file, and if it does it does not ask for help. -/
theorem C239_one (argv : List Bytes) (f : Str) (h : Names argv f) : (∀ g, Names argv g → g = f) ∧ ¬ AsksHelp argv := by
  constructor
  · intro g hg
    cases h with
    | none => cases hg; rfl
    | dashes =>
      cases hg with
      | dashes => rfl
      | one _ _ h => exact absurd h dashes_flag
    | one _ _ h1 h2 =>
      cases hg with
      | dashes => exact absurd h1 dashes_flag
      | one _ _ _ h3 => rw [h2] at h3; exact (Option.some.inj h3).symm
    | oneDashes _ _ h1 h2 =>
      cases hg with
      | oneDashes _ _ _ h3 => rw [h2] at h3; exact (Option.some.inj h3).symm
      | dashesOne _ _ _ => exact absurd h1 dashes_flag
    | dashesOne _ _ h2 =>
      cases hg with
      | oneDashes _ _ h _ => exact absurd h dashes_flag
      | dashesOne _ _ h3 => rw [h2] at h3; exact (Option.some.inj h3).symm
  · intro ha
    cases h with
    | none => cases ha
    | dashes => cases ha with | first _ _ h => exact (IsHelp.flag h).2 rfl
    | one _ _ h1 _ => cases ha with | first _ _ h => exact (IsHelp.flag h).1 h1
    | oneDashes _ _ h1 _ =>
      cases ha with
      | first _ _ h => exact (IsHelp.flag h).1 h1
      | second _ _ _ _ _ h => exact (IsHelp.flag h).2 rfl
    | dashesOne _ _ _ =>
      cases ha with
      | first _ _ h => exact (IsHelp.flag h).2 rfl
      | second _ _ _ h _ _ => exact dashes_flag h

/-- **C239.** A release build whose command line names a file runs with this file. -/
theorem C239_runs {C K : Type} (m : Machine) (argv : List Bytes) (f : Str) (h : Names argv f) (x : ProcEnv C K) (pid : Str) (pr : Prints) :
    m.invoke .release argv x pid pr = .ran (m.main .release f x pid pr) := by
  simp only [Machine.invoke, commandLine]
  rcases args_all argv with ⟨g, h1, h2⟩ | ⟨h1, h2⟩ | ⟨h1, _, h2⟩
  · rw [h2, (C239_one argv f h).1 g h1]
  · exact absurd h1 (C239_one argv f h).2
  · exact absurd ⟨f, h⟩ h1

/-- **C239**, help: the process prints how it is used and ends with status 0; nothing else happens. -/
theorem C239_help {C K : Type} (m : Machine) (argv : List Bytes) (h : AsksHelp argv) (x : ProcEnv C K) (pid : Str) (pr : Prints) :
    m.invoke .release argv x pid pr = .ended 0 := by
  simp only [Machine.invoke, commandLine]
  rcases args_all argv with ⟨g, h1, h2⟩ | ⟨h1, h2⟩ | ⟨_, h1, h2⟩
  · exact absurd h (C239_one argv g h1).2
  · rw [h2]
  · exact absurd h h1

/-- **C239**, mistakes: every other command line is refused with status 2, and nothing else happens. -/
theorem C239_refused {C K : Type} (m : Machine) (argv : List Bytes) (h1 : ¬ ∃ f, Names argv f) (h2 : ¬ AsksHelp argv) (x : ProcEnv C K) (pid : Str) (pr : Prints) :
    m.invoke .release argv x pid pr = .ended 2 := by
  simp only [Machine.invoke, commandLine]
  rcases args_all argv with ⟨g, h3, _⟩ | ⟨h3, _⟩ | ⟨_, _, h3⟩
  · exact absurd ⟨g, h3⟩ h1
  · exact absurd h3 h2
  · rw [h3]

/-- **C159**, negation for the code as written: what a debug build does does not depend on its command line at all; not even help can be had. -/
theorem C159_argv_violated {C K : Type} (m : Machine) (argv : List Bytes) (x : ProcEnv C K) (pid : Str) (pr : Prints) :
    m.invoke .debug argv x pid pr = .ran (m.main .debug u!"./httpd.toml" x pid pr) := by
  have : parseArgs false none [b!"./httpd.toml"] = .file u!"./httpd.toml" := by decide +kernel
  simp only [Machine.invoke, commandLine, this]

/-- Non-trivial cases: the three kinds of command lines. -/
example : Names [b!"my.toml"] u!"my.toml" ∧ Names [b!"--", b!"-h"] u!"-h" ∧ AsksHelp [b!"my.toml", b!"-hq", b!"more"] :=
  ⟨.one _ _ (Or.inr (by decide)) (by decide +kernel), .dashesOne _ _ (by decide +kernel), .second _ _ _ (Or.inr (by decide)) (by decide +kernel) (Or.inr ⟨b!"q", rfl⟩)⟩

example : (¬ ∃ f, Names [b!"a.toml", b!"b.toml"] f) ∧ ¬ AsksHelp [b!"a.toml", b!"b.toml"] := by
  refine ⟨fun ⟨f, h⟩ => ?_, fun h => ?_⟩
  · cases h
  · cases h with
    | first _ _ h => exact (IsHelp.flag h).1 (Or.inr (by decide))
    | second _ _ _ _ _ h => exact (IsHelp.flag h).1 (Or.inr (by decide))

example : (¬ ∃ f, Names [b!"--version"] f) ∧ ¬ AsksHelp [b!"--version"] := by
  refine ⟨fun ⟨f, h⟩ => ?_, fun h => ?_⟩
  · cases h with
    | one _ _ h => simp [NoFlag] at h
  · cases h with
    | first _ _ h => simp [IsHelp] at h

end Httpd
