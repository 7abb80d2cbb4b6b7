import Verif.Model.Case
import Verif.Lemmas.CharTables
import Verif.Props.Tokenizer
/-! C09–C11: case mapping, character classes, word case patterns. -/

namespace Verif.Props
open Verif

/-! ### C09: case mapping laws (tables in `Verif/Lemmas/CharTables.lean`) -/

/-- C09: the case mapping laws hold for every character value. -/
theorem C09_case_laws (c : Wc) : caseLaws c := by
  rcases Nat.lt_or_ge c 0x530 with h | h
  · exact caseLaws_table c h
  · have hl := lower_of_ge c h
    have hu := upper_of_ge c h
    have h3 : isUpper c = false := by
      simp only [isUpper, hl, ne_eq, not_true_eq_false, decide_false, Bool.false_or, beq_eq_false_iff_ne]
      omega
    have h4 : isLower c = false := by simp [isLower, hu]
    simp [caseLaws, hl, hu, h3, h4]

/-- C09: lower-casing is injective on upper case characters. -/
theorem C09_lower_injective (a b : Wc) (ha : isUpper a = true) (hb : isUpper b = true)
    (h : lower a = lower b) : a = b := by
  obtain ⟨_, _, _, a4, _, a6, _⟩ := C09_case_laws a
  obtain ⟨_, _, _, b4, _, b6, _⟩ := C09_case_laws b
  rw [← a6 ha, ← b6 hb, ← a4, ← b4, h]

/-- C09: upper-casing is injective on lower case characters. -/
theorem C09_upper_injective (a b : Wc) (ha : isLower a = true) (hb : isLower b = true)
    (h : upper a = upper b) : a = b := by
  obtain ⟨_, _, a3, _, _, _, a7, _⟩ := C09_case_laws a
  obtain ⟨_, _, b3, _, _, _, b7, _⟩ := C09_case_laws b
  rw [← a7 ha, ← b7 hb, ← a3, ← b3, h]

/-- ASCII and the Finnish letters have the expected case mapping (sanity of the tables). -/
theorem C09_ascii (k : Nat) (h : k < 26) :
    lower (0x41 + k) = 0x61 + k ∧ upper (0x61 + k) = 0x41 + k := by
  unfold lower upper
  constructor <;> (rw [if_pos (by omega)]; omega)

example : isUpper 0xC4 = true ∧ isUpper 0xD6 = true ∧ lower 0xC4 = 0xE4 ∧ lower 0x160 = 0x161 := by decide

/-! ### C10: character class is insensitive to case -/

/-- C10 as stated is false: À (U+00C0) is not a letter although à (U+00E0) is. -/
theorem C10_violation : lower 0xC0 = 0xE0 ∧ getCharType 0xE0 = .letter ∧ getCharType 0xC0 = .unknown := by
  decide

/-- C10 (all characters except À/à): a character, its lower and its upper case form have the same
class. Missing for the full claim: U+00C0, where the code violates it (`C10_violation`). -/
theorem C10_class_case_insensitive_partial (c : Wc) :
    (c ≠ 0xC0 → getCharType (lower c) = getCharType c) ∧
    (c ≠ 0xE0 → getCharType (upper c) = getCharType c) := by
  rcases Nat.lt_or_ge c 0x530 with h | h
  · exact charTypeCase_table c h
  · rw [lower_of_ge c h, upper_of_ge c h]; exact ⟨fun _ => rfl, fun _ => rfl⟩

/-- Every character with case, except À, is a letter. -/
theorem C10_cased_is_letter_partial (c : Wc) (h : isUpper c = true ∨ isLower c = true) (h0 : c ≠ 0xC0) :
    getCharType c = .letter := by
  rcases Nat.lt_or_ge c 0x530 with h1 | h1
  · exact casedLetter_table c h1 h h0
  · exfalso
    have hl := lower_of_ge c h1
    have hu := upper_of_ge c h1
    rcases h with h | h
    · simp only [isUpper, hl, ne_eq, not_true_eq_false, decide_false, Bool.false_or, beq_iff_eq] at h
      omega
    · simp [isLower, hu] at h

/-! ### C11: case pattern of a word -/

/-- Specification: the word has an upper case character. -/
def HasUpper (w : List Wc) : Prop := ∃ c ∈ w, isUpper c = true
/-- Specification: the word has a lower case character. -/
def HasLower (w : List Wc) : Prop := ∃ c ∈ w, isLower c = true

/-- Specification of the case type: declarative reading of `utils/utils.hpp`. -/
def CaseSpec (w : List Wc) : CaseType → Prop
  | .noLetters => ¬ HasUpper w ∧ ¬ HasLower w
  | .allUpper => HasUpper w ∧ ¬ HasLower w
  | .allLower => HasLower w ∧ ¬ HasUpper w
  | .firstUpper => HasLower w ∧ ¬ HasUpper w.tail ∧ ∃ c, w.head? = some c ∧ isUpper c = true
  | .complex => HasLower w ∧ HasUpper w.tail

theorem caseStep_foldl (rest : List Wc) (f : CaseFlags) :
    (rest.foldl caseStep f).firstUc = f.firstUc ∧
    ((rest.foldl caseStep f).restLc = true ↔ f.restLc = true ∧ ¬ HasUpper rest) ∧
    ((rest.foldl caseStep f).allUc = true ↔ f.allUc = true ∧ ¬ HasLower rest) ∧
    ((rest.foldl caseStep f).noLetters = true ↔ f.noLetters = true ∧ ¬ HasUpper rest ∧ ¬ HasLower rest) := by
  induction rest generalizing f with
  | nil => simp [HasUpper, HasLower]
  | cons c cs ih =>
    obtain ⟨h1, h2, h3, h4⟩ := ih (caseStep f c)
    simp only [List.foldl_cons]
    rw [h1, h2, h3, h4]
    have hu : HasUpper (c :: cs) ↔ isUpper c = true ∨ HasUpper cs := by simp [HasUpper]
    have hl : HasLower (c :: cs) ↔ isLower c = true ∨ HasLower cs := by simp [HasLower]
    rw [hu, hl]
    unfold caseStep
    cases hU : isUpper c <;> cases hL : isLower c <;> simp

/-- C11: the case type computed for a word is the one its definition demands (and only that one). -/
theorem C11_caseType (w : List Wc) (t : CaseType) : caseType w = t ↔ CaseSpec w t := by
  have hex : CaseSpec w (caseType w) := by
    cases w with
    | nil => simp [caseType, CaseSpec, HasUpper, HasLower]
    | cons c cs =>
      have hu : HasUpper (c :: cs) ↔ isUpper c = true ∨ HasUpper cs := by simp [HasUpper]
      have hl : HasLower (c :: cs) ↔ isLower c = true ∨ HasLower cs := by simp [HasLower]
      have hd := (C09_case_laws c).2.2.2.2.1
      unfold caseType
      generalize hf : caseInit c = f
      obtain ⟨h1, h2, h3, h4⟩ := caseStep_foldl cs f
      have e1 : f.firstUc = isUpper c := by rw [← hf]; unfold caseInit; cases isUpper c <;> cases isLower c <;> rfl
      have e2 : f.restLc = true := by rw [← hf]; unfold caseInit; cases isUpper c <;> cases isLower c <;> rfl
      have e3 : f.allUc = !isLower c := by rw [← hf]; unfold caseInit; cases isUpper c <;> cases isLower c <;> rfl
      have e4 : f.noLetters = (!isUpper c && !isLower c) := by
        rw [← hf]; unfold caseInit; cases isUpper c <;> cases isLower c <;> rfl
      simp only [hf]
      simp only [e1, e2, e3, e4, true_and, Bool.not_eq_true', Bool.and_eq_true] at h1 h2 h3 h4
      split
      · rename_i h; rw [h4] at h
        simp only [CaseSpec, hu, hl]
        rw [h.1.1, h.1.2]; simp [h.2.1, h.2.2]
      · rename_i hn; rw [h4] at hn
        split
        · rename_i h; rw [h3] at h
          simp only [CaseSpec, hu, hl, h.1]
          simp only [h.1, h.2] at hn ⊢
          cases hU : isUpper c <;> simp_all
        · rename_i hall; rw [h3] at hall
          have hlow : isLower c = true ∨ HasLower cs := by
            cases hL : isLower c
            · right
              rw [hL] at hall
              by_cases hh : HasLower cs
              · exact hh
              · exact absurd ⟨rfl, hh⟩ hall
            · left; rfl
          split
          · rename_i h
            have hr : HasUpper cs := by
              by_cases hh : HasUpper cs
              · exact hh
              · have := h2.2 hh
                rw [this] at h; simp at h
            exact ⟨hl.2 hlow, hr⟩
          · rename_i h
            have hr : ¬ HasUpper cs := h2.1 (by simpa using h)
            split
            · rename_i hfu
              rw [h1] at hfu
              exact ⟨hl.2 hlow, hr, c, rfl, hfu⟩
            · rename_i hfu
              rw [h1] at hfu
              refine ⟨hl.2 hlow, ?_⟩
              rw [hu]
              rintro (h | h)
              · exact hfu h
              · exact hr h
  constructor
  · rintro rfl; exact hex
  · intro h
    have hup : ∀ c cs, w = c :: cs → (HasUpper w ↔ isUpper c = true ∨ HasUpper cs) := by
      rintro c cs rfl; simp [HasUpper]
    cases w with
    | nil => cases t <;> simp_all [CaseSpec, HasUpper, HasLower, caseType]
    | cons c cs =>
      have := hup c cs rfl
      revert hex
      generalize caseType (c :: cs) = t'
      intro hex
      cases t <;> cases t' <;> simp_all [CaseSpec]

/-- C11: setting the case of a word changes no length; every character becomes lower/upper case as
asked, other case types leave the word alone. -/
theorem C11_setCase (w : List Wc) :
    (∀ t, (setCase t w).length = w.length) ∧
    (∀ c ∈ setCase .allLower w, isUpper c = true → c = 0x18F) ∧
    (∀ c ∈ setCase .allUpper w, isLower c = false) ∧
    (∀ c ∈ (setCase .firstUpper w).tail, isUpper c = true → c = 0x18F) ∧
    (∀ c, (setCase .firstUpper w).head? = some c → isLower c = false) ∧
    setCase .noLetters w = w ∧ setCase .complex w = w := by
  have hlow : ∀ c, isUpper (lower c) = true → lower c = 0x18F := by
    intro c h
    have h1 := (C09_case_laws c).1
    simp only [isUpper, h1, ne_eq, not_true_eq_false, decide_false, Bool.false_or, beq_iff_eq] at h
    exact h
  have hupp : ∀ c, isLower (upper c) = false := by
    intro c
    have h1 := (C09_case_laws c).2.1
    simp [isLower, h1]
  cases w with
  | nil => simp [setCase]
  | cons c cs =>
    refine ⟨fun t => by cases t <;> simp [setCase], ?_, ?_, ?_, ?_, rfl, rfl⟩
    · intro d hd hu
      simp only [setCase, List.mem_map] at hd
      obtain ⟨e, _, rfl⟩ := hd
      exact hlow e hu
    · intro d hd
      simp only [setCase, List.mem_map] at hd
      obtain ⟨e, _, rfl⟩ := hd
      exact hupp e
    · intro d hd hu
      simp only [setCase, List.tail_cons, List.mem_map] at hd
      obtain ⟨e, _, rfl⟩ := hd
      exact hlow e hu
    · intro d hd
      simp only [setCase, List.head?_cons, Option.some.injEq] at hd
      rw [← hd]; exact hupp c

/-- C11: setting a case only changes the case: the letters are the same up to case. -/
theorem C11_setCase_same_letters (w : List Wc) (t : CaseType) : (setCase t w).map lower = w.map lower := by
  have h1 : ∀ c, lower (lower c) = lower c := fun c => (C09_case_laws c).1
  have h3 : ∀ c, lower (upper c) = lower c := fun c => (C09_case_laws c).2.2.1
  cases w with
  | nil => rfl
  | cons c cs => cases t <;> simp [setCase, h1, h3, Function.comp_def]

example : caseType [0x4B, 0x69, 0x73] = .firstUpper ∧ caseType [0x4B, 0x69, 0x53] = .complex ∧
    caseType [0x4B] = .allUpper ∧ caseType [0x31] = .noLetters ∧ caseType [0x6B, 0x31] = .allLower := by
  decide

end Verif.Props
