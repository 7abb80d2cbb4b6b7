import Verif.Props.Spell
/-!
# Exactly which words are accepted (C65)

The specification below does not use the definitions of `Model/Spell.lean` other than the options.
-/

set_option linter.unusedSimpArgs false

namespace Verif.Props
open Verif

/-! ## Specification -/

/-- The texts that are looked up for a word: the word and, with IGNORE_DOT, the word without a final dot. -/
inductive LookedUp (o : SpellOpts) (n : List Wc) : List Wc → Prop
  | word : LookedUp o n n
  | noDot (v : List Wc) : o.ignoreDot = true → n = v ++ [0x2E] → LookedUp o n v

/-- Written in lower case only. -/
def IsLowerWord (n : List Wc) : Prop := HasLower n ∧ ¬ HasUpper n
/-- Written in upper case only. -/
def IsUpperWord (n : List Wc) : Prop := HasUpper n ∧ ¬ HasLower n
/-- Written with a capital and otherwise in lower case. -/
def IsCapitalised (n : List Wc) : Prop := ∃ c rest, n = c :: rest ∧ isUpper c = true ∧ HasLower n ∧ ¬ HasUpper rest
/-- Any other word: mixed case or without letters. -/
def IsOther (n : List Wc) : Prop := ¬ IsLowerWord n ∧ ¬ IsUpperWord n ∧ ¬ IsCapitalised n

/-- The first character in lower case, the others as they are. -/
def FirstLowered (v w : List Wc) : Prop := (v = [] ∧ w = []) ∨ ∃ c rest, v = c :: rest ∧ w = lower c :: rest

/-- What the dictionary has to say about the text `v` looked up for the word `n`. -/
inductive DictionaryAccepts (d : List Wc → SpellRes) (o : SpellOpts) (n v : List Wc) : Prop
  | lower : IsLowerWord n → d (v.map lower) = .ok → DictionaryAccepts d o n v
  | properNoun : IsCapitalised n → d (v.map lower) = .capFirst → DictionaryAccepts d o n v
  | capitalised : IsCapitalised n → o.acceptFirstUppercase = true → d (v.map lower) = .ok → DictionaryAccepts d o n v
  | capitals : IsUpperWord n → o.acceptAllUppercase = true → d (v.map lower) ≠ .failed → DictionaryAccepts d o n v
  | exact (w : List Wc) : IsOther n ∨ (IsUpperWord n ∧ o.acceptAllUppercase = false) → FirstLowered v w → d w = .ok →
      DictionaryAccepts d o n v
  | exactNoun (w : List Wc) (c : Wc) (rest : List Wc) : IsOther n ∨ (IsUpperWord n ∧ o.acceptAllUppercase = false) →
      FirstLowered v w → n = c :: rest → isUpper c = true → o.acceptFirstUppercase = true → d w = .capFirst →
      DictionaryAccepts d o n v

/-- The words that are accepted. `n` is the normalised word. -/
inductive AcceptedWord (d : List Wc → SpellRes) (o : SpellOpts) (word n : List Wc) : Prop
  | empty : word = [] → AcceptedWord d o word n
  | number (c : Wc) : word.length ≤ 255 → o.ignoreNumbers = true → c ∈ n → 0x30 ≤ c → c ≤ 0x39 → AcceptedWord d o word n
  | capitals : word.length ≤ 255 → o.ignoreUppercase = true → IsUpperWord n → AcceptedWord d o word n
  | nonword : word.length ≤ 255 → o.ignoreNonwords = true → NonwordCode n → AcceptedWord d o word n
  | dictionary (v : List Wc) : word.length ≤ 255 → LookedUp o n v → DictionaryAccepts d o n v → AcceptedWord d o word n

/-! ## Lemmas -/

theorem isLowerWord_iff (n : List Wc) : IsLowerWord n ↔ caseType n = .allLower := (C11_caseType n .allLower).symm
theorem isUpperWord_iff (n : List Wc) : IsUpperWord n ↔ caseType n = .allUpper := (C11_caseType n .allUpper).symm
theorem isCapitalised_iff (n : List Wc) : IsCapitalised n ↔ caseType n = .firstUpper := by
  rw [C11_caseType]
  constructor
  · rintro ⟨c, rest, rfl, h1, h2, h3⟩
    exact ⟨h2, h3, c, rfl, h1⟩
  · rintro ⟨h1, h2, c, h3, h4⟩
    cases n with
    | nil => cases h3
    | cons d rest =>
      cases h3
      exact ⟨_, _, rfl, h4, h1, h2⟩

theorem isOther_iff (n : List Wc) : IsOther n ↔ caseType n = .complex ∨ caseType n = .noLetters := by
  unfold IsOther
  rw [isLowerWord_iff, isUpperWord_iff, isCapitalised_iff]
  cases caseType n <;> simp

theorem firstLowered_iff (v w : List Wc) : FirstLowered v w ↔ w = lowerFirst v := by
  unfold FirstLowered
  cases v with
  | nil => simp [lowerFirst]
  | cons c rest =>
    constructor
    · rintro (⟨h, _⟩ | ⟨c', rest', h, rfl⟩)
      · cases h
      · cases h; rfl
    · rintro rfl
      exact .inr ⟨c, rest, rfl, rfl⟩

/-- The condition of `dictAccepts` on one text. -/
def textOk (d : List Wc → SpellRes) (o : SpellOpts) (n v : List Wc) : Bool :=
  match effectiveCaps o (caseType n) with
  | .complex | .noLetters => exactOk o (n.headD 0) (d (lowerFirst v))
  | t => caseOk o t (d (v.map lower))

theorem isUpper_zero : isUpper 0 = false := by decide

theorem textOk_iff (d : List Wc → SpellRes) (o : SpellOpts) (n v : List Wc) :
    textOk d o n v = true ↔ DictionaryAccepts d o n v := by
  have hexact : (exactOk o (n.headD 0) (d (lowerFirst v)) = true) ↔
      (d (lowerFirst v) = .ok ∨ ∃ c rest, n = c :: rest ∧ isUpper c = true ∧ o.acceptFirstUppercase = true ∧
        d (lowerFirst v) = .capFirst) := by
    unfold exactOk
    simp only [Bool.or_eq_true, beq_iff_eq, Bool.and_eq_true]
    cases n with
    | nil => simp [isUpper_zero]
    | cons c rest =>
      simp only [List.headD_cons]
      constructor
      · rintro (h | ⟨⟨h1, h2⟩, h3⟩)
        · exact .inl h
        · exact .inr ⟨c, rest, rfl, h3, h2, h1⟩
      · rintro (h | ⟨c', rest', h, h1, h2, h3⟩)
        · exact .inl h
        · cases h; exact .inr ⟨⟨h3, h2⟩, h1⟩
  have hother : (IsOther n ∨ (IsUpperWord n ∧ o.acceptAllUppercase = false)) →
      (exactOk o (n.headD 0) (d (lowerFirst v)) = true ↔ DictionaryAccepts d o n v) := by
    intro ho
    rw [hexact]
    constructor
    · rintro (h | ⟨c, rest, h1, h2, h3, h4⟩)
      · exact .exact _ ho ((firstLowered_iff _ _).2 rfl) h
      · exact .exactNoun _ c rest ho ((firstLowered_iff _ _).2 rfl) h1 h2 h3 h4
    · intro h
      have hno : ∀ {P : Prop}, (IsLowerWord n ∨ IsCapitalised n ∨ (IsUpperWord n ∧ o.acceptAllUppercase = true)) → P := by
        intro P hp
        exfalso
        rcases ho with ho | ⟨ho1, ho2⟩
        · rcases hp with hp | hp | hp
          · exact ho.1 hp
          · exact ho.2.2 hp
          · exact ho.2.1 hp.1
        · rw [isUpperWord_iff] at ho1
          rcases hp with hp | hp | hp
          · rw [isLowerWord_iff, ho1] at hp; cases hp
          · rw [isCapitalised_iff, ho1] at hp; cases hp
          · rw [ho2] at hp; cases hp.2
      cases h with
      | lower h _ => exact hno (.inl h)
      | properNoun h _ => exact hno (.inr (.inl h))
      | capitalised h _ _ => exact hno (.inr (.inl h))
      | capitals h h' _ => exact hno (.inr (.inr ⟨h, h'⟩))
      | exact w _ h1 h2 => rw [firstLowered_iff] at h1; subst h1; exact .inl h2
      | exactNoun w c rest _ h1 h2 h3 h4 h5 => rw [firstLowered_iff] at h1; subst h1; exact .inr ⟨c, rest, h2, h3, h4, h5⟩
  unfold textOk effectiveCaps
  cases ht : caseType n with
  | complex => exact hother (.inl ((isOther_iff n).2 (.inl ht)))
  | noLetters => exact hother (.inl ((isOther_iff n).2 (.inr ht)))
  | allLower =>
    simp only [caseOk, beq_iff_eq, show (CaseType.allLower == CaseType.allUpper) = false from rfl, Bool.false_and,
      Bool.false_eq_true, if_false]
    have hl := (isLowerWord_iff n).2 ht
    constructor
    · exact fun h => .lower hl h
    · intro h
      cases h with
      | lower _ h => exact h
      | properNoun h _ => rw [isCapitalised_iff, ht] at h; cases h
      | capitalised h _ _ => rw [isCapitalised_iff, ht] at h; cases h
      | capitals h _ _ => rw [isUpperWord_iff, ht] at h; cases h
      | exact w h _ _ => rcases h with h | h; exact absurd hl h.1; rw [isUpperWord_iff, ht] at h; cases h.1
      | exactNoun w c rest h _ _ _ _ _ => rcases h with h | h; exact absurd hl h.1; rw [isUpperWord_iff, ht] at h; cases h.1
  | firstUpper =>
    simp only [caseOk, beq_iff_eq, show (CaseType.firstUpper == CaseType.allUpper) = false from rfl, Bool.false_and,
      Bool.false_eq_true, if_false, Bool.or_eq_true, Bool.and_eq_true]
    have hl := (isCapitalised_iff n).2 ht
    constructor
    · rintro (⟨h1, h2⟩ | h)
      · exact .capitalised hl h2 h1
      · exact .properNoun hl h
    · intro h
      cases h with
      | lower h _ => rw [isLowerWord_iff, ht] at h; cases h
      | properNoun _ h => exact .inr h
      | capitalised _ h1 h2 => exact .inl ⟨h2, h1⟩
      | capitals h _ _ => rw [isUpperWord_iff, ht] at h; cases h
      | exact w h _ _ => rcases h with h | h; exact absurd hl h.2.2; rw [isUpperWord_iff, ht] at h; cases h.1
      | exactNoun w c rest h _ _ _ _ _ => rcases h with h | h; exact absurd hl h.2.2; rw [isUpperWord_iff, ht] at h; cases h.1
  | allUpper =>
    have hl := (isUpperWord_iff n).2 ht
    cases ha : o.acceptAllUppercase with
    | false =>
      simp only [show (CaseType.allUpper == CaseType.allUpper) = true from rfl, Bool.not_false, Bool.and_self, if_true]
      exact hother (.inr ⟨hl, ha⟩)
    | true =>
      simp only [caseOk, bne_iff_ne, show (CaseType.allUpper == CaseType.allUpper) = true from rfl, Bool.not_true, Bool.and_false,
        Bool.false_eq_true, if_false]
      constructor
      · exact fun h => .capitals hl ha h
      · intro h
        cases h with
        | lower h _ => rw [isLowerWord_iff, ht] at h; cases h
        | properNoun h _ => rw [isCapitalised_iff, ht] at h; cases h
        | capitalised h _ _ => rw [isCapitalised_iff, ht] at h; cases h
        | capitals _ _ h => exact h
        | exact w h _ _ => rcases h with h | h; exact absurd hl h.2.1; rw [ha] at h; cases h.2
        | exactNoun w c rest h _ _ _ _ _ => rcases h with h | h; exact absurd hl h.2.1; rw [ha] at h; cases h.2

theorem lowerFirst_dropLast (n : List Wc) : (lowerFirst n).dropLast = lowerFirst n.dropLast := by
  cases n with
  | nil => rfl
  | cons c rest =>
    cases rest with
    | nil => rfl
    | cons d rest => rfl

theorem dictAccepts_iff (d : List Wc → SpellRes) (o : SpellOpts) (n : List Wc) :
    dictAccepts d o n = true ↔ ∃ v, LookedUp o n v ∧ DictionaryAccepts d o n v := by
  have e : dictAccepts d o n = (textOk d o n n || (o.ignoreDot && n.getLast? == some 0x2E && textOk d o n n.dropLast)) := by
    unfold dictAccepts textOk
    rw [lowerFirst_dropLast, List.map_dropLast]
    cases effectiveCaps o (caseType n) <;> rfl
  rw [e, Bool.or_eq_true, Bool.and_eq_true, Bool.and_eq_true, beq_iff_eq, textOk_iff, textOk_iff]
  constructor
  · rintro (h | ⟨⟨h1, h2⟩, h3⟩)
    · exact ⟨n, .word, h⟩
    · exact ⟨_, .noDot _ h1 (dropLast_append_getLast? h2), h3⟩
  · rintro ⟨v, hv, h⟩
    cases hv with
    | word => exact .inl h
    | noDot _ h1 h2 =>
      subst h2
      rw [List.dropLast_concat]
      exact .inr ⟨⟨h1, by simp⟩, h⟩

/-! ## The theorem -/

/-- C65: with any dictionary, options and cache filled through the API, `voikkoSpellUcs4` accepts exactly the words described by
`AcceptedWord` and rejects all others. -/
theorem C65_exact (dict : List Wc → SpellRes) (o : SpellOpts) (cache : Option SpellerCache)
    (hc : CacheInv (effDict dict o.acceptMissingHyphens) cache) (word : List Wc) (hw : WordOk word) :
    ∃ r cache', spellUcs4 dict o cache word = some (r, cache') ∧ (r = .ok ∨ r = .failed) ∧
      (r = .ok ↔ AcceptedWord (effDict dict o.acceptMissingHyphens) o word (normSpec word)) := by
  obtain ⟨cache', h1, _, _⟩ := spellUcs4_eq dict o cache hc word hw
  refine ⟨_, cache', h1, ?_, ?_⟩
  · split <;> simp
  · have e : ((if accepts dict o word = true then SpellCode.ok else SpellCode.failed) = .ok) ↔ accepts dict o word = true := by
      split <;> simp_all
    rw [e]
    unfold accepts
    simp only [Bool.or_eq_true, Bool.and_eq_true, List.isEmpty_iff, decide_eq_true_eq, List.any_eq_true, beq_iff_eq,
      dictAccepts_iff, nonwordB, isDigit]
    obtain ⟨b, hb, hbi⟩ := C29_exact (normSpec word)
    constructor
    · rintro (h | ⟨hl, (((⟨h, c, hcm, h1, h2⟩ | ⟨h, h'⟩) | ⟨h, h'⟩) | ⟨v, h, h'⟩)⟩)
      · exact .empty h
      · exact .number c hl h hcm h1 h2
      · exact .capitals hl h ((isUpperWord_iff _).2 h')
      · rw [hb] at h'
        exact .nonword hl h (hbi.1 (Option.some.inj h'))
      · exact .dictionary v hl h h'
    · intro h
      cases h with
      | empty h => exact .inl h
      | number c hl h hcm h1 h2 => exact .inr ⟨hl, .inl (.inl (.inl ⟨h, c, hcm, h1, h2⟩))⟩
      | capitals hl h h' => exact .inr ⟨hl, .inl (.inl (.inr ⟨h, (isUpperWord_iff _).1 h'⟩))⟩
      | nonword hl h h' => exact .inr ⟨hl, .inl (.inr ⟨h, by rw [hb, hbi.2 h']⟩)⟩
      | dictionary v hl h h' => exact .inr ⟨hl, .inr ⟨v, h, h'⟩⟩

/-- The hypotheses hold for a new cache of the default size and every dictionary. -/
example (dict : List Wc → SpellRes) (word : List Wc) (hw : WordOk word) :
    ∃ r cache', spellUcs4 dict { ignoreNumbers := true } none word = some (r, cache') ∧
      (r = .ok ↔ AcceptedWord (effDict dict false) { ignoreNumbers := true } word (normSpec word)) := by
  obtain ⟨r, cache', h1, _, h2⟩ := C65_exact dict { ignoreNumbers := true } none trivial word hw
  exact ⟨r, cache', h1, h2⟩

/-- A word with a digit is accepted, the same word without the option is not. -/
example : spellUcs4 (fun _ => .failed) { ignoreNumbers := true } none ([0x61, 0x31]) = some (.ok, none) ∧
    spellUcs4 (fun _ => .failed) { ignoreNumbers := false } none ([0x61, 0x31]) = some (.failed, none) := by decide +kernel

end Verif.Props
