import Verif.Model.Char
/-! Exhaustive checks of the finite part of the case and class tables (code points below 0x530;
above that case mapping is the identity). Kept apart because the kernel needs about a minute. -/

namespace Verif.Props
open Verif

/-- Outside the tables case mapping is the identity. -/
theorem lower_of_ge (c : Wc) (h : 0x530 ≤ c) : lower c = c := by
  unfold lower
  repeat rw [if_neg (by omega)]

theorem upper_of_ge (c : Wc) (h : 0x530 ≤ c) : upper c = c := by
  unfold upper
  repeat rw [if_neg (by omega)]

/-- The laws for one character, as a decidable table entry. -/
def caseLaws (c : Wc) : Prop :=
  lower (lower c) = lower c ∧ upper (upper c) = upper c ∧ lower (upper c) = lower c ∧
  upper (lower c) = upper c ∧ ¬ (isUpper c = true ∧ isLower c = true) ∧
  (isUpper c = true → upper c = c) ∧ (isLower c = true → lower c = c) ∧
  (isUpper c = true → c ≠ 0x18F → isLower (lower c) = true) ∧ (isLower c = true → isUpper (upper c) = true)

instance (c : Wc) : Decidable (caseLaws c) := by unfold caseLaws; infer_instance

theorem caseLaws_table : ∀ c < 0x530, caseLaws c := by decide +kernel

theorem charTypeCase_table : ∀ c < 0x530, (c ≠ 0xC0 → getCharType (lower c) = getCharType c) ∧
    (c ≠ 0xE0 → getCharType (upper c) = getCharType c) := by decide +kernel

theorem casedLetter_table : ∀ c < 0x530, (isUpper c = true ∨ isLower c = true) → c ≠ 0xC0 →
    getCharType c = .letter := by decide +kernel

end Verif.Props
