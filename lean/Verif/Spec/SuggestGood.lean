import Verif.Props.SpellUtils
/-!
# What makes a suggestion correct
-/
namespace Verif.Spec
open Verif Verif.Props

/-- Every letter of `x` has the case demanded by the structure `s` (the library knows no lower case form of U+018F,
so this letter is exempt). -/
def Fits (x s : List Wc) : Prop := ∀ i, WrongAt x s i → x[i]? = some 0x18F

/-- The analyser recognises the letters of `x`, and `x` is capitalised as one of the analyses demands. -/
def Accepted (an : Analyzer) (x : List Wc) : Prop :=
  ∃ y, x.map lower = y.map lower ∧ ∃ a ∈ an y, ∃ s, a.struct = some s ∧ Fits x s

/-- The same for words that may begin with a capital letter although the dictionary does not demand it. -/
def AcceptedCap (an : Analyzer) (x : List Wc) : Prop :=
  ∃ y, x.map lower = y.map lower ∧ ∃ a ∈ an y, ∃ s, a.struct = some s ∧
    (∀ i, 0 < i → ¬ WrongAt x s i) ∧ ¬ At TooLow x s 0

/-- A correct suggestion: a recognised word, or two recognised words separated by a space, the first one possibly
followed by a full stop. -/
def GoodSug (an : Analyzer) (x : List Wc) : Prop :=
  Accepted an x ∨ ∃ a b, x = a ++ 0x20 :: b ∧ AcceptedCap an b ∧
    (AcceptedCap an a ∨ ∃ a', a = a' ++ [0x2E] ∧ AcceptedCap an a')

end Verif.Spec
