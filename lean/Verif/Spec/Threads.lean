import Verif.Model.VoikkoSpell
/-!
# What the distribution of words to threads must not change
-/

namespace Verif.Threads
open Verif

/-- What is written for a word does not depend on the words checked before: `P` holds for the handles from the start, and `answer` is what is
written with every such handle. -/
def Steady {σ : Type} (check : σ → List Wc → UB (List Wc × σ)) (P : σ → Prop) (answer : List Wc → List Wc) (words : List (List Wc)) : Prop :=
  ∀ h w, P h → w ∈ words → ∃ h', check h w = some (answer w, h') ∧ P h'

/-- What is to be written: the answers in the order of the words. -/
def expected (answer : List Wc → List Wc) (words : List (List Wc)) : List Wc := words.flatMap answer

/-- The number of blocks that the words are divided into. -/
def blockCount (words : List (List Wc)) : Nat := (words.length + 499) / 500

/-- Some thread can do a step. -/
def CanStep {σ : Type} (check : σ → List Wc → UB (List Wc × σ)) (t : Tool σ) : Prop := ∃ t', ToolStep check t t'

end Verif.Threads
