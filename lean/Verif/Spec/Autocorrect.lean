import Verif.Model.GrammarChecks
import Verif.Spec.FstText
/-!
# Corrections of phrases

What the autocorrection check has to report for a sentence, given which phrase is found at the beginning of a text.
-/

namespace Verif.Autocorrect
open Verif

/-- What is looked up for a token: one space for any whitespace, otherwise the characters without soft hyphens. -/
def spelled (t : GTok) : List Wc := if t.type = .whitespace then [0x20] else t.str.filter (· ≠ 0xAD)

/-- What is looked up for several tokens. -/
def plain (ts : List GTok) : List Wc := ts.flatMap spelled

/-- The number of characters of several tokens. -/
def extent (ts : List GTok) : Nat := (ts.map fun t => t.str.length).sum

/-- A word begins after `p` characters. -/
def WordAt (ts : List GTok) (p : Nat) : Prop := ∃ before w after, ts = before ++ w :: after ∧ w.type = .word ∧ p = extent before

/-- A token begins or ends after `p` characters. -/
def Boundary (ts : List GTok) (p : Nat) : Prop := ∃ before after, ts = before ++ after ∧ p = extent before

/-- Tokens without soft hyphens, with single whitespace characters only. -/
structure Clean (ts : List GTok) : Prop where
  nonempty : ∀ t ∈ ts, t.str ≠ []
  nul : ∀ t ∈ ts, 0 ∉ t.str
  shy : ∀ t ∈ ts, 0xAD ∉ t.str
  single : ∀ t ∈ ts, t.type = .whitespace → t.str.length = 1

/-- A correction with a capital letter. -/
def capital : List Wc → List Wc
  | [] => []
  | c :: cs => upper c :: cs

/-- `first text` is the correction of a phrase with which the text begins, and the length of the phrase. A phrase that begins with a word and
ends with a token is reported. A capital letter at the beginning of the sentence is not significant. -/
inductive Reported (first : List Wc → Option (List Wc × Nat)) (s : GSent) : GErr → Prop
  | phrase {p n : Nat} {out : List Wc} : WordAt s.tokens p → first ((plain s.tokens).drop p) = some (out, n) → Boundary s.tokens (p + n) →
      Reported first s ⟨1, s.pos + p, n, [out]⟩
  | capital {c : Wc} {rest out : List Wc} {n : Nat} : WordAt s.tokens 0 → plain s.tokens = c :: rest → isUpper c = true →
      first (c :: rest) = none → first (lower c :: rest) = some (out, n) → Boundary s.tokens n → Reported first s ⟨1, s.pos, n, [capital out]⟩

/-- The answers of the look-up, in the states in which it is used. -/
def Answers {σ : Type} (m : Lookup σ) (P : σ → Prop) (first : List Wc → Option (List Wc × Nat)) : Prop :=
  ∀ c w, P c → w.length ≤ 20000 → ∃ c', m.find c w = some (c', first w) ∧ P c'

/-! ### Phrases given by an automaton -/

/-- The phrase of the automaton that the text begins with: of several ones, the first in the order of the lines. Nothing may be found if a limit
of the look-up is exceeded. -/
def Finds (ls : List Att.Line) (text : List Wc) : Option (List Wc × Nat) → Prop
  | some (out, n) => ∃ run, Att.Accepts ls text true run n ∧ out = Att.runOutput ls run ∧
      ∀ run' n', Att.Accepts ls text true run' n' → run' = run ∨ Att.RunBefore ls run run'
  | none => (∀ run n, ¬ Att.Accepts ls text true run n) ∨ ∃ r, Att.Exceeds ls text true 20000 20000 r

end Verif.Autocorrect
