import Verif.Model.GrammarCache
import Verif.Props.Tokenizer
import Verif.Props.Sentence
/-!
# What the grammar checker works on

The sentences of a text are those found by repeated calls of the sentence detection, where a possible sentence start
(`SENTENCE_POSSIBLE`) does not end a sentence. The tokens of a sentence are those found by repeated calls of the tokenizer
(without `IGNORE_DOT`).
-/

namespace Verif.Props
open Verif

/-- The sentences of a text. -/
def splitProbable (spellOk : List Wc → Bool) : Nat → List Wc → Option (List (List Wc))
  | 0, _ => none
  | fuel + 1, text =>
    match sentenceNext spellOk text false with
    | none => none
    | some (.none, n, _) => some [text.take n]
    | some (.possible, n, _) =>
      match splitProbable spellOk fuel (text.drop n) with
      | some (s :: ss) => some ((text.take n ++ s) :: ss)
      | _ => none
    | some (_, n, _) => (splitProbable spellOk fuel (text.drop n)).map (text.take n :: ·)

/-- The tokens follow each other, the first one at position `off`. -/
def Consec : Nat → List GTok → Prop
  | _, [] => True
  | off, t :: ts => t.pos = off ∧ Consec (off + t.str.length) ts

/-- The analysed sentences are the given texts, from position `off` on. -/
def ParaOk : Nat → List (List Wc) → List GSent → Prop
  | _, [], [] => True
  | off, x :: xs, s :: ss => s.pos = off ∧
      tokenStream false (x.length + 1) x = some (s.tokens.map fun t => (t.type, t.str)) ∧ Consec off s.tokens ∧
      ParaOk (off + x.length) xs ss
  | _, _, _ => False

/-- The sentence has more than `MAX_TOKENS_IN_SENTENCE` tokens. -/
def TooLong (x : List Wc) : Prop := ∃ toks, tokenStream false (x.length + 1) x = some toks ∧ 500 < toks.length

/-- Every analysis has the attribute STRUCTURE (see C25 for an analyser that does not give it). -/
def HasStructure (an : List Wc → List GramAn) : Prop := ∀ w, ∀ a ∈ an w, a.struct ≠ none

end Verif.Props
