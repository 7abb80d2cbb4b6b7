import Verif.Model.Sentence
/-!
# Where a sentence ends

The text is a list of tokens. `x` is what has been read, `y` is what follows.
-/

namespace Verif.Sentences
open Verif

/-- A token: its type and its text. -/
abbrev Tk := TokenType × List Wc

/-- The text of some tokens. -/
def flat (x : List Tk) : List Wc := (x.map (·.2)).flatten

/-- `! ? . ... … :` -/
def Mark (t : Tk) : Prop := t.1 = .punctuation ∧ t.2 ∈ [[0x21], [0x3F], [0x2E], [0x2E, 0x2E, 0x2E], [0x2026], [0x3A]]

/-- `... … :` may also be inside a sentence. -/
def DoubtfulMark (t : Tk) : Prop := t.1 = .punctuation ∧ t.2 ∈ [[0x2E, 0x2E, 0x2E], [0x2026], [0x3A]]

/-- `! ?` -/
def Exclamation (t : Tk) : Prop := t.1 = .punctuation ∧ t.2 ∈ [[0x21], [0x3F]]

/-- A quotation mark. -/
def QuoteTk (t : Tk) : Prop := t.1 = .punctuation ∧ t.2 ∈ [[0x22], [0xBB], [0x201D], [0x201C]]

instance (t : Tk) : Decidable (QuoteTk t) := by unfold QuoteTk; infer_instance

/-- Inside a quotation: the number of quotation marks is odd. -/
def InQuotation (x : List Tk) : Prop := (x.filter (fun t => decide (QuoteTk t))).length % 2 = 1

/-- `q` ends a quotation and a comma follows: the sentence goes on. -/
def GoesOn (x : List Tk) (q : Tk) (y : List Tk) : Prop := QuoteTk q ∧ InQuotation x ∧ (flat y).head? = some 0x2C

/-- There was a token with a property after which the sentence did not go on with a comma after a quotation. -/
def SinceTk (on : List Tk → Tk → Prop) (x y : List Tk) : Prop :=
  ∃ u m t, x = u ++ m :: t ∧ on u m ∧ ∀ a q b, t = a ++ q :: b → ¬ GoesOn (u ++ m :: a) q (b ++ y)

/-- The sentence has ended. -/
def Ended (x y : List Tk) : Prop := SinceTk (fun _ m => Mark m) x y

/-- It ended with a mark that may also be inside a sentence, or with an exclamation in a quotation. -/
def Doubt (x y : List Tk) : Prop := SinceTk (fun u m => DoubtfulMark m ∨ (Exclamation m ∧ InQuotation u)) x y

/-- The dot after a word may belong to it: an initial, a number, or an abbreviation. -/
def OwnDot (spellOk : List Wc → Bool) (w : List Wc) : Prop :=
  (∃ c, w = [c] ∧ isUpper c = true) ∨ (∀ c ∈ w, c = 0x2E ∨ c = 0x2D ∨ isDigit c = true) ∨ spellOk (w ++ [0x2E]) = true

/-- There was a word with a dot that may belong to it. -/
def DotWord (spellOk : List Wc → Bool) (x : List Tk) : Prop :=
  ∃ u w d t, x = u ++ w :: d :: t ∧ w.1 = .word ∧ d = (.punctuation, [0x2E]) ∧ OwnDot spellOk w.2

/-- A sentence starts with the token `t`. -/
def Starts (x : List Tk) (t : Tk) (y : List Tk) : Prop := Ended x (t :: y) ∧ ¬ InQuotation x ∧ t.1 ≠ .whitespace

/-- It is not certain that it does. -/
def Uncertain (spellOk : List Wc → Bool) (x : List Tk) (t : Tk) (y : List Tk) : Prop :=
  DotWord spellOk x ∨ Doubt x (t :: y) ∨ (t.1 = .word ∧ ∃ u p, x = u ++ [p] ∧ p.1 ≠ .whitespace)

end Verif.Sentences
