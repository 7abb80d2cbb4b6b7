import Verif.Props.Case
import Verif.Model.GrammarChecks
/-!
# Specification of the letter case rules

The text is seen as the separators before the first word and, for each word, the separators after it. Sentences in capitals are left out.
-/

namespace Verif.Props
open Verif

/-! ### The tokens that are judged -/

/-- Every word with a small letter comes after a foreign quotation mark: nothing is reported for such a sentence. A sentence in capital
letters is such a sentence. -/
def CaseIgnored (toks : List GTok) : Prop :=
  ∀ (i : Nat) t, toks[i]? = some t → t.type = .word → HasLower t.str → ∃ (j : Nat) (u : GTok), j ≤ i ∧ toks[j]? = some u ∧ u.ch0 = 0x201C

open Classical in
/-- The tokens of the sentences that are judged. -/
noncomputable def judged (p : List GSent) : List GTok := (p.filter fun s => ¬ CaseIgnored s.tokens).flatMap GSent.tokens

/-- A word with the separators that follow it. -/
abbrev WordSeps := GTok × List GTok

/-- The separators before the first word, and the words with the separators that follow them. -/
def segments : List GTok → List GTok × List WordSeps
  | [] => ([], [])
  | t :: ts => if t.type = .word then ([], (t, (segments ts).1) :: (segments ts).2) else (t :: (segments ts).1, (segments ts).2)

/-- The words to be judged: if nothing at all follows the last word, it is left out. -/
def notLast : List WordSeps → List WordSeps
  | [] => []
  | [(_, [])] => []
  | x :: xs => x :: notLast xs

/-! ### Properties of separators -/

/-- The last punctuation other than commas ends a sentence. -/
def EndsSentence (seps : List GTok) : Prop :=
  ∃ before t after, seps = before ++ t :: after ∧ t.type = .punctuation ∧ t.ch0 ∈ [0x2E, 0x3F, 0x21] ∧
    ∀ u ∈ after, u.type = .punctuation → u.ch0 = 0x2C

/-- There is punctuation that ends a sentence. -/
def HasEnd (seps : List GTok) : Prop := ∃ t ∈ seps, t.type = .punctuation ∧ t.ch0 ∈ [0x2E, 0x21, 0x3F]

/-- A Finnish quotation mark. -/
def IsQuote (c : Wc) : Prop := c = 0x22 ∨ c = 0xBB ∨ c = 0x201D
def IsOpen (c : Wc) : Prop := c = 0x28 ∨ c = 0x5B
def IsClose (c : Wc) : Prop := c = 0x29 ∨ c = 0x5D

instance (c : Wc) : Decidable (IsQuote c) := by unfold IsQuote; infer_instance
instance (c : Wc) : Decidable (IsOpen c) := by unfold IsOpen; infer_instance
instance (c : Wc) : Decidable (IsClose c) := by unfold IsClose; infer_instance

def HasQuote (seps : List GTok) : Prop := ∃ t ∈ seps, t.type = .punctuation ∧ IsQuote t.ch0

/-- The open quotation marks and brackets, innermost first, after one more mark: a quotation mark closes the innermost mark if it is
the same and opens otherwise; a closing bracket closes the innermost mark if it is an opening bracket. -/
def markStep (marks : List Wc) (t : GTok) : List Wc :=
  if t.type ≠ .punctuation then marks
  else if IsQuote t.ch0 then (if marks.head? = some t.ch0 then marks.tail else t.ch0 :: marks)
  else if IsOpen t.ch0 then t.ch0 :: marks
  else if IsClose t.ch0 ∧ (marks.head?.any fun m => decide (IsOpen m)) = true then marks.tail
  else marks

/-- The open marks after some separators. -/
def marksAfter (marks : List Wc) (seps : List GTok) : List Wc := seps.foldl markStep marks

/-- Error 12 for each closing bracket at which nothing is open. -/
def strays : List Wc → List GTok → List GErr
  | _, [] => []
  | marks, t :: ts =>
    (if t.type = .punctuation ∧ IsClose t.ch0 ∧ marks = [] then [⟨12, t.pos, 1, []⟩] else []) ++ strays (markStep marks t) ts

/-! ### Properties of words -/

/-- Numbers separated by full stops. -/
def ChapterNumber (s : List Wc) : Prop :=
  ∃ groups : List (List Wc), groups ≠ [] ∧ (∀ g ∈ groups, g ≠ [] ∧ ∀ c ∈ g, 0x30 ≤ c ∧ c ≤ 0x39) ∧ s = [0x2E].intercalate groups

/-- A single character, a chapter number or a roman numeral. -/
def ItemName (s : List Wc) : Prop := s.length = 1 ∨ ChapterNumber s ∨ ∀ c ∈ s, c ∈ [0x69, 0x49, 0x76, 0x56, 0x78, 0x58]

/-- The name of a list item and a closing parenthesis. -/
def ListItem (w : GTok) (seps : List GTok) : Prop := ItemName w.str ∧ ∃ t, seps.head? = some t ∧ t.ch0 = 0x29

/-- A place name in the genitive before a word, as in the name of an institution. -/
def InstitutionPlace (w : GTok) (seps : List GTok) : Prop := w.isGeoGenitive = true ∧ ∃ t, seps = [t] ∧ t.ch0 = 0x20

/-- The word should have a capital letter. -/
def LacksCapital (w : GTok) : Prop := isUpper w.ch0 = false ∧ isDigit w.ch0 = false ∧ w.possibleSentenceStart = false

/-- The word should not have a capital letter. -/
structure WrongCapital (w : GTok) : Prop where
  known : w.isValidWord = true
  small : w.firstLetterLcase = true
  capital : isUpper w.ch0 = true
  notStart : w.possibleSentenceStart = false
  notPlace : w.possibleGeo = false
  second : ∃ c, w.str[1]? = some c ∧ c ≠ 0x2D ∧ c ≠ 0x3A
  notAll : HasLower w.str

/-! ### The rules -/

/-- What is expected of the next word. -/
inductive Expect where
  | capital | small | either | inside
  deriving DecidableEq, Repr

/-- What is expected, which marks are open, and whether a sentence has ended since a quotation or bracket was left. -/
structure Situation where
  expect : Expect
  marks : List Wc
  ended : Bool

open Classical in
/-- The errors in one word. -/
noncomputable def wordErrors (x : Expect) (w : GTok) (seps : List GTok) : List GErr :=
  if x = .capital ∧ LacksCapital w ∧ ¬ ListItem w seps then [⟨7, w.pos, w.len, [Verif.upper w.ch0 :: w.str.tail]⟩]
  else if x = .small ∧ WrongCapital w then [⟨6, w.pos, w.len, [Verif.lower w.ch0 :: w.str.tail]⟩]
  else []

/-- After this word either case is accepted. `before` is the token before the word. -/
def Exempt (o : GramOpts) (x : Expect) (before : Option GTok) (w : GTok) (seps : List GTok) : Prop :=
  (∃ t ∈ seps, t.str = lit "\t") ∨
  (x ≠ .either ∧ InstitutionPlace w seps) ∨
  (x ≠ .small ∧ o.titles = true ∧ ChapterNumber w.str) ∨
  (x = .capital ∧ (∀ c ∈ w.str, isDigit c = true) ∧ ∃ t, before = some t ∧ t.type ≠ .whitespace)

open Classical in
/-- The situation after a word and its separators. -/
noncomputable def situationAfter (o : GramOpts) (s : Situation) (before : Option GTok) (w : GTok) (seps : List GTok) : Situation :=
  if s.expect ≠ .inside ∧ ListItem w seps then
    ⟨.either, marksAfter s.marks seps.tail, s.ended || decide (HasEnd seps)⟩
  else if marksAfter s.marks seps ≠ [] then
    ⟨.inside, marksAfter s.marks seps, s.ended || decide (HasEnd seps)⟩
  else if s.expect ≠ .inside then
    ⟨if Exempt o s.expect before w seps then .either else if EndsSentence seps then .capital else .small, [], s.ended || decide (HasEnd seps)⟩
  else if EndsSentence seps then ⟨.capital, [], false⟩
  else if HasQuote seps ∨ s.ended = true ∨ HasEnd seps then ⟨.either, [], false⟩
  else ⟨.small, [], false⟩

open Classical in
/-- The separators in which brackets count: not the parenthesis after the name of a list item. -/
noncomputable def counted (x : Expect) (w : GTok) (seps : List GTok) : List GTok := if x ≠ .inside ∧ ListItem w seps then seps.tail else seps

/-- The errors in words, in a given situation. -/
noncomputable def caseErrorsFrom (o : GramOpts) : Situation → Option GTok → List WordSeps → List GErr
  | _, _, [] => []
  | s, before, (w, seps) :: rest =>
    wordErrors s.expect w seps ++
    strays s.marks (counted s.expect w seps) ++
    caseErrorsFrom o (situationAfter o s before w seps) (seps.getLast?.or (some w)) rest

open Classical in
/-- The situation before the first word. -/
noncomputable def situationFirst (o : GramOpts) (seps : List GTok) : Situation :=
  ⟨if marksAfter [] seps ≠ [] then .inside else if o.bulleted = true ∨ ∃ t ∈ seps, t.str = lit "-" then .either else .capital,
   marksAfter [] seps, decide (HasEnd seps)⟩

/-- The last sentence is judged. -/
def LastJudged (p : List GSent) : Prop := ∃ s, p.getLast? = some s ∧ ¬ CaseIgnored s.tokens

open Classical in
/-- All errors in a paragraph. -/
noncomputable def letterCaseErrors (o : GramOpts) (p : List GSent) : List GErr :=
  strays [] (segments (judged p)).1 ++
  caseErrorsFrom o (situationFirst o (segments (judged p)).1) (segments (judged p)).1.getLast?
    (if LastJudged p then notLast (segments (judged p)).2 else (segments (judged p)).2)

end Verif.Props
