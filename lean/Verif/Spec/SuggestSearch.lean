import Verif.Lemmas.SuggestInv
/-!
# The search for suggestions: what is tried, what it is worth, when it ends
-/
namespace Verif.Search
open Verif Verif.Props Verif.Spec

/-! ### Ranks -/

/-- How unusual the cases are. -/
def caseWeights : List (String × Nat) :=
  [("nimento", 2), ("omanto", 3), ("osanto", 5), ("sisaolento", 8), ("sisatulento", 8), ("sisaeronto", 12), ("ulkoolento", 12), ("olento", 20),
   ("tulento", 20), ("ulkotulento", 20), ("keinonto", 20), ("ulkoeronto", 30), ("vajanto", 60), ("seuranto", 60)]

/-- The classes of words for which the case counts. -/
def declined : List String := ["nimisana", "laatusana", "nimisana_laatusana", "asemosana", "nimi", "etunimi", "sukunimi", "paikannimi"]

/-- The analysis says that the word is of a class that is declined, and in this case. -/
def InCase (a : MorAn) (c : String) : Prop := (∃ k ∈ declined, a.cls = some (lit k)) ∧ a.sijamuoto = some (lit c)

/-- The weight of a form: that of its case, and 4 for everything else. -/
def FormWeight (a : MorAn) (n : Nat) : Prop := (∃ e ∈ caseWeights, InCase a e.1 ∧ n = e.2) ∨ ((∀ e ∈ caseWeights, ¬ InCase a e.1) ∧ n = 4)

/-- The parts of a compound; only the first five count. Each one makes the word eight times less likely. -/
def partsWeight (s : List Wc) : Nat := 8 ^ (min ((s.takeWhile (· ≠ 0)).count 0x3D) 5 - 1)

/-- Whether capital letters have to be changed: not at all, the first letter, or others too. -/
def Verdict (word s : List Wc) (r : SpellRes) : Prop :=
  (r = .ok ∧ ∀ i, ¬ WrongAt word s i)
  ∨ (r = .capFirst ∧ At TooLow word s 0 ∧ ∀ i, 0 < i → ¬ WrongAt word s i)
  ∨ (r = .capError ∧ (At TooHigh word s 0 ∨ ∃ i, 0 < i ∧ WrongAt word s i))

def verdictWeight : SpellRes → Nat
  | .ok => 1
  | .capFirst => 2
  | _ => 3

/-- The analysis `a` of a word gives the verdict `r` and the rank `p`. -/
def Counts (word : List Wc) (a : MorAn) (r : SpellRes) (p : Nat) : Prop :=
  ∃ s n, a.struct = some s ∧ Verdict word s r ∧ FormWeight a n ∧ p = n * partsWeight s * verdictWeight r

/-- The best verdict of the analyses of a word, and the lowest rank with it. -/
def Ranked (an : Analyzer) (word : List Wc) (r : SpellRes) (p : Nat) : Prop :=
  (∃ a ∈ an word, Counts word a r p)
  ∧ ∀ a ∈ an word, ∀ r' p', Counts word a r' p' → verdictWeight r < verdictWeight r' ∨ (r = r' ∧ p ≤ p')

/-- A letter as it is demanded. -/
def demanded : Option Wc → Wc → Wc
  | some k, d => if k = 0x69 ∨ k = 0x6A then upper d else if k = 0x70 ∨ k = 0x71 then lower d else d
  | none, d => d

/-- A word with the capital letters that a structure demands. -/
def Recased (s c x : List Wc) : Prop :=
  x.length = c.length ∧ ∀ (i : Nat) (d : Wc), c[i]? = some d → x[i]? = some (demanded (caseRequirements s)[i]? d)

/-- What is offered for a candidate: the candidate, the candidate with a capital letter, or the candidate as its first analysis demands. -/
def Offered (an : Analyzer) (c : List Wc) (r : SpellRes) (x : List Wc) : Prop :=
  (r = .ok ∧ x = c) ∨ (r = .capFirst ∧ x = capIf true c) ∨ (r = .capError ∧ ∃ a l s, an c = a :: l ∧ a.struct = some s ∧ Recased s c x)

/-! ### The search -/

/-- A candidate, or a place where the word is split in two. -/
inductive Try where
  | word (c : List Wc)
  | split (i : Nat)

/-- What was found, with ranks; the number of look-ups; whether the first part of a split word begins with a capital letter from now on. -/
structure State where
  found : List (List Wc × Nat) := []
  cost : Nat := 0
  cap : Bool := false

/-- A part of a split word: it is in the dictionary, but for its first letter. -/
def Part (an : Analyzer) (x : List Wc) (r : SpellRes) (p : Nat) : Prop := Ranked an (lowerFirst x) r p ∧ (r = .ok ∨ r = .capFirst)

def NoPart (an : Analyzer) (x : List Wc) : Prop := ∀ r p, ¬ Part an x r p

/-- The first part of a split word, which may end with a full stop: rank, capital letter, look-ups. -/
inductive First (an : Analyzer) (a : List Wc) : Option Nat → Bool → Nat → Prop
  | plain {r : SpellRes} {p : Nat} : Part an a r p → First an a (some p) (headUpper a || r == .capFirst) 1
  | stop {r : SpellRes} {p : Nat} : NoPart an a → a.getLast? = some 0x2E → Part an a.dropLast r p →
      First an a (some p) (headUpper a || r == .capFirst) 2
  | neither : NoPart an a → a.getLast? = some 0x2E → NoPart an a.dropLast → First an a none (headUpper a) 2
  | none : NoPart an a → a.getLast? ≠ some 0x2E → First an a none (headUpper a) 1

/-- One try, for the word `w`. -/
inductive Step (an : Analyzer) (w : List Wc) : Try → State → State → Prop
  | unknown {c : List Wc} {st : State} : an c = [] → Step an w (.word c) st { st with cost := st.cost + 1 }
  | known {c x : List Wc} {st : State} {r : SpellRes} {p : Nat} : Ranked an c r p → Offered an c r x →
      Step an w (.word c) st { st with found := st.found ++ [(x, p)], cost := st.cost + if r = .capError then 2 else 1 }
  | first {i k : Nat} {st : State} {b : Bool} : First an (before w i) none b k →
      Step an w (.split i) st { st with cost := st.cost + k, cap := st.cap || b }
  | second {i k p : Nat} {st : State} {b : Bool} : First an (before w i) (some p) b k → NoPart an (after w i) →
      Step an w (.split i) st { st with cost := st.cost + k + 1, cap := st.cap || b }
  | both {i k p q : Nat} {st : State} {b : Bool} {r : SpellRes} : First an (before w i) (some p) b k → Part an (after w i) r q →
      Step an w (.split i) st
        { found := st.found ++ [(capIf (st.cap || b) (before w i) ++ 0x20 :: capIf (headUpper (after w i) || r == .capFirst) (after w i),
            (p + q) * if w[i]? = some 0x2D then 6 else 1)],
          cost := st.cost + k + 1, cap := st.cap || b }

/-- The search ends with the last suggestion wanted, and when the budget is used up; if nothing was found, when twice the budget is. -/
def Ends (wanted budget : Nat) (st : State) : Prop :=
  st.found.length = wanted ∨ (budget ≤ st.cost ∧ (st.found ≠ [] ∨ 2 * budget ≤ st.cost))

/-- The tries in order, until the search ends. -/
inductive Runs (an : Analyzer) (w : List Wc) (wanted budget : Nat) : List Try → State → State → Prop
  | done {st : State} : Runs an w wanted budget [] st st
  | ends {ts : List Try} {st : State} : Ends wanted budget st → Runs an w wanted budget ts st st
  | step {t : Try} {ts : List Try} {st st' st'' : State} : ¬ Ends wanted budget st → Step an w t st st' →
      Runs an w wanted budget ts st' st'' → Runs an w wanted budget (t :: ts) st st''

/-- First the tries `first`; only if they give nothing, the others. -/
def Finds (an : Analyzer) (w : List Wc) (wanted budget : Nat) (first others : List Try) (found : List (List Wc × Nat)) : Prop :=
  ∃ st, Runs an w wanted budget first {} st ∧
    ((st.found ≠ [] ∧ found = st.found) ∨ (st.found = [] ∧ ∃ st', Runs an w wanted budget others st st' ∧ found = st'.found))

/-- What is tried against typing errors. -/
def typingFirst (w : List Wc) : List Try := (w :: softHyphenRemoval w).map .word

def typingOthers (w : List Wc) : List Try :=
  (vowelChanges w ++ replacements replacements1 w ++ deletions w ++ hyphenInsertions w ++ duplications w).map .word
  ++ (splitPlaces w).map .split
  ++ (doubleReplacements replacements1 w ++ replacements replacements2 w ++ insertions insertChars1 w ++ swaps (swapDistance w.length) w
      ++ replacements replacements3 w ++ insertions insertChars2 w ++ replacements replacements4 w ++ doubleReplacements replacements2 w
      ++ doubleReplacements replacements3 w ++ doubleReplacements replacements4 w ++ pairDeletions w ++ replacements replacements5 w).map .word

/-- What is tried against errors of text recognition. -/
def ocrOthers (w : List Wc) : List Try := (replacements replacementsOcr w ++ multiReplacements replacementsOcr 1 0 w).map .word

/-- The value by which suggestions are ordered: the rank, the higher the later the suggestion was found. -/
def valued (found : List (List Wc × Nat)) : List (List Wc × Nat) := found.mapIdx fun k x => (x.1, x.2 * (k + 5))

end Verif.Search
