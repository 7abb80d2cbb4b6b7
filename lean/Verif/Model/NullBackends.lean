import Verif.Model.GrammarCache
import Verif.Model.Suggest
import Verif.Model.VfstAnalyzer
/-!
# The components of a dictionary without data

`spellchecker/FixedResultSpeller.cpp`, `morphology/NullAnalyzer.cpp`, `spellchecker/suggestion/SuggestionGeneratorNull.cpp` and
`grammar/NullGrammarChecker.cpp`, and the library functions on a handle whose components are these.
-/

namespace Verif

/-- `FixedResultSpeller.cpp:38-40`, `spell`. -/
def fixedSpell (result : SpellRes) : List Wc → SpellRes := fun _ => result

/-- `SpellerFactory.cpp:57-61`: the spellers "AllOk" (`true`) and "AllError" (`false`). -/
def fixedSpeller (allOk : Bool) : List Wc → SpellRes := if allOk then fixedSpell .ok else fixedSpell .failed

/-- `NullAnalyzer.cpp:38-41`, `analyze`. The arguments are not read. -/
def nullAnalyze : Unit → List Wc → Nat → Bool → UB (List Ana × Unit) := fun _ _ _ _ => return ([], ())

/-- `SuggestionGeneratorNull.cpp:38-39`, `generate`. -/
def nullGenerate : Gen := fun s => return s

/-- `NullGrammarChecker.cpp:43-45`, `analyseParagraph`; `Paragraph.cpp:33`: the paragraph has no sentences. -/
def nullAnalyseParagraph (_text : List Wc) : List GSent := []

/-- `NullGrammarChecker.cpp:50-51`, `check`: the errors appended to the cache. -/
def nullRuleEngine (_p : List GSent) : List GErr := []

/-- `GrammarChecker.cpp:62-100`, `paragraphToCache`, with the analyser and the rule engine of `NullGrammarChecker.cpp:54-57`.
`text` is the memory from the pointer on. -/
def nullParagraphToCache (h : Handle GErr) (text : List Wc) (textlen : Nat) : UB (Handle GErr) :=
  if text.length < textlen then ub
  else
    let p := nullAnalyseParagraph (text.take textlen)
    let es := if notChecked p then [] else nullRuleEngine p
    return { h with gcCache := some (text.take textlen, es.foldl appendError []) }

/-- `grammar/interface.cpp:40-74`, `voikkoNextGrammarErrorUcs4` for a non-null `text` and the checker "null". -/
def nullNextGrammarError (h : Handle GErr) (text : List Wc) (textlen startpos : Nat) (skip : Int) :
    UB (Option GErr × Handle GErr) :=
  if textlen = 0 then return (none, h)
  else do
    let r ← errorFromCache h.gcCache text startpos skip
    match r with
    | some r => return (realError (some r), h)
    | none => do
      let h ← nullParagraphToCache h text textlen
      let r ← errorFromCache h.gcCache text startpos skip
      return (realError r, h)

/-- A call of the library. A text is given without its terminator. -/
inductive NullCall
  | setBool (option value : Int)
  | setInt (option value : Int)
  | spell (word : List Wc)
  | suggest (word : List Wc)
  | analyze (word : List Wc)
  | check (text : List Wc) (startpos : Nat) (skip : Int)

/-- The result of a call. -/
inductive NullResult
  | done (code : Int)
  | spelling (code : SpellCode)
  | suggestions (words : List (List Wc))
  | analyses (l : List Ana)
  | error (e : Option GErr)

/-- One call on a handle of a dictionary with these components: `setup.cpp:66-161`, `spell.cpp` through `Handle.spellWord`,
`suggestions.cpp:87-155`, `morphology/interface.cpp:41-56` and `grammar/interface.cpp:40-74`. The suggestion generator is "null"
for both types of suggestions (`SuggestionGeneratorFactory.cpp:61-63`). -/
def nullCall (allOk : Bool) (h : Handle GErr) : NullCall → UB (Handle GErr × NullResult)
  | .setBool n v => let (h, r) := setBooleanOption h n v; return (h, .done r)
  | .setInt n v => do
    let (h, r) ← setIntegerOption h n v
    return (h, .done r)
  | .spell w => do
    let (h, r) ← h.spellWord (fun _ => fixedSpeller allOk) w
    return (h, .spelling r)
  | .suggest w => do
    let l ← suggestUcs4 nullGenerate h.spell.ignoreDot h.spell.acceptAllUppercase w
    return (h, .suggestions l)
  | .analyze w => do
    let (l, _) ← analyzeWordUcs4 nullAnalyze () w
    return (h, .analyses l)
  | .check t startpos skip => do
    let (e, h) ← nullNextGrammarError h (t ++ [0]) t.length startpos skip
    return (h, .error e)

/-- A sequence of calls. -/
def nullCalls (allOk : Bool) : Handle GErr → List NullCall → UB (Handle GErr × List NullResult)
  | h, [] => return (h, [])
  | h, c :: cs => do
    let (h, r) ← nullCall allOk h c
    let (h, rs) ← nullCalls allOk h cs
    return (h, r :: rs)

end Verif
