import Verif.Model.Suggest
import Verif.Model.Setup
/-!
# The suggestions of a handle with a Finnish dictionary
-/

namespace Verif

/-- `SuggestionGeneratorFactory.cpp:50-60`, for the backend "FinnishSuggestionStrategy(currentAnalyzer)" that Finnish dictionaries have; the type comes from
`setup.cpp:98-107`. -/
def finnishGenerator (an : Analyzer) (junk : Nat → Wc) (ocr : Bool) : Gen := if ocr then ocrStrategy an junk else typingStrategy an junk

/-- `suggestions.cpp:87-155`, `voikkoSuggestUcs4` with the options of the handle. A null pointer is returned instead of an empty list. -/
def handleSuggest {G : Type} (an : Analyzer) (junk : Nat → Wc) (h : Handle G) (word : List Wc) : UB (Option (List (List Wc))) := do
  let l ← suggestUcs4 (finnishGenerator an junk h.ocr) h.spell.ignoreDot h.spell.acceptAllUppercase word
  return if l = [] then none else some l

end Verif
