import Verif.Model.FinnishVfst
import Verif.Model.Hyphenator
import Verif.Model.GrammarCache
import Verif.Model.VoikkoSpell
/-!
# The grammar checker with the Finnish analyser, and the input of `voikkogc`
-/

namespace Verif

/-- `FinnishAnalysis.cpp:86-94`: what the grammar checker reads of an analysis. -/
def asGramAn (a : Ana) : GramAn :=
  { struct := a.getValue .structure_
    cls := a.getValue .cls
    sijamuoto := a.getValue .sijamuoto
    vapaaJalkiosa := a.getValue .vapaaJalkiosa
    mood := a.getValue .mood
    person := a.getValue .person
    negative := a.getValue .negative
    participle := a.getValue .participle
    possibleGeo := a.getValue .geographical
    requireVerb := a.getValue .requireVerb }

/-- `sentence/Sentence.cpp:66`: the words of which the sentence splitter asks whether they are words: the Finnish speller (`FinnishSpellerTweaksWrapper`) does not reject them.
Undefined behaviour of the speller is not visible here; it is excluded separately. -/
def dictSpellOk (an : List Wc → List GramAn) (extra : Bool) (w : List Wc) : Bool := finnishSpell extra (fun w => (an w).map (·.toMorAn)) w != some .failed

/-- The parts of the library that the grammar checker uses with a Finnish dictionary: its analyser and speller (`FinnishAnalysis.cpp:76-77`, `sentence/Sentence.cpp:66`) are those of
the dictionary. -/
def dictEnv {σ : Type} (an : List Wc → List GramAn) (auto : Option (Lookup σ)) : GramEnv σ := ⟨an, dictSpellOk an, auto⟩

/-- `voikkogc.cpp:251-267`: the paragraphs that are checked; as `inputWords`, but with `MAX_PARAGRAPH_LENGTH` (line 42). -/
def inputParagraphs (decode : List Nat → Option (List Wc)) (input : List Nat) : List (List Wc) :=
  (inputLines [] input).filterMap fun line =>
    if line = [] then none
    else match decode (line.takeWhile (· ≠ 0)) with
      | some w => if w.length > 100000 then none else some w
      | none => none

end Verif
