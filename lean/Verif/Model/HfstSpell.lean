import Verif.Model.Suggest
import Verif.Model.Utf8
/-!
# `spellchecker/HfstSpeller.cpp`, `spellchecker/HfstSuggestion.cpp`: spelling and suggestions with a ZHFST speller

The speller of the HFST library is a parameter: which strings (in UTF-8) it accepts, and the corrections it gives for a string, in
the order of its queue. The weight of a correction is the value of `(int) (1000.0 * weight)`.
-/

namespace Verif

/-- `HfstSpeller.cpp:57-65`, `doSpell`. `buf` is the memory from the pointer on. If the word cannot be encoded, a null pointer is
passed to the HFST library, which makes a `std::string` of it (undefined). -/
def hfstDoSpell (accept : List Nat → Bool) (buf : List Wc) (wlen : Nat) : UB SpellRes :=
  if buf.length < wlen then ub
  else do
    match ← utf8FromUcs4 (buf.take wlen) with
    | none => ub
    | some bytes => return if accept (bytes.takeWhile (· ≠ 0)) then .ok else .failed

/-- `HfstSpeller.cpp:79-81`: the loop that makes the letters from `i` on capitals; `n` letters are left. -/
def hfstUpperLoop (buf : List Wc) (i : Nat) : Nat → UB (List Wc)
  | 0 => some buf
  | n + 1 => do
    let c ← rd buf i
    let buf ← wr buf i (upper c)
    hfstUpperLoop buf (i + 1) n

/-- `HfstSpeller.cpp:67-90`, `spell`. `word` is the string up to its terminator; the copy (line 71) has the same length. -/
def hfstSpell (accept : List Nat → Bool) (acceptAllUppercase : Bool) (word : List Wc) (wlen : Nat) : UB SpellRes := do
  let r ← hfstDoSpell accept (word ++ [0]) wlen
  let first ← rd (word ++ [0]) 0
  if r = .failed ∧ isLower first = true then do
    let modified ← wr (word ++ [0]) 0 (upper first)
    let r ← hfstDoSpell accept modified wlen
    if r = .ok then return .capFirst
    else if acceptAllUppercase = true ∧ caseType (modified.take wlen) = .firstUpper then do
      let modified ← hfstUpperLoop modified 1 (wlen - 1)
      let r ← hfstDoSpell accept modified wlen
      return if r = .ok then .capError else r
    else return r
  else return r

/-- `HfstSuggestion.cpp:65-66`: the string with its first character in upper case (line 66 changes the terminator of the empty string
to its upper case form, which is the terminator). -/
def hfstUppercased : List Wc → List Wc
  | [] => []
  | c :: cs => upper c :: cs

/-- `HfstSuggestion.cpp:58-79`: the loop over the queue. `seen` is the set `allSuggs`. A correction that is not UTF-8 becomes a null
pointer, which is followed either at once (line 65) or when the suggestions are copied. A negative priority is multiplied as a
`size_t` and converted to `int`, which is implementation-defined; the model treats it like undefined behaviour. -/
def hfstLoop (checkUppercasing : Bool) : List (List Nat × Int) → List (List Wc) → SugStatus → UB SugStatus
  | [], _, s => some s
  | (bytes, weight) :: rest, seen, s =>
    if s.shouldAbort then some s
    else do
      match ← ucs4FromUtf8 (bytes.takeWhile (· ≠ 0)) with
      | none => ub
      | some sug =>
        if checkUppercasing = true ∧ hfstUppercased sug ∈ seen then hfstLoop checkUppercasing rest seen s
        else if weight + s.sugg.length + 1 < 0 ∨ 2 ^ 31 ≤ weight + s.sugg.length + 1 then ub
        else do
          let s ← s.addSuggestion sug (weight + s.sugg.length + 1).toNat
          hfstLoop checkUppercasing rest (if checkUppercasing then hfstUppercased sug :: seen else seen) s.charge

/-- `HfstSuggestion.cpp:51-81`, `generate`. `suggest` gives the queue of the HFST speller for a string. -/
def hfstGenerate (suggest : List Nat → List (List Nat × Int)) (s : SugStatus) : UB SugStatus := do
  let s := { s with maxCost := s.maxSug }
  match ← utf8FromUcs4 s.word with
  | none => ub
  | some bytes => hfstLoop (caseType s.word = .firstUpper) (suggest (bytes.takeWhile (· ≠ 0))) [] s

end Verif
