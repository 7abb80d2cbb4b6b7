import Verif.Model.Tweaks
import Verif.Model.Setup
/-!
# `spellchecker/suggestion/*`: suggestion status and the edit generators

* The normalised word is the NUL terminated string `word`; its memory is `word ++ [0]`.
* Freshly allocated buffers contain arbitrary characters, given by the parameter `junk`.
* Buffers are modelled as mutable lists; a candidate is the contents of the buffer at the time of the call.
-/

namespace Verif

/-! ### Memory helpers -/

/-- `new wchar_t[n]`: uninitialised memory. -/
def newBuf (junk : Nat → Wc) (n : Nat) : List Wc := (List.range n).map junk

/-- `wcsncpy` reading from the cells `src`; running past them is undefined. -/
def wcsncpyR (src : List Wc) (n : Nat) : UB (List Wc) :=
  if (src.take n).contains 0 || decide (n ≤ src.length) then some (wcsncpy src n) else ub

/-- `wcsncpy(buf + off, src, n)`. -/
def cpy (buf : List Wc) (off : Nat) (src : List Wc) (n : Nat) : UB (List Wc) := do
  let xs ← wcsncpyR src n
  wrList buf off xs

/-- `buf` together with a length argument: the first `n` characters must exist. -/
def sub (buf : List Wc) (n : Nat) : UB (List Wc) := if n ≤ buf.length then some (buf.take n) else ub

/-! ### `SuggestionStatus.cpp` -/

/-- `SuggestionStatus.hpp`: the object. `sugg` is the used part of the array `suggestions` (capacity
`maxSug + 1`), in order; the strings are given without terminator. -/
structure SugStatus where
  word : List Wc
  maxSug : Nat
  maxCost : Nat := 0
  cost : Nat := 0
  sugg : List (List Wc × Nat) := []
  deriving DecidableEq, Repr

/-- `SuggestionStatus.cpp:50-63`, `shouldAbort`. -/
def SugStatus.shouldAbort (s : SugStatus) : Bool :=
  if s.sugg.length = s.maxSug then true
  else if s.cost < s.maxCost then false
  else if s.sugg.length = 0 ∧ s.cost < 2 * s.maxCost then false
  else true

/-- `SuggestionStatus.cpp:65-67`, `charge`. -/
def SugStatus.charge (s : SugStatus) : SugStatus := { s with cost := s.cost + 1 }

/-- `SuggestionStatus.cpp:73-86`, `addSuggestion`. The product is a `size_t` that is then converted to `int`; a value
that does not fit is implementation-defined, which the model treats like undefined behaviour. -/
def SugStatus.addSuggestion (s : SugStatus) (w : List Wc) (priority : Nat) : UB SugStatus :=
  if s.sugg.length < s.maxSug then do
    let p ← int32 (priority * (s.sugg.length + 5))
    return { s with sugg := s.sugg ++ [(w, p)] }
  else return s

/-- `SuggestionStatus.cpp:98-100`: the inner loop of the insertion sort: `current` moves down past all entries with
larger priority. `before` is the sorted part, last element first. -/
def insertBack (current : List Wc × Nat) : List (List Wc × Nat) → List (List Wc × Nat)
  | [] => [current]
  | x :: xs => if x.2 > current.2 then x :: insertBack current xs else current :: x :: xs

/-- `SuggestionStatus.cpp:92-103`, `sortSuggestions`: `sorted` is the processed part, last element first. -/
def sortLoop : List (List Wc × Nat) → List (List Wc × Nat) → List (List Wc × Nat)
  | sorted, [] => sorted.reverse
  | sorted, x :: xs => sortLoop (insertBack x sorted) xs

/-- `SuggestionStatus.cpp:92-103` -/
def sortSuggestions (l : List (List Wc × Nat)) : List (List Wc × Nat) := sortLoop [] l

/-! ### `SuggestionGeneratorCaseChange.cpp` -/

/-- `SuggestionGeneratorCaseChange.cpp:87-101`: adapt the case of the letters to a structure. -/
def applyStructure : List Wc → List Wc → UB (List Wc)
  | [], _ => return []
  | c :: cs, s => do
    let s ← skipEq s
    let k ← rd s 0
    if k = 0 then return c :: cs
    else
      let c := if k = 0x69 ∨ k = 0x6A then upper c else if k = 0x70 ∨ k = 0x71 then lower c else c
      let rest ← applyStructure cs (s.drop 1)
      return c :: rest

/-- `SuggestionGeneratorCaseChange.cpp:49-106`, `suggestForBuffer`; `buf` = the `wlen` characters at `word`. -/
def suggestForBuffer (an : Analyzer) (s : SugStatus) (buf : List Wc) : UB SugStatus :=
  if s.shouldAbort then return s
  else do
    let (sres, prio) ← spellWithPriority an buf
    let s := s.charge
    match sres with
    | .failed => return s
    | .ok => do
      let w ← wcsncpyR buf buf.length
      s.addSuggestion (w.takeWhile (· ≠ 0)) prio
    | .capFirst => do
      let c ← rd buf 0
      let rest ← wcsncpyR (buf.drop 1) (buf.length - 1)
      s.addSuggestion ((upper c :: rest).takeWhile (· ≠ 0)) prio
    | .capError =>
      match an buf with
      | [] => return s.charge
      | a :: _ => do
        let cells ← a.structCells
        let w ← wcsncpyR buf buf.length
        let w ← applyStructure w cells
        s.charge.addSuggestion (w.takeWhile (· ≠ 0)) prio

/-- A suggestion generator. -/
abbrev Gen := SugStatus → UB SugStatus

/-- `SuggestionGeneratorCaseChange.cpp:45-47`, `generate`. -/
def genCaseChange (an : Analyzer) : Gen := fun s => suggestForBuffer an s s.word

/-! ### `SuggestionGeneratorSoftHyphens.cpp` -/

/-- `SuggestionGeneratorSoftHyphens.cpp:48-52`: copying everything but soft hyphens. -/
def softLoop : List Wc → Nat → List Wc → UB (Nat × List Wc)
  | [], j, buf => return (j, buf)
  | c :: cs, j, buf =>
    if c ≠ 0xAD then do
      let buf ← wr buf j c
      softLoop cs (j + 1) buf
    else softLoop cs j buf

/-- `SuggestionGeneratorSoftHyphens.cpp:41-57`, `generate`. -/
def genSoftHyphens (an : Analyzer) (junk : Nat → Wc) : Gen := fun s =>
  if 0xAD ∈ s.word then do
    let (j, buf) ← softLoop s.word 0 (newBuf junk s.word.length)
    let buf ← wr buf j 0
    let c ← sub buf j
    suggestForBuffer an s c
  else return s

/-! ### `SuggestionGeneratorDeletion.cpp` -/

/-- `SuggestionGeneratorDeletion.cpp:44`: test of the position `i`. -/
def deletionTest (w : List Wc) (i : Nat) : UB Bool :=
  if i = 0 then return true
  else do
    let a ← rd (w ++ [0]) i
    let b ← rd (w ++ [0]) (i - 1)
    return lower a != lower b

/-- `SuggestionGeneratorDeletion.cpp:43-50`: loop with `k` positions left, at position `i`. -/
def deletionLoop (an : Analyzer) (w : List Wc) : Nat → Nat → List Wc → Gen
  | 0, _, _, s => return s
  | k + 1, i, buf, s =>
    if s.shouldAbort then return s
    else do
      let t ← deletionTest w i
      if t then do
        let buf ← cpy buf 0 (w ++ [0]) i
        let buf ← cpy buf i ((w ++ [0]).drop (i + 1)) (w.length - i)
        let c ← sub buf (w.length - 1)
        let s ← suggestForBuffer an s c
        deletionLoop an w k (i + 1) buf s
      else deletionLoop an w k (i + 1) buf s

/-- `SuggestionGeneratorDeletion.cpp:41-52`, `generate`. -/
def genDeletion (an : Analyzer) (junk : Nat → Wc) : Gen := fun s =>
  deletionLoop an s.word s.word.length 0 (newBuf junk s.word.length) s

/-! ### `SuggestionGeneratorDeleteTwo.cpp` -/

/-- `SuggestionGeneratorDeleteTwo.cpp:52`: `wcsncmp(word + i, word + (i + 2), 2) == 0` (no NUL in the word). -/
def deleteTwoTest (w : List Wc) (i : Nat) : UB Bool := do
  let a ← rd (w ++ [0]) i
  let c ← rd (w ++ [0]) (i + 2)
  if a = c then do
    let b ← rd (w ++ [0]) (i + 1)
    let d ← rd (w ++ [0]) (i + 3)
    return b == d
  else return false

/-- `SuggestionGeneratorDeleteTwo.cpp:51-60`: loop; `attempts` is the set. -/
def deleteTwoLoop (an : Analyzer) (w : List Wc) : Nat → Nat → List Wc → List (List Wc) → Gen
  | 0, _, _, _, s => return s
  | k + 1, i, buf, attempts, s =>
    if s.shouldAbort then return s
    else do
      let t ← deleteTwoTest w i
      if t then do
        let buf ← cpy buf 0 (w ++ [0]) i
        let buf ← cpy buf i ((w ++ [0]).drop (i + 2)) (w.length - 2 - i)
        let c ← sub buf (w.length - 2)
        if c ∈ attempts then deleteTwoLoop an w k (i + 1) buf attempts s
        else do
          let s ← suggestForBuffer an s c
          deleteTwoLoop an w k (i + 1) buf (c :: attempts) s
      else deleteTwoLoop an w k (i + 1) buf attempts s

/-- `SuggestionGeneratorDeleteTwo.cpp:43-62`, `generate`. -/
def genDeleteTwo (an : Analyzer) (junk : Nat → Wc) : Gen := fun s =>
  if s.word.length < 6 then return s
  else deleteTwoLoop an s.word (s.word.length - 3) 0 (newBuf junk (s.word.length - 2)) [] s

/-! ### `SuggestionGeneratorInsertSpecial.cpp` -/

/-- `size_t` subtraction, wrapping. -/
def subSize (a b : Nat) : Nat := if b ≤ a then a - b else 2 ^ 64 + a - b

/-- `SuggestionGeneratorInsertSpecial.cpp:46-47`: is there a hyphen nearby? (`||` stops at the first one.) -/
def hyphenNear (w : List Wc) (j : Nat) : UB Bool := do
  let a ← rd (w ++ [0]) (j - 2)
  if a = 0x2D then return true
  else do
    let b ← rd (w ++ [0]) (j - 1)
    if b = 0x2D then return true
    else do
      let c ← rd (w ++ [0]) j
      if c = 0x2D then return true
      else do
        let d ← rd (w ++ [0]) (j + 1)
        return d == 0x2D

/-- `SuggestionGeneratorInsertSpecial.cpp:44-53`: loop with `k` iterations left. -/
def hyphenLoop (an : Analyzer) (w : List Wc) : Nat → Nat → List Wc → SugStatus → UB (List Wc × SugStatus)
  | 0, _, buf, s => return (buf, s)
  | k + 1, j, buf, s =>
    if s.shouldAbort then return (buf, s)
    else do
      let t ← hyphenNear w j
      if t then hyphenLoop an w k (j + 1) buf s
      else do
        let buf ← cpy buf 0 (w ++ [0]) j
        let buf ← wr buf j 0x2D
        let c ← sub buf (w.length + 1)
        let s ← suggestForBuffer an s c
        hyphenLoop an w k (j + 1) buf s

/-- `SuggestionGeneratorInsertSpecial.cpp:59`: is the next character the same? -/
def sameNext (w : List Wc) (j : Nat) : UB Bool :=
  if j < w.length - 1 then do
    let a ← rd (w ++ [0]) j
    let b ← rd (w ++ [0]) (j + 1)
    return a == b
  else return false

/-- `SuggestionGeneratorInsertSpecial.cpp:56-67`: loop with `k` bounding the iterations left. -/
def dupLoop (an : Analyzer) (w : List Wc) : Nat → Nat → List Wc → Gen
  | 0, _, _, s => return s
  | k + 1, j, buf, s =>
    if w.length ≤ j ∨ s.shouldAbort = true then return s
    else do
      let c ← rd (w ++ [0]) j
      let buf ← wr buf j c
      let same ← sameNext w j
      if same then dupLoop an w k (j + 2) buf s
      else if c = 0x2D ∨ c = 0x27 then dupLoop an w k (j + 1) buf s
      else do
        let cand ← sub buf (w.length + 1)
        let s ← suggestForBuffer an s cand
        dupLoop an w k (j + 1) buf s

/-- `SuggestionGeneratorInsertSpecial.cpp:38-69`, `generate`. The first loop runs for `j = 2, ..., wlen - 2` where the
subtraction wraps around for words of one character. -/
def genInsertSpecial (an : Analyzer) (junk : Nat → Wc) : Gen := fun s => do
  let w := s.word
  let buf := newBuf junk (w.length + 2)
  let buf ← cpy buf 1 (w ++ [0]) w.length
  let buf ← wr buf (w.length + 1) 0
  let (buf, s) ← hyphenLoop an w (subSize w.length 2 - 1) 2 buf s
  let buf ← cpy buf 1 (w ++ [0]) (w.length + 1)
  dupLoop an w (w.length + 1) 0 buf s

/-! ### `SuggestionGeneratorInsertion.cpp` -/

/-- `SuggestionGeneratorInsertion.cpp:53-58`: is the insertion of `ins` at `j` skipped? -/
def insertionSkip (w : List Wc) (ins : Wc) (j : Nat) : UB Bool := do
  let a ← rd (w ++ [0]) j
  if ins = lower a then return true
  else if j > 0 then do
    let b ← rd (w ++ [0]) (j - 1)
    return ins == lower b
  else return false

/-- `SuggestionGeneratorInsertion.cpp:50-52` -/
def restorePrev (w buf : List Wc) (j : Nat) : UB (List Wc) :=
  if j ≠ 0 then do
    let p ← rd (w ++ [0]) (j - 1)
    wr buf (j - 1) p
  else return buf

/-- `SuggestionGeneratorInsertion.cpp:49-62`: loop over the positions. -/
def insertionPosLoop (an : Analyzer) (w : List Wc) (ins : Wc) :
    Nat → Nat → List Wc → SugStatus → UB (List Wc × SugStatus)
  | 0, _, buf, s => return (buf, s)
  | k + 1, j, buf, s =>
    if s.shouldAbort then return (buf, s)
    else do
      let buf ← restorePrev w buf j
      let skip ← insertionSkip w ins j
      if skip then insertionPosLoop an w ins k (j + 1) buf s
      else do
        let buf ← wr buf j ins
        let c ← sub buf (w.length + 1)
        let s ← suggestForBuffer an s c
        insertionPosLoop an w ins k (j + 1) buf s

/-- `SuggestionGeneratorInsertion.cpp:45-73`: loop over the characters. `getWord()[getWordLength()-1]` needs a
non-empty word. -/
def insertionLoop (an : Analyzer) (w : List Wc) : List Wc → List Wc → Gen
  | [], _, s => return s
  | ins :: rest, buf, s => do
    let c0 ← rd (w ++ [0]) 0
    let buf ← wr buf 0 c0
    let buf ← cpy buf 1 (w ++ [0]) w.length
    let buf ← wr buf (w.length + 1) 0
    let (buf, s) ← insertionPosLoop an w ins w.length 0 buf s
    if s.shouldAbort then return s
    else if w.length = 0 then ub
    else do
      let last ← rd (w ++ [0]) (w.length - 1)
      if ins = last then insertionLoop an w rest buf s
      else do
        let buf ← wr buf (w.length - 1) last
        let buf ← wr buf w.length ins
        let c ← sub buf (w.length + 1)
        let s ← suggestForBuffer an s c
        insertionLoop an w rest buf s

/-- `SuggestionGeneratorInsertion.cpp:43-75`, `generate`. -/
def genInsertion (an : Analyzer) (junk : Nat → Wc) (chars : List Wc) : Gen := fun s =>
  insertionLoop an s.word chars (newBuf junk (s.word.length + 2)) s

/-! ### `SuggestionGeneratorReplacement.cpp`, `SuggestionGeneratorMultiReplacement.cpp` -/

/-- The loops `for (pos = wcschr(p, from); pos != 0; pos = wcschr(pos+1, from)) { *pos = to; act; if (abort) leave;
*pos = from; }` (`SuggestionGeneratorReplacement.cpp:49-56,63-70`, `SuggestionGeneratorMultiReplacement.cpp:55-68`):
`k` bounds the cells left, `pos` is the cell being compared by `wcschr`. The flag says whether the loop was left
because of `shouldAbort` (then the buffer is not restored). -/
def replaceLoop (act : Nat → List Wc → SugStatus → UB (List Wc × SugStatus)) (frm to : Wc) :
    Nat → Nat → List Wc → SugStatus → UB (Bool × List Wc × SugStatus)
  | 0, _, _, _ => ub
  | k + 1, pos, buf, s => do
    let c ← rd buf pos
    if c = frm then do
      let buf ← wr buf pos to
      let (buf, s) ← act pos buf s
      if s.shouldAbort then return (true, buf, s)
      else do
        let buf ← wr buf pos frm
        replaceLoop act frm to k (pos + 1) buf s
    else if c = 0 then return (false, buf, s)
    else replaceLoop act frm to k (pos + 1) buf s

/-- Submission of the first `n` characters of the buffer. -/
def submitBuf (an : Analyzer) (n : Nat) (buf : List Wc) (s : SugStatus) : UB (List Wc × SugStatus) := do
  let c ← sub buf n
  let s ← suggestForBuffer an s c
  return (buf, s)

/-- `SuggestionGeneratorReplacement.cpp:46-72`: loop over the replacement pairs. A table of odd length would be read
past its end. -/
def replacementLoop (an : Analyzer) (n : Nat) : List Wc → List Wc → Gen
  | [], _, s => return s
  | [_], _, _ => ub
  | frm :: to :: rest, buf, s => do
    let (_, buf, s) ← replaceLoop (fun _ => submitBuf an n) frm to (n + 1) 0 buf s
    if s.shouldAbort then return s
    else if upper frm = frm then replacementLoop an n rest buf s
    else do
      let (_, buf, s) ← replaceLoop (fun _ => submitBuf an n) (upper frm) (upper to) (n + 1) 0 buf s
      if s.shouldAbort then return s else replacementLoop an n rest buf s

/-- `SuggestionGeneratorReplacement.cpp:42-74`, `generate`. -/
def genReplacement (an : Analyzer) (junk : Nat → Wc) (table : List Wc) : Gen := fun s => do
  let n := s.word.length
  let buf ← cpy (newBuf junk (n + 1)) 0 (s.word ++ [0]) n
  let buf ← wr buf n 0
  replacementLoop an n table buf s

/-- `SuggestionGeneratorMultiReplacement.cpp:52-69`: loop over the replacement pairs from `buffer + off`; `act` is the
work done at each replacement. -/
def multiTable (act : Nat → List Wc → SugStatus → UB (List Wc × SugStatus)) (n off : Nat) :
    List Wc → List Wc → SugStatus → UB (List Wc × SugStatus)
  | [], buf, s => return (buf, s)
  | [_], _, _ => ub
  | frm :: to :: rest, buf, s => do
    let (aborted, buf, s) ← replaceLoop act frm to (n + 1 - off) off buf s
    if aborted then return (buf, s) else multiTable act n off rest buf s

/-- `SuggestionGeneratorMultiReplacement.cpp:50-70`, `doGenerate` with `remainingReplacements = r + 1`. -/
def multiReplace (an : Analyzer) (n : Nat) (table : List Wc) :
    Nat → Nat → List Wc → SugStatus → UB (List Wc × SugStatus)
  | 0, off, buf, s => multiTable (fun _ => submitBuf an n) n off table buf s
  | r + 1, off, buf, s => multiTable (fun pos => multiReplace an n table r pos) n off table buf s

/-- `SuggestionGeneratorMultiReplacement.cpp:42-48`, `generate`, with `replaceCount = count ≥ 1`. -/
def genMultiReplacement (an : Analyzer) (junk : Nat → Wc) (table : List Wc) (count : Nat) : Gen := fun s => do
  let n := s.word.length
  let buf ← cpy (newBuf junk (n + 1)) 0 (s.word ++ [0]) n
  let buf ← wr buf n 0
  let (_, s) ← multiReplace an n table (count - 1) 0 buf s
  return s

/-! ### `SuggestionGeneratorReplaceTwo.cpp` -/

/-- `SuggestionGeneratorReplaceTwo.cpp:55-66`: loop over the replacement pairs. -/
def replaceTwoPairs (an : Analyzer) (n i : Nat) (replaced : Wc) :
    List Wc → List Wc → SugStatus → UB (List Wc × SugStatus)
  | [], buf, s => return (buf, s)
  | [_], _, _ => ub
  | frm :: to :: rest, buf, s =>
    if frm ≠ replaced then replaceTwoPairs an n i replaced rest buf s
    else do
      let buf ← wr buf i to
      let buf ← wr buf (i + 1) to
      let (buf, s) ← submitBuf an n buf s
      if s.shouldAbort then return (buf, s) else replaceTwoPairs an n i replaced rest buf s

/-- `SuggestionGeneratorReplaceTwo.cpp:50-73`: loop; `k` bounds the iterations. -/
def replaceTwoLoop (an : Analyzer) (n : Nat) (table : List Wc) : Nat → Nat → List Wc → Gen
  | 0, _, _, s => return s
  | k + 1, i, buf, s =>
    if i < subSize n 1 then do
      let a ← rd buf i
      let b ← rd buf (i + 1)
      if a ≠ b then replaceTwoLoop an n table k (i + 1) buf s
      else do
        let (buf, s) ← replaceTwoPairs an n i a table buf s
        let buf ← wr buf i a
        let buf ← wr buf (i + 1) a
        if s.shouldAbort then return s else replaceTwoLoop an n table k (i + 2) buf s
    else return s

/-- `SuggestionGeneratorReplaceTwo.cpp:42-76`, `generate`. -/
def genReplaceTwo (an : Analyzer) (table : List Wc) : Gen := fun s =>
  replaceTwoLoop an s.word.length table (subSize s.word.length 1) 0 (s.word.map lower ++ [0]) s

/-! ### `SuggestionGeneratorSwap.cpp` -/

/-- `SuggestionGeneratorSwap.cpp:38`, `SuggestionGeneratorVowelChange.cpp:35`. -/
def backVowels : List Wc := lit "aouAOU"
/-- `SuggestionGeneratorSwap.cpp:39`, `SuggestionGeneratorVowelChange.cpp:36`. -/
def frontVowels : List Wc := lit "äöyÄÖY"

/-- `SuggestionGeneratorSwap.cpp:59-66`: front and back vowel of the same pair (first three pairs). -/
def vowelPair (a b : Wc) : Bool :=
  (backVowels.take 3).zip (frontVowels.take 3) |>.any fun p => (a == p.1 && b == p.2) || (a == p.2 && b == p.1)

/-- `SuggestionGeneratorSwap.cpp:53-73`: inner loop. -/
def swapInner (an : Analyzer) (w : List Wc) (maxDist i : Nat) :
    Nat → Nat → List Wc → SugStatus → UB (List Wc × SugStatus)
  | 0, _, buf, s => return (buf, s)
  | k + 1, j, buf, s =>
    if s.shouldAbort then return (buf, s)
    else if j - i > maxDist then return (buf, s)
    else do
      let a ← rd buf i
      let b ← rd buf j
      if lower a = lower b ∨ vowelPair (lower a) (lower b) = true then swapInner an w maxDist i k (j + 1) buf s
      else do
        let wi ← rd (w ++ [0]) i
        let wj ← rd (w ++ [0]) j
        let buf ← wr buf i wj
        let buf ← wr buf j wi
        let (buf, s) ← submitBuf an w.length buf s
        let buf ← wr buf i wi
        let buf ← wr buf j wj
        swapInner an w maxDist i k (j + 1) buf s

/-- `SuggestionGeneratorSwap.cpp:52-74`: outer loop. -/
def swapLoop (an : Analyzer) (w : List Wc) (maxDist : Nat) : Nat → Nat → List Wc → Gen
  | 0, _, _, s => return s
  | k + 1, i, buf, s =>
    if s.shouldAbort then return s
    else do
      let (buf, s) ← swapInner an w maxDist i (w.length - (i + 1)) (i + 1) buf s
      swapLoop an w maxDist k (i + 1) buf s

/-- `SuggestionGeneratorSwap.cpp:45-48`: `max_distance`. -/
def swapDistance (n : Nat) : Nat := if n ≤ 8 then 10 else 50 / n

/-- `SuggestionGeneratorSwap.cpp:44-76`, `generate`. -/
def genSwap (an : Analyzer) (junk : Nat → Wc) : Gen := fun s =>
  if swapDistance s.word.length = 0 then return s
  else do
    let n := s.word.length
    let buf ← cpy (newBuf junk (n + 1)) 0 (s.word ++ [0]) n
    let buf ← wr buf n 0
    swapLoop an s.word (swapDistance n) n 0 buf s

/-! ### `SuggestionGeneratorVowelChange.cpp` -/

/-- `SuggestionGeneratorVowelChange.cpp:46-48`: is the character one of the twelve vowels? -/
def isHarmonyVowel (c : Wc) : Bool := backVowels.contains c || frontVowels.contains c

/-- `mask <<= 1` for an `int`: undefined for negative values (before C++20), otherwise reduced modulo 2^32. -/
def shl1 (m : Int) : UB Int :=
  if m < 0 then ub else if 2 * m < 2 ^ 31 then some (2 * m) else some (2 * m - 2 ^ 32)

/-- `SuggestionGeneratorVowelChange.cpp:45-53`: `(vcount, mask)`. -/
def vowelMask : List Wc → Nat → Int → UB (Nat × Int)
  | [], vcount, mask => return (vcount, mask)
  | c :: cs, vcount, mask =>
    if isHarmonyVowel c then do
      let m ← shl1 mask
      vowelMask cs (vcount + 1) (m + 1)
    else vowelMask cs vcount mask

/-- `SuggestionGeneratorVowelChange.cpp:63-72`: exchange of a vowel. -/
def flipVowel (c : Wc) : Wc :=
  match backVowels.findIdx? (· == c) with
  | some k => frontVowels[k]?.getD c
  | none =>
    match frontVowels.findIdx? (· == c) with
    | some k => backVowels[k]?.getD c
    | none => c

/-- `SuggestionGeneratorVowelChange.cpp:60-61`: find the next vowel (or NUL, which `wcschr` finds as well) from `i`. -/
def nextVowel (buf : List Wc) : Nat → Nat → UB Nat
  | 0, _ => ub
  | k + 1, i => do
    let c ← rd buf i
    if wcschr backVowels c || wcschr frontVowels c then return i else nextVowel buf k (i + 1)

/-- `SuggestionGeneratorVowelChange.cpp:59-75`: loop over the vowels; `v` are left, the current one has number `j`. -/
def flipLoop (pat : Nat) : Nat → Nat → Nat → List Wc → UB (List Wc)
  | 0, _, _, buf => return buf
  | v + 1, j, i, buf => do
    let i ← nextVowel buf (buf.length + 1) i
    if pat.testBit j then do
      let c ← rd buf i
      let buf ← wr buf i (flipVowel c)
      flipLoop pat v (j + 1) (i + 1) buf
    else flipLoop pat v (j + 1) (i + 1) buf

/-- `SuggestionGeneratorVowelChange.cpp:56-83`: the `while` loop (`k` bounds the iterations; running out would be
non-termination). -/
def vowelLoop (an : Analyzer) (vcount mask : Nat) : Nat → Nat → List Wc → Gen
  | 0, _, _, _ => ub
  | k + 1, pat, buf, s =>
    if pat &&& mask = 0 then return s
    else do
      let buf ← wrList buf 0 (s.word ++ [0])
      let buf ← flipLoop pat vcount 0 0 buf
      if s.shouldAbort then return s
      else do
        let (buf, s) ← submitBuf an s.word.length buf s
        vowelLoop an vcount mask k (pat + 1) buf s

/-- `SuggestionGeneratorVowelChange.cpp:41-85`, `generate`. -/
def genVowelChange (an : Analyzer) (junk : Nat → Wc) : Gen := fun s => do
  let (vcount, mask) ← vowelMask s.word 0 0
  if vcount = 0 ∨ vcount > 7 then return s
  else vowelLoop an vcount mask.toNat (2 ^ vcount) 1 (newBuf junk (s.word.length + 1)) s

/-! ### `SuggestionGeneratorSplitWord.cpp` -/

/-- `SuggestionGeneratorSplitWord.cpp:45-56`, `spellOk`: the word is the first `len` cells of `p`, which is changed in
place. Result: acceptable?, the memory, the priority, the status. -/
def splitSpellOk (an : Analyzer) (s : SugStatus) (p : List Wc) (len : Nat) :
    UB (Bool × List Wc × Nat × SugStatus) := do
  let c ← rd p 0
  let firstUpper := isUpper c
  let p ← (if firstUpper then wr p 0 (lower c) else some p : UB (List Wc))
  let wd ← sub p len
  let (res, prio) ← spellWithPriority an wd
  let c ← rd p 0
  let p ← (if firstUpper || res == .capFirst then wr p 0 (upper c) else some p : UB (List Wc))
  return (res == .ok || res == .capFirst, p, prio, s.charge)

/-- `SuggestionGeneratorSplitWord.cpp:59-66`, `getResultForPart1`. -/
def splitPart1 (an : Analyzer) (s : SugStatus) (p : List Wc) (len : Nat) :
    UB (Bool × List Wc × Nat × SugStatus) := do
  let (ok, p, prio, s) ← splitSpellOk an s p len
  if ok then return (ok, p, prio, s)
  else do
    let last ← rd p (len - 1)
    if last ≠ 0x2E then return (ok, p, prio, s) else splitSpellOk an s p (len - 1)

/-- `SuggestionGeneratorSplitWord.cpp:79-80`: hyphen too near. -/
def splitHyphenNear (w : List Wc) (i : Nat) : UB Bool := do
  let a ← rd (w ++ [0]) (i - 2)
  if a = 0x2D then return true
  else do
    let b ← rd (w ++ [0]) (i - 1)
    if b = 0x2D then return true
    else do
      let c ← rd (w ++ [0]) (i + 1)
      return c == 0x2D

/-- `SuggestionGeneratorSplitWord.cpp:81-98`: one split position. The second half of the buffer `suggestion` (from
`w2start` on) is the list `p2`; `part1` is `p`. -/
def splitAt (an : Analyzer) (w : List Wc) (i : Nat) (p : List Wc) (s : SugStatus) : UB (List Wc × SugStatus) := do
  let c ← rd (w ++ [0]) i
  let strip := if c = 0x2D then 1 else 0
  let p ← wr p i 0
  let (ok1, p, prio1, s) ← splitPart1 an s p i
  if ok1 then do
    let w2len := w.length - i - strip
    -- bounds of the allocation of `wlen + 2` characters
    if w.length + 2 < i + 1 + (w2len + 1) then ub
    else do
      let p2 ← wcsncpyR ((w ++ [0]).drop (i + strip)) (w2len + 1)
      let (ok2, p2, prio2, s) ← splitSpellOk an s p2 w2len
      let sum ← int32 (prio1 + prio2)
      let total ← int32 (sum * (1 + strip * 5))
      if ok2 then do
        let p1 ← wcsncpyR p i
        let s ← s.addSuggestion ((p1 ++ 0x20 :: p2).takeWhile (· ≠ 0)) total
        return (p, s)
      else return (p, s)
  else return (p, s)

/-- `SuggestionGeneratorSplitWord.cpp:75-100`: loop for `splitind` counting down. -/
def splitLoop (an : Analyzer) (w : List Wc) : Nat → List Wc → Gen
  | 0, _, s => return s
  | i + 1, p, s =>
    if i + 1 < 2 then return s
    else do
      let near ← splitHyphenNear w (i + 1)
      if near then splitLoop an w i p s
      else do
        let (p, s) ← splitAt an w (i + 1) p s
        if s.shouldAbort then return s else splitLoop an w i p s

/-- `SuggestionGeneratorSplitWord.cpp:68-103`, `generate`: starts at `wlen - 2`, which wraps around for words of one
character. -/
def genSplitWord (an : Analyzer) (junk : Nat → Wc) : Gen := fun s => do
  let n := s.word.length
  let p ← cpy (newBuf junk (n + 1)) 0 (s.word ++ [0]) n
  let p ← wr p n 0
  splitLoop an s.word (subSize n 2) p s

/-! ### Strategies -/

/-- `SuggestionStrategy.cpp:53-55`, `61-64`: run the generators in order. -/
def runGens : List Gen → Gen
  | [], s => return s
  | g :: gs, s => if s.shouldAbort then return s else do
    let s ← g s
    runGens gs s

/-- `SuggestionStrategy.cpp:49-65`, `generate`. -/
def strategyGenerate (primary others : List Gen) (maxCost : Nat) : Gen := fun s => do
  let s := { s with maxCost := maxCost }
  let s ← runGens primary s
  if s.sugg.length > 0 then return s else runGens others s

/-- `SuggestionStrategyTyping.cpp:48-59` -/
def replacements1 : List Wc := lit <|
  ".,asiuiotr" ++ "tdersšsanm" ++ "uilkklkgoi" ++ "äömnrertvb" ++ "pbpoythjjh" ++ "jkdtdsdföä" ++ "gfghgkfgfd" ++
  "bpbncvcswe" ++ "wvxczžzxqa" ++ "åoåpåäåöae" ++ "iktyea"
/-- `SuggestionStrategyTyping.cpp:61-66` -/
def replacements2 : List Wc := lit <| "1q2q2w3w3e" ++ "4e4r5r5t6t" ++ "6y7y7u8u8i" ++ "9i9o0o0p+p" ++ "ie"
/-- `SuggestionStrategyTyping.cpp:68-75` -/
def replacements3 : List Wc := lit <|
  "essdnhujlö" ++ "kjopäpmkrd" ++ "vgplyhhuji" ++ "deölgtfvbv" ++ "ckwaxszaqk" ++ "åaaåeéaâkc" ++ "scijxz"
/-- `SuggestionStrategyTyping.cpp:77-91` -/
def replacements4 : List Wc := lit <|
  "qwqswqwswd" ++ "edefrfrgtf" ++ "tgthygyjuh" ++ "ukilokolpö" ++ "päsesxdrbg" ++ "fefrftfcgy" ++ "gbgvhyhnhb" ++
  "hgjujmjnki" ++ "kokmlolpöp" ++ "öåäåzsxdcd" ++ "cfcxvfbhnj" ++ "nbmjewpåaq" ++ "swszdwdcdx" ++ "vcawazsq"
/-- `SuggestionStrategyTyping.cpp:93-101` -/
def replacements5 : List Wc := lit <|
  "aooaoutlsr" ++ "aieääeuvvu" ++ "oddokqpvvp" ++ "qeeqaddars" ++ "etteryyrtu" ++ "utyiiyuoip" ++ "pioåhvvhhm" ++
  "mh"
/-- `SuggestionStrategyTyping.cpp:123` -/
def insertChars1 : List Wc := lit "aitesn"
/-- `SuggestionStrategyTyping.cpp:130` -/
def insertChars2 : List Wc := lit "ulkoämrvpyhjdögfbcw:xzqå'."

/-- `SuggestionStrategyTyping.cpp:103-143`; the budget 800 is set in `SuggestionGeneratorFactory.cpp:59`. -/
def typingStrategy (an : Analyzer) (junk : Nat → Wc) : Gen :=
  strategyGenerate [genCaseChange an, genSoftHyphens an junk]
    [genVowelChange an junk, genReplacement an junk replacements1, genDeletion an junk, genInsertSpecial an junk,
     genSplitWord an junk, genReplaceTwo an replacements1, genReplacement an junk replacements2,
     genInsertion an junk insertChars1, genSwap an junk, genReplacement an junk replacements3,
     genInsertion an junk insertChars2, genReplacement an junk replacements4, genReplaceTwo an replacements2,
     genReplaceTwo an replacements3, genReplaceTwo an replacements4, genDeleteTwo an junk,
     genReplacement an junk replacements5]
    800

/-- `SuggestionStrategyOcr.cpp:38-50` -/
def replacementsOcr : List Wc := lit <|
  "0oliiluoou" ++ "aääaoööosš" ++ "šszžžzeéée" ++ "aââapbbpef" ++ "feqooqnmmn" ++ "uvvuoccobh" ++ "hb_a_b_c_d" ++
  "_e_f_g_h_i" ++ "_j_k_l_m_n" ++ "_o_p_q_r_s" ++ "_t_u_v_w_x" ++ "_y_z_ä_ö"

/-- `SuggestionStrategyOcr.cpp:53-62`; the budget 2000 is set in `SuggestionGeneratorFactory.cpp:56`. -/
def ocrStrategy (an : Analyzer) (junk : Nat → Wc) : Gen :=
  strategyGenerate [genCaseChange an]
    [genReplacement an junk replacementsOcr, genMultiReplacement an junk replacementsOcr 2] 2000

/-! ### `suggestions.cpp` -/

/-- `charset.cpp:251-261` / `266-275`: one comparison of the reformat loops. `some c` = new character of the modified
string, continue; `none` = stop. -/
def reformatStep (o m : Wc) : Option Wc :=
  if o = m then some m
  else if conv1to1.contains (o, m) then some o else none

/-- `charset.cpp:252-262`: leading part; returns the index where the loop stopped. -/
def reformatLead (orig : List Wc) : Nat → Nat → List Wc → UB (Nat × List Wc)
  | 0, i, md => return (i, md)
  | k + 1, i, md => do
    let o ← rd orig i
    let m ← rd md i
    match reformatStep o m with
    | none => return (i, md)
    | some c => do
      let md ← wr md i c
      reformatLead orig k (i + 1) md

/-- `charset.cpp:265-275`: trailing part, `i` characters from the end. -/
def reformatTrail (orig : List Wc) (origLen : Nat) : Nat → Nat → List Wc → UB (List Wc)
  | 0, _, md => return md
  | k + 1, i, md => do
    let o ← rd orig (origLen - i)
    let m ← rd md (md.length - i)
    match reformatStep o m with
    | none => return md
    | some c => do
      let md ← wr md (md.length - i) c
      reformatTrail orig origLen k (i + 1) md

/-- `charset.cpp:244-276`, `voikko_cset_reformat`. `orig` are the readable cells of the original. -/
def csetReformat (orig : List Wc) (origLen : Nat) (md : List Wc) : UB (List Wc) :=
  if origLen < 1 ∨ md.length < 1 then return md
  else do
    let minl := if origLen < md.length then origLen else md.length
    let (i, md) ← reformatLead orig minl 0 md
    reformatTrail orig origLen (minl - i) 1 md

/-- `suggestions.cpp:46-67`, `getSuggestions`: copy of one suggestion, with a dot if necessary. -/
def copySuggestion (addDot : Bool) (w : List Wc) : UB (List Wc) :=
  if addDot then
    if w.length = 0 then ub
    else do
      let c ← rd w (w.length - 1)
      if c ≠ 0x2E then return w ++ [0x2E] else return w
  else return w

/-- `suggestions.cpp:40`, `MAX_SUGGESTIONS` -/
def maxSuggestions : Nat := 5

/-- `mapM` in the UB monad. -/
def mapUB {α β : Type} (f : α → UB β) : List α → UB (List β)
  | [] => return []
  | x :: xs => do
    let y ← f x
    let ys ← mapUB f xs
    return y :: ys

/-- `suggestions.cpp:123-146`: change the character case to match the original word. -/
def recase (acceptAllUppercase : Bool) (nword : List Wc) (w : List Wc) : List Wc :=
  let oc := caseType nword
  let firstUp := oc == .firstUpper || (oc == .complex && (nword.head?.map isUpper).getD false)
  let w := if firstUp && caseType w == .allLower then setCase .firstUpper w else w
  if oc == .allUpper && acceptAllUppercase then setCase .allUpper w else w

/-- `suggestions.cpp:99-108`: handling of IGNORE_DOT: the word to correct and `add_dots`; `none` = return null. -/
def cutSuggestDot (ignoreDot : Bool) (nword : List Wc) : UB (Option (List Wc × Bool)) :=
  if ignoreDot then
    if nword.length = 2 then return none
    else if nword.length = 0 then ub
    else do
      let c ← rd nword (nword.length - 1)
      if c = 0x2E then return some (nword.dropLast, true) else return some (nword, false)
  else return some (nword, false)

/-- `suggestions.cpp:87-155`, `voikkoSuggestUcs4` (for `word != 0`); the empty list stands for the null pointer.
`gen` is the suggestion generator of the handle. -/
def suggestUcs4 (gen : Gen) (ignoreDot acceptAllUppercase : Bool) (word : List Wc) : UB (List (List Wc)) :=
  if word.length ≤ 1 ∨ word.length > maxWordChars then return []
  else do
    let buf ← normalise word
    let cut ← cutSuggestDot ignoreDot (cstr buf)
    match cut with
    | none => return []
    | some (nword, addDots) => do
      let s ← gen { word := nword, maxSug := maxSuggestions * 3 }
      if s.sugg.length = 0 then return []
      else do
        let sorted := (sortSuggestions s.sugg).map (·.1)
        let out ← mapUB (copySuggestion addDots) (sorted.take maxSuggestions)
        let out := out.map (recase acceptAllUppercase nword)
        mapUB (csetReformat (word ++ [0]) nword.length) out

end Verif
