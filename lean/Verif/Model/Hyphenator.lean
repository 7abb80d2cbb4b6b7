import Verif.Model.Setup
import Verif.Model.Tweaks
/-!
# `hyphenator/AnalyzerToFinnishHyphenatorAdapter.cpp`, `hyphenator/interface.cpp`

Hyphenation patterns are lists of character codes: `' '` = 0x20, `'-'` = 0x2D, `'='` = 0x3D, `'X'` = 0x58. A pattern
buffer of `len + 1` elements contains its terminating NUL as last element. The pointers `&word[start]` and
`&hyphenation[start]` are the lists of the elements from `start` on.
-/

namespace Verif

/-- `AnalyzerToFinnishHyphenatorAdapter.cpp:42-44`, `SPLIT_VOWELS`. -/
def splitVowels : List (List Wc) :=
  [lit "ae", lit "ao", lit "ea", lit "eo", lit "ia", lit "io", lit "oa", lit "oe",
   lit "ua", lit "ue", lit "ye", lit "eä", lit "eö", lit "iä",
   lit "iö", lit "yä", lit "äe", lit "öe"]
/-- `AnalyzerToFinnishHyphenatorAdapter.cpp:45`, `LONG_CONSONANTS`. -/
def longConsonants : List (List Wc) := [lit "shtsh", lit "štš", lit "tsh", lit "tš", lit "zh"]
/-- `AnalyzerToFinnishHyphenatorAdapter.cpp:46`, `SPLIT_AFTER`. -/
def splitAfter : List (List Wc) := [lit "ie", lit "ai"]

/-- `for (i = lo; i < lo + n; i++)` with a body that may change the pattern. -/
def forIdx : Nat → Nat → (Nat → List Wc → UB (List Wc)) → List Wc → UB (List Wc)
  | _, 0, _, pts => return pts
  | lo, n + 1, f, pts => do
    let pts ← f lo pts
    forIdx (lo + 1) n f pts

/-- A loop over the entries of a table. -/
def forTable {α : Type} : List α → (α → List Wc → UB (List Wc)) → List Wc → UB (List Wc)
  | [], _, pts => return pts
  | x :: xs, f, pts => do
    let pts ← f x pts
    forTable xs f pts

/-- `AnalyzerToFinnishHyphenatorAdapter.cpp:319-339`, `allowRuleHyphenation`. `word` is the memory from the start of the
part, of which `nchars` characters are used. -/
def allowRule (ugly : Bool) (word : List Wc) (nchars : Nat) : UB Bool :=
  if nchars ≤ 1 then return false
  else if !ugly then
    if word.length < nchars then ub
    else do
      let nonword ← isNonword (word.take nchars)
      if nonword then return false
      else do
        let c ← rd word (nchars - 1)
        return !(decide (0x30 ≤ c) && decide (c ≤ 0x39))
  else return true

/-- `AnalyzerToFinnishHyphenatorAdapter.cpp:512-520`: backwards for vowels, from index `i`. -/
def goodBack (w pts : List Wc) : Nat → Bool → UB Bool
  | 0, has => do
    let _ ← rd pts 0
    return has
  | i + 1, has => do
    let p ← rd pts (i + 1)
    if p = 0x2D ∨ p = 0x3D then return has
    else do
      let c ← rd w (i + 1)
      goodBack w pts i (has || wcschr voikkoVowels c)

/-- `AnalyzerToFinnishHyphenatorAdapter.cpp:527-535`: forward for vowels, from index `i` with `k = nchars - i`. -/
def goodFwd (w pts : List Wc) : Nat → Nat → Bool → UB Bool
  | 0, _, has => return has
  | k + 1, i, has => do
    let p ← rd pts i
    if p = 0x2D ∨ p = 0x3D then return has
    else do
      let c ← rd w i
      if c = 0x2E then return has else goodFwd w pts k (i + 1) (has || wcschr voikkoVowels c)

/-- `AnalyzerToFinnishHyphenatorAdapter.cpp:504-541`, `isGoodHyphenPosition`. -/
def isGoodPos (w pts : List Wc) (pos nchars : Nat) : UB Bool :=
  if pos = 0 ∨ pos + 1 ≥ nchars then return false
  else do
    let back ← goodBack w pts (pos - 1) false
    if !back then return false else goodFwd w pts (nchars - pos) pos false

/-- `AnalyzerToFinnishHyphenatorAdapter.cpp:416-422`: body of the `-CV` loop. -/
def stepCV (ugly : Bool) (w : List Wc) (i : Nat) (pts : List Wc) : UB (List Wc) := do
  let c ← rd w i
  let d ← rd w (i + 1)
  if wcschr voikkoConsonants c && wcschr voikkoVowels d then
    if i = 0 then ub
    else do
      let b ← rd w (i - 1)
      if wcschr (lit "/.:&%'") b then return pts
      else if i ≤ 1 ∨ ugly = true then wr pts i 0x2D
      else do
        let a ← rd w (i - 2)
        if a ≠ 0x27 then wr pts i 0x2D else return pts
  else return pts

/-- `AnalyzerToFinnishHyphenatorAdapter.cpp:425-429`: body of the `'V` loop. -/
def stepApos (w : List Wc) (i : Nat) (pts : List Wc) : UB (List Wc) := do
  let c ← rd w i
  if c = 0x27 then do
    let d ← rd w (i + 1)
    if wcschr voikkoVowels d then wr pts i 0x3D else return pts
  else return pts

/-- `AnalyzerToFinnishHyphenatorAdapter.cpp:434-437` -/
def stepLongBefore (w : List Wc) (nchars i : Nat) (pts : List Wc) : UB (List Wc) := do
  let b ← rd w (i - 1)
  if wcschr voikkoVowels b then do
    let good ← isGoodPos w pts i nchars
    if good then wr pts i 0x2D else return pts
  else return pts

/-- `AnalyzerToFinnishHyphenatorAdapter.cpp:438-440` -/
def stepLongAfter (w : List Wc) (nchars i : Nat) (pts : List Wc) : UB (List Wc) := do
  let good ← isGoodPos w pts (i + 2) nchars
  if good then wr pts (i + 2) 0x2D else return pts

/-- `AnalyzerToFinnishHyphenatorAdapter.cpp:432-442`: body of the loop over long vowels. -/
def stepLong (w : List Wc) (nchars i : Nat) (pts : List Wc) : UB (List Wc) := do
  let c ← rd w i
  if wcschr voikkoVowels c then do
    let d ← rd w (i + 1)
    if c = d then do
      let pts ← stepLongBefore w nchars i pts
      stepLongAfter w nchars i pts
    else return pts
  else return pts

/-- `AnalyzerToFinnishHyphenatorAdapter.cpp:445-461`: body of the V-V loop. Both characters are vowels when compared
with the table, so the comparison of two characters is equality. -/
def stepVV (w : List Wc) (i : Nat) (pts : List Wc) : UB (List Wc) := do
  let p ← rd pts (i + 1)
  if p ≠ 0x20 then return pts
  else do
    let c ← rd w i
    if !wcschr voikkoVowels c then return pts
    else do
      let d ← rd w (i + 1)
      if !wcschr voikkoVowels d then return pts
      else if splitVowels.contains [c, d] then wr pts (i + 1) 0x2D else return pts

/-- `AnalyzerToFinnishHyphenatorAdapter.cpp:469-472`: body of the innermost loop. -/
def stepMove (i k : Nat) (pts : List Wc) : UB (List Wc) := do
  let p ← rd pts k
  if p = 0x2D then do
    let pts ← wr pts k 0x20
    wr pts i 0x2D
  else return pts

/-- `AnalyzerToFinnishHyphenatorAdapter.cpp:466-474`: one long consonant at `i`. -/
def stepCons (w : List Wc) (nchars i : Nat) (lc : List Wc) (pts : List Wc) : UB (List Wc) :=
  if i + lc.length < nchars then do
    let eq ← wcsncmpEq lc w i
    if eq then forIdx (i + 1) lc.length (stepMove i) pts else return pts
  else return pts

/-- `AnalyzerToFinnishHyphenatorAdapter.cpp:481-485`: body of the loop removing points between vowels. -/
def stepNoVV (w : List Wc) (i : Nat) (pts : List Wc) : UB (List Wc) := do
  let c ← rd w i
  if wcschr voikkoVowels c then do
    let d ← rd w (i + 1)
    if wcschr voikkoVowels d then wr pts (i + 1) 0x20 else return pts
  else return pts

/-- `AnalyzerToFinnishHyphenatorAdapter.cpp:490-496`: `VV-V` for one table entry. -/
def stepAfter (w : List Wc) (nchars i : Nat) (sa : List Wc) (pts : List Wc) : UB (List Wc) := do
  let p ← rd pts (i + 1)
  if p ≠ 0x2D then do
    let eq ← wcsncmpEq sa w i
    if eq then do
      let d ← rd w (i + 2)
      if wcschr voikkoVowels d then do
        let good ← isGoodPos w pts (i + 2) nchars
        if good then wr pts (i + 2) 0x2D else return pts
      else return pts
    else return pts
  else return pts

/-- `AnalyzerToFinnishHyphenatorAdapter.cpp:478-499`: the last step, which depends on the option. -/
def ruleLast (ugly : Bool) (w : List Wc) (nchars : Nat) (pts : List Wc) : UB (List Wc) :=
  if !ugly then do
    let pts ← wr pts 1 0x20
    let pts ← wr pts (nchars - 1) 0x20
    forIdx 0 (nchars - 1) (stepNoVV w) pts
  else if nchars ≥ 3 then
    forIdx 0 (nchars - 3) (fun i pts => forTable splitAfter (stepAfter w nchars i) pts) pts
  else return pts

/-- `AnalyzerToFinnishHyphenatorAdapter.cpp:409-475`: the rules on the lower case copy `w` of the part (terminator
included). `nchars ≥ 2` here, so that `nchars - 2` does not wrap. -/
def rulePoints (ugly : Bool) (w : List Wc) (nchars : Nat) (pts : List Wc) : UB (List Wc) := do
  let i := (w.takeWhile fun c => c != 0 && wcschr voikkoConsonants c).length
  let pts ← forIdx i (nchars - 1 - i) (stepCV ugly w) pts
  let pts ← forIdx 1 (nchars - 2) (stepApos w) pts
  let pts ← forIdx 1 (nchars - 2) (stepLong w nchars) pts
  let pts ← forIdx 0 (nchars - 1) (stepVV w) pts
  forIdx 1 (nchars - 2) (fun i pts => forTable longConsonants (stepCons w nchars i) pts) pts

/-- `AnalyzerToFinnishHyphenatorAdapter.cpp:385-502`, `ruleHyphenation`; `word` and `pts` are the memory from the start
of the part. -/
def ruleHyphenation (ugly : Bool) (word pts : List Wc) (nchars : Nat) : UB (List Wc) := do
  let allowed ← allowRule ugly word nchars
  if !allowed then return pts
  else do
    let p ← rd pts 0
    if p = 0x58 then return pts
    else if word.length < nchars then ub
    else do
      let w := (word.take nchars).map lower ++ [0]
      let pts ← rulePoints ugly w nchars pts
      ruleLast ugly w nchars pts

/-- `ruleHyphenation(&word[start], &hyphenation[start], n)` -/
def ruleAt (ugly : Bool) (word : List Wc) (start n : Nat) (hy : List Wc) : UB (List Wc) := do
  let part ← ruleHyphenation ugly (word.drop start) (hy.drop start) n
  return hy.take start ++ part

/-- `AnalyzerToFinnishHyphenatorAdapter.cpp:244-259`: the loop over the parts, with an iteration bound. Result: `start`,
`end` and the pattern. `min` is the minimum length; `start + min` does not wrap because `min` is at most the length of
the word (line 58). -/
def compoundLoop (ugly : Bool) (min : Nat) (word : List Wc) (len : Nat) :
    Nat → Nat → Nat → List Wc → UB (Nat × Nat × List Wc)
  | 0, start, fin, hy => if fin < len then none else return (start, fin, hy)
  | k + 1, start, fin, hy =>
    if fin < len then do
      let c ← rd hy fin
      if c ≠ 0x20 ∧ c ≠ 0x58 then do
        let hy' ← (if fin ≥ start + min then ruleAt ugly word start (fin - start) hy else some hy : UB (List Wc))
        let c' ← rd hy' fin
        let start' := if c' = 0x3D then fin + 1 else fin
        compoundLoop ugly min word len k start' (start' + 1) hy'
      else compoundLoop ugly min word len k start (fin + 1) hy
    else return (start, fin, hy)

/-- `AnalyzerToFinnishHyphenatorAdapter.cpp:239-242`: number of `'='` at the start, at most `len`. -/
def leadingEq (hy : List Wc) (len : Nat) : Nat := ((hy.take len).takeWhile (· == 0x3D)).length

/-- `AnalyzerToFinnishHyphenatorAdapter.cpp:237-264`, `compoundHyphenation`. -/
def compoundHyphenation (ugly : Bool) (min : Nat) (word : List Wc) (len : Nat) (hy : List Wc) : UB (List Wc) := do
  let start := leadingEq hy len
  let (start, fin, hy) ← compoundLoop ugly min word len len start (start + 1) hy
  if fin = len ∧ start < fin ∧ fin ≥ start + min then ruleAt ugly word start (fin - start) hy
  else return hy

/-- `AnalyzerToFinnishHyphenatorAdapter.cpp:296-316`: the loop; the pattern characters of the remaining `k` positions.
`first` is `i == 0`; `cells` is the memory from `structurePtr` on. -/
def interpretLoop : Nat → Bool → List Wc → UB (List Wc)
  | 0, _, _ => return []
  | k + 1, first, cells => do
    let c ← rd cells 0
    if c = 0 then return List.replicate (k + 1) 0x20
    else do
      let eqNext ← (if c = 0x2D then (do let d ← rd cells 1; return d == 0x3D) else some false : UB Bool)
      if eqNext then do
        let rest ← interpretLoop k false (cells.drop 2)
        return (if first then 0x20 else 0x3D) :: rest
      else if c = 0x3D then do
        let rest ← interpretLoop k false (cells.drop 2)
        return 0x2D :: rest
      else do
        let rest ← interpretLoop k false (cells.drop 1)
        return (if c = 0x6A ∨ c = 0x71 then 0x58 else 0x20) :: rest

/-- `AnalyzerToFinnishHyphenatorAdapter.cpp:288-317`, `interpretAnalysis`: the `len` characters of the buffer. -/
def interpretAnalysis (a : MorAn) (len : Nat) : UB (List Wc) := do
  let cells ← a.structCells
  let c ← rd cells 0
  interpretLoop len true (if c = 0x3D then cells.drop 1 else cells)

/-- `AnalyzerToFinnishHyphenatorAdapter.cpp:191-204`: the patterns of the analyses. -/
def interpretAll (len : Nat) (dotRemoved : Bool) : List MorAn → UB (List (List Wc))
  | [] => return []
  | a :: as => do
    let p ← interpretAnalysis a (len - (if dotRemoved then 1 else 0))
    let ps ← interpretAll len dotRemoved as
    return (p ++ (if dotRemoved then [0x20, 0] else [0])) :: ps

/-- `AnalyzerToFinnishHyphenatorAdapter.cpp:349-354`: `currentParts`. -/
def countBorders (hy : List Wc) (len : Nat) : Nat := 1 + ((hy.take len).filter fun c => c != 0x20 && c != 0x58).length

/-- `AnalyzerToFinnishHyphenatorAdapter.cpp:346-359`: `minParts` (0 = none yet). -/
def minBorders (len : Nat) : Nat → List (List Wc) → Nat
  | m, [] => m
  | m, hy :: hys => minBorders len (if m = 0 ∨ m > countBorders hy len then countBorders hy len else m) hys

/-- `AnalyzerToFinnishHyphenatorAdapter.cpp:365-381`: removal by moving the last entry to the free place. -/
def removeLoop (len minParts : Nat) : Nat → Nat → List (List Wc) → UB (List (List Wc))
  | 0, j, hys => if j < hys.length then none else return hys
  | k + 1, j, hys =>
    if j < hys.length then do
      let hy ← rd hys j
      if countBorders hy len > minParts then do
        let last ← rd hys (hys.length - 1)
        removeLoop len minParts k j ((hys.set j last).take (hys.length - 1))
      else removeLoop len minParts k (j + 1) hys
    else return hys

/-- `AnalyzerToFinnishHyphenatorAdapter.cpp:341-383`, `removeExtraHyphenations`. -/
def removeExtra (len : Nat) (hys : List (List Wc)) : UB (List (List Wc)) :=
  if minBorders len 0 hys > 1 then return hys else removeLoop len (minBorders len 0 hys) hys.length 0 hys

/-- `AnalyzerToFinnishHyphenatorAdapter.cpp:212-229`: pattern of a word without analyses. -/
def unknownPattern (o : HyphOpts) (word : List Wc) : UB (List Wc) := do
  let allowed ← allowRule o.ugly word word.length
  let fill : Wc := if o.hyphenateUnknown then 0x20 else 0x58
  let n := word.length
  return (word.mapIdx fun i c => if allowed && decide (0 < i) && decide (i < n - 1) && c == 0x2D then 0x3D else fill) ++ [0]

/-- The analyser called with a UTF-8 string: `FinnishVfstAnalyzer.cpp:139-144` decodes it again (a null pointer would be
dereferenced). -/
def analyzeUtf8 (an : Analyzer) (bytes : List Nat) : UB (List MorAn) := do
  match ← ucs4FromUtf8 bytes with
  | none => ub
  | some w => return an w

/-- `AnalyzerToFinnishHyphenatorAdapter.cpp:163-235`, `splitCompounds`: `none` inside = null pointer; patterns and
`*dotRemoved`. -/
def splitCompounds (o : HyphOpts) (an : Analyzer) (word : List Wc) : UB (Option (List (List Wc) × Bool)) := do
  match ← utf8FromUcs4 word with
  | none => return none
  | some bytes => do
    let as ← analyzeUtf8 an bytes
    let cut := as.isEmpty && o.ignoreDot && decide (word.length > 1) && bytes.getLast? == some 0x2E
    let as ← (if cut then analyzeUtf8 an bytes.dropLast else some as : UB (List MorAn))
    let pats ← interpretAll word.length cut (as.take 31)
    let pats ← (if pats.isEmpty then (do let p ← unknownPattern o word; return [p]) else some pats : UB (List (List Wc)))
    let pats ← removeExtra word.length pats
    return some (pats, cut)

/-- `AnalyzerToFinnishHyphenatorAdapter.cpp:266-286`, `intersectHyphenations` (result without the terminator). All
strings have the same length. -/
def intersectHyph (pats : List (List Wc)) : UB (List Wc) := do
  let first ← rd pats 0
  let s := (cstr first).map fun c => if c = 0x58 then 0x20 else c
  go (pats.drop 1) s
where
  /-- The outer loop over the other patterns. -/
  go : List (List Wc) → List Wc → UB (List Wc)
    | [], s => return s
    | p :: ps, s =>
      if p.length < s.length then ub
      else go ps (List.zipWith (fun c d => if d = 0x20 ∨ d = 0x58 then 0x20 else c) s p)

/-- `AnalyzerToFinnishHyphenatorAdapter.cpp:91-111`, `unionHyphenations`. -/
def unionHyph (pats : List (List Wc)) : UB (List Wc) := do
  let first ← rd pats 0
  let s := (cstr first).map fun c => if c = 0x58 then 0x20 else c
  go (pats.drop 1) s
where
  /-- The outer loop over the other patterns. -/
  go : List (List Wc) → List Wc → UB (List Wc)
    | [], s => return s
    | p :: ps, s =>
      if p.length < s.length then ub
      else go ps (List.zipWith (fun c d => if d = 0x2D then 0x2D else c) s p)

/-- Loop over the patterns, lines 73-76. -/
def compoundAll (o : HyphOpts) (word : List Wc) (len : Nat) : List (List Wc) → UB (List (List Wc))
  | [] => return []
  | p :: ps => do
    let p ← compoundHyphenation o.ugly o.minLength word len p
    let ps ← compoundAll o word len ps
    return p :: ps

/-- Common part of `hyphenate` and `allPossibleHyphenPositions`
(`AnalyzerToFinnishHyphenatorAdapter.cpp:56-89`, `113-142`). -/
def hyphenateWith (join : List (List Wc) → UB (List Wc)) (o : HyphOpts) (an : Analyzer) (word : List Wc) :
    UB (Option (List Wc)) :=
  if word.length < o.minLength then return some (List.replicate word.length 0x20)
  else do
    match ← splitCompounds o an word with
    | none => return none
    | some (pats, dot) => do
      let pats ← compoundAll o (word ++ [0]) (word.length - (if dot then 1 else 0)) pats
      let r ← join pats
      return some r

/-- `AnalyzerToFinnishHyphenatorAdapter.cpp:56-89`, `hyphenate`. -/
def hyphenate (o : HyphOpts) (an : Analyzer) (word : List Wc) : UB (Option (List Wc)) := hyphenateWith intersectHyph o an word

/-- `AnalyzerToFinnishHyphenatorAdapter.cpp:113-142`, `allPossibleHyphenPositions`. -/
def allPositions (o : HyphOpts) (an : Analyzer) (word : List Wc) : UB (Option (List Wc)) := hyphenateWith unionHyph o an word

/-- `interface.cpp:38-49`, `voikkoHyphenateUcs4` (for `word != 0`). -/
def hyphenateUcs4 (o : HyphOpts) (an : Analyzer) (word : List Wc) : UB (Option (List Wc)) := hyphenate o an word

/-- `interface.cpp:51-66`, `voikkoHyphenateCstr` (for `word != 0`). -/
def hyphenateCstr (o : HyphOpts) (an : Analyzer) (word : List Nat) : UB (Option (List Wc)) :=
  if word.length > maxWordChars then return none
  else do
    match ← ucs4FromUtf8 word with
    | none => return none
    | some w => hyphenateUcs4 o an (cstr w)

/-- `interface.cpp:95-113`: the loop building the hyphenated form. -/
def insertLoop (hyphen : List Wc) (ctx : Bool) : List Wc → List Wc → UB (List Wc)
  | [], _ => return []
  | p :: ps, word => do
    let c ← rd word 0
    let piece :=
      if p = 0x2D then hyphen ++ [c]
      else if p = 0x20 ∨ ctx = false then [c]
      else if p = 0x3D then (if c = 0x2D then [0x2D] else hyphen)
      else []
    let rest ← insertLoop hyphen ctx ps (word.drop 1)
    return piece ++ rest

/-- `interface.cpp:68-120`, `voikkoInsertHyphensCstr` (for `word != 0`, `hyphen != 0`). -/
def insertHyphensCstr (o : HyphOpts) (an : Analyzer) (word hyphen : List Nat) (ctx : Bool) : UB (Option (List Nat)) :=
  if word.length > maxWordChars then return none
  else do
    match ← ucs4FromUtf8 word with
    | none => return none
    | some w =>
      match ← ucs4FromUtf8 hyphen with
      | none => return none
      | some h =>
        match ← hyphenateUcs4 o an (cstr w) with
        | none => return none
        | some pattern => do
          let s ← insertLoop (cstr h) ctx pattern (w ++ [0])
          utf8FromUcs4 (cstr s)

/-- `FinnishSpellerTweaksWrapper.cpp:47-50`: the settings of the private hyphenator of the Finnish speller. -/
def tweaksHyphOpts : HyphOpts := { ugly := true, hyphenateUnknown := true, minLength := 3, ignoreDot := true }

/-- `FinnishSpellerTweaksWrapper.cpp:42-51`, `176-215`: the Finnish speller with its private hyphenator. -/
def finnishSpell (extra : Bool) (an : Analyzer) (word : List Wc) : UB SpellRes :=
  spellTweaked (allPositions tweaksHyphOpts an) extra an word

end Verif
