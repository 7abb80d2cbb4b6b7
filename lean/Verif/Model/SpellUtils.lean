import Verif.Model.SpellerCache
import Verif.Model.Char
/-!
# `spellchecker/SpellUtils.cpp`, `AnalyzerToSpellerAdapter.cpp`, `SpellWithPriority.cpp`

A C string pointer that only moves forward is the list of the remaining memory cells (terminator included);
dereferencing it when no cell is left is undefined behaviour.
-/

namespace Verif

/-- The attributes of a morphological analysis (`morphology/Analysis.hpp`) read by the speller.
`none` = `getValue` returns the null pointer. Strings are given without their terminator. -/
structure MorAn where
  struct : Option (List Wc) := none
  cls : Option (List Wc) := none
  sijamuoto : Option (List Wc) := none
  vapaaJalkiosa : Option (List Wc) := none
  deriving DecidableEq, Repr

/-- A morphological analyser: `Analyzer::analyze(word, wlen, false)`. -/
abbrev Analyzer := List Wc → List MorAn

/-- Dereference of `getValue(STRUCTURE)`: the cells of the string; null is undefined behaviour. -/
def MorAn.structCells (a : MorAn) : UB (List Wc) :=
  match a.struct with
  | some s => some (s ++ [0])
  | none => ub

/-- `SpellUtils.cpp:42-44`: `while (structure[j] == L'=') j++`. -/
def skipEq : List Wc → UB (List Wc)
  | [] => ub
  | c :: cs => if c = 0x3D then skipEq cs else some (c :: cs)

/-- `SpellUtils.cpp:38,49-57`: `captype`. -/
inductive CapType where
  | upper | lower | punct
  deriving DecidableEq, Repr

/-- `SpellUtils.cpp:49-57` -/
def capType (c : Wc) : CapType := if isUpper c then .upper else if isLower c then .lower else .punct

/-- `SpellUtils.cpp:59-69`: `result` after looking at one letter; `first` is `i == 0`. -/
def matchStep (first : Bool) (t : CapType) (k : Wc) (result : SpellRes) : SpellRes :=
  let result :=
    if t == .lower && (k == 0x69 || k == 0x6A) then (if first then .capFirst else .capError) else result
  if t == .upper && (k == 0x70 || k == 0x71) then .capError else result

/-- `SpellUtils.cpp:41-74`: the loop over the remaining letters of the word. -/
def matchLoop : Bool → SpellRes → List Wc → List Wc → UB SpellRes
  | _, result, [], _ => return result
  | first, result, c :: cs, s => do
    let s ← skipEq s
    let k ← rd s 0
    if k = 0 then return result
    else
      let r := matchStep first (capType c) k result
      if r = .capError then return r else matchLoop false r cs (s.drop 1)

/-- `SpellUtils.cpp:36-76`, `matchWordAndAnalysis`; `cells` is the memory of the structure string. -/
def matchWordAndAnalysis (word cells : List Wc) : UB SpellRes := matchLoop true .ok word cells

/-- Numeric value of `enum spellresult` (`Speller.hpp:42`), used in comparisons. -/
def SpellRes.toNat : SpellRes → Nat
  | .failed => 0 | .ok => 1 | .capFirst => 2 | .capError => 3

/-- `AnalyzerToSpellerAdapter.cpp:51-61`: the loop over the analyses. -/
def adapterLoop (word : List Wc) : SpellRes → List MorAn → UB SpellRes
  | best, [] => return best
  | best, a :: as => do
    let s ← a.structCells
    let r ← matchWordAndAnalysis word s
    let best := if best = .failed ∨ r.toNat < best.toNat then r else best
    if best = .ok then return best else adapterLoop word best as

/-- `AnalyzerToSpellerAdapter.cpp:41-65`, `spell`. -/
def adapterSpell (an : Analyzer) (word : List Wc) : UB SpellRes :=
  if (an word).isEmpty then return .failed else adapterLoop word .failed (an word)

/-! ### `SpellWithPriority.cpp` -/

/-- C string literal. -/
def lit (s : String) : List Wc := s.toList.map Char.toNat

/-- `SpellWithPriority.cpp:38-88`, `getPriorityFromNounInflection`. -/
def prioNoun (a : MorAn) : Nat :=
  match a.sijamuoto with
  | none => 4
  | some s =>
    if s = lit "nimento" then 2
    else if s = lit "omanto" then 3
    else if s = lit "osanto" then 5
    else if s = lit "sisaolento" then 8
    else if s = lit "sisaeronto" then 12
    else if s = lit "sisatulento" then 8
    else if s = lit "ulkoolento" then 12
    else if s = lit "ulkoeronto" then 30
    else if s = lit "ulkotulento" then 20
    else if s = lit "olento" then 20
    else if s = lit "tulento" then 20
    else if s = lit "vajanto" then 60
    else if s = lit "seuranto" then 60
    else if s = lit "keinonto" then 20
    else 4

/-- The word classes of `SpellWithPriority.cpp:96-103`. -/
def nounClasses : List (List Wc) :=
  [lit "nimisana", lit "laatusana", lit "nimisana_laatusana", lit "asemosana", lit "etunimi", lit "sukunimi",
   lit "paikannimi", lit "nimi"]

/-- `SpellWithPriority.cpp:90-110`, `getPriorityFromWordClassAndInflection`. -/
def prioClass (a : MorAn) : Nat :=
  match a.cls with
  | none => 4
  | some c => if c ∈ nounClasses then prioNoun a else 4

/-- `SpellWithPriority.cpp:113-123`: counting of `=`, at most five. -/
def countParts : Nat → List Wc → UB Nat
  | _, [] => ub
  | n, c :: cs =>
    if c = 0 then return n
    else if c = 0x3D then (if n + 1 = 5 then return 5 else countParts (n + 1) cs)
    else countParts n cs

/-- `SpellWithPriority.cpp:112-130`, `getPriorityFromStructure`. -/
def prioStructure (cells : List Wc) : UB Nat := do
  let n ← countParts 0 cells
  if n = 0 then return 1 else int32 (2 ^ (3 * (n - 1)))

/-- `SpellWithPriority.cpp:132-144`, `getPriorityFromSpellResult`. -/
def prioResult : SpellRes → Nat
  | .ok => 1 | .capFirst => 2 | .capError => 3 | .failed => 1

/-- `SpellWithPriority.cpp:146-154`, `handleAnalysis`: result and priority (an `int`). -/
def handleAnalysis (word : List Wc) (a : MorAn) : UB (SpellRes × Nat) := do
  let cells ← a.structCells
  let ps ← prioStructure cells
  let p ← int32 (prioClass a * ps)
  let r ← matchWordAndAnalysis word cells
  let p ← int32 (p * prioResult r)
  return (r, p)

/-- `SpellWithPriority.cpp:166-182`: loop over the analyses, state `(bestResult, bestPrio)`. -/
def prioLoop (word : List Wc) : SpellRes × Nat → List MorAn → UB (SpellRes × Nat)
  | best, [] => return best
  | best, a :: as => do
    let cur ← handleAnalysis word a
    let best :=
      if best.1 = .failed ∨ cur.1.toNat < best.1.toNat then cur
      else if best.1 = cur.1 then (best.1, if cur.2 < best.2 then cur.2 else best.2)
      else best
    prioLoop word best as

/-- `SpellWithPriority.cpp:156-187`, `spellWithPriority`: result and `*prio`. -/
def spellWithPriority (an : Analyzer) (word : List Wc) : UB (SpellRes × Nat) :=
  if (an word).isEmpty then return (.failed, 0) else prioLoop word (.failed, 0) (an word)

end Verif
