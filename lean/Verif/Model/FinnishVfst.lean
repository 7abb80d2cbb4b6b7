import Verif.Model.Analysis
import Verif.Model.Case
import Verif.Model.Hyphenator
/-!
# `morphology/FinnishVfstAnalyzer.cpp`: from transducer output to analyses

The output of the transducer is the list `out` of the characters before the terminating NUL; the code sees the cells
`out ++ [0]`. Reading any other cell is undefined behaviour (in the code the cells behind the terminator belong to the
same 2000 element buffer but hold left-overs of earlier outputs or nothing at all).

A buffer that is filled from its start is the list of the characters written so far together with its capacity: writing
at or behind the capacity is undefined behaviour, moving the write position back drops characters. The cells behind the
write position are never read by the code. An assertion that fails is counted as undefined behaviour as well.
-/

namespace Verif

/-- `fstOutput[i]` -/
def rdz (out : List Wc) (i : Nat) : UB Wc := rd (out ++ [0]) i

/-- `wcsncmp(fstOutput + i, l, n) == 0` for a literal `l` of length `n`. -/
def cmpz (out : List Wc) (i : Nat) (l : List Wc) : UB Bool := wcsncmpEq l (out ++ [0]) i

/-- `buf[pos++] = c` for a buffer of capacity `cap` filled up to `pos`. -/
def push (cap : Nat) (buf : List Wc) (c : Wc) : UB (List Wc) :=
  if buf.length < cap then some (buf ++ [c]) else ub

/-- `pos = n` for a buffer filled up to `pos`: the write position moves back. Moving it forward over cells that have not
been written counts as undefined behaviour. -/
def back (buf : List Wc) (n : Nat) : UB (List Wc) := if n ≤ buf.length then some (buf.take n) else ub

/-- A map from tag contents to values; the entries are in key order, the order of `std::map`. -/
abbrev TagMap := List (List Wc × List Wc)

/-- `FinnishVfstAnalyzer.cpp:57-75`, in key order. -/
def classMap : TagMap :=
  [(lit "a", lit "lyhenne"), (lit "c", lit "sidesana"), (lit "d", lit "suhdesana"), (lit "ee", lit "etunimi"),
   (lit "em", lit "nimi"), (lit "ep", lit "paikannimi"), (lit "es", lit "sukunimi"), (lit "h", lit "huudahdussana"),
   (lit "k", lit "kieltosana"), (lit "l", lit "laatusana"), (lit "n", lit "nimisana"),
   (lit "nl", lit "nimisana_laatusana"), (lit "p", lit "etuliite"), (lit "r", lit "asemosana"),
   (lit "s", lit "seikkasana"), (lit "t", lit "teonsana"), (lit "u", lit "lukusana"), (lit "ur", lit "lukusana")]

/-- `FinnishVfstAnalyzer.cpp:77-92`, in key order. -/
def sijamuotoMap : TagMap :=
  [(lit "ab", lit "vajanto"), (lit "abl", lit "ulkoeronto"), (lit "ade", lit "ulkoolento"), (lit "ak", lit "kohdanto"),
   (lit "all", lit "ulkotulento"), (lit "ela", lit "sisaeronto"), (lit "es", lit "olento"), (lit "g", lit "omanto"),
   (lit "ill", lit "sisatulento"), (lit "in", lit "keinonto"), (lit "ine", lit "sisaolento"), (lit "ko", lit "seuranto"),
   (lit "n", lit "nimento"), (lit "p", lit "osanto"), (lit "sti", lit "kerrontosti"), (lit "tr", lit "tulento")]

/-- `FinnishVfstAnalyzer.cpp:94-95` -/
def comparisonMap : TagMap := [(lit "c", lit "comparative"), (lit "s", lit "superlative")]

/-- `FinnishVfstAnalyzer.cpp:97-105`, in key order. -/
def moodMap : TagMap :=
  [(lit "e", lit "conditional"), (lit "k", lit "imperative"), (lit "m", lit "potential"), (lit "n1", lit "A-infinitive"),
   (lit "n2", lit "E-infinitive"), (lit "n3", lit "MA-infinitive"), (lit "n4", lit "MINEN-infinitive"),
   (lit "n5", lit "MAINEN-infinitive"), (lit "t", lit "indicative")]

/-- `FinnishVfstAnalyzer.cpp:107-108`, in key order. -/
def numberMap : TagMap := [(lit "m", lit "plural"), (lit "y", lit "singular")]

/-- `FinnishVfstAnalyzer.cpp:110-113` -/
def personMap : TagMap := [(lit "1", lit "1"), (lit "2", lit "2"), (lit "3", lit "3"), (lit "4", lit "4")]

/-- `FinnishVfstAnalyzer.cpp:115-116`, in key order. -/
def tenseMap : TagMap := [(lit "i", lit "past_imperfective"), (lit "p", lit "present_simple")]

/-- `FinnishVfstAnalyzer.cpp:118-119`, in key order. -/
def focusMap : TagMap := [(lit "kaan", lit "kaan"), (lit "kin", lit "kin")]

/-- `FinnishVfstAnalyzer.cpp:121-125`, in key order. -/
def possessiveMap : TagMap :=
  [(lit "1m", lit "1p"), (lit "1y", lit "1s"), (lit "2m", lit "2p"), (lit "2y", lit "2s"), (lit "3", lit "3")]

/-- `FinnishVfstAnalyzer.cpp:127-129`, in key order. -/
def negativeMap : TagMap := [(lit "b", lit "both"), (lit "f", lit "false"), (lit "t", lit "true")]

/-- `FinnishVfstAnalyzer.cpp:131-136`, in key order. -/
def participleMap : TagMap :=
  [(lit "a", lit "present_passive"), (lit "e", lit "negation"), (lit "m", lit "agent"), (lit "t", lit "past_passive"),
   (lit "u", lit "past_active"), (lit "v", lit "present_active")]

/-! ## `parseStructure` -/

/-- The local variables of `parseStructure` (`FinnishVfstAnalyzer.cpp:172-180`); `st` is the part of `structure` written
so far. -/
structure PState where
  st : List Wc
  missing : Nat
  seen : Nat := 0
  fromDefault : Nat := 0
  titleCase : Bool := false
  isAbbr : Bool := false
  deriving DecidableEq, Repr

/-- `FinnishVfstAnalyzer.cpp:146-158`, `createDefaultStructure` for `n` missing characters. -/
def createDefault (cap : Nat) : Nat → PState → UB PState
  | 0, p => some p
  | n + 1, p =>
    if p.titleCase then do
      let st ← push cap p.st (if p.isAbbr then 0x6A else 0x69)
      createDefault cap n { p with st := st, titleCase := false }
    else do
      let st ← push cap p.st (if p.isAbbr then 0x71 else 0x70)
      createDefault cap n { p with st := st }

/-- `FinnishVfstAnalyzer.cpp:160-169`, `decreaseCharsMissing` (called with `charsSeen > charsFromDefault` only). -/
def decreaseMissing (p : PState) : UB PState :=
  if p.seen - p.fromDefault ≤ p.missing then some { p with missing := p.missing - (p.seen - p.fromDefault) } else ub

/-- `FinnishVfstAnalyzer.cpp:187-190`, `256-258` and `280-282`: the characters seen since the last boundary, if any. -/
def flushSeen (cap : Nat) (p : PState) : UB PState :=
  if p.seen > p.fromDefault then do
    let p ← createDefault cap (p.seen - p.fromDefault) p
    decreaseMissing p
  else some p

/-- `FinnishVfstAnalyzer.cpp:216-218` and `250-252`: `while (fstOutput[i] != c) i++`. The first argument bounds the number
of rounds. -/
def skipTo (out : List Wc) (c : Wc) : Nat → Nat → UB Nat
  | 0, _ => ub
  | f + 1, i => do
    let x ← rdz out i
    if x ≠ c then skipTo out c f (i + 1) else return i

/-- `FinnishVfstAnalyzer.cpp:202-211`: copying of an `[Xr]` pattern. -/
def xrLoop (out : List Wc) (cap : Nat) : Nat → Nat → PState → UB (Nat × PState)
  | 0, _, _ => ub
  | f + 1, i, p => do
    let x ← rdz out i
    if x ≠ 0x5B ∧ p.missing ≠ 0 then do
      let st ← push cap p.st x
      if x ≠ 0x3D then
        if x ≠ 0x2D then
          xrLoop out cap f (i + 1) { p with st := st, fromDefault := p.fromDefault + 1, missing := p.missing - 1 }
        else xrLoop out cap f (i + 1) { p with st := st, fromDefault := p.fromDefault + 1 }
      else xrLoop out cap f (i + 1) { p with st := st }
    else return (i, p)

/-- `FinnishVfstAnalyzer.cpp:184-196`: a `[Bx]` tag at `i`. -/
def psBoundary (out : List Wc) (cap i : Nat) (p : PState) : UB (Nat × PState) := do
  let p ← (if i = 1 then do
      let st ← push cap p.st 0x3D
      return { p with st := st }
    else some p : UB PState)
  let p ← flushSeen cap p
  let last ← rd p.st (p.st.length - 1)
  let p ← (if i ≠ 1 ∧ i + 5 < out.length ∧ p.st.length > 0 ∧ last ≠ 0x3D then do
      let st ← push cap p.st 0x3D
      return { p with st := st }
    else some p : UB PState)
  return (i + 3, { p with seen := 0, fromDefault := 0 })

/-- `FinnishVfstAnalyzer.cpp:199-220`: an `[Xx]` tag at `i`. -/
def psSection (out : List Wc) (cap i : Nat) (p : PState) : UB (Nat × PState) := do
  let k ← rdz out (i + 2)
  if k = 0x72 then do
    let (i, p) ← xrLoop out cap (out.length + 2) (i + 4) { p with titleCase := false }
    return (i + 2, p)
  else do
    let i ← skipTo out 0x5B (out.length + 2) (i + 4)
    return (i + 2, p)

/-- `FinnishVfstAnalyzer.cpp:223-247`: an `[L` tag at `i`. -/
def psClass (out : List Wc) (i : Nat) (p : PState) : UB (Nat × PState) := do
  let c2 ← rdz out (i + 2)
  let c3 ← rdz out (i + 3)
  if c2 = 0x65 then return (i + 4, { p with titleCase := true, isAbbr := false })
  else if c2 = 0x6E ∧ c3 = 0x6C then return (i + 4, { p with isAbbr := false })
  else if c2 = 0x61 then return (i + 3, { p with isAbbr := true })
  else do
    let num ← (if c2 = 0x75 ∧ i + 5 < out.length then
        if c3 = 0x72 then some true
        else do
          let c4 ← rdz out (i + 4)
          return isDigit c4
      else some false : UB Bool)
    if num then return (if c3 = 0x72 then i + 4 else i + 3, { p with isAbbr := true })
    else return (i + 3, { p with isAbbr := false })

/-- `FinnishVfstAnalyzer.cpp:182-254`: a bracket at `i`. -/
def psBracket (out : List Wc) (cap i : Nat) (p : PState) : UB (Nat × PState) := do
  let c1 ← rdz out (i + 1)
  let c2 ← rdz out (i + 2)
  let c3 ← (if i + 3 < out.length then rdz out (i + 3) else some 0 : UB Wc)
  if i + 3 < out.length ∧ c1 = 0x42 ∧ c2 ≠ 0x68 ∧ c3 = 0x5D then psBoundary out cap i p
  else if i + 3 < out.length ∧ c1 = 0x58 ∧ c3 = 0x5D then psSection out cap i p
  else if i + 3 < out.length ∧ c1 = 0x4C then psClass out i p
  else do
    let i ← skipTo out 0x5D (out.length + 2) i
    return (i, p)

/-- `FinnishVfstAnalyzer.cpp:255-277`: a hyphen at `i`. -/
def psHyphen (cap i : Nat) (p : PState) : UB PState := do
  let p ← (if p.seen > p.fromDefault then do
      let p ← flushSeen cap p
      let st ← push cap p.st 0x2D
      return { p with st := st, seen := 0, fromDefault := 0 }
    else if i ≠ 0 then
      if p.seen = p.fromDefault then do
        let st ← push cap p.st 0x2D
        return { p with st := st }
      else return { p with seen := p.seen + 1 }
    else some p : UB PState)
  let p := if p.missing ≠ 0 then { p with missing := p.missing - 1 } else p
  if p.st.length = 1 then do
    let st ← wr p.st 0 0x2D
    return { p with st := st }
  else return p

/-- `FinnishVfstAnalyzer.cpp:278-292`: a colon. -/
def psColon (cap : Nat) (p : PState) : UB PState := do
  let p ← (if p.isAbbr then do
      let p ← (if p.seen > p.fromDefault then do
          let p ← flushSeen cap p
          return { p with seen := 0, fromDefault := 0 }
        else some p : UB PState)
      return { p with isAbbr := false }
    else some p : UB PState)
  let st ← push cap p.st 0x3A
  return { p with st := st, missing := if p.missing ≠ 0 then p.missing - 1 else p.missing }

/-- `FinnishVfstAnalyzer.cpp:182-295`: one round of the loop; the result has the value of `i` before `i++`. -/
def psStep (out : List Wc) (cap i : Nat) (p : PState) : UB (Nat × PState) := do
  let c ← rdz out i
  if c = 0x5B ∧ i + 2 < out.length then psBracket out cap i p
  else if c = 0x2D then do
    let p ← psHyphen cap i p
    return (i, p)
  else if c = 0x3A then do
    let p ← psColon cap p
    return (i, p)
  else return (i, { p with seen := p.seen + 1 })

/-- `FinnishVfstAnalyzer.cpp:181-296`: the loop. The first argument bounds the number of rounds. -/
def psLoop (out : List Wc) (cap : Nat) : Nat → Nat → PState → UB PState
  | 0, _, _ => ub
  | f + 1, i, p =>
    if i < out.length then do
      let (i, p) ← psStep out cap i p
      psLoop out cap f (i + 1) p
    else some p

/-- `FinnishVfstAnalyzer.cpp:171-300`, `parseStructure`. -/
def parseStructure (out : List Wc) (wlen : Nat) : UB (List Wc) := do
  let cap := wlen * 2 + 1
  let p ← psLoop out cap (out.length + 1) 0 { st := [0x3D], missing := wlen }
  let p ← createDefault cap p.missing p
  if p.st.length < cap then return p.st else ub

/-! ## `isValidAnalysis` -/

/-- The local variables of `isValidAnalysis` (`FinnishVfstAnalyzer.cpp:323-332`). -/
structure VState where
  beforeLast : Wc := 0
  last : Wc := 0
  boundaryPassed : Bool := false
  hyphenPresent : Bool := false
  allowed : Bool := false
  justSet : Bool := false
  required : Bool := false
  missing : Bool := false
  startsProper : Bool := false
  endsNonIca : Bool := false
  deriving DecidableEq, Repr

/-- `FinnishVfstAnalyzer.cpp:369-375`: `i` after the loop over an `[X` section. -/
def vaSection (out : List Wc) : Nat → Nat → UB Nat
  | 0, _ => ub
  | f + 1, i =>
    if i + 3 < out.length then do
      let c0 ← rdz out (i + 1)
      let c1 ← rdz out (i + 2)
      let c2 ← rdz out (i + 3)
      if c0 = 0x5B ∧ c1 = 0x58 ∧ c2 = 0x5D then return i + 3
      else vaSection out f (i + 1)
    else some i

/-- `FinnishVfstAnalyzer.cpp:389`: `while (++i < len && fstOutput[i] != L']')`. -/
def vaTag (out : List Wc) : Nat → Nat → UB Nat
  | 0, _ => ub
  | f + 1, i =>
    if i + 1 < out.length then do
      let c ← rdz out (i + 1)
      if c ≠ 0x5D then vaTag out f (i + 1) else return i + 1
    else some (i + 1)

/-- `FinnishVfstAnalyzer.cpp:339-367`: flags and classes. -/
def vaFlags (out : List Wc) (i : Nat) (v : VState) : UB VState :=
  if i + 3 < out.length then do
    let c1 ← rdz out (i + 1)
    if c1 = 0x49 then do
      let sf ← cmpz out (i + 2) (lit "sf")
      let cu ← cmpz out (i + 2) (lit "cu")
      let ca ← cmpz out (i + 2) (lit "ca")
      if sf then return { v with allowed := true, justSet := true }
      else if cu then return { v with boundaryPassed := false, allowed := true, required := true }
      else if ca then return { v with missing := false, endsNonIca := false }
      else return v
    else if c1 = 0x4C then do
      let c2 ← rdz out (i + 2)
      if c2 = 0x65 then return { v with startsProper := true, endsNonIca := false }
      else if c2 = 0x6E then return { v with endsNonIca := true }
      else return v
    else do
      let dg ← cmpz out (i + 1) (lit "Dg")
      if dg then return { v with startsProper := false } else return v
  else some v

/-- `FinnishVfstAnalyzer.cpp:402-428`: a character of the word; `none` is `return false`. -/
def vaChar (c : Wc) (v : VState) : Option VState :=
  if v.boundaryPassed then
    let v := if v.last = 0 ∨ (v.beforeLast = 0x69 ∧ v.last = 0x73) then { v with allowed := true } else v
    let v := if v.required ∧ v.hyphenPresent then { v with required := false } else v
    let fin (v : VState) : VState :=
      let v := { v with boundaryPassed := false }
      let v := if v.justSet then { v with justSet := false } else { v with allowed := false }
      { v with beforeLast := v.last, last := c }
    if !(v.allowed && v.hyphenPresent) then
      let v := { v with last := lower v.last }
      let need := (v.last == lower c && wcschr voikkoVowels v.last) || (0x30 ≤ v.last && v.last ≤ 0x39)
      if need ≠ v.hyphenPresent then none else some (fin v)
    else some (fin v)
  else some { v with beforeLast := v.last, last := c }

/-- `FinnishVfstAnalyzer.cpp:334-429`: one round of the loop: `Sum.inl false` is `return false`, otherwise the value of `i`
before `i++`. -/
def vaStep (out : List Wc) (i : Nat) (v : VState) : UB (Bool ⊕ (Nat × VState)) := do
  let c ← rdz out i
  if c = 0x5B then
    if i + 2 ≥ out.length then return .inl false
    else do
      let v ← vaFlags out i v
      let c1 ← rdz out (i + 1)
      if c1 = 0x58 then do
        let i ← vaSection out (out.length + 2) i
        return .inr (i, v)
      else do
        let bh ← cmpz out (i + 1) (lit "Bh")
        if bh then
          let v := { v with boundaryPassed := true, hyphenPresent := false }
          if v.missing then return .inl false
          else return .inr (i + 3, if v.required then { v with missing := true } else v)
        else do
          let i ← vaTag out (out.length + 2) i
          return .inr (i, v)
  else if c = 0x2D then do
    let v := { v with startsProper := false, endsNonIca := false }
    let bh ← (if i + 5 < out.length then cmpz out (i + 1) (lit "[Bh]") else some false : UB Bool)
    if bh then return .inr (i + 4, { v with boundaryPassed := true, hyphenPresent := true })
    else return .inr (i, v)
  else
    match vaChar c v with
    | none => return .inl false
    | some v => return .inr (i, v)

/-- `FinnishVfstAnalyzer.cpp:333-431`: the loop and the final decision. -/
def vaLoop (out : List Wc) : Nat → Nat → VState → UB Bool
  | 0, _, _ => ub
  | f + 1, i, v =>
    if i < out.length then do
      match ← vaStep out i v with
      | .inl b => return b
      | .inr (i, v) => vaLoop out f (i + 1) v
    else some (!v.missing && (!v.startsProper || !v.endsNonIca))

/-- `FinnishVfstAnalyzer.cpp:322-432`, `isValidAnalysis`. -/
def isValidAnalysis (out : List Wc) : UB Bool := vaLoop out (out.length + 1) 0 {}

/-! ## `parseBasicAttributes` -/

/-- `FinnishVfstAnalyzer.cpp:302-320`, `parseBasicAttribute` with `getAttributeFromMap`: the tag is at `j` and ends at
`i`. -/
def parseBasicAttribute (a : Ana) (out : List Wc) (i j : Nat) (k : AKey) (m : TagMap) : UB Ana :=
  if (a.getValue k).isSome then some a
  else if i < j + 2 ∨ out.length < i then ub
  else
    match m.lookup ((out.drop (j + 2)).take (i - j - 2)) with
    | none => some a
    | some s => some (a.addConst k s)

/-- C `wcsstr(s, l) != 0` for a literal `l` that is not empty. -/
def wcsstr (l : List Wc) : List Wc → Bool
  | [] => false
  | c :: r => l.isPrefixOf (c :: r) || wcsstr l r

/-- `wcsstr(fstOutput + i, l) != 0` -/
def strstrz (out : List Wc) (i : Nat) (l : List Wc) : Bool := wcsstr l (out.drop i)

/-- `FinnishVfstAnalyzer.cpp:434-458`, `addInfoFlag`; `i` is the position of `outputPosition`. -/
def addInfoFlag (a : Ana) (out : List Wc) (i : Nat) : UB Ana := do
  let vj ← cmpz out i (lit "vj")
  let ca ← cmpz out i (lit "ca")
  let ra ← cmpz out i (lit "ra")
  let rm ← cmpz out i (lit "rm")
  let c0 ← rdz out 0
  let className := a.getValue .cls
  if vj then
    if c0 ≠ 0x2D then return a.addConst .vapaaJalkiosa (lit "true") else return a
  else if ca then
    if !strstrz out i (lit "[Bc]") ∧ !strstrz out i (lit "[Ll]")
        ∧ (className = none ∨ (lit "nimisana").isPrefixOf (className.getD [])) then
      return a.addConst .geographical (lit "true")
    else return a
  else
    let mood := a.getValue .mood
    if (mood ≠ some (lit "E-infinitive") ∧ mood ≠ some (lit "MINEN-infinitive") ∧ mood ≠ some (lit "MA-infinitive"))
        ∧ (className = none ∨ className = some (lit "teonsana")) then
      if ra then return a.addConst .requireVerb (lit "A-infinitive")
      else if rm then return a.addConst .requireVerb (lit "MA-infinitive")
      else return a
    else return a

/-- The local variables of `parseBasicAttributes` (`FinnishVfstAnalyzer.cpp:893-895`) and the analysis. -/
structure BState where
  a : Ana
  convert : Bool := false
  bcPassed : Bool := false
  classSet : Bool := false
  deriving DecidableEq, Repr

/-- `FinnishVfstAnalyzer.cpp:902-919`: a class tag. -/
def baClass (out : List Wc) (i j : Nat) (b : BState) : UB BState := do
  let c2 ← rdz out (j + 2)
  if !b.classSet ∨ c2 = 0x5D then do
    let nl ← cmpz out (j + 2) (lit "nl")
    let lu ← cmpz out 0 (lit "[Lu]")
    if nl then
      let comp := b.a.getValue .comparison
      if b.convert ∨ comp = some (lit "comparative") ∨ comp = some (lit "superlative") ∨ lu then
        return { b with a := b.a.addConst .cls (lit "laatusana"), classSet := true }
      else return { b with a := b.a.addConst .cls (lit "nimisana_laatusana"), classSet := true }
    else do
      let a ← parseBasicAttribute b.a out i j .cls classMap
      return { b with a := a, classSet := true }
  else return b

/-- `FinnishVfstAnalyzer.cpp:929-937`: a case tag. -/
def baCase (out : List Wc) (i j : Nat) (b : BState) : UB BState := do
  let wclass := b.a.getValue .cls
  if wclass = none ∨ (wclass ≠ some (lit "etuliite") ∧ wclass ≠ some (lit "seikkasana")) then do
    let a ← parseBasicAttribute b.a out i j .sijamuoto sijamuotoMap
    let sti ← (if j + 5 < out.length then cmpz out (j + 2) (lit "sti") else some false : UB Bool)
    return { b with a := a, convert := b.convert || sti }
  else return b

/-- `FinnishVfstAnalyzer.cpp:965-974`: a participle tag. -/
def baParticiple (out : List Wc) (i j : Nat) (b : BState) : UB BState :=
  if !b.bcPassed then do
    let wclass := b.a.getValue .cls
    let go ← (if wclass = none ∨ wclass = some (lit "laatusana") then some true
      else if out.length < 4 then ub
      else some (out.drop (out.length - 4) == lit "[Ln]") : UB Bool)
    if go then do
      let a ← parseBasicAttribute b.a out i j .participle participleMap
      return { b with a := a }
    else return b
  else some b

/-- `FinnishVfstAnalyzer.cpp:978-987`: a boundary tag. -/
def baBoundary (out : List Wc) (j : Nat) (b : BState) : UB BState := do
  let c2 ← rdz out (j + 2)
  if j ≥ 5 ∧ c2 = 0x63 then do
    let hy ← rdz out (j - 1)
    let bh ← cmpz out (j - 5) (lit "-[Bh]")
    if !b.classSet ∧ b.a.getValue .cls = none ∧ (hy = 0x2D ∨ bh) then
      return { b with a := b.a.addConst .cls (lit "etuliite"), classSet := true, bcPassed := true }
    else return { b with bcPassed := true }
  else return b

/-- A tag parsed into one attribute by `parseBasicAttribute`. -/
def baSimple (out : List Wc) (i j : Nat) (b : BState) (k : AKey) (m : TagMap) : UB BState := do
  let a ← parseBasicAttribute b.a out i j k m
  return { b with a := a }

/-- `FinnishVfstAnalyzer.cpp:902-987`: the tag from `j` to `i`. -/
def baTag (out : List Wc) (i j : Nat) (b : BState) : UB BState := do
  let t ← rdz out (j + 1)
  if t = 0x4C then baClass out i j b
  else if t = 0x4E then
    let wclass := b.a.getValue .cls
    if wclass = none ∨ (wclass ≠ some (lit "etuliite") ∧ wclass ≠ some (lit "seikkasana")) then
      baSimple out i j b .number numberMap
    else return b
  else if t = 0x50 then baSimple out i j b .person personMap
  else if t = 0x53 then baCase out i j b
  else if t = 0x54 then
    if b.a.getValue .cls = none then baSimple out i j b .mood moodMap else return b
  else if t = 0x41 then baSimple out i j b .tense tenseMap
  else if t = 0x46 then do
    let ko ← cmpz out (j + 2) (lit "ko")
    if ko then return { b with a := b.a.addConst .kysymysliite (lit "true") }
    else baSimple out i j b .focus focusMap
  else if t = 0x4F then baSimple out i j b .possessive possessiveMap
  else if t = 0x43 then
    if b.a.getValue .cls = none then baSimple out i j b .comparison comparisonMap else return b
  else if t = 0x45 then baSimple out i j b .negative negativeMap
  else if t = 0x52 then baParticiple out i j b
  else if t = 0x49 then do
    let a ← addInfoFlag b.a out (j + 2)
    return { b with a := a }
  else if t = 0x42 then baBoundary out j b
  else return b

/-- `FinnishVfstAnalyzer.cpp:899-901`: the closest `[` before `j`: whether there is one, and the final value of `j`. -/
def findOpen (out : List Wc) : Nat → UB (Bool × Nat)
  | 0 => some (false, 0)
  | j + 1 => do
    let c ← rdz out j
    if c = 0x5B then return (true, j) else findOpen out j

/-- `FinnishVfstAnalyzer.cpp:896-996`: the loop. The first argument bounds the number of rounds. -/
def baLoop (out : List Wc) : Nat → Nat → BState → UB BState
  | 0, _, _ => ub
  | f + 1, i, b =>
    if i ≥ 2 then do
      let c ← rdz out i
      if c = 0x5D then do
        let (found, j) ← findOpen out i
        let b ← (if found then baTag out i j b else some b : UB BState)
        if j < 3 then return b else baLoop out f (j - 1) b
      else baLoop out f (i - 1) b
    else some b

/-- `FinnishVfstAnalyzer.cpp:892-997`, `parseBasicAttributes`; `fstLen - 1` is computed modulo `2^64`. -/
def parseBasicAttributes (a : Ana) (out : List Wc) : UB Ana := do
  let b ← baLoop out (out.length + 1) ((out.length + (2 ^ 64 - 1)) % 2 ^ 64) { a := a }
  return b.a

/-! ## `fixStructure` -/

/-- `FinnishVfstAnalyzer.cpp:1006-1016`: the loop over the structure string after a `[Dg]` tag; `k` is `hyphenCount`,
`n` is `hyphensInStructure`. -/
def fixDg (k : Nat) : Nat → List Wc → List Wc
  | _, [] => []
  | n, c :: r =>
    if c = 0x69 then (if n = k then 0x70 else c) :: fixDg k n r
    else if c = 0x2D then c :: fixDg k (n + 1) r
    else c :: fixDg k n r

/-- `FinnishVfstAnalyzer.cpp:1038-1043`: the first `i` or `p` becomes `i`; `none` if there is none. -/
def fixUpper : List Wc → Option (List Wc)
  | [] => none
  | c :: r => if c = 0x69 ∨ c = 0x70 then some (0x69 :: r) else (fixUpper r).map (c :: ·)

/-- `FinnishVfstAnalyzer.cpp:1031-1036`: the search for `[Lep]` from `j`: whether it is found, and `j` after the loop. -/
def fixFind (out : List Wc) : Nat → Nat → UB (Bool × Nat)
  | 0, _ => ub
  | f + 1, j =>
    if j + 4 < out.length then do
      let b ← cmpz out j (lit "[Lep]")
      if b then return (true, j + 1) else fixFind out f (j + 1)
    else some (false, j)

/-- `FinnishVfstAnalyzer.cpp:1002-1047`: the loop. -/
def fixLoop (out : List Wc) : Nat → Nat → Bool → Nat → List Wc → UB (List Wc)
  | 0, _, _, _, _ => ub
  | f + 1, j, isDe, hyphens, st =>
    if j < out.length then do
      let c ← rdz out j
      if j + 3 < out.length ∧ c = 0x5B then do
        let c1 ← rdz out (j + 1)
        let c2 ← rdz out (j + 2)
        let ln ← cmpz out (j + 1) (lit "Ln]")
        if c1 = 0x44 then
          if c2 = 0x67 then fixLoop out f (j + 1) isDe hyphens (fixDg hyphens 0 st)
          else if c2 = 0x65 then fixLoop out f (j + 1) true hyphens st
          else fixLoop out f (j + 1) isDe hyphens st
        else if ln then fixLoop out f (j + 1) false hyphens st
        else fixLoop out f (j + 1) isDe hyphens st
      else if c = 0x2D then
        if isDe then do
          let (toUpper, j') ← (if j = out.length - 1 then some (true, j + 1)
            else fixFind out (out.length + 1) (j + 1) : UB (Bool × Nat))
          if toUpper then
            match fixUpper st with
            | some st => return st
            | none => fixLoop out f (j' + 1) isDe (hyphens + 1) st
          else fixLoop out f (j' + 1) isDe (hyphens + 1) st
        else fixLoop out f (j + 1) isDe (hyphens + 1) st
      else fixLoop out f (j + 1) isDe hyphens st
    else some st

/-- `FinnishVfstAnalyzer.cpp:999-1048`, `fixStructure`. -/
def fixStructure (st out : List Wc) : UB (List Wc) := fixLoop out (out.length + 1) 0 false 0 st

/-! ## Base forms -/

/-- The local variables of `parseNumeralBaseform` (`FinnishVfstAnalyzer.cpp:461-466`); `bf` is what has been written to
`baseform`. -/
structure NState where
  bf : List Wc := []
  isInXp : Bool := false
  isInXr : Bool := false
  isInTag : Bool := false
  isInDigits : Bool := false
  xpPassed : Bool := false
  deriving DecidableEq, Repr

/-- `FinnishVfstAnalyzer.cpp:472-512`: a bracket at `i`; `none` is `return false`. -/
def nbBracket (out : List Wc) (i : Nat) (s : NState) : UB (Option (Nat × NState)) := do
  let s := if s.isInDigits then { s with isInDigits := false, xpPassed := true } else s
  if i + 2 ≥ out.length then return none
  else do
    let xp ← cmpz out i (lit "[Xp]")
    let xj ← cmpz out i (lit "[Xj]")
    let xr ← cmpz out i (lit "[Xr]")
    let bc ← cmpz out i (lit "[Bc]")
    let ln ← cmpz out i (lit "[Ln]")
    let ll ← cmpz out i (lit "[Ll]")
    let lnl ← cmpz out i (lit "[Lnl]")
    let x ← cmpz out i (lit "[X]")
    if i + 6 < out.length ∧ (xp ∨ xj) then return some (i + 3, { s with isInXp := true })
    else if i + 6 < out.length ∧ xr then return some (i + 3, { s with isInXr := true })
    else if i + 4 = out.length ∧ bc then return none
    else if i + 6 < out.length ∧ bc then return some (i + 3, { s with xpPassed := false })
    else if i + 6 < out.length ∧ (ln ∨ ll ∨ lnl) then return none
    else if x then
      let s := if s.isInXp then { s with isInXp := false, xpPassed := true } else s
      return some (i + 2, { s with isInXr := false })
    else return some (i, { s with isInTag := true })

/-- `FinnishVfstAnalyzer.cpp:469-526`: one round of the loop. -/
def nbStep (out : List Wc) (cap i : Nat) (s : NState) : UB (Option (Nat × NState)) := do
  let c ← rdz out i
  let s := if i = 0 ∧ (isDigit c ∨ c = 0x2D) then { s with isInDigits := true } else s
  if c = 0x5B then nbBracket out i s
  else if s.isInXr then return some (i, s)
  else if s.isInTag then return some (i, if c = 0x5D then { s with isInTag := false } else s)
  else if s.isInXp ∨ s.isInDigits then do
    let bf ← push cap s.bf c
    return some (i, { s with bf := bf })
  else if !s.xpPassed ∨ c = 0x2D then do
    let bf ← push cap s.bf c
    return some (i, { s with bf := bf })
  else return some (i, s)

/-- `FinnishVfstAnalyzer.cpp:468-529`: the loop and the end; `none` is `return false`. -/
def nbLoop (out : List Wc) (cap : Nat) : Nat → Nat → NState → UB (Option (List Wc))
  | 0, _, _ => ub
  | f + 1, i, s =>
    if i < out.length then do
      match ← nbStep out cap i s with
      | none => return none
      | some (i, s) => nbLoop out cap f (i + 1) s
    else if s.bf.length < cap then some (some s.bf) else ub

/-- `FinnishVfstAnalyzer.cpp:460-530`, `parseNumeralBaseform`; `cap` is the room in `baseform`. -/
def parseNumeralBaseform (out : List Wc) (cap : Nat) : UB (Option (List Wc)) := nbLoop out cap (out.length + 1) 0 {}

/-- The local variables of `parseBaseform` (`FinnishVfstAnalyzer.cpp:533-545`); `sp` is the rest of the structure string
from `structurePos`. -/
structure FState where
  bf : List Wc := []
  xpFst : Nat := 0
  xpBase : Nat := 0
  xpHyphens : Nat := 0
  sp : List Wc
  isInXp : Bool := false
  isInXr : Bool := false
  isInTag : Bool := false
  ignoreNextDe : Bool := false
  isDe : Bool := false
  classTagSeen : Bool := false
  deriving DecidableEq, Repr

/-- `FinnishVfstAnalyzer.cpp:626-635` and `660-664`: copying of an `[Xp]` section from `i` to the base form. `up` is the
index whose character is made upper case (`none`: no such). -/
def copyXp (out : List Wc) (cap : Nat) (up : Option Nat) : Nat → Nat → List Wc → UB (List Wc)
  | 0, _, _ => ub
  | f + 1, i, bf =>
    if i < out.length then do
      let c ← rdz out i
      if c ≠ 0x5B then
        if c ≠ 0x3D then do
          let bf ← push cap bf (if up = some i then upper c else c)
          copyXp out cap up f (i + 1) bf
        else copyXp out cap up f (i + 1) bf
      else return bf
    else some bf

/-- `FinnishVfstAnalyzer.cpp:623-638`: whether `[Lep]` follows at or after `j`. -/
def findLep (out : List Wc) : Nat → Nat → UB Bool
  | 0, _ => ub
  | f + 1, j =>
    if j + 4 < out.length then do
      let b ← cmpz out j (lit "[Lep]")
      if b then return true else findLep out f (j + 1)
    else some false

/-- `FinnishVfstAnalyzer.cpp:644-653`: the next pattern character decides about the case of `c`. -/
def applyPattern (c : Wc) : List Wc → Wc × List Wc
  | [] => (c, [])
  | k :: r =>
    if k ≠ 0x3D then (if k = 0x69 ∨ k = 0x6A then upper c else c, r) else applyPattern c r

/-- `FinnishVfstAnalyzer.cpp:548-599`: a bracket at `i`: `Sum.inl r` is `return r`. -/
def bfBracket (out : List Wc) (cap i : Nat) (s : FState) : UB (Option (List Wc) ⊕ (Nat × FState)) :=
  if i + 2 ≥ out.length then some (.inl none)
  else do
    let c1 ← rdz out (i + 1)
    let c2 ← rdz out (i + 2)
    let c3 ← (if i + 6 < out.length then rdz out (i + 3) else some 0 : UB Wc)
    let lu ← cmpz out (i + 1) (lit "Lu]")
    let de ← cmpz out (i + 1) (lit "De]")
    if c1 = 0x58 then
      if c2 = 0x5D then return .inr (i + 2, { s with isInXp := false, isInXr := false })
      else if i + 6 < out.length ∧ c3 = 0x5D then
        if c2 = 0x70 ∨ c2 = 0x6A then
          return .inr (i + 3, { s with isInXp := true, xpFst := i + 4, xpBase := s.bf.length, xpHyphens := 0 })
        else if c2 = 0x72 ∨ c2 = 0x73 then return .inr (i + 3, { s with isInXr := true })
        else return .inr (i, s)
      else return .inr (i, s)
    else if !s.classTagSeen ∧ i + 6 < out.length ∧ lu then do
      let r ← parseNumeralBaseform (out.drop (i + 4)) (cap - s.bf.length)
      match r with
      | some nb => return .inl (some (s.bf ++ nb))
      | none => return .inr (i + 3, { s with classTagSeen := true })
    else if de then return .inr (i + 3, { s with isDe := !s.ignoreNextDe })
    else if c1 = 0x4C then do
      let ig ← (if i + 3 ≥ out.length then some true
        else do
          let nl ← cmpz out (i + 2) (lit "nl")
          return c2 ≠ 0x6C ∧ !nl : UB Bool)
      return .inr (i, { s with classTagSeen := true, isDe := false, ignoreNextDe := ig, isInTag := true })
    else return .inr (i, { s with isInTag := true })

/-- `FinnishVfstAnalyzer.cpp:615-643`: what a hyphen at `i` does to earlier parts of the base form. -/
def bfHyphen (out : List Wc) (cap i : Nat) (s : FState) : UB FState :=
  if s.xpHyphens > 0 then some { s with xpHyphens := s.xpHyphens - 1, isDe := false }
  else do
    let s ← (if s.isDe ∧ s.xpFst ≠ 0 then
        if i < 2 then ub
        else do
          let is ← cmpz out (i - 2) (lit "is")
          if !is then do
            let lep ← findLep out (out.length + 1) i
            if lep then do
              let bf ← back s.bf s.xpBase
              let bf ← copyXp out cap (some s.xpFst) (out.length + 1) s.xpFst bf
              return { s with bf := bf }
            else return s
          else return s
      else some s : UB FState)
    return { s with xpFst := 0, isDe := false }

/-- `FinnishVfstAnalyzer.cpp:548-655`: one round of the loop. -/
def bfStep (out : List Wc) (cap i : Nat) (s : FState) : UB (Option (List Wc) ⊕ (Nat × FState)) := do
  let c ← rdz out i
  if c = 0x5B then bfBracket out cap i s
  else if s.isInXr then return .inr (i, s)
  else if s.isInTag then return .inr (i, if c = 0x5D then { s with isInTag := false } else s)
  else if s.isInXp then return .inr (i, if c = 0x2D then { s with xpHyphens := s.xpHyphens + 1 } else s)
  else do
    let s ← (if c = 0x2D then bfHyphen out cap i s else some s : UB FState)
    let (c, sp) := applyPattern c s.sp
    let bf ← push cap s.bf c
    return .inr (i, { s with bf := bf, sp := sp })

/-- `FinnishVfstAnalyzer.cpp:547-672`: the loop and the end. -/
def bfLoop (out : List Wc) (cap : Nat) : Nat → Nat → FState → UB (Option (List Wc))
  | 0, _, _ => ub
  | f + 1, i, s =>
    if i < out.length then do
      match ← bfStep out cap i s with
      | .inl r => return r
      | .inr (i, s) => bfLoop out cap f (i + 1) s
    else do
      let bf ← (if s.xpFst ≠ 0 then do
          let bf ← back s.bf s.xpBase
          copyXp out cap none (out.length + 1) s.xpFst bf
        else some s.bf : UB (List Wc))
      if bf.length = 0 then return none
      else if bf.length < cap then return some bf
      else ub

/-- `FinnishVfstAnalyzer.cpp:532-673`, `parseBaseform`; `none` is the null pointer. -/
def parseBaseform (out st : List Wc) : UB (Option (List Wc)) :=
  bfLoop out (out.length + 1) (out.length + 1) 0 { sp := st }

/-! ## Debugging attributes -/

/-- The local variables of `parseDebugAttributes` (`FinnishVfstAnalyzer.cpp:753-769`). -/
structure DState where
  ids : List Wc := []
  bases : List Wc := []
  xs : List Wc := []
  xp : List Wc := []
  idLast : Nat := 0
  baseLast : Nat := 0
  inXs : Bool := false
  inXp : Bool := false
  inXj : Bool := false
  inXOther : Bool := false
  inContent : Bool := false
  inTag : Bool := false
  anyXs : Bool := false
  deriving DecidableEq, Repr

/-- Several characters written one after the other. -/
def pushAll (cap : Nat) : List Wc → List Wc → UB (List Wc)
  | [], buf => some buf
  | c :: r, buf => do
    let buf ← push cap buf c
    pushAll cap r buf

/-- `FinnishVfstAnalyzer.cpp:733-750`, `debugContentEnd`. -/
def debugContentEnd (cap : Nat) (d : DState) : UB DState := do
  let d ← (if d.xs.length > 0 then do
      let ids ← pushAll cap (lit "(w" ++ d.xs ++ lit ")") d.ids
      return { d with ids := ids, xs := [] }
    else some d : UB DState)
  if d.xp.length > 0 then do
    let bases ← pushAll cap (lit "(" ++ d.xp ++ lit ")") d.bases
    return { d with bases := bases, xp := [] }
  else return d

/-- `FinnishVfstAnalyzer.cpp:772-781`: a class tag, or a hyphen before a boundary (`hy`); the result has the value of `i`
before `i++`. -/
def dbBoundary (cap i : Nat) (hy : Bool) (d : DState) : UB (Nat × DState) := do
  let d ← debugContentEnd cap { d with inContent := false, inTag := true }
  if hy then do
    let ids ← pushAll cap (lit "+-") d.ids
    let bases ← pushAll cap (lit "+-") d.bases
    return (i + 1, { d with ids := ids, bases := bases })
  else return (i, d)

/-- `FinnishVfstAnalyzer.cpp:784-820`: a bracket at `i` that does not start a class tag. -/
def dbBracket (out : List Wc) (cap i : Nat) (d : DState) : UB (Nat × DState) := do
  let c1 ← rdz out (i + 1)
  let c2 ← rdz out (i + 2)
  if c1 = 0x58 then
    if c2 = 0x73 then return (i + 3, { d with inXs := true, anyXs := true, xs := [] })
    else if c2 = 0x70 then return (i + 3, { d with inXp := true, xp := [] })
    else if c2 = 0x6A then do
      let d ← (if d.inContent then do
          let d ← debugContentEnd cap d
          return { d with idLast := d.ids.length, baseLast := d.bases.length }
        else some d : UB DState)
      return (i + 3, { d with inXj := true, xp := [] })
    else if c2 = 0x5D then
      return (i + 2, { d with inXs := false, inXp := false, inXj := false, inXOther := false })
    else return (i + 3, { d with inXOther := true })
  else return (i, { d with inTag := true })

/-- `FinnishVfstAnalyzer.cpp:826-851`: another character; `n` is `fstLen`, the size of `xsBuffer` and `xpBuffer`. -/
def dbChar (cap n : Nat) (c : Wc) (d : DState) : UB DState :=
  if d.inTag ∨ d.inXOther then some d
  else if d.inXs then do
    let xs ← push n d.xs c
    return { d with xs := xs }
  else if d.inXp then do
    let xp ← push n d.xp c
    return { d with xp := xp }
  else if d.inXj then do
    let xp ← (if d.xp.length = 0 then push n d.xp 0x2B else some d.xp : UB (List Wc))
    let xp ← push n xp c
    return { d with xp := xp }
  else do
    let d ← (if !d.inContent then do
        let ids ← push cap d.ids 0x2B
        let bases ← push cap d.bases 0x2B
        return { d with ids := ids, bases := bases, idLast := ids.length, baseLast := bases.length, inContent := true }
      else some d : UB DState)
    let ids ← push cap d.ids c
    let bases ← push cap d.bases c
    return { d with ids := ids, bases := bases }

/-- `FinnishVfstAnalyzer.cpp:771-852`: one round of the loop. -/
def dbStep (out : List Wc) (cap i : Nat) (d : DState) : UB (Nat × DState) := do
  let cl ← cmpz out i (lit "[L")
  let hb ← cmpz out i (lit "-[B")
  let c ← rdz out i
  if cl ∨ hb then dbBoundary cap i (c = 0x2D) d
  else if c = 0x5B ∧ i + 2 < out.length then dbBracket out cap i d
  else if c = 0x5D then return (i, { d with inTag := false })
  else do
    let d ← dbChar cap out.length c d
    return (i, d)

/-- `FinnishVfstAnalyzer.cpp:770-853`: the loop. -/
def dbLoop (out : List Wc) (cap : Nat) : Nat → Nat → DState → UB DState
  | 0, _, _ => ub
  | f + 1, i, d =>
    if i < out.length then do
      let (i, d) ← dbStep out cap i d
      dbLoop out cap f (i + 1) d
    else some d

/-- `FinnishVfstAnalyzer.cpp:854-878`: the end of the last word. -/
def dbEnd (cap : Nat) (d : DState) : UB (List Wc × List Wc) := do
  let (ids, bases) ← (if d.xp.length > 0 then do
      let plus ← (if d.baseLast > 0 then do
          let x0 ← rd d.xp 0
          let b ← rd d.bases (d.baseLast - 1)
          return if x0 = 0x2B ∧ b = 0x2B then 1 else 0
        else some 0 : UB Nat)
      if d.idLast < plus then ub
      else do
        let word := d.xp.filter (· ≠ 0x3D)
        let bases ← back d.bases d.baseLast
        let ids ← back d.ids d.idLast
        let bases ← pushAll cap word (bases.take (d.baseLast - plus))
        let ids ← pushAll cap word (ids.take (d.idLast - plus))
        let bases ← pushAll cap (lit "(" ++ d.xp ++ lit ")") bases
        return (ids, bases)
    else some (d.ids, d.bases) : UB (List Wc × List Wc))
  let ids ← (if d.xs.length > 0 then pushAll cap (lit "(w" ++ d.xs ++ lit ")") ids else some ids : UB (List Wc))
  if ids.length < cap ∧ bases.length < cap then return (ids, bases) else ub

/-- `FinnishVfstAnalyzer.cpp:752-890`, `parseDebugAttributes`. -/
def parseDebugAttributes (a : Ana) (out : List Wc) : UB Ana := do
  let cap := 2 * out.length + 1
  let d ← dbLoop out cap (out.length + 1) 0 {}
  let (ids, bases) ← dbEnd cap d
  let a := if d.anyXs then a.add .wordids ids else a
  return a.add .wordbases bases

/-! ## `analyze` -/

/-- `FinnishVfstAnalyzer.cpp:695-696`: whether there is a `[Bc]` at a position from `j` down to 4. -/
def orgBc (out : List Wc) : Nat → UB Bool
  | 0 => some false
  | j + 1 =>
    if j + 1 ≥ 4 then do
      let b ← cmpz out (j + 1) (lit "[Bc]")
      if b then return true else orgBc out j
    else some false

/-- `FinnishVfstAnalyzer.cpp:690-730`: whether the loop reaches line 697, from `i` downwards. -/
def orgLoop (out : List Wc) : Nat → UB Bool
  | 0 => some false
  | i + 1 =>
    if i + 1 ≥ 8 then do
      let bc ← cmpz out (i + 1) (lit "[Bc]")
      if bc then return false
      else do
        let ion ← cmpz out (i + 1) (lit "[Ion]")
        if ion then do
          let b ← orgBc out (i + 1 - 4)
          if b then return true else orgLoop out i
        else orgLoop out i
    else some false

/-- `FinnishVfstAnalyzer.cpp:699-718`: copying of the attributes; the second result is `newStructure`. -/
def orgCopy (old : Ana) : List AKey → Ana × Option (List Wc) → UB (Ana × Option (List Wc))
  | [], r => some r
  | k :: ks, (a, ns) =>
    if k = .cls then orgCopy old ks (a.addConst k (lit "nimi"), ns)
    else
      match old.getValue k with
      | none => ub
      | some v =>
        if k = .structure_ then
          if v.length ≥ 2 then orgCopy old ks (a.add k (v.set 1 0x69), some (v.set 1 0x69))
          else orgCopy old ks (a, ns)
        else if k = .geographical then orgCopy old ks (a, ns)
        else orgCopy old ks (a.add k v, ns)

/-- `FinnishVfstAnalyzer.cpp:675-731`, `duplicateOrgName`: the analysis added to the list, if any. -/
def duplicateOrgName (a : Ana) (out : List Wc) : UB (Option Ana) :=
  if a.getValue .cls ≠ some (lit "nimisana") then some none
  else if out.length < 13 then some none
  else do
    let c0 ← rdz out 0
    let la ← cmpz out 0 (lit "[La]")
    if c0 = 0x2D ∨ la then return none
    else do
      let go ← orgLoop out (out.length - 5)
      if go then do
        let (n, ns) ← orgCopy a a.internalKeys ({}, none)
        match ns with
        | none => return some n
        | some s => do
          let bf ← parseBaseform out s
          match bf with
          | none => return some n
          | some b => return some (n.add .baseform b)
      else return none

/-- `FinnishVfstAnalyzer.cpp:1072-1096`: corrections after the attributes have been read. -/
def adjustAttributes (a : Ana) : UB Ana := do
  let wclass := a.getValue .cls
  let sijamuoto := a.getValue .sijamuoto
  let mood := a.getValue .mood
  let participle := a.getValue .participle
  let a ← (if (a.getValue .negative).isSome ∧ ((wclass.isSome ∧ wclass ≠ some (lit "teonsana"))
        ∨ mood = some (lit "MINEN-infinitive") ∨ mood = some (lit "E-infinitive") ∨ mood = some (lit "MA-infinitive")) then
      a.remove .negative
    else some a : UB Ana)
  let (a, wclass) ← (if participle = some (lit "past_passive") ∧ (wclass = none ∨ participle ≠ some (lit "laatusana")) then do
      let a ← a.remove .cls
      return (a.addConst .cls (lit "laatusana"), some (lit "laatusana"))
    else some (a, wclass) : UB (Ana × Option (List Wc)))
  let a ← (if (a.getValue .number).isSome ∧ sijamuoto = some (lit "kerrontosti") then a.remove .number
    else some a : UB Ana)
  if a.getValue .comparison = none then
    if wclass = some (lit "laatusana") ∨ wclass = some (lit "nimisana_laatusana") then
      return a.addConst .comparison (lit "positive")
    else return a
  else if wclass = some (lit "nimisana") then a.remove .comparison
  else return a

/-- `FinnishVfstAnalyzer.cpp:1063-1106`: the analyses from one transducer output. -/
def analyzeOutput (wlen : Nat) (full : Bool) (out : List Wc) : UB (List Ana) := do
  let valid ← isValidAnalysis out
  if !valid then return []
  else do
    let st ← parseStructure out wlen
    let a ← parseBasicAttributes {} out
    let st ← fixStructure st out
    let a ← adjustAttributes (a.add .structure_ st)
    let dup ← duplicateOrgName a out
    let a ← (if full then do
        let a := a.add .fstoutput out
        let bf ← parseBaseform out st
        let a := match bf with
          | some b => a.add .baseform b
          | none => a
        parseDebugAttributes a out
      else some a : UB Ana)
    return a :: dup.toList

/-- The analyses from several outputs, in order. -/
def analyzeOutputs (wlen : Nat) (full : Bool) : List (List Wc) → UB (List Ana)
  | [] => some []
  | o :: r => do
    let x ← analyzeOutput wlen full o
    let y ← analyzeOutputs wlen full r
    return x ++ y

/-- `FinnishVfstAnalyzer.cpp:1050-1112`, `analyze`. `next` gives the outputs of the transducer for the lower case word
(none if `prepare` fails); at most 99 of them are read. -/
def finnishAnalyze (next : List Wc → List (List Wc)) (word : List Wc) (full : Bool) : UB (List Ana) :=
  if word.length > 255 then some []
  else analyzeOutputs word.length full ((next (setCase .allLower word)).take 99)

/-- `std::list::unique` for a list of pointers to strings, where equal strings are the same pointer (the only equal
strings in one map are the two uses of `lukusana`, `FinnishVfstAnalyzer.cpp:57,69-70`). -/
def listUnique : List (List Wc) → List (List Wc)
  | [] => []
  | [x] => [x]
  | x :: y :: r => if x = y then listUnique (y :: r) else x :: listUnique (y :: r)

/-- `FinnishVfstAnalyzer.cpp:1114-1121` -/
def valuesFromMap (m : TagMap) : List (List Wc) := listUnique (m.map (·.2))

/-- `FinnishVfstAnalyzer.cpp:1123-1170`, `getAttributeValues`. -/
def getAttributeValues (name : List Nat) : List (List Wc) :=
  if name = lit "CLASS" then valuesFromMap classMap
  else if name = lit "NUMBER" then valuesFromMap numberMap
  else if name = lit "COMPARISON" then valuesFromMap comparisonMap
  else if name = lit "FOCUS" then valuesFromMap focusMap
  else if name = lit "TENSE" then valuesFromMap tenseMap
  else if name = lit "SIJAMUOTO" then valuesFromMap sijamuotoMap
  else if name = lit "MOOD" then valuesFromMap moodMap
  else if name = lit "PERSON" then valuesFromMap personMap
  else if name = lit "PARTICIPLE" then valuesFromMap participleMap
  else if name = lit "NEGATIVE" then valuesFromMap negativeMap
  else if name = lit "POSSESSIVE" then valuesFromMap possessiveMap
  else if name = lit "KYSYMYSLIITE" ∨ name = lit "MALAGA_VAPAA_JALKIOSA" ∨ name = lit "POSSIBLE_GEOGRAPHICAL_NAME" then
    [lit "true"]
  else if name = lit "REQUIRE_FOLLOWING_VERB" then [lit "A-infinitive", lit "MA-infinitive"]
  else []

/-- `interface.cpp:114-129`, `voikkoGetAttributeValues` before the conversion to UTF-8; `none` is the null pointer. -/
def attributeValues (name : List Nat) : Option (List (List Wc)) :=
  if getAttributeValues name = [] then none else some (getAttributeValues name)

end Verif
