import Verif.Model.FstTextW
import Verif.Model.ToolArgs
/-!
# `tools/voikkovfstc.cpp`: `main`

The arguments, the byte order and the order in which errors are found and the output file is opened. The texts of the messages are not modelled.
-/

namespace Verif

/-- `voikkovfstc.cpp:82-88`: the functions to which `weightFunc` may point. -/
inductive WeightKind where
  /-- `probWeightToLog` -/
  | prob
  /-- `logWeightToLog` -/
  | log
  deriving DecidableEq, Repr

/-- The variables of `voikkovfstc.cpp:251-254`. `weightFunc` is a pointer, null at first. -/
structure VfstcArgs where
  outputFile : Arg := []
  format : Arg := lit "le"
  weights : Bool := false
  weightFunc : Option WeightKind := none
  deriving DecidableEq, Repr

/-- `voikkovfstc.cpp:255-277`: the arguments; `none` is the error of lines 272-273. The last argument is never an option with a value, because of `i + 1 < argc`. -/
def vfstcArgs : List Arg → VfstcArgs → Option VfstcArgs
  | [], s => some s
  | [_], s => some s
  | a :: v :: r, s =>
    if a = lit "-o" then vfstcArgs r { s with outputFile := v }
    else if a = lit "-f" then vfstcArgs r { s with format := v }
    else if a = lit "-w" then
      if v = lit "prob" then vfstcArgs r { s with weights := true, weightFunc := some .prob }
      else if v = lit "log" then vfstcArgs r { s with weights := true, weightFunc := some .log }
      else none
    else vfstcArgs (v :: r) s

/-- `voikkovfstc.cpp:284-298`, `byteSwap`; `little` is `isLittleEndian()`. -/
def vfstcSwap (little : Bool) (format : Arg) : Option Bool :=
  if format = lit "le" then some (!little)
  else if format = lit "be" then some little
  else if format = lit "native" then some false
  else none

/-- `voikkovfstc.cpp:300-508` without weights: the outer `none` is an error before the output file is opened (line 445), the inner one an error after that
(`setTarget`, lines 188-194). -/
def vfstcPlain (srtS : List (Nat × List Nat) → List (Nat × List Nat)) (srtT : List CTrans → List CTrans) (doSwap : Bool) (text : List Nat) :
    UB (Option (Option (List Nat))) :=
  match attAddAll { syms := [(0, [])], states := [] } (attLines [] text) with
  | none => return none
  | some st => do
    let sorted := srtS st.syms
    let pairs := attPairs sorted
    let states ← st.states.mapM fun s => s.mapM (attRenumber pairs)
    match stateOffsets 0 (states.map srtT) with
    | none => return none
    | some _ => return some (writeFile doSwap (sorted.map (·.2)) (states.map srtT))

/-- `voikkovfstc.cpp:300-508` with weights, as `vfstcPlain`. -/
def vfstcWeighted (N : AttNumbers) (reserved : Nat → Nat) (srtS : List (Nat × List Nat) → List (Nat × List Nat)) (srtT : List WTrans → List WTrans)
    (doSwap : Bool) (text : List Nat) : UB (Option (Option (List Nat))) := do
  match ← attAddAllW N reserved 0 { syms := [(0, [])], states := [] } (attLines [] text) with
  | none => return none
  | some st => do
    let sorted := srtS st.syms
    let pairs := attPairs sorted
    let states ← st.states.mapM fun s => s.mapM (attRenumberW pairs)
    match stateOffsets 0 ((states.map srtT).map fun s => s.map (·.t)) with
    | none => return none
    | some _ => return some (writeFileW doSwap (sorted.map (·.2)) (states.map srtT))

/-- The numbers that `weightFunc` gives: a call through the null pointer is undefined. -/
def vfstcNumbers (N : WeightKind → AttNumbers) : Option WeightKind → AttNumbers
  | some k => N k
  | none => { N .prob with conv := fun _ => ub }

/-- How the program ends. -/
inductive VfstcEnd where
  /-- status 1, no file was opened -/
  | refused
  /-- status 1, the output file cannot be opened -/
  | cannotOpen (name : Arg)
  /-- status 1 after the output file was opened: its former content is lost, and it has some beginning of the new one -/
  | broken (name : Arg)
  /-- status 0, the file has this content -/
  | written (name : Arg) (content : List Nat)
  deriving DecidableEq, Repr

/-- `voikkovfstc.cpp:246-509`, `main`. `little` is the byte order of the machine, `canOpen` says whether the `ofstream` of line 445 can be opened. Writing does not fail.
`writeFile` and `writeFileW` give the bytes as a little-endian machine writes them; a big-endian one stores all integers and bit-fields of the structures in the opposite
order, so it writes with `byteSwap` what a little-endian one writes without it. -/
def vfstcMain (N : WeightKind → AttNumbers) (reserved : Nat → Nat) (srtS : List (Nat × List Nat) → List (Nat × List Nat)) (srtT : List CTrans → List CTrans)
    (srtW : List WTrans → List WTrans) (little : Bool) (canOpen : Arg → Bool) (args : List Arg) (text : List Nat) : UB VfstcEnd :=
  match vfstcArgs args {} with
  | none => return .refused
  | some s =>
    if s.outputFile = [] then return .refused
    else
      match vfstcSwap little s.format with
      | none => return .refused
      | some byteSwap => do
        let r ← if s.weights then vfstcWeighted (vfstcNumbers N s.weightFunc) reserved srtS srtW (byteSwap == little) text
          else vfstcPlain srtS srtT (byteSwap == little) text
        match r with
        | none => return .refused
        | some content =>
          if canOpen s.outputFile then
            match content with
            | none => return .broken s.outputFile
            | some content => return .written s.outputFile content
          else return .cannotOpen s.outputFile

end Verif
