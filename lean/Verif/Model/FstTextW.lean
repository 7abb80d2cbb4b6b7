import Verif.Model.FstText
import Verif.Model.FstWeighted
/-!
# `tools/voikkovfstc.cpp` with the option `-w`: from the text of a weighted automaton to the transducer file

As `Verif.Model.FstText`. Floating point numbers are a parameter.
-/

namespace Verif

/-- The floating point numbers. -/
structure AttNumbers where
  /-- `double` -/
  D : Type
  /-- `operator>>` for a `double` at the beginning of these bytes, the longest ones without white space: the value, and whether there was no error.
  (The extraction stops at the first byte that cannot be part of a number, so it does not look further than that; after an error the value is 0 or the
  largest number.) -/
  num : List Nat → D × Bool
  /-- `voikkovfstc.cpp:82-88`, `probWeightToLog` or `logWeightToLog`: the 16 bits of the weight. The conversion to `int16_t` is undefined if the value is
  out of range. -/
  conv : D → UB Nat

/-- `voikkovfstc.cpp:310-362` with weights, and `convertSymbolNames` of lines 381-382; `none` is an error that ends the program. The weight is computed later
(lines 376 and 388), after the check of the source state: it is undefined if `weight` was not initialised. -/
def attParseW (N : AttNumbers) (line : List Nat) : Option (AttLine × UB Nat) :=
  let (src, s) := attReadUInt 0 { rest := line }
  if s.eof then some (.final src, return 0)
  else
    let (tok, s) := attReadToken [] s
    if s.eof then some (.final src, if tok = [] then ub else N.conv (N.num tok).1)
    else
      let (tgt, _) := attReadUInt 0 { rest := tok }
      let (inp, s) := attReadToken [] s
      let (out, s) := attReadToken [] s
      if s.fail then none
      else if s.eof then none
      else
        let s := attSentry s
        if s.fail then none
        else
          let (weight, ok) := N.num (s.rest.takeWhile fun b => !attSpace b)
          if ok then some (.arc src tgt (attName inp) (attName out), N.conv weight) else none

/-- `symVector` and `attStateVector`. -/
structure AttTabW where
  syms : List (Nat × List Nat)
  states : List (List WTrans)

/-- `voikkovfstc.cpp:363-392`: one line. The byte `reserved` of the transition is whatever the memory contained. -/
def attAddW (st : AttTabW) (reserved : Nat) : AttLine × UB Nat → UB (Option AttTabW)
  | (.final src, weight) =>
    if st.states.length < src then return none
    else do
      let w ← weight
      return (attPush st.states src ⟨⟨0xFFFFFFFF, 0, 0⟩, w, reserved⟩).map fun states => { st with states }
  | (.arc src tgt inp out, weight) =>
    if st.states.length < src then return none
    else
      match attIntern inp st.syms with
      | none => return none
      | some (i, syms) =>
        match attIntern out syms with
        | none => return none
        | some (o, syms) => do
          let w ← weight
          return (attPush st.states src ⟨⟨i, o, tgt⟩, w, reserved⟩).map fun states => { syms, states }

/-- `voikkovfstc.cpp:309-393`: all lines; `reserved k` is the byte for line `k`. -/
def attAddAllW (N : AttNumbers) (reserved : Nat → Nat) : Nat → AttTabW → List (List Nat) → UB (Option AttTabW)
  | _, st, [] => return some st
  | k, st, l :: ls =>
    match attParseW N l with
    | none => return none
    | some x => do
      match ← attAddW st (reserved k) x with
      | none => return none
      | some st => attAddAllW N reserved (k + 1) st ls

/-- `voikkovfstc.cpp:411-414`: the symbols of a transition get their new codes. -/
def attRenumberW (pairs : List (Nat × Nat)) (x : WTrans) : UB WTrans := do
  let t ← attRenumber pairs x.t
  return { x with t := t }

/-- `voikkovfstc.cpp:300-508`: the file written for a text. -/
def attCompileW (N : AttNumbers) (reserved : Nat → Nat) (srtS : List (Nat × List Nat) → List (Nat × List Nat)) (srtT : List WTrans → List WTrans)
    (doSwap : Bool) (text : List Nat) : UB (Option (List Nat)) := do
  match ← attAddAllW N reserved 0 { syms := [(0, [])], states := [] } (attLines [] text) with
  | none => return none
  | some st => do
    let sorted := srtS st.syms
    let pairs := attPairs sorted
    let states ← st.states.mapM fun s => s.mapM (attRenumberW pairs)
    return writeFileW doSwap (sorted.map (·.2)) (states.map srtT)

end Verif
