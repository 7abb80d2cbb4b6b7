import Verif.Model.Basic
/-!
# `fst/UnweightedTransducer.cpp`, `fst/Configuration.cpp`: look-up in an unweighted transducer

The transition table is a list of 8 byte cells (`fst/Transition.hpp:36-50`). The stacks of `Configuration` (arrays indexed by
`stackDepth` and `flagDepth`) are lists with the newest element first; the bounds of the arrays are checked explicitly
(`ub`). The integers of the configuration are natural numbers; a decrement below zero is `ub`.
-/

namespace Verif

/-- `fst/Transition.hpp:36-45`, `Transition`. -/
structure Cell where
  symIn : Nat
  symOut : Nat
  target : Nat
  more : Nat
  deriving DecidableEq, Repr

/-- `fst/Transition.hpp:47-50`: `moreTransitions` of the cell read as `OverflowCell`, on a little-endian machine. -/
def Cell.overflow (c : Cell) : Nat := c.symIn + 65536 * c.symOut

/-- `fst/Transducer.hpp:41-47`, `Operation`. -/
inductive FlagOp where
  | P | C | U | R | D
  deriving DecidableEq, Repr

/-- `fst/Transducer.hpp:49-53`, `OpFeatureValue`. -/
structure Ofv where
  op : FlagOp
  feature : Nat
  value : Nat
  deriving DecidableEq, Repr

/-- The members of `UnweightedTransducer` used by the look-up. `symbols` is `symbolToString` (its lengths are
`symbolStringLength`; the string of epsilon is empty), `charToSym` is `stringToSymbol`. -/
structure Fst where
  cells : List Cell
  symbols : List (List Wc)
  firstNormal : Nat
  diacritics : List Ofv
  featureCount : Nat
  charToSym : List (Wc × Nat)

/-- One element of `stateIndexStack`, `currentTransitionStack`, `outputSymbolStack`. -/
structure Frame where
  state : Nat
  cur : Nat
  out : Nat
  deriving DecidableEq, Repr

/-- `fst/Configuration.hpp:38-54`, `Configuration`. `below` are the stack elements with index less than `stackDepth`, `state`
and `cur` those at `stackDepth`; `log` are `updatedFlagFeature`, `updatedFlagValue` below `flagDepth`. -/
structure Conf where
  bufferSize : Nat
  below : List Frame
  state : Nat
  cur : Nat
  inputDepth : Nat
  input : List Nat
  flags : List Nat
  log : List (Nat × Nat)
  deriving DecidableEq, Repr

/-- `fst/Configuration.cpp:38-55`: a new configuration. -/
def Conf.new (featureCount bufferSize : Nat) : Conf :=
  { bufferSize, below := [], state := 0, cur := 0, inputDepth := 0, input := [], flags := List.replicate featureCount 0, log := [] }

/-- The symbol of a character; `unknownSymbolOrdinal` is the number of symbols. -/
def Fst.symOf (f : Fst) (c : Wc) : Nat := (f.charToSym.lookup c).getD f.symbols.length

/-- `UnweightedTransducer.cpp:197-217`, `prepare`. -/
def prepare (f : Fst) (c : Conf) (input : List Wc) : UB (Bool × Conf) :=
  if c.bufferSize < input.length ∨ c.bufferSize = 0 then ub
  else return (input.all fun ch => (f.charToSym.lookup ch).isSome,
    { c with below := [], log := [], inputDepth := 0, state := 0, cur := 0, input := input.map f.symOf })

/-- `UnweightedTransducer.cpp:219-226`, `getMaxTc`. -/
def getMaxTc (f : Fst) (head : Nat) : UB Nat := do
  let h ← rd f.cells head
  if h.more = 255 then do
    let oc ← rd f.cells (head + 1)
    return (oc.overflow + 1) % 2 ^ 32
  else return h.more

/-- `UnweightedTransducer.cpp:237-271`: the value to be stored and whether it is to be stored; `none` if not allowed. -/
def flagDecision (ofv : Ofv) (cur : Nat) : Option (Nat × Bool) :=
  match ofv.op with
  | .P => some (ofv.value, true)
  | .C => some (0, true)
  | .U => if cur ≠ 0 then (if cur ≠ ofv.value then none else some (ofv.value, false)) else some (ofv.value, true)
  | .R => if ofv.value = 1 ∧ cur = 0 then none else if ofv.value ≠ 1 ∧ cur ≠ ofv.value then none else some (ofv.value, false)
  | .D => if (ofv.value = 1 ∧ cur ≠ 0) ∨ cur = ofv.value then none else some (ofv.value, false)

/-- `UnweightedTransducer.cpp:228-283`, `flagDiacriticCheck`: the new flag values and log, or `none` (not allowed). -/
def flagCheck (f : Fst) (c : Conf) (symbol : Nat) : UB (Option (List Nat × List (Nat × Nat))) :=
  if f.featureCount = 0 ∨ symbol = 0 then return some (c.flags, c.log)
  else do
    let ofv ← rd f.diacritics symbol
    let cur ← rd c.flags ofv.feature
    match flagDecision ofv cur with
    | none => return none
    | some (v, update) =>
      if c.bufferSize ≤ c.log.length then ub
      else return some (if update then c.flags.set ofv.feature v else c.flags, (ofv.feature, cur) :: c.log)

/-- How the loop over the transitions of a state ends. -/
inductive ScanRes where
  | final (idx : Nat)
  | down (idx : Nat) (t : Cell) (flags : List Nat) (log : List (Nat × Nat))
  | stop

/-- `UnweightedTransducer.cpp:296-346`: the loop over the transitions from index `tc` on; `k` is at least the number of
remaining iterations. -/
def scan (f : Fst) (c : Conf) (pfx : Bool) (max : Nat) : Nat → Nat → UB ScanRes
  | 0, _ => return .stop
  | k + 1, tc0 =>
    if max < tc0 then return .stop
    else do
      let tc := if tc0 = 1 ∧ 255 ≤ max then 2 else tc0
      let t ← rd f.cells (c.state + tc)
      if t.symIn = 0xFFFF then
        if c.inputDepth = c.input.length ∨ pfx = true then return .final (c.state + tc) else scan f c pfx max k (tc + 1)
      else if c.input[c.inputDepth]? = some t.symIn then return .down (c.state + tc) t c.flags c.log
      else if t.symIn < f.firstNormal then do
        match ← flagCheck f c t.symIn with
        | some (flags, log) => return .down (c.state + tc) t flags log
        | none => scan f c pfx max k (tc + 1)
      else scan f c pfx max k (tc + 1)

/-- `UnweightedTransducer.cpp:306-316`: the output string, `none` if it does not fit. `outs` are the output symbols from the
bottom of the stack. -/
def buildOutput (f : Fst) (bufferLen : Nat) : List Nat → List Wc → UB (Option (List Wc))
  | [], acc => if bufferLen ≤ acc.length then ub else return some acc
  | o :: os, acc => do
    let s ← rd f.symbols o
    if bufferLen ≤ acc.length + s.length + 1 then return none else buildOutput f bufferLen os (acc ++ s)

/-- Result of `nextPrefix`: `found` is `true`, the others are `false`. -/
inductive NextRes where
  | found (out : List Wc) (prefixLength : Nat)
  | outputLimit
  | stackLimit
  | loopLimit
  | exhausted
  deriving DecidableEq, Repr

/-- `UnweightedTransducer.cpp:334-342`: follow the transition `t` at `idx`. -/
def goDown (f : Fst) (c : Conf) (idx : Nat) (t : Cell) (flags : List Nat) (log : List (Nat × Nat)) : Conf :=
  { bufferSize := c.bufferSize
    below := ⟨c.state, idx, if f.firstNormal ≤ t.symOut then t.symOut else 0⟩ :: c.below
    state := t.target
    cur := t.target
    inputDepth := if f.firstNormal ≤ t.symIn then c.inputDepth + 1 else c.inputDepth
    input := c.input
    flags := flags
    log := log }

/-- `UnweightedTransducer.cpp:351-364`: return to the previous state. -/
def goUp (f : Fst) (c : Conf) (fr : Frame) (rest : List Frame) : UB Conf := do
  let t ← rd f.cells fr.cur
  let c := { c with below := rest, state := fr.state, cur := fr.cur + 1 }
  if f.firstNormal ≤ t.symIn then
    if c.inputDepth = 0 then ub else return { c with inputDepth := c.inputDepth - 1 }
  else if f.featureCount ≠ 0 ∧ t.symIn ≠ 0 then
    match c.log with
    | [] => ub
    | (feature, old) :: log => do
      let flags ← wr c.flags feature old
      return { c with flags, log }
  else return c

/-- `UnweightedTransducer.cpp:292-294`, `startTransitionIndex`: a pointer difference converted to 32 bits. -/
def startIndex (cur state : Nat) : Nat := (cur + 2 ^ 32 - state) % 2 ^ 32

/-- `UnweightedTransducer.cpp:296-346`: the whole loop. -/
def scanFrom (f : Fst) (c : Conf) (pfx : Bool) (max start : Nat) : UB ScanRes := scan f c pfx max (max + 1 - start) start

/-- `UnweightedTransducer.cpp:289-370`, `nextPrefix` with `k` iterations left. `pfx` tells whether `prefixLength` is given. -/
def nextLoop (f : Fst) (pfx : Bool) (bufferLen : Nat) : Nat → Conf → UB (NextRes × Conf)
  | 0, c => return (.loopLimit, c)
  | k + 1, c => do
    let max ← getMaxTc f c.state
    match ← scanFrom f c pfx max (startIndex c.cur c.state) with
    | .final idx =>
      match ← buildOutput f bufferLen (c.below.reverse.map (·.out)) [] with
      | none => return (.outputLimit, c)
      | some s => return (.found s c.inputDepth, { c with cur := idx + 1 })
    | .down idx t flags log =>
      if c.below.length + 2 = c.bufferSize then return (.stackLimit, { c with flags, log })
      else if c.bufferSize ≤ c.below.length + 1 then ub
      else nextLoop f pfx bufferLen k (goDown f c idx t flags log)
    | .stop =>
      match c.below with
      | [] => return (.exhausted, c)
      | fr :: rest => do
        let c ← goUp f c fr rest
        nextLoop f pfx bufferLen k c

/-- `fst/Transducer.hpp:57`, `MAX_LOOP_COUNT`. -/
def maxLoopCount : Nat := 100000

/-- `UnweightedTransducer.cpp:289-370`, `nextPrefix`. -/
def nextPrefix (f : Fst) (c : Conf) (bufferLen : Nat) : UB (NextRes × Conf) := nextLoop f true bufferLen maxLoopCount c

/-- `UnweightedTransducer.cpp:285-287`, `next`. -/
def next (f : Fst) (c : Conf) (bufferLen : Nat) : UB (NextRes × Conf) := nextLoop f false bufferLen maxLoopCount c

/-- Repeated calls of `next` or `nextPrefix` until they give `false`, at most `n` of them: the results and the final
configuration. -/
def enumerate (f : Fst) (pfx : Bool) (bufferLen : Nat) : Nat → Conf → UB (List NextRes × Conf)
  | 0, c => return ([], c)
  | n + 1, c => do
    let (r, c) ← nextLoop f pfx bufferLen maxLoopCount c
    match r with
    | .found _ _ => do
      let (rs, c) ← enumerate f pfx bufferLen n c
      return (r :: rs, c)
    | _ => return ([r], c)

end Verif
