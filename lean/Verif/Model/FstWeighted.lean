import Verif.Model.FstFile
/-!
# `fst/WeightedTransducer.cpp`, `fst/WeightedConfiguration.cpp`: files and look-up of weighted transducers

As for the unweighted transducer (`Verif.Model.Fst`, `Verif.Model.FstFile`). Cells have 16 bytes. Weights are `int16_t`, kept
as their 16 bits; the conversions to `int16_t` that are implementation-defined before C++20 wrap around.
-/

namespace Verif

/-- `fst/WeightedTransition.hpp:36-43`, `WeightedTransition`, without `reserved`, which is never used. -/
structure WCell where
  symIn : Nat
  symOut : Nat
  target : Nat
  weight : Nat
  more : Nat
  deriving DecidableEq, Repr

/-- Value of 16 bits as an `int16_t`. -/
def toInt16 (x : Nat) : Int := if x % 65536 < 32768 then (x % 65536 : Nat) else (x % 65536 : Nat) - 65536

/-- The members of `WeightedTransducer` used by the look-up. -/
structure WFst where
  cells : List WCell
  symbols : List (List Wc)
  firstNormal : Nat
  diacritics : List Ofv
  featureCount : Nat
  charToSym : List (Wc × Nat)

/-! ## Files -/

/-- `WeightedTransducer.cpp:65-67` and `voikkovfstc.cpp:58-60`, `swap(int16_t)`: the operand is promoted to `int`, and the right
shift of a negative number extends the sign. -/
def swapS16 (x : Nat) : Nat :=
  let hi := if x < 32768 then x >>> 8 else (x >>> 8) ||| 0xFF00
  (hi ||| (x <<< 8)) % 65536

/-- The bytes of a `WeightedTransition`. -/
def storeWCell (c : WCell) (reserved : Nat) : List Nat :=
  store32 c.symIn ++ store32 c.symOut ++ store32 c.target ++ store16 c.weight ++ [c.more % 256, reserved % 256]

/-- The cells of a table; an incomplete cell at the end is not a cell. -/
def loadWCells : List Nat → List WCell
  | a0 :: a1 :: a2 :: a3 :: b0 :: b1 :: b2 :: b3 :: c0 :: c1 :: c2 :: c3 :: w0 :: w1 :: m :: _ :: rest =>
    ⟨load32 a0 a1 a2 a3, load32 b0 b1 b2 b3, load32 c0 c1 c2 c3, load16 w0 w1, m⟩ :: loadWCells rest
  | _ => []

/-- `WeightedTransducer.cpp:106-124`: the loop over the transition table. -/
def swapWCells : Bool → List Nat → UB (List Nat)
  | _, [] => return []
  | overflow, a0 :: a1 :: a2 :: a3 :: b0 :: b1 :: b2 :: b3 :: c0 :: c1 :: c2 :: c3 :: w0 :: w1 :: m :: z :: rest =>
    if overflow then do
      let r ← swapWCells false rest
      return store32 (swap32 (load32 a0 a1 a2 a3)) ++ [b0, b1, b2, b3, c0, c1, c2, c3, w0, w1, m, z] ++ r
    else do
      let t : WCell := ⟨swap32 (load32 a0 a1 a2 a3), swap32 (load32 b0 b1 b2 b3), swap32 (load32 c0 c1 c2 c3),
        swapS16 (load16 w0 w1), m⟩
      let r ← swapWCells (m == 0xFF) rest
      return storeWCell t z ++ r
  | _, _ => ub

/-- `WeightedTransducer.cpp:76-128`, `byteSwapTransducer`, for the part of the file after the 16 byte header. -/
def byteSwapW (body : List Nat) : UB (List Nat) :=
  match body with
  | b0 :: b1 :: rest => do
    let symbolCount := swap16 (load16 b0 b1)
    let (syms, rest) ← copySymbols symbolCount rest
    let padding := 16 - (16 + 2 + syms.length) % 16
    if padding < 16 then do
      if rest.length < padding then ub else pure ()
      let cells ← swapWCells false (rest.drop padding)
      return store16 symbolCount ++ syms ++ List.replicate padding 0 ++ cells
    else do
      let cells ← swapWCells false rest
      return store16 symbolCount ++ syms ++ cells
  | _ => ub

/-- `WeightedTransducer.cpp:146-193`: reading of the file after the header. The loop over the symbols is the same as in
`UnweightedTransducer.cpp:137-188`. -/
def readBodyW (body : List Nat) : UB (Option WFst) :=
  match body with
  | b0 :: b1 :: rest => do
    match ← readSymbols (load16 b0 b1) 0 {} rest with
    | none => return none
    | some (st, k, rest) =>
      let partialCell := (16 + 2 + k) % 16
      let cells := if 0 < partialCell then rest.drop (16 - partialCell) else rest
      return some
        { cells := loadWCells cells, symbols := st.symbols, firstNormal := st.firstNormal, diacritics := st.diacritics,
          featureCount := st.features.length % 65536, charToSym := st.charToSym }
  | _ => ub

/-- `WeightedTransducer.cpp:130-194`, constructor. -/
def loadFileW (file : List Nat) : UB (Option WFst) :=
  if file.length < 16 then ub
  else
    match needSwap file with
    | none => return none
    | some swapped =>
      if file[8]? ≠ some 1 then return none
      else if swapped then do
        let body ← byteSwapW (file.drop 16)
        readBodyW body
      else readBodyW (file.drop 16)

/-- What is written: a transition (with the `reserved` byte, which is not initialised) or an overflow cell. -/
inductive WOutCell where
  | trans (c : WCell) (reserved : Nat)
  | overflow (n : Nat)

/-- `voikkovfstc.cpp:91-105` and `voikkovfstc.cpp:128-139`: the bytes of a cell. -/
def writeWCell (doSwap : Bool) : WOutCell → List Nat
  | .trans c reserved =>
    if doSwap then storeWCell ⟨swap32 c.symIn, swap32 c.symOut, swap32 c.target, swapS16 c.weight, c.more⟩ 0
    else storeWCell c reserved
  | .overflow n => store32 (if doSwap then swap32 n else n) ++ store32 0 ++ List.replicate 8 0

/-- `voikkovfstc.cpp:451-478` and the bytes of the cells: a weighted file. -/
def layoutFileW (doSwap : Bool) (symbols : List (List Nat)) (cells : List WOutCell) : List Nat :=
  let head := store16 (if doSwap then swap16 (symbols.length % 65536) else symbols.length % 65536) ++
    symbols.flatMap fun s => s ++ [0]
  let partialCell := (16 + head.length) % 16
  (if doSwap then store32 (swap32 0x00013A6E) ++ store32 (swap32 0x000351FA) else store32 0x00013A6E ++ store32 0x000351FA) ++
    1 :: List.replicate 7 0 ++ (head ++ List.replicate (if 0 < partialCell then 16 - partialCell else 0) 0 ++
      cells.flatMap (writeWCell doSwap))

/-- `voikkovfstc.cpp:49-52`: an element of `transitions` with its `targetStateOrds`; the `reserved` byte is whatever the memory
contained. -/
structure WTrans where
  t : CTrans
  weight : Nat
  reserved : Nat

/-- `voikkovfstc.cpp:90-105`: the cell of a transition of a weighted file. -/
def wtransCell (target more : Nat) (x : WTrans) : WCell :=
  ⟨x.t.symIn % 4294967296, x.t.symOut % 4294967296, target % 4294967296, x.weight % 65536, more % 256⟩

/-- `voikkovfstc.cpp:488-504`: the cells of a state whose transitions are already in file order. -/
def wstateCells (s : List (WTrans × Nat)) : List WOutCell :=
  match s with
  | [] => []
  | (t, target) :: rest =>
    .trans (wtransCell target (if 255 < s.length then 255 else s.length - 1) t) t.reserved ::
      ((if 255 < s.length then [.overflow (s.length - 1)] else []) ++
        rest.map fun x => .trans (wtransCell x.2 0 x.1) x.1.reserved)

/-- `voikkovfstc.cpp:188-194`, `setTarget`, for all transitions of a state (line 483-486). -/
def wsetTargets (offsets : List Nat) (s : List WTrans) : Option (List (WTrans × Nat)) :=
  s.mapM fun t => (offsets[t.t.targetOrd]?).map fun o => (t, o)

/-- `voikkovfstc.cpp:424-441` and `voikkovfstc.cpp:481-505`: the cells of the transition table, as for the unweighted file. -/
def wtableCells (states : List (List WTrans)) : Option (List WOutCell) := do
  let offsets ← stateOffsets 0 (states.map fun s => s.map (·.t))
  let withTargets ← states.mapM (wsetTargets offsets)
  return withTargets.flatMap wstateCells

/-- `voikkovfstc.cpp:422-507`: the weighted file written for symbols and states in their final order. -/
def writeFileW (doSwap : Bool) (symbols : List (List Nat)) (states : List (List WTrans)) : Option (List Nat) :=
  (wtableCells states).map (layoutFileW doSwap symbols)

/-! ## Look-up -/

/-- `fst/WeightedConfiguration.hpp:38-52`, `WeightedConfiguration`. `rows` are the rows of `flagValueStack` from number
`flagDepth` down to number 0. -/
structure WConf where
  bufferSize : Nat
  below : List Frame
  state : Nat
  cur : Nat
  inputDepth : Nat
  input : List Nat
  rows : List (List Nat)
  deriving DecidableEq, Repr

/-- `WeightedConfiguration.cpp:38-53`: a new configuration. (`flagDepth` is not initialised; `prepare` sets it.) -/
def WConf.new (featureCount bufferSize : Nat) : WConf :=
  { bufferSize, below := [], state := 0, cur := 0, inputDepth := 0, input := [], rows := [List.replicate featureCount 0] }

/-- `WeightedTransducer.cpp:209-218`: the symbols of the input up to the first character without one, and whether there is no
such character. -/
def inputSymbols (f : WFst) : List Wc → List Nat × Bool
  | [] => ([], true)
  | ch :: rest =>
    match f.charToSym.lookup ch with
    | none => ([], false)
    | some s =>
      let (ss, ok) := inputSymbols f rest
      (s :: ss, ok)

/-- `WeightedTransducer.cpp:202-219`, `prepare`. Row 0 of the flag values is kept. -/
def wprepare (f : WFst) (c : WConf) (input : List Wc) : UB (Bool × WConf) :=
  match inputSymbols f input with
  | (ss, ok) =>
    if c.bufferSize < ss.length ∨ c.bufferSize = 0 then ub
    else return (ok, { c with
      below := [], inputDepth := 0, state := 0, cur := 0, input := ss, rows := c.rows.drop (c.rows.length - 1) })

/-- `WeightedTransducer.cpp:221-228`, `getMaxTc`. -/
def wgetMaxTc (f : WFst) (head : Nat) : UB Nat := do
  let h ← rd f.cells head
  if h.more = 255 then do
    let oc ← rd f.cells (head + 1)
    return (oc.symIn + 1) % 2 ^ 32
  else return h.more

/-- `WeightedTransducer.cpp:230-286`, `flagDiacriticCheck`: the new rows, or `none` (not allowed). The decision is the same code
as `UnweightedTransducer.cpp:237-271`. -/
def wflagCheck (f : WFst) (c : WConf) (symbol : Nat) : UB (Option (List (List Nat))) :=
  if f.featureCount = 0 ∨ symbol = 0 then return some c.rows
  else do
    let ofv ← rd f.diacritics symbol
    let row ← rd c.rows 0
    let cur ← rd row ofv.feature
    match flagDecision ofv cur with
    | none => return none
    | some (v, update) =>
      if c.bufferSize ≤ c.rows.length then ub
      else return some ((if update then row.set ofv.feature v else row) :: c.rows)

/-- How the loop over the transitions of a state ends. -/
inductive WScanRes where
  | final (idx : Nat) (t : WCell)
  | down (idx : Nat) (t : WCell) (rows : List (List Nat))
  | stop

/-- `WeightedTransducer.cpp:368-378`: the binary search; `k` is at least the number of iterations. `base` is the address of
`currentTransition`. -/
def wsearch (f : WFst) (base inputSym : Nat) : Nat → Nat → Nat → UB Nat
  | 0, min, _ => return min
  | k + 1, min, max =>
    if min + 1 < max then do
      let middle := (min + max) / 2
      let t ← rd f.cells (base + middle)
      if t.symIn < inputSym then wsearch f base inputSym k middle max else wsearch f base inputSym k min middle
    else return min

/-- `WeightedTransducer.cpp:306`, `inputSym`. -/
def WConf.inputSym (c : WConf) : Nat := (c.input[c.inputDepth]?).getD 0

/-- `WeightedTransducer.cpp:307-383`: the loop over the transitions from index `tc` on; `k` is at least the number of remaining
iterations. -/
def wscan (f : WFst) (c : WConf) (max : Nat) : Nat → Nat → UB WScanRes
  | 0, _ => return .stop
  | k + 1, tc0 =>
    if max < tc0 then return .stop
    else do
      let tc := if tc0 = 1 ∧ 255 ≤ max then 2 else tc0
      let t ← rd f.cells (c.state + tc)
      if t.symIn = 0xFFFFFFFF then
        if c.inputDepth = c.input.length then return .final (c.state + tc) t else wscan f c max k (tc + 1)
      else if c.inputSym = 0 ∧ f.firstNormal ≤ t.symIn then return .stop
      else if c.inputDepth < c.input.length ∧ c.inputSym = t.symIn then return .down (c.state + tc) t c.rows
      else do
        let r ← (if t.symIn < f.firstNormal then wflagCheck f c t.symIn else return none : UB (Option (List (List Nat))))
        match r with
        | some rows => return .down (c.state + tc) t rows
        | none =>
          if c.inputSym < t.symIn then return .stop
          else if 1 ≤ tc ∧ f.firstNormal ≤ t.symIn ∧ t.symIn < c.inputSym then do
            let min ← wsearch f (c.state + tc) c.inputSym (max - tc) 0 (max - tc)
            wscan f c max k (tc + min + 1)
          else wscan f c max k (tc + 1)

/-- `WeightedTransducer.cpp:317-328`: the output string, `none` if it does not fit. -/
def wbuildOutput (f : WFst) (bufferLen : Nat) : List Nat → List Wc → UB (Option (List Wc))
  | [], acc => if bufferLen ≤ acc.length then ub else return some acc
  | o :: os, acc => do
    let s ← rd f.symbols o
    if bufferLen ≤ acc.length + s.length + 1 then return none else wbuildOutput f bufferLen os (acc ++ s)

/-- `WeightedTransducer.cpp:330-333`: the weights of the transitions on the stack added to `w`. -/
def wsumWeights (f : WFst) : List Frame → Nat → UB Nat
  | [], w => return w
  | fr :: frs, w => do
    let t ← rd f.cells fr.cur
    wsumWeights f frs ((w + t.weight) % 65536)

/-- Result of `next`: `found` is `true`, the others are `false`. -/
inductive WNextRes where
  | found (out : List Wc) (weight : Int)
  | outputLimit
  | stackLimit
  | loopLimit
  | exhausted
  deriving DecidableEq, Repr

/-- `WeightedTransducer.cpp:349-360`: follow the transition `t` at `idx`. -/
def wgoDown (f : WFst) (c : WConf) (idx : Nat) (t : WCell) (rows : List (List Nat)) : WConf :=
  { bufferSize := c.bufferSize
    below := ⟨c.state, idx, if f.firstNormal ≤ t.symOut then t.symOut else 0⟩ :: c.below
    state := t.target
    cur := t.target
    inputDepth := if f.firstNormal ≤ t.symIn then c.inputDepth + 1 else c.inputDepth
    input := c.input
    rows := rows }

/-- `WeightedTransducer.cpp:388-400`: return to the previous state. `previousInputSymbol` has 16 bits. -/
def wgoUp (f : WFst) (c : WConf) (fr : Frame) (rest : List Frame) : UB WConf := do
  let t ← rd f.cells fr.cur
  let c := { c with below := rest, state := fr.state, cur := fr.cur + 1 }
  if f.firstNormal ≤ t.symIn % 65536 then
    if c.inputDepth = 0 then ub else return { c with inputDepth := c.inputDepth - 1 }
  else if f.featureCount ≠ 0 ∧ t.symIn % 65536 ≠ 0 then
    match c.rows with
    | _ :: r :: rs => return { c with rows := r :: rs }
    | _ => ub
  else return c

/-- `WeightedTransducer.cpp:307-383`: the whole loop. -/
def wscanFrom (f : WFst) (c : WConf) (max start : Nat) : UB WScanRes := wscan f c max (max + 1 - start) start

/-- `WeightedTransducer.cpp:357-359` -/
def furthest (a b : Nat) : Nat := if a < b then b else a

/-- `WeightedTransducer.cpp:298-406`, `next` with `k` iterations left; `reached` is `firstNotReachedPosition`. -/
def wnextLoop (f : WFst) (bufferLen : Nat) : Nat → Nat → WConf → UB (WNextRes × Nat × WConf)
  | 0, reached, c => return (.loopLimit, reached, c)
  | k + 1, reached, c => do
    let maxTc ← wgetMaxTc f c.state
    match ← wscanFrom f c maxTc (startIndex c.cur c.state) with
    | .final idx t =>
      match ← wbuildOutput f bufferLen (c.below.reverse.map (·.out)) [] with
      | none => return (.outputLimit, reached, c)
      | some s => do
        let w ← wsumWeights f c.below.reverse (t.weight % 65536)
        return (.found s (toInt16 w), reached, { c with cur := idx + 1 })
    | .down idx t rows =>
      if c.below.length + 2 = c.bufferSize then return (.stackLimit, reached, { c with rows })
      else if c.bufferSize ≤ c.below.length + 1 then ub
      else wnextLoop f bufferLen k (furthest reached (wgoDown f c idx t rows).inputDepth) (wgoDown f c idx t rows)
    | .stop =>
      match c.below with
      | [] => return (.exhausted, reached, c)
      | fr :: rest => do
        let c ← wgoUp f c fr rest
        wnextLoop f bufferLen k reached c

/-- `WeightedTransducer.cpp:298-406`, `next` with `firstNotReachedPosition`. -/
def wnext (f : WFst) (bufferLen : Nat) (c : WConf) : UB (WNextRes × Nat × WConf) :=
  wnextLoop f bufferLen maxLoopCount c.inputDepth c

/-- Repeated calls of `next` until it gives `false`, at most `n` of them. -/
def wenumerate (f : WFst) (bufferLen : Nat) : Nat → WConf → UB (List WNextRes × WConf)
  | 0, c => return ([], c)
  | n + 1, c => do
    let (r, _, c) ← wnext f bufferLen c
    match r with
    | .found _ _ => do
      let (rs, c) ← wenumerate f bufferLen n c
      return (r :: rs, c)
    | _ => return ([r], c)

/-- `WeightedTransducer.cpp:409-417`: number of stack elements (from the bottom) until `need` output symbols are passed. -/
def wkeepDepth (f : WFst) : List Frame → Nat → UB Nat
  | [], _ => return 0
  | fr :: frs, need =>
    if need = 0 then return 0
    else do
      let t ← rd f.cells fr.cur
      let k ← wkeepDepth f frs (if f.firstNormal ≤ t.symOut % 65536 then need - 1 else need)
      return k + 1

/-- `WeightedTransducer.cpp:418-427`: steps up, as many as given. Unlike `wgoUp` this does not change `flagDepth`. -/
def wpop (f : WFst) : Nat → WConf → UB WConf
  | 0, c => return c
  | n + 1, c =>
    match c.below with
    | [] => ub
    | fr :: rest => do
      let t ← rd f.cells fr.cur
      let c := { c with below := rest, state := fr.state, cur := fr.cur + 1 }
      if f.firstNormal ≤ t.symIn % 65536 then
        if c.inputDepth = 0 then ub else wpop f n { c with inputDepth := c.inputDepth - 1 }
      else wpop f n c

/-- `WeightedTransducer.cpp:408-428`, `backtrackToOutputDepth`. -/
def wbacktrack (f : WFst) (c : WConf) (depth : Nat) : UB WConf := do
  let keep ← wkeepDepth f c.below.reverse (depth + 1)
  wpop f (c.below.length - keep) c

end Verif
