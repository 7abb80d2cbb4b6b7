import Verif.Model.Fst
import Verif.Model.Utf8
/-!
# Transducer files: `fst/Transducer.cpp`, constructor of `fst/UnweightedTransducer.cpp`, output part of `tools/voikkovfstc.cpp`

A file is a list of bytes. The host is little-endian (integers and bit-fields of `Transition` are laid out from the least
significant byte). Reading beyond the end of the file is `ub`; a `DictionaryException` is the inner `none`.
-/

namespace Verif

/-- Load of a `uint16_t`. -/
def load16 (b0 b1 : Nat) : Nat := b0 + 256 * b1

/-- Store of a `uint16_t`. -/
def store16 (x : Nat) : List Nat := [x % 256, x / 256 % 256]

/-- Load of a `uint32_t`. -/
def load32 (b0 b1 b2 b3 : Nat) : Nat := b0 + 256 * b1 + 65536 * b2 + 16777216 * b3

/-- Store of a `uint32_t`. -/
def store32 (x : Nat) : List Nat := [x % 256, x / 256 % 256, x / 65536 % 256, x / 16777216 % 256]

/-- `UnweightedTransducer.cpp:60-62` and `voikkovfstc.cpp:54-56`, `swap(uint16_t)`. -/
def swap16 (x : Nat) : Nat := ((x >>> 8) ||| (x <<< 8)) % 65536

/-- `UnweightedTransducer.cpp:64-69` and `voikkovfstc.cpp:71-76`, `swap(uint32_t)`. -/
def swap32 (x : Nat) : Nat :=
  ((x >>> 24) ||| ((x <<< 8) &&& 0x00FF0000) ||| ((x >>> 8) &&& 0x0000FF00) ||| (x <<< 24)) % 4294967296

/-- `UnweightedTransducer.cpp:113` and `voikkovfstc.cpp:117`: swap of a 24 bit field. -/
def swap24 (ts : Nat) : Nat := (((ts <<< 16) &&& 0x00FF0000) ||| (ts &&& 0x0000FF00) ||| ((ts >>> 16) &&& 0x000000FF)) % 16777216

/-- `fst/Transition.hpp:36-45`: the bytes of a `Transition`. -/
def storeCell (c : Cell) : List Nat :=
  store16 c.symIn ++ store16 c.symOut ++ [c.target % 256, c.target / 256 % 256, c.target / 65536 % 256, c.more % 256]

/-- `fst/Transition.hpp:36-45`: the cells of a table; an incomplete cell at the end is not a cell. -/
def loadCells : List Nat → List Cell
  | b0 :: b1 :: b2 :: b3 :: b4 :: b5 :: b6 :: b7 :: rest =>
    ⟨load16 b0 b1, load16 b2 b3, b4 + 256 * b5 + 65536 * b6, b7⟩ :: loadCells rest
  | _ => []

/-- `UnweightedTransducer.cpp:100-119`: the loop over the transition table. -/
def swapCells : Bool → List Nat → UB (List Nat)
  | _, [] => return []
  | overflow, b0 :: b1 :: b2 :: b3 :: b4 :: b5 :: b6 :: b7 :: rest =>
    if overflow then do
      let r ← swapCells false rest
      return store32 (swap32 (load32 b0 b1 b2 b3)) ++ [b4, b5, b6, b7] ++ r
    else do
      let t : Cell := ⟨swap16 (load16 b0 b1), swap16 (load16 b2 b3), swap24 (b4 + 256 * b5 + 65536 * b6), b7⟩
      let r ← swapCells (b7 == 0xFF) rest
      return storeCell t ++ r
  | _, _ => ub

/-- `strlen`, `string(filePtr)`: the bytes before the terminating zero, and what follows it. -/
def cstring : List Nat → UB (List Nat × List Nat)
  | [] => ub
  | 0 :: rest => return ([], rest)
  | b :: rest => do
    let (s, r) ← cstring rest
    return (b :: s, r)

/-- `UnweightedTransducer.cpp:83-88`: the bytes of the symbols copied, and the rest. -/
def copySymbols : Nat → List Nat → UB (List Nat × List Nat)
  | 0, bytes => return ([], bytes)
  | n + 1, bytes => do
    let (s, r) ← cstring bytes
    let (ss, r) ← copySymbols n r
    return (s ++ 0 :: ss, r)

/-- `UnweightedTransducer.cpp:71-123`, `byteSwapTransducer`, for the part of the file after the 16 byte header. (The header of
the copy is never initialised and never read.) -/
def byteSwap (body : List Nat) : UB (List Nat) :=
  match body with
  | b0 :: b1 :: rest => do
    let symbolCount := swap16 (load16 b0 b1)
    let (syms, rest) ← copySymbols symbolCount rest
    let padding := 8 - (16 + 2 + syms.length) % 8
    if padding < 8 then do
      if rest.length < padding then ub else pure ()
      let cells ← swapCells false (rest.drop padding)
      return store16 symbolCount ++ syms ++ List.replicate padding 0 ++ cells
    else do
      let cells ← swapCells false rest
      return store16 symbolCount ++ syms ++ cells
  | _ => ub

/-- Index of the first `.` (`std::string::find`). -/
def findDot (s : List Nat) : Option Nat := s.findIdx? (· == 46)

/-- Value of a key in a `std::map<string, uint16_t>`; a new key gets the number of keys as its value. -/
def internKey (m : List (List Nat × Nat)) (key : List Nat) : Nat × List (List Nat × Nat) :=
  match m.lookup key with
  | some v => (v, m)
  | none => (m.length % 65536, m ++ [(key, m.length % 65536)])

/-- `Transducer.cpp:62-123`, `getDiacriticOperation`. -/
def getDiacriticOperation (symbol : List Nat) (features values : List (List Nat × Nat)) :
    Option (Ofv × List (List Nat × Nat) × List (List Nat × Nat)) :=
  let op : FlagOp := match symbol[1]? with
    | some 80 => .P
    | some 67 => .C
    | some 85 => .U
    | some 82 => .R
    | _ => .D
  if symbol.length ≤ 4 then none
  else
    let featureAndValue := (symbol.drop 3).take (symbol.length - 4)
    let (feature, value) := match findDot featureAndValue with
      | none => (featureAndValue, [64])
      | some i => (featureAndValue.take i, featureAndValue.drop (i + 1))
    let (fi, features) := internKey features feature
    let (vi, values) := internKey values value
    some (⟨op, fi, vi⟩, features, values)

/-- Variables of the loop over the symbols. -/
structure SymTab where
  symbols : List (List Wc) := []
  diacritics : List Ofv := []
  firstNormal : Nat := 0
  firstMulti : Nat := 0
  features : List (List Nat × Nat) := []
  values : List (List Nat × Nat) := [([], 0), ([64], 1)]
  charToSym : List (Wc × Nat) := []

/-- `UnweightedTransducer.cpp:160-176`: one symbol other than epsilon. -/
def addSymbol (st : SymTab) (i : Nat) (symbol : List Nat) : UB (Option SymTab) := do
  match ← ucs4FromUtf8 symbol with
  | none =>
    -- the null pointer is dereferenced after a flag diacritic has been parsed
    if st.firstNormal = 0 ∧ symbol[0]? = some 64 then
      match getDiacriticOperation symbol st.features st.values with
      | none => return none
      | some _ => ub
    else ub
  | some text =>
    let st' : Option SymTab :=
      if st.firstNormal = 0 then
        if symbol[0]? = some 64 then
          (getDiacriticOperation symbol st.features st.values).map fun (o, f, v) =>
            { st with diacritics := st.diacritics ++ [o], features := f, values := v }
        else some { st with firstNormal := i }
      else if st.firstMulti = 0 ∧ symbol[0]? = some 91 then some { st with firstMulti := i }
      else some st
    match st' with
    | none => return none
    | some st =>
      return some { st with
        symbols := st.symbols ++ [text]
        charToSym := if 0 < st.firstNormal ∧ st.firstMulti = 0 then st.charToSym ++ [(text.headD 0, i)] else st.charToSym }

/-- `UnweightedTransducer.cpp:151-178`: the loop over the symbols from number `i` on; also the number of bytes read and the rest
of the file. The text of symbol 0 is not used, its length is set to zero. -/
def readSymbols : Nat → Nat → SymTab → List Nat → UB (Option (SymTab × Nat × List Nat))
  | 0, _, st, bytes => return some (st, 0, bytes)
  | n + 1, i, st, bytes => do
    let (symbol, rest) ← cstring bytes
    if i = 0 then do
      let _ ← ucs4FromUtf8 symbol
      let st := { st with symbols := [[]], diacritics := [⟨.P, 0, 0⟩] }
      match ← readSymbols n (i + 1) st (bytes.drop 1) with
      | none => return none
      | some (st, k, r) => return some (st, k + 1, r)
    else do
      match ← addSymbol st i symbol with
      | none => return none
      | some st => do
        match ← readSymbols n (i + 1) st rest with
        | none => return none
        | some (st, k, r) => return some (st, k + symbol.length + 1, r)

/-- `UnweightedTransducer.cpp:137-188`: reading of the file after the header. -/
def readBody (body : List Nat) : UB (Option Fst) :=
  match body with
  | b0 :: b1 :: rest => do
    match ← readSymbols (load16 b0 b1) 0 {} rest with
    | none => return none
    | some (st, k, rest) =>
      let partialCell := (16 + 2 + k) % 8
      let cells := if 0 < partialCell then rest.drop (8 - partialCell) else rest
      return some
        { cells := loadCells cells, symbols := st.symbols, firstNormal := st.firstNormal, diacritics := st.diacritics,
          featureCount := st.features.length % 65536, charToSym := st.charToSym }
  | _ => ub

/-- The bytes of `COOKIE1` and `COOKIE2`, `Transducer.cpp:164-165`. -/
def cookies : List Nat := store32 0x00013A6E ++ store32 0x000351FA

/-- The bytes of `COOKIE1REV` and `COOKIE2REV`, `Transducer.cpp:166-167`. -/
def cookiesRev : List Nat := store32 0x6E3A0100 ++ store32 0xFA510300

/-- `Transducer.cpp:163-179`, `checkNeedForByteSwapping`. -/
def needSwap (file : List Nat) : Option Bool :=
  if file.take 8 = cookies then some false
  else if file.take 8 = cookiesRev then some true
  else none

/-- `UnweightedTransducer.cpp:125-189`, constructor. -/
def loadFile (file : List Nat) : UB (Option Fst) :=
  if file.length < 16 then ub
  else
    match needSwap file with
    | none => return none
    | some swapped =>
      if file[8]? = some 1 then return none
      else if swapped then do
        let body ← byteSwap (file.drop 16)
        readBody body
      else readBody (file.drop 16)

/-! ## The compiler -/

/-- `voikkovfstc.cpp:49-52`: an element of `transitions` with its `targetStateOrds`. -/
structure CTrans where
  symIn : Nat
  symOut : Nat
  targetOrd : Nat
  deriving DecidableEq, Repr

/-- `voikkovfstc.cpp:434-440`: number of cells of a state with `n` transitions. -/
def stateSize (n : Nat) : Nat := if n ≤ 255 then n else n + 1

/-- `voikkovfstc.cpp:424-441`, `stateOrdinalToOffset`: `none` if there is a state without transitions. Offsets are `uint32_t`. -/
def stateOffsets : Nat → List (List CTrans) → Option (List Nat)
  | _, [] => some []
  | off, s :: ss =>
    if s.length = 0 then none
    else (stateOffsets ((off + stateSize s.length) % 2 ^ 32) ss).map (off :: ·)

/-- `voikkovfstc.cpp:106-111`: the cell of a transition of an unweighted file. -/
def transCell (target more : Nat) (t : CTrans) : Cell :=
  ⟨t.symIn % 65536, t.symOut % 65536, target % 16777216, more % 256⟩

/-- `voikkovfstc.cpp:188-194`, `setTarget`, for all transitions of a state (line 483-486). -/
def setTargets (offsets : List Nat) (s : List CTrans) : Option (List (CTrans × Nat)) :=
  s.mapM fun t => (offsets[t.targetOrd]?).map fun o => (t, o)

/-- What is written: a transition or an overflow cell. -/
inductive OutCell where
  | trans (c : Cell)
  | overflow (n : Nat)

/-- `voikkovfstc.cpp:488-504`: the cells of a state whose transitions are already in file order. -/
def stateCells (s : List (CTrans × Nat)) : List OutCell :=
  match s with
  | [] => []
  | (t, target) :: rest =>
    .trans (transCell target (if 255 < s.length then 255 else s.length - 1) t) ::
      ((if 255 < s.length then [.overflow (s.length - 1)] else []) ++ rest.map fun x => .trans (transCell x.2 0 x.1))

/-- `voikkovfstc.cpp:107-123` and `voikkovfstc.cpp:141-152`: the bytes of a cell. -/
def writeCell (doSwap : Bool) : OutCell → List Nat
  | .trans c => storeCell (if doSwap then ⟨swap16 c.symIn, swap16 c.symOut, swap24 c.target, c.more⟩ else c)
  | .overflow n => store32 (if doSwap then swap32 n else n) ++ store32 0

/-- `voikkovfstc.cpp:226-245`, `compareTransitionsForFileOrder`. -/
def fileOrderLt (a b : CTrans) : Bool :=
  if a.symIn = b.symIn then false
  else if a.symIn = 0 then true
  else if b.symIn = 0 then false
  else if a.symIn = 0xFFFFFFFF then true
  else if b.symIn = 0xFFFFFFFF then false
  else a.symIn < b.symIn

/-- `voikkovfstc.cpp:451-478` and the bytes of the cells: an unweighted file. Gaps left by `seekp` are zero bytes. -/
def layoutFile (doSwap : Bool) (symbols : List (List Nat)) (cells : List OutCell) : List Nat :=
  let head := store16 (if doSwap then swap16 (symbols.length % 65536) else symbols.length % 65536) ++
    symbols.flatMap fun s => s ++ [0]
  let partialCell := (16 + head.length) % 8
  (if doSwap then store32 (swap32 0x00013A6E) ++ store32 (swap32 0x000351FA) else store32 0x00013A6E ++ store32 0x000351FA) ++
    0 :: List.replicate 7 0 ++ (head ++ List.replicate (if 0 < partialCell then 8 - partialCell else 0) 0 ++
      cells.flatMap (writeCell doSwap))

/-- `voikkovfstc.cpp:424-441` and `voikkovfstc.cpp:481-505`: the cells of the transition table. `states` are the states with
their transitions as sorted by `std::sort` (line 487); the order of transitions with equal input symbols is unspecified, so the
property theorems quantify over all orders. `none` if a state has no transitions or a target does not exist. -/
def tableCells (states : List (List CTrans)) : Option (List OutCell) := do
  let offsets ← stateOffsets 0 states
  let withTargets ← states.mapM (setTargets offsets)
  return withTargets.flatMap stateCells

/-- `voikkovfstc.cpp:422-507`: the file written for symbols and states in their final order. -/
def writeFile (doSwap : Bool) (symbols : List (List Nat)) (states : List (List CTrans)) : Option (List Nat) :=
  (tableCells states).map (layoutFile doSwap symbols)

end Verif
