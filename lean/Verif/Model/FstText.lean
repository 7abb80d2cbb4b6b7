import Verif.Model.FstFile
/-!
# `tools/voikkovfstc.cpp`: from the text of an automaton to the transducer file

The input is a sequence of bytes, without the option `-w` (no weights). Extraction from a `std::istringstream` follows the C++ standard in the
classic locale: white space is skipped first; an extraction that meets the end of the string or an earlier error fails. `exit(1)` and
`return 1` are `none`.
-/

namespace Verif

/-- `std::isspace` in the classic locale. -/
def attSpace (b : Nat) : Bool := (9 ≤ b && b ≤ 13) || b == 32

/-- A decimal digit. -/
def attDigit (b : Nat) : Bool := 48 ≤ b && b ≤ 57

/-- The state of a `std::istringstream`. -/
structure AttStream where
  rest : List Nat
  eof : Bool := false
  fail : Bool := false

/-- `std::istream::sentry`: skips white space. -/
def attSentry (s : AttStream) : AttStream :=
  if s.eof || s.fail then { s with fail := true }
  else
    match s.rest.dropWhile attSpace with
    | [] => { rest := [], eof := true, fail := true }
    | r => { s with rest := r }

/-- An optional sign. -/
def attSign : List Nat → Bool × List Nat
  | 45 :: r => (true, r)
  | 43 :: r => (false, r)
  | r => (false, r)

/-- `operator>>` for a `uint32_t` with the value `old` (`voikkovfstc.cpp:320`, `voikkovfstc.cpp:338`). The value is unchanged if there is
nothing to read, 0 if there is no number, and the greatest one if the number is too large. -/
def attReadUInt (old : Nat) (s : AttStream) : Nat × AttStream :=
  let s := attSentry s
  if s.fail then (old, s)
  else
    let (neg, r) := attSign s.rest
    let digits := r.takeWhile attDigit
    let rest := r.dropWhile attDigit
    let v := digits.foldl (fun n d => 10 * n + (d - 48)) 0
    if digits.isEmpty then (0, { rest, eof := rest.isEmpty, fail := true })
    else if 2 ^ 32 ≤ v then (2 ^ 32 - 1, { rest, eof := rest.isEmpty, fail := true })
    else (if neg then (2 ^ 32 - v) % 2 ^ 32 else v, { rest, eof := rest.isEmpty, fail := false })

/-- `operator>>` for a `std::string` with the value `old` (`voikkovfstc.cpp:341-342`). -/
def attReadToken (old : List Nat) (s : AttStream) : List Nat × AttStream :=
  let s := attSentry s
  if s.fail then (old, s)
  else
    let rest := s.rest.dropWhile fun b => !attSpace b
    (s.rest.takeWhile fun b => !attSpace b, { rest, eof := rest.isEmpty, fail := false })

/-- `voikkovfstc.cpp:175-186`, `convertSymbolNames`. -/
def attName (input : List Nat) : List Nat :=
  if input = [64, 48, 64] then []
  else if input = [64, 95, 83, 80, 65, 67, 69, 95, 64] then [32]
  else if input = [64, 95, 73, 68, 69, 78, 84, 73, 84, 89, 95, 83, 89, 77, 66, 79, 76, 95, 64] ∨
    input = [64, 95, 85, 78, 75, 78, 79, 87, 78, 95, 83, 89, 77, 66, 79, 76, 95, 64] then [35]
  else input

/-- What a line says. -/
inductive AttLine where
  | final (src : Nat)
  | arc (src tgt : Nat) (inp out : List Nat)
  deriving DecidableEq, Repr

/-- `voikkovfstc.cpp:310-362`, with `convertSymbolNames` of lines 381-382; `none` is a format error. -/
def attParse (line : List Nat) : Option AttLine :=
  let (src, s) := attReadUInt 0 { rest := line }
  if s.eof then some (.final src)
  else
    let (tgt, s) := attReadUInt 0 s
    let (inp, s) := attReadToken [] s
    let (out, s) := attReadToken [] s
    if s.fail then none else some (.arc src tgt (attName inp) (attName out))

/-- `std::getline` until the end of the input (`voikkovfstc.cpp:309`). The argument `cur` holds the characters of the line so far, in reverse. A line without
a newline at the end counts if it is not empty. -/
def attLines : List Nat → List Nat → List (List Nat)
  | cur, [] => if cur.isEmpty then [] else [cur.reverse]
  | cur, b :: r => if b = 10 then cur.reverse :: attLines [] r else attLines (b :: cur) r

/-- `symVector` (`symMap` has the same elements) and `attStateVector`. -/
structure AttTab where
  syms : List (Nat × List Nat)
  states : List (List CTrans)

/-- `voikkovfstc.cpp:161-173`, `ensureSymbolInMap`, and the code of the symbol (`voikkovfstc.cpp:386-387`). The code has 16 bits. -/
def attIntern (text : List Nat) (syms : List (Nat × List Nat)) : Option (Nat × List (Nat × List Nat)) :=
  match syms.find? (fun x => x.2 == text) with
  | some x => some (x.1, syms)
  | none => if text = [91] then none else some (syms.length % 65536, syms ++ [(syms.length % 65536, text)])

/-- `voikkovfstc.cpp:363-370` and `push_back` (lines 377-378, 389-390): a transition of the state `src`, which may be the next new one. -/
def attPush {α : Type} (states : List (List α)) (src : Nat) (t : α) : Option (List (List α)) :=
  if states.length < src then none
  else some ((if states.length = src then states ++ [[]] else states).modify src (· ++ [t]))

/-- `voikkovfstc.cpp:363-392`: one line. The check of the source state comes before the symbols. -/
def attAdd (st : AttTab) : AttLine → Option AttTab
  | .final src => (attPush st.states src ⟨0xFFFFFFFF, 0, 0⟩).map fun states => { st with states }
  | .arc src tgt inp out =>
    if st.states.length < src then none
    else do
      let (i, syms) ← attIntern inp st.syms
      let (o, syms) ← attIntern out syms
      let states ← attPush st.states src ⟨i, o, tgt⟩
      return { syms, states }

/-- `voikkovfstc.cpp:309-393`: all lines. -/
def attAddAll : AttTab → List (List Nat) → Option AttTab
  | st, [] => some st
  | st, l :: ls => do
    let line ← attParse l
    let st ← attAdd st line
    attAddAll st ls

/-- `voikkovfstc.cpp:196-224`, `compareSymbolsForLookupOrder`. -/
def attSymLt (a b : List Nat) : Bool :=
  if a = b then false
  else if a = [] then true
  else if b = [] then false
  else if a.head? = some 64 ∧ b.head? ≠ some 64 then true
  else if b.head? = some 64 ∧ a.head? ≠ some 64 then false
  else if a.head? = some 91 ∧ b.head? ≠ some 91 then false
  else if b.head? = some 91 ∧ a.head? ≠ some 91 then true
  else if a.head? = some 91 ∨ a.head? = some 64 then decide (a.tail < b.tail)
  else decide (a < b)

/-- A function that sorts like `std::sort`: some permutation in which no element is less than an earlier one. -/
def SortsBy {α : Type} (lt : α → α → Bool) (srt : List α → List α) : Prop :=
  ∀ l, (srt l).Perm l ∧ (srt l).Pairwise fun a b => lt b a = false

/-- Sorting by insertion. -/
def attInsert {α : Type} (le : α → α → Bool) (x : α) : List α → List α
  | [] => [x]
  | y :: l => if le x y then x :: y :: l else y :: attInsert le x l

def attSort {α : Type} (le : α → α → Bool) : List α → List α
  | [] => []
  | x :: l => attInsert le x (attSort le l)

/-- `voikkovfstc.cpp:403-408`, `oldToNewSym`: pairs of old and new codes, sorted (equal pairs are the same, so the result of
`std::sort` is determined). -/
def attPairs (sorted : List (Nat × List Nat)) : List (Nat × Nat) :=
  attSort (fun a b => decide (a.1 < b.1 ∨ (a.1 = b.1 ∧ a.2 ≤ b.2))) (sorted.zipIdx.map fun x => (x.1.1, x.2 % 65536))

/-- `voikkovfstc.cpp:411-414`: the symbols of a transition get their new codes. -/
def attRenumber (pairs : List (Nat × Nat)) (t : CTrans) : UB CTrans :=
  if t.symIn = 0xFFFFFFFF then return t
  else do
    let i ← rd pairs t.symIn
    let o ← rd pairs t.symOut
    return ⟨i.2, o.2, t.targetOrd⟩

/-- `voikkovfstc.cpp:300-508`: the file written for a text; `some none` if the compiler ends with an error. `srtS` and `srtT` are the results of
`std::sort` (lines 402 and 487), which are not determined by the standard for elements that are not ordered. -/
def attCompile (srtS : List (Nat × List Nat) → List (Nat × List Nat)) (srtT : List CTrans → List CTrans) (doSwap : Bool) (text : List Nat) :
    UB (Option (List Nat)) :=
  match attAddAll { syms := [(0, [])], states := [] } (attLines [] text) with
  | none => return none
  | some st => do
    let sorted := srtS st.syms
    let pairs := attPairs sorted
    let states ← st.states.mapM fun s => s.mapM (attRenumber pairs)
    return writeFile doSwap (sorted.map (·.2)) (states.map srtT)

end Verif
