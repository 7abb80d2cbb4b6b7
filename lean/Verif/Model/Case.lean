import Verif.Model.Char
/-!
# Word case classification and URL/e-mail shapes: `utils/utils.cpp`

`word` is the list of the `nchars` characters; reads outside are undefined behaviour.
-/

namespace Verif

/-- `utils/utils.hpp`, `enum casetype`. -/
inductive CaseType where
  | noLetters | allLower | firstUpper | complex | allUpper
  deriving DecidableEq, Repr

/-- The four flags of `utils.cpp:39-42`. -/
structure CaseFlags where
  firstUc : Bool := false
  restLc : Bool := true
  allUc : Bool := true
  noLetters : Bool := true
  deriving DecidableEq, Repr

/-- `utils.cpp:39-52`: the flags after looking at the first character. -/
def caseInit (c : Wc) : CaseFlags :=
  let f : CaseFlags := {}
  let f := if isUpper c then { f with firstUc := true, noLetters := false } else f
  if isLower c then { f with allUc := false, noLetters := false } else f

/-- `utils.cpp:53-61`: loop body for a character at index ≥ 1. -/
def caseStep (f : CaseFlags) (c : Wc) : CaseFlags :=
  let f := if isUpper c then { f with noLetters := false, restLc := false } else f
  if isLower c then { f with allUc := false, noLetters := false } else f

/-- `utils.cpp:38-67`, `voikko_casetype`. -/
def caseType (word : List Wc) : CaseType :=
  match word with
  | [] => .noLetters
  | c :: rest =>
    let f := rest.foldl caseStep (caseInit c)
    if f.noLetters then .noLetters
    else if f.allUc then .allUpper
    else if !f.restLc then .complex
    else if f.firstUc then .firstUpper
    else .allLower

/-- `utils.cpp:69-92`, `voikko_set_case`. -/
def setCase (t : CaseType) (word : List Wc) : List Wc :=
  match word with
  | [] => []
  | c :: rest =>
    match t with
    | .noLetters => word
    | .complex => word
    | .allLower => word.map lower
    | .allUpper => word.map upper
    | .firstUpper => upper c :: rest.map lower

/-- `wmemchr(word + start, c, n)`: index (from the start of `word`) of the first `c` among the `n`
characters at `start`. `some none` = not found; `none` = a read outside `word`. -/
def wmemchr (word : List Wc) (start : Nat) (c : Wc) : Nat → UB (Option Nat)
  | 0 => return none
  | n + 1 => do
    let d ← rd word start
    if d = c then return some start else wmemchr word (start + 1) c n

/-- `utils.cpp:102-105`: first test of `voikko_is_nonword` (`X*//X*.X+`).
`nchars - (i - word) - 2` cannot wrap because the search is
limited to the first `nchars - 3` characters; the model uses an explicit check. -/
def nonwordSlash (word : List Wc) : UB Bool := do
  match ← wmemchr word 0 0x2F (word.length - 3) with
  | none => return false
  | some i => do
    let c ← rd word (i + 1)
    if c = 0x2F then
      if word.length < i + 2 then ub
      else do
        let r ← wmemchr word (i + 1) 0x2E (word.length - i - 2)
        return r.isSome
    else return false

/-- `utils.cpp:107-110`: second test (`X*@X+.X+`). -/
def nonwordAt (word : List Wc) : UB Bool := do
  match ← wmemchr word 0 0x40 (word.length - 3) with
  | none => return false
  | some i => do
    let c ← rd word (i + 1)
    if c ≠ 0x2E then
      if word.length < i + 2 then ub
      else do
        let r ← wmemchr word (i + 1) 0x2E (word.length - i - 2)
        return r.isSome
    else return false

/-- `utils.cpp:112-122`: third test (`www.X+.X+`). -/
def nonwordWww (word : List Wc) : UB Bool :=
  if word.length < 7 then return false
  else do
    let www ← wcsncmpEq [0x77, 0x77, 0x77, 0x2E] word 0
    if !www then return false
    else do
      let c ← rd word 4
      if c = 0x2E then return false
      else do
        let r ← wmemchr word 5 0x2E (word.length - 5)
        return r.isSome

/-- `utils.cpp:94-123`, `voikko_is_nonword`. -/
def isNonword (word : List Wc) : UB Bool :=
  if word.length < 4 then return false
  else do
    let a ← nonwordSlash word
    if a then return true
    else do
      let b ← nonwordAt word
      if b then return true else nonwordWww word

end Verif
