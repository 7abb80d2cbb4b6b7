import Verif.Model.Grammar
/-!
# The checks of the Finnish grammar checker on single sentences, and the check of the end of a paragraph

`FinnishRuleEngine/checks.cpp`, `MissingVerbCheck.cpp`, `NegativeVerbCheck.cpp`, `CompoundVerbCheck.cpp`,
`SidesanaCheck.cpp`, `VfstAutocorrectCheck.cpp`. A check gives the errors in the order of the calls of `appendError`.
`sentence->tokens[i]` with `i` not below `tokenCount` (uninitialised) is undefined behaviour.
-/

namespace Verif

/-- `VoikkoGrammarError`: code, position, length and suggestions (kept as wide strings; the code converts them to
UTF-8). The null pointer for suggestions is the empty list. -/
structure GErr where
  code : Nat
  start : Nat
  len : Nat
  sugg : List (List Wc) := []
  deriving DecidableEq, Repr

/-- Difference of two `size_t` (64 bits). -/
def sizeSub (a b : Nat) : Nat := if b ≤ a then a - b else a + 2 ^ 64 - b

/-- The three grammar options of the handle. -/
structure GramOpts where
  titles : Bool := false
  unfinished : Bool := false
  bulleted : Bool := false
  deriving DecidableEq, Repr

/-- `wcsncmp(a, b, n) == 0` on two C strings. -/
def strnEq (a b : List Wc) (n : Nat) : Bool := (cstr a).take n == (cstr b).take n

/-- `wcscmp(a, lit) == 0`. -/
def strEq (a : List Wc) (s : String) : Bool := cstr a == lit s

/-- `checks.cpp:45-118`, `gc_local_punctuation`; the list is the tokens from `i` on, `first` is `i == 0`, `skip` is the
number of tokens passed over by `i += 2`. -/
def localPunct : Nat → Bool → List GTok → List GErr
  | _, _, [] => []
  | skip + 1, _, _ :: rest => localPunct skip false rest
  | 0, first, t :: rest =>
    match t.type with
    | .whitespace =>
      if t.len > 1 then ⟨2, t.pos, t.len, [[0x20]]⟩ :: localPunct 0 false rest
      else
        match rest with
        | [] => []
        | t2 :: _ =>
          if t2.type ≠ .punctuation ∨ t2.ch0 ≠ 0x2C then localPunct 0 false rest
          else ⟨3, t.pos, 2, [[0x2C]]⟩ :: localPunct 0 false rest
    | .punctuation =>
      if t.ch0 = 0x5B ∧ (rest[1]?).any (fun t2 => t2.ch0 == 0x5D) then localPunct 2 false rest
      else if first then
        if wcschr [0x28, 0x29, 0x27, 0x2D, 0x201C, 0x2013, 0x2014] t.ch0 || isFinnishQuotationMark t.ch0 then
          localPunct 0 false rest
        else if t.pos = 0 then ⟨5, 0, 1, []⟩ :: localPunct 0 false rest
        else ⟨5, t.pos - 1, 2, []⟩ :: localPunct 0 false rest
      else if t.ch0 = 0x2C then
        match rest with
        | [] => []
        | t2 :: _ =>
          if t2.type ≠ .punctuation ∨ t2.ch0 ≠ 0x2C then localPunct 0 false rest
          else ⟨4, t.pos, 2, [[0x2C]]⟩ :: localPunct 0 false rest
      else localPunct 0 false rest
    | _ => localPunct 0 false rest

/-- `checks.cpp:151-183`: the error reported for `t` before a closing quotation mark `q` and a comma. -/
def quoteErr (t : GTok) (q : Wc) : List GErr :=
  if t.ch0 = 0x2E then [⟨10, t.pos, 3, [[q, 0x2C]]⟩]
  else if t.ch0 = 0x21 ∨ t.ch0 = 0x3F then [⟨10, t.pos, 3, [[t.ch0, q]]⟩]
  else []

/-- `checks.cpp:120-185`, `gc_punctuation_of_quotations`; the list is the tokens from `i` on. -/
def quotations : List GTok → List GErr
  | t :: t1 :: t2 :: rest =>
    if t.type ≠ .punctuation then quotations (t1 :: t2 :: rest)
    else if t.ch0 = 0x201C then [⟨11, t.pos, 1, [[0x201D]]⟩]
    else if t1.type ≠ .punctuation ∨ isFinnishQuotationMark t1.ch0 = false ∨ t2.type ≠ .punctuation ∨ t2.ch0 ≠ 0x2C then
      quotations (t1 :: t2 :: rest)
    else quoteErr t t1.ch0 ++ quotations (t1 :: t2 :: rest)
  | _ => []

/-- `checks.cpp:206-208`: words that may be repeated. -/
def mayRepeat (s : List Wc) : Bool := strEq s "ollut" || strEq s "olleet" || strEq s "sillä"

/-- `checks.cpp:187-223`, `gc_repeating_words`; `skip` is the number of tokens passed over by `i++` and `i += 2` in the
loop body. -/
def repeatingWords : Nat → List GTok → List GErr
  | _, [] => []
  | skip + 1, _ :: rest => repeatingWords skip rest
  | 0, t :: rest =>
    match rest with
    | t1 :: t2 :: _ =>
      if t.type ≠ .word then repeatingWords 0 rest
      else if t1.type ≠ .whitespace then repeatingWords 1 rest
      else if t2.type ≠ .word then repeatingWords 2 rest
      else if equalsIgnoreCase (cstr t.str) (cstr t2.str) = false then repeatingWords 1 rest
      else if isDigit t.ch0 then repeatingWords 1 rest
      else if mayRepeat t.str then repeatingWords 1 rest
      else ⟨8, t.pos, t.len + t1.len + t2.len, [t.str]⟩ :: repeatingWords 0 rest
    | _ => []

/-- `checks.cpp:225-238`, `gc_end_punctuation`. -/
def endPunct (o : GramOpts) (p : List GSent) : UB (List GErr) :=
  if o.titles = true ∧ p.length = 1 then return []
  else if o.unfinished then return []
  else if o.bulleted then return []
  else
    match p.getLast? with
    | none => ub
    | some s =>
      match s.tokens.getLast? with
      | none => ub
      | some t => if t.type = .punctuation then return [] else return [⟨9, t.pos, t.len, []⟩]

/-! ### `MissingVerbCheck.cpp` -/

/-- Local variables of `MissingVerbCheck.cpp:44-48`, and the errors found so far. -/
structure MvSt where
  wordCount : Nat := 0
  lastNonWs : Option GTok := none
  verbSentence : Bool := false
  verbClause : Bool := false
  lastVerb : Nat := 0
  errs : List GErr := []
  deriving DecidableEq, Repr

/-- `MissingVerbCheck.cpp:65-74`: token `i` starts the fixed pair of words `a` (first `na` letters), `b` (first 5). -/
def startsPair (toks : List GTok) (i : Nat) (t : GTok) (a b : String) (na : Nat) : UB Bool :=
  if i + 2 < toks.length ∧ strnEq t.str (lit a) na = true then do
    let t2 ← rd toks (i + 2)
    return strnEq t2.str (lit b) 5
  else return false

/-- `MissingVerbCheck.cpp:75-93`: a main verb. -/
def mvMainVerb (toks : List GTok) (i : Nat) (t : GTok) (st : MvSt) : UB MvSt :=
  if st.verbClause then do
    let v ← rd toks st.lastVerb
    if i ≠ st.lastVerb + 2 ∨ t.len ≠ v.len ∨ strnEq t.str v.str t.len = false then
      return { st with verbClause := false, errs := st.errs ++ [⟨18, v.pos, sizeSub (t.pos + t.len) v.pos, []⟩] }
    else return { st with verbClause := false }
  else return { st with verbClause := true, lastVerb := i }

/-- `MissingVerbCheck.cpp:54-94`: a word token. -/
def mvWord (toks : List GTok) (i : Nat) (t : GTok) (st : MvSt) : UB MvSt := do
  let st := { st with
    wordCount := st.wordCount + 1
    verbSentence := st.verbSentence || !t.isValidWord || t.possibleMainVerb || t.isVerbNegative }
  if t.possibleConjunction then return { st with verbClause := false }
  else do
    let p1 ← startsPair toks i t "siinä" "missä" 5
    if p1 then return { st with verbClause := false }
    else do
      let p2 ← startsPair toks i t "kävi" "miten" 4
      if p2 then return { st with verbClause := false }
      else if t.isMainVerb then mvMainVerb toks i t st
      else return st

/-- `MissingVerbCheck.cpp:49-101`: the loop from token `i`; the Boolean tells that the check ended at a tabulator. -/
def mvLoop (toks : List GTok) : Nat → List GTok → MvSt → UB (MvSt × Bool)
  | _, [], st => return (st, false)
  | i, t :: rest, st =>
    if t.ch0 = 9 then return (st, true)
    else do
      let st ← (if t.type = .word then mvWord toks i t st
        else if t.type = .punctuation then return { st with verbClause := false }
        else return st : UB MvSt)
      mvLoop toks (i + 1) rest (if t.type ≠ .whitespace then { st with lastNonWs := some t } else st)

/-- `MissingVerbCheck.cpp:102-109`: the error for the whole sentence. -/
def mvFinish (s : GSent) (st : MvSt) : UB (List GErr) :=
  if st.verbSentence = true ∨ st.wordCount < 2 then return st.errs
  else
    match st.lastNonWs with
    | none => ub
    | some t =>
      if wcschr [0x2E, 0x3F] t.ch0 = false ∨ strEq t.str "..." = true then return st.errs
      else return st.errs ++ [⟨17, s.pos, sizeSub (t.pos + t.len) s.pos, []⟩]

/-- `MissingVerbCheck.cpp:35-110`, `check`. -/
def missingVerb (o : GramOpts) (s : GSent) : UB (List GErr) := do
  let t0 ← rd s.tokens 0
  if t0.type = .punctuation then return []
  else if o.bulleted = true ∧ s.pos = 0 ∧ (isLower t0.ch0 = true ∨ t0.firstLetterLcase = false) then return []
  else do
    let (st, ended) ← mvLoop s.tokens 0 s.tokens {}
    if ended then return st.errs else mvFinish s st

/-! ### `NegativeVerbCheck.cpp`, `CompoundVerbCheck.cpp`, `SidesanaCheck.cpp` -/

/-- The error `code` from the start of `t` to the end of `t2`. -/
def spanErr (code : Nat) (t t2 : GTok) : GErr := ⟨code, t.pos, sizeSub (t2.pos + t2.len) t.pos, []⟩

/-- `NegativeVerbCheck.cpp:36-52`, `check`; the list is the tokens from `i` on. -/
def negativeVerb : List GTok → List GErr
  | t :: t1 :: t2 :: rest =>
    (if t.type = .word ∧ t1.type = .whitespace ∧ t2.type = .word ∧ t.isVerbNegative = true ∧ t2.isPositiveVerb = true
     then [spanErr 13 t t2] else []) ++ negativeVerb (t1 :: t2 :: rest)
  | _ => []

/-- `CompoundVerbCheck.cpp:36-60`, `check`. -/
def compoundVerb : List GTok → List GErr
  | t :: t1 :: t2 :: rest =>
    (if t.type = .word ∧ t1.type = .whitespace ∧ t2.type = .word then
      if t.requireVerb = .aInf ∧ t2.verbFollower = .maInf then [spanErr 14 t t2]
      else if t.requireVerb = .maInf ∧ t2.verbFollower = .aInf then [spanErr 15 t t2]
      else []
     else []) ++ compoundVerb (t1 :: t2 :: rest)
  | _ => []

/-- `SidesanaCheck.cpp:36-52`, `check`. -/
def sidesana (s : GSent) : UB (List GErr) :=
  let n := s.tokens.length
  if n = 0 then ub
  else do
    let last ← rd s.tokens (n - 1)
    let n := if last.type = .whitespace then n - 1 else n
    if n ≥ 2 then do
      let t ← rd s.tokens (n - 2)
      let e ← rd s.tokens (n - 1)
      if t.isConjunction = true ∧ strEq t.str "vaan" = false ∧ e.type = .punctuation ∧ strEq e.str "." = true then
        return [⟨16, t.pos, t.len, []⟩]
      else return []
    else return []

/-! ### `VfstAutocorrectCheck.cpp` -/

/-- The transducer with its configuration: a state and a look-up of a prefix of the input, `prepare` followed by
`nextPrefix` (output and length of the prefix). -/
structure Lookup (σ : Type) where
  find : σ → List Wc → UB (σ × Option (List Wc × Nat))

/-- `VfstAutocorrectCheck.cpp:40`. -/
def bufferSize : Nat := 20000

/-- Local variables of `VfstAutocorrectCheck.cpp:66-73`: the part of `inputBuffer` written so far
(`sentenceLengthUtf` characters), the look-up positions (in the buffer and in the sentence), the positions of the token
boundaries (original and normalised) and `sentenceLengthUcs`. -/
structure AcSt where
  input : List Wc := []
  lookups : List (Nat × Nat) := []
  orig : List Nat := [0]
  norm : List Nat := [0]
  ucs : Nat := 0
  deriving DecidableEq, Repr

/-- `VfstAutocorrectCheck.cpp:92-98`: the characters `tokenStr[0 .. tokenlen)`. `StringUtils::copy` copies the C string
only, so characters after a NUL are outside the copy. -/
def acTokenStr (lower1 : Bool) (t : GTok) : UB (List Wc) :=
  if lower1 then
    if (cstr t.str).length + 1 < t.str.length then ub
    else
      match t.str with
      | [] => return []
      | c :: cs => return lower c :: cs
  else return t.str

/-- `VfstAutocorrectCheck.cpp:75-118`: one token; `first` is `i == 0`. `none` inside: the sentence is too long. -/
def acToken (lowerFirst first : Bool) (t : GTok) (st : AcSt) : UB (Option AcSt) :=
  let lookups := if t.type = .word then st.lookups ++ [(st.input.length, st.ucs)] else st.lookups
  if t.type = .whitespace then
    if st.input.length ≥ bufferSize then return none
    else do
      let n ← rd st.norm (st.norm.length - 1)
      return some { input := st.input ++ [0x20], lookups, orig := st.orig ++ [st.ucs + t.len], norm := st.norm ++ [n + 1],
                    ucs := st.ucs + t.len }
  else
    if st.input.length + t.len ≥ bufferSize then return none
    else do
      let str ← acTokenStr (lowerFirst && first) t
      let kept := str.filter fun c => !(wcschr [0xAD] c)
      let n ← rd st.norm (st.norm.length - 1)
      return some { input := st.input ++ kept, lookups, orig := st.orig ++ [st.ucs + t.len],
                    norm := st.norm ++ [n + kept.length], ucs := st.ucs + t.len }

/-- `VfstAutocorrectCheck.cpp:74-119`: the loop over the tokens. -/
def acTokens (lowerFirst : Bool) : Bool → List GTok → AcSt → UB (Option AcSt)
  | _, [], st => return some st
  | first, t :: ts, st => do
    match ← acToken lowerFirst first t st with
    | none => return none
    | some st => acTokens lowerFirst false ts st

/-- `VfstAutocorrectCheck.cpp:146-156`: the loop computing `lengthCorrection`, from the boundary after `prev` (original
and normalised position) on. -/
def acCorrection (startPos prefixLen : Nat) : Nat × Nat → List (Nat × Nat) → Nat → Nat
  | _, [], corr => corr
  | prev, (o, n) :: rest, corr =>
    let corr := if o ≤ startPos then sizeSub o n else corr
    if n > startPos + prefixLen then sizeSub (sizeSub prev.1 prev.2) corr
    else acCorrection startPos prefixLen (o, n) rest corr

/-- `VfstAutocorrectCheck.cpp:158-161`: the suggestion. -/
def acSuggestion (lowerFirst : Bool) (out : List Wc) : List Wc :=
  match out with
  | [] => []
  | c :: cs => if lowerFirst then upper c :: cs else out

/-- `VfstAutocorrectCheck.cpp:122-169`: the loop over the look-up positions. -/
def acLookups {σ : Type} (m : Lookup σ) (s : GSent) (lowerFirst : Bool) (st : AcSt) :
    σ → List (Nat × Nat) → UB (σ × List GErr × Bool)
  | c, [] => return (c, [], false)
  | c, (position, ucsPosition) :: rest =>
    if lowerFirst = true ∧ position > 0 then return (c, [], false)
    else do
      let (c, r) ← m.find c (st.input.drop position)
      match r with
      | some (out, prefixLen) =>
        let (c, es, low) ← acLookups m s lowerFirst st c rest
        if st.norm.contains (ucsPosition + prefixLen) = false then return (c, es, low)
        else
          let startPos := s.pos + ucsPosition
          let corr := acCorrection startPos prefixLen (0, 0) (st.orig.zip st.norm) 0
          return (c, ⟨1, startPos, prefixLen + corr, [acSuggestion lowerFirst out]⟩ :: es, low)
      | none => do
        let t0 ← rd s.tokens 0
        let (c, es, low) ← acLookups m s lowerFirst st c rest
        return (c, es, low || (!lowerFirst && position == 0 && isUpper t0.ch0))

/-- `VfstAutocorrectCheck.cpp:65-171`, `check` with `lowerFirst`. -/
def acPass {σ : Type} (m : Lookup σ) (s : GSent) (lowerFirst : Bool) (c : σ) : UB (σ × List GErr × Bool) := do
  match ← acTokens lowerFirst true s.tokens {} with
  | none => return (c, [], false)
  | some st => acLookups m s lowerFirst st c st.lookups

/-- `VfstAutocorrectCheck.cpp:59-63`, `check`. -/
def autocorrect {σ : Type} (m : Lookup σ) (s : GSent) (c : σ) : UB (σ × List GErr) := do
  let (c, es, low) ← acPass m s false c
  if low then do
    let (c, es2, _) ← acPass m s true c
    return (c, es ++ es2)
  else return (c, es)

end Verif
