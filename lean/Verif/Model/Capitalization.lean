import Verif.Model.GrammarChecks
import Verif.Model.Case
/-!
# `FinnishRuleEngine/CapitalizationCheck.cpp`

Pointers to tokens are `Option GTok`; dereferencing a null pointer is undefined behaviour.
-/

namespace Verif

/-- `CapitalizationCheck.cpp:45-54`, `CapitalizationContext` without the constant members, and the errors found so far.
`quotes` is the stack, with its top first. -/
structure CapCtx where
  sent : Nat := 0
  tok : Nat := 0
  before : Option GTok := none
  next : Option GTok := none
  quotes : List Wc := []
  ended : Bool := false
  errs : List GErr := []
  deriving DecidableEq, Repr

/-- `CapitalizationCheck.cpp:56-62`. -/
inductive CapState where
  | initial | upper | lower | dontCare | quoted
  deriving DecidableEq, Repr

/-- `CapitalizationCheck.cpp:64-89`, `shouldSkipSentence`. -/
def shouldSkip : List GTok → Bool
  | [] => true
  | t :: ts =>
    if t.ch0 = 0x201C then true
    else if t.type ≠ .word then shouldSkip ts
    else if t.str.any isLower then false
    else shouldSkip ts

/-- `CapitalizationCheck.cpp:93-103`: number of sentences passed over by the loop. -/
def skipped : List GSent → Nat
  | [] => 0
  | s :: ss => if shouldSkip s.tokens then skipped ss + 1 else 0

/-- `CapitalizationCheck.cpp:91-112`, `getTokenAndAdvance`. -/
def getToken (p : List GSent) (c : CapCtx) : UB (Option GTok × CapCtx) :=
  if p.length < c.sent then ub
  else
    let k := c.sent + skipped (p.drop c.sent)
    if k = p.length then return (none, { c with sent := k })
    else do
      let s ← rd p k
      let t ← rd s.tokens c.tok
      if s.tokens.length = c.tok + 1 then return (some t, { c with sent := k + 1, tok := 0 })
      else return (some t, { c with sent := k, tok := c.tok + 1 })

/-- `CapitalizationCheck.cpp:117-129`: the loop, at most `fuel` iterations (running out of fuel is the undefined
outcome). -/
def untilWordLoop (p : List GSent) : Nat → CapCtx → UB (List GTok × CapCtx)
  | 0, _ => ub
  | fuel + 1, c => do
    let (t, c) ← getToken p c
    match t with
    | none => return ([], { c with next := none })
    | some t =>
      if t.type = .word then return ([], { c with next := some t })
      else do
        let (ts, c) ← untilWordLoop p fuel { c with before := some t }
        return (t :: ts, c)

/-- Number of tokens of a paragraph. -/
def tokenTotal (p : List GSent) : Nat := (p.map fun s => s.tokens.length).sum

/-- `CapitalizationCheck.cpp:114-131`, `getTokensUntilNextWord`. -/
def untilWord (p : List GSent) (c : CapCtx) : UB (List GTok × CapCtx) :=
  untilWordLoop p (tokenTotal p + 1) { c with before := c.next }

/-- `CapitalizationCheck.cpp:133-142`, `containsToken`. -/
def containsToken (ts : List GTok) (s : String) : Bool := ts.any fun t => strEq t.str s

/-- `CapitalizationCheck.cpp:145-152`: the loop; the list is in reverse order. -/
def lastPunctLoop : List GTok → Bool
  | [] => false
  | t :: ts => if t.type = .punctuation ∧ t.ch0 ≠ 0x2C then wcschr [0x2E, 0x3F, 0x21] t.ch0 else lastPunctLoop ts

/-- `CapitalizationCheck.cpp:144-153`, `lastPunctuationEndsSentence`. -/
def lastPunctEnds (ts : List GTok) : Bool := lastPunctLoop ts.reverse

/-- `CapitalizationCheck.cpp:155-158`, `placeNameInInstitutionName`. -/
def placeNameInInstitution (word : GTok) (seps : List GTok) : Bool :=
  word.isGeoGenitive &&
    match seps with
    | [t] => t.ch0 == 0x20
    | _ => false

/-- `CapitalizationCheck.cpp:166-197`: one punctuation token; the Boolean is `hasQuotes`. -/
def quoteStep (t : GTok) (c : CapCtx) (has : Bool) : CapCtx × Bool :=
  let q := t.ch0
  if isFinnishQuotationMark q then
    match c.quotes with
    | [] => ({ c with quotes := [q] }, true)
    | top :: rest => if top = q then ({ c with quotes := rest }, true) else ({ c with quotes := q :: top :: rest }, true)
  else if q = 0x28 ∨ q = 0x5B then ({ c with quotes := q :: c.quotes }, has)
  else if q = 0x29 ∨ q = 0x5D then
    match c.quotes with
    | [] => ({ c with errs := c.errs ++ [⟨12, t.pos, 1, []⟩] }, has)
    | top :: rest => if top = 0x28 ∨ top = 0x5B then ({ c with quotes := rest }, has) else (c, has)
  else if wcschr [0x2E, 0x21, 0x3F] q then ({ c with ended := true }, has)
  else (c, has)

/-- `CapitalizationCheck.cpp:161-202`, `pushAndPopQuotes`. -/
def pushPop : List GTok → CapCtx → Bool → CapCtx × Bool
  | [], c, has => (c, has)
  | t :: ts, c, has =>
    if t.type = .punctuation then
      let r := quoteStep t c has
      pushPop ts r.1 r.2
    else pushPop ts c has

/-- `StringUtils.cpp:234-248`: the loop of `isChapterNumber`; `first` is `i == 0`. -/
def chapterLoop : Bool → Bool → List Wc → Bool
  | _, dotLast, [] => !dotLast
  | first, dotLast, c :: cs =>
    if c = 0x2E then (if first || dotLast then false else chapterLoop false true cs)
    else if c < 0x30 ∨ c > 0x39 then false
    else chapterLoop false false cs

/-- `StringUtils.cpp:232-249`, `isChapterNumber`. -/
def isChapterNumber (s : List Wc) : Bool := chapterLoop true false (cstr s)

/-- `StringUtils.cpp:219-226`, `isInteger`. -/
def isInteger (s : List Wc) : Bool := (cstr s).all isDigit

/-- `StringUtils.cpp:251-259`, `isRomanNumeral`. -/
def isRomanNumeral (s : List Wc) : Bool := (cstr s).all fun c => wcschr [0x69, 0x49, 0x76, 0x56, 0x78, 0x58] c

/-- `StringUtils.cpp:262-273`, `isPossibleListItem`. -/
def isPossibleListItem (s : List Wc) : Bool := (cstr s).length == 1 || isChapterNumber s || isRomanNumeral s

/-- `CapitalizationCheck.cpp:220-228`, `isListItemAndClosingParenthesis`. -/
def isListItem (word : Option GTok) (seps : List GTok) : UB Bool :=
  match seps with
  | [] => return false
  | t :: _ =>
    if t.ch0 ≠ 0x29 then return false
    else
      match word with
      | none => ub
      | some w => return isPossibleListItem w.str

/-- Dereference of a token pointer. -/
def derefTok (t : Option GTok) : UB GTok :=
  match t with
  | none => ub
  | some t => return t

/-- `CapitalizationCheck.cpp:204-218`, `inInitial`. -/
def inInitial (o : GramOpts) (p : List GSent) (c : CapCtx) : UB (CapState × CapCtx) := do
  let (seps, c) ← untilWord p c
  let (c, _) := pushPop seps c false
  if c.quotes ≠ [] then return (.quoted, c)
  else if o.bulleted then return (.dontCare, c)
  else if containsToken seps "-" then return (.dontCare, c)
  else return (.upper, c)

/-- `CapitalizationCheck.cpp:243-252` and `285-294`: error `code` for a word, with its first letter replaced by `f`. The
suggestion buffer has `tokenlen` characters. -/
def caseErr (code : Nat) (w : GTok) (f : Wc → Wc) : UB GErr :=
  match w.str with
  | [] => ub
  | c0 :: cs => return ⟨code, w.pos, w.len, [f c0 :: cs]⟩

/-- `CapitalizationCheck.cpp:240-253`: the error for a word without a capital letter, if any. -/
def upperErr (w : GTok) (c : CapCtx) : UB CapCtx :=
  if isUpper w.ch0 = false ∧ isDigit w.ch0 = false ∧ w.possibleSentenceStart = false then do
    let e ← caseErr 7 w Verif.upper
    return { c with errs := c.errs ++ [e] }
  else return c

/-- `CapitalizationCheck.cpp:230-272`, `inUpper`. -/
def inUpper (o : GramOpts) (p : List GSent) (c : CapCtx) : UB (CapState × CapCtx) := do
  let tokenBefore := c.before
  let word := c.next
  let (seps, c) ← untilWord p c
  let item ← isListItem word seps
  if item then
    let (c, _) := pushPop (seps.drop 1) c false
    return (.dontCare, c)
  else do
    let w ← derefTok word
    let c ← upperErr w c
    let (c, _) := pushPop seps c false
    if c.quotes ≠ [] then return (.quoted, c)
    else if containsToken seps "\t" || placeNameInInstitution w seps then return (.dontCare, c)
    else if o.titles && isChapterNumber w.str then return (.dontCare, c)
    else if isInteger w.str && tokenBefore.any (fun t => t.type != .whitespace) then return (.dontCare, c)
    else if lastPunctEnds seps then return (.upper, { c with ended := true })
    else return (.lower, c)

/-- `CapitalizationCheck.cpp:276-284`: the word should start with a lower case letter. -/
def wrongUpper (w : GTok) : Bool :=
  w.isValidWord && w.firstLetterLcase && isUpper w.ch0 && !w.possibleSentenceStart && decide (w.len > 1) &&
    w.str[1]? != some 0x2D && w.str[1]? != some 0x3A && caseType w.str != .allUpper && !w.possibleGeo

/-- `CapitalizationCheck.cpp:276-295`: the error for a word with a capital letter, if any. -/
def lowerErr (w : GTok) (c : CapCtx) : UB CapCtx :=
  if wrongUpper w then do
    let e ← caseErr 6 w Verif.lower
    return { c with errs := c.errs ++ [e] }
  else return c

/-- `CapitalizationCheck.cpp:274-315`, `inLower`. -/
def inLower (p : List GSent) (c : CapCtx) : UB (CapState × CapCtx) := do
  let word := c.next
  let w ← derefTok word
  let c ← lowerErr w c
  let (seps, c) ← untilWord p c
  let item ← isListItem word seps
  if item then
    let (c, _) := pushPop (seps.drop 1) c false
    return (.dontCare, c)
  else
    let (c, _) := pushPop seps c false
    if c.quotes ≠ [] then return (.quoted, c)
    else if containsToken seps "\t" || placeNameInInstitution w seps then return (.dontCare, c)
    else if lastPunctEnds seps then return (.upper, { c with ended := true })
    else return (.lower, c)

/-- `CapitalizationCheck.cpp:317-341`, `inDontCare`. -/
def inDontCare (o : GramOpts) (p : List GSent) (c : CapCtx) : UB (CapState × CapCtx) := do
  let word := c.next
  let (seps, c) ← untilWord p c
  let item ← isListItem word seps
  if item then
    let (c, _) := pushPop (seps.drop 1) c false
    return (.dontCare, c)
  else do
    let (c, _) := pushPop seps c false
    if c.quotes ≠ [] then return (.quoted, c)
    else if containsToken seps "\t" then return (.dontCare, c)
    else do
      let chapter ← (if o.titles then do
          let w ← derefTok word
          return isChapterNumber w.str
        else return false : UB Bool)
      if chapter then return (.dontCare, c)
      else if lastPunctEnds seps then return (.upper, { c with ended := true })
      else return (.lower, c)

/-- `CapitalizationCheck.cpp:343-358`, `inQuoted`. -/
def inQuoted (p : List GSent) (c : CapCtx) : UB (CapState × CapCtx) := do
  let (seps, c) ← untilWord p c
  let (c, had) := pushPop seps c false
  if c.quotes ≠ [] then return (.quoted, c)
  else if lastPunctEnds seps then return (.upper, { c with ended := false })
  else if had || c.ended then return (.dontCare, { c with ended := false })
  else return (.lower, c)

/-- `CapitalizationCheck.cpp:360` and `375`: the call through the table of state functions. -/
def capStep (o : GramOpts) (p : List GSent) : CapState → CapCtx → UB (CapState × CapCtx)
  | .initial, c => inInitial o p c
  | .upper, c => inUpper o p c
  | .lower, c => inLower p c
  | .dontCare, c => inDontCare o p c
  | .quoted, c => inQuoted p c

/-- `CapitalizationCheck.cpp:373-374`: the condition of the loop. -/
def capMore (p : List GSent) (c : CapCtx) : Bool :=
  match p[c.sent]? with
  | none => false
  | some s => decide (c.tok + 1 ≤ s.tokens.length)

/-- `CapitalizationCheck.cpp:373-376`: the loop, at most `fuel` iterations (running out of fuel is the undefined
outcome). -/
def capLoop (o : GramOpts) (p : List GSent) : Nat → CapState → CapCtx → UB CapCtx
  | 0, _, c => if capMore p c = false then return c else ub
  | fuel + 1, st, c =>
    if capMore p c = false then return c
    else do
      let (st, c) ← capStep o p st c
      capLoop o p fuel st c

/-- `CapitalizationCheck.cpp:362-377`, `check`. -/
def capCheck (o : GramOpts) (p : List GSent) : UB (List GErr) := do
  let c ← capLoop o p (tokenTotal p) .initial {}
  return c.errs

end Verif
