import Verif.Model.Char
/-!
# Tokenizer: `tokenizer/Tokenizer.cpp`

A text buffer `(text, textlen)` is the list of its `textlen` characters; every read goes through
`rd`, so that a read at an index `≥ textlen` is undefined behaviour.
-/

namespace Verif

/-- `voikko_enums.h`, `enum voikko_token_type`. -/
inductive TokenType where
  | none | word | punctuation | whitespace | unknown
  deriving DecidableEq, Repr

/-- Characters of `"#$%*+=^_`|~"`, `Tokenizer.cpp:59`. -/
def emailUnknownOk : List Wc := [0x23, 0x24, 0x25, 0x2A, 0x2B, 0x3D, 0x5E, 0x5F, 0x60, 0x7C, 0x7E]

/-- The nine punctuation characters `! & ' - / ? { } .` of `Tokenizer.cpp:80`. -/
def emailPunctOk : List Wc := [0x21, 0x26, 0x27, 0x2D, 0x2F, 0x3F, 0x7B, 0x7D, 0x2E]

/-- `Tokenizer.cpp:44-92`: the e-mail scanning loop of `findUrlOrEmail` from index `i`. -/
def emailLoop (text : List Wc) (i : Nat) (foundAt foundDot : Bool) : UB Nat :=
  if _h : i < text.length then do
    let c ← rd text i
    match getCharType c with
    | .whitespace => if foundAt && foundDot then return i else return 0
    | .unknown =>
      if c = 0x40 then
        if foundAt then return 0 else emailLoop text (i + 1) true foundDot
      else if !wcschr emailUnknownOk c then
        if foundAt && foundDot then return i else return 0
      else emailLoop text (i + 1) foundAt foundDot
    | .digit => emailLoop text (i + 1) foundAt foundDot
    | .letter => emailLoop text (i + 1) foundAt foundDot
    | .punctuation =>
      if c = 0x2E && foundAt then do
        let stop ← if i + 1 = text.length then pure true
                   else do let d ← rd text (i + 1); pure (getCharType d == .whitespace)
        if stop then
          if foundDot then return i else return 0
        else emailLoop text (i + 1) foundAt true
      else if !wcschr emailPunctOk c then
        if foundAt && foundDot then return i else return 0
      else emailLoop text (i + 1) foundAt foundDot
  else if foundAt && foundDot then return text.length else return 0
termination_by text.length - i

/-- `Tokenizer.cpp:94-112`: the URL scanning loop of `findUrlOrEmail` from index `i`. -/
def urlLoop (text : List Wc) (i : Nat) : UB Nat :=
  if _h : i < text.length then do
    let c ← rd text i
    match getCharType c with
    | .whitespace => return i
    | .unknown => if !wcschr [0x3D, 0x23, 0x25] c then return i else urlLoop text (i + 1)
    | .digit => urlLoop text (i + 1)
    | .letter => urlLoop text (i + 1)
    | .punctuation => do
      let stop ← if c = 0x2E then
          (if i + 1 = text.length then pure true
           else do let d ← rd text (i + 1); pure (getCharType d == .whitespace))
        else pure false
      if stop then return i else urlLoop text (i + 1)
  else return text.length
termination_by text.length - i

/-- `"http://"` -/
def httpPrefix : List Wc := [0x68, 0x74, 0x74, 0x70, 0x3A, 0x2F, 0x2F]
/-- `"https://"` -/
def httpsPrefix : List Wc := [0x68, 0x74, 0x74, 0x70, 0x73, 0x3A, 0x2F, 0x2F]

/-- `Tokenizer.cpp:35-113`, `findUrlOrEmail`. -/
def findUrlOrEmail (text : List Wc) : UB Nat := do
  let notUrl ← if text.length < 12 then pure true
               else do
                 let a ← wcsncmpEq httpPrefix text 0
                 if a then pure false
                 else do let b ← wcsncmpEq httpsPrefix text 0; pure (!b)
  if notUrl then
    if text.length < 6 then return 0
    else emailLoop text 0 false false
  else do
    let c4 ← rd text 4
    urlLoop text (if c4 = 0x73 then 8 else 7)

/-- What the `CHAR_PUNCTUATION` case of `word_length` decides at index `wlen`
(`Tokenizer.cpp:145-204`): stop with a given length, or step over the character. -/
inductive WordStep where
  | stop (len : Nat)
  | more
  deriving DecidableEq, Repr

/-- `Tokenizer.cpp:146-203`: punctuation character `c` at index `wlen`. -/
def wordPunct (text : List Wc) (adot : Nat) (wlen : Nat) (c : Wc)
    (processingNumber seenLetters : Bool) : UB WordStep :=
  if c = 0x27 ∨ c = 0x2019 ∨ c = 0x3A then
    if wlen + 1 = text.length then return .stop wlen
    else do
      let d ← rd text (wlen + 1)
      if getCharType d = .letter then return .more else return .stop wlen
  else if c = 0x2D ∨ c = 0xAD ∨ c = 0x2010 ∨ c = 0x2011 then
    if wlen + 1 = text.length then return .stop (wlen + 1)
    else do
      let d ← rd text (wlen + 1)
      if isFinnishQuotationMark d then return .stop (wlen + 1)
      else match getCharType d with
        | .letter => return .more
        | .digit => return .more
        | .whitespace => return .stop (wlen + 1)
        | .unknown => return .stop (wlen + 1)
        | .punctuation => if d = 0x2C then return .stop (wlen + 1) else return .stop wlen
  else if c = 0x2E then
    if wlen + 1 = text.length then return .stop (wlen + adot)
    else do
      let d ← rd text (wlen + 1)
      match getCharType d with
      | .letter => return .more
      | .digit => if seenLetters then return .stop (wlen + adot) else return .more
      | .whitespace => return .stop (wlen + adot)
      | .unknown => return .stop (wlen + adot)
      | .punctuation => return .stop (wlen + adot)
  else if c = 0x2C then
    if !processingNumber then return .stop wlen
    else if wlen + 1 = text.length then return .stop wlen
    else do
      let d ← rd text (wlen + 1)
      if getCharType d = .digit then return .more else return .stop wlen
  else return .stop wlen

/-- `Tokenizer.cpp:131-207`: main loop of `word_length`. -/
def wordLoop (text : List Wc) (adot : Nat) (wlen : Nat)
    (processingNumber seenLetters : Bool) : UB Nat :=
  if _h : wlen < text.length then do
    let c ← rd text wlen
    match getCharType c with
    | .letter => wordLoop text adot (wlen + 1) false true
    | .digit => wordLoop text adot (wlen + 1) true seenLetters
    | .whitespace => return wlen
    | .unknown => return wlen
    | .punctuation => do
      match ← wordPunct text adot wlen c processingNumber seenLetters with
      | .stop n => return n
      | .more => wordLoop text adot (wlen + 1) processingNumber seenLetters
  else return text.length
termination_by text.length - wlen

/-- `Tokenizer.cpp:115-208`, `word_length`. -/
def wordLength (text : List Wc) (ignoreDot : Bool) : UB Nat := do
  let urlLength ← findUrlOrEmail text
  if urlLength ≠ 0 then return urlLength
  else wordLoop text (if ignoreDot then 1 else 0) 0 false false

/-- `Tokenizer.cpp:221-227`: length of the whitespace run, scanning from `i`. -/
def whitespaceLoop (text : List Wc) (i : Nat) : UB Nat :=
  if _h : i < text.length then do
    let c ← rd text i
    if getCharType c ≠ .whitespace then return i else whitespaceLoop text (i + 1)
  else return text.length
termination_by text.length - i

/-- `Tokenizer.cpp:210-255`, `Tokenizer::nextToken` (= `voikkoNextTokenUcs4`,
`tokenizer/interface.cpp:37-40`): token type and `*tokenlen`. -/
def nextToken (text : List Wc) (ignoreDot : Bool) : UB (TokenType × Nat) :=
  if text.length = 0 then return (.none, 0)
  else do
    let c ← rd text 0
    match getCharType c with
    | .letter => do let n ← wordLength text ignoreDot; return (.word, n)
    | .digit => do let n ← wordLength text ignoreDot; return (.word, n)
    | .whitespace => do let n ← whitespaceLoop text 1; return (.whitespace, n)
    | .punctuation =>
      if wcschr [0x2D, 0x2010, 0x2011] c then
        if text.length = 1 then return (.punctuation, 1)
        else do
          let wlen ← wordLength (text.drop 1) ignoreDot
          if wlen = 0 then return (.punctuation, 1) else return (.word, wlen + 1)
      else do
        let dots ← if text.length ≥ 3 then wcsncmpEq [0x2E, 0x2E, 0x2E] text 0 else pure false
        if dots then return (.punctuation, 3) else return (.punctuation, 1)
    | .unknown => return (.unknown, 1)

end Verif
