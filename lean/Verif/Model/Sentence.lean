import Verif.Model.Tokenizer
/-!
# Sentence detection: `sentence/Sentence.cpp`

The dictionary speller (`options->speller->spell`) is a parameter `spellOk : List Wc → Bool`
("the result is not `SPELL_FAILED`"), called on the exact characters given to it.
The `ignore_dot` field of the handle is part of the modelled state because `Sentence::next`
temporarily overwrites it. `none` means undefined behaviour or (for the fuelled loop) that the loop
did not end within `fuel` iterations.
-/

namespace Verif

/-- `voikko_enums.h`, `voikko_sentence_type` (`SENTENCE_NO_START` is never produced by the code). -/
inductive SentenceType where
  | none | noStart | probable | possible
  deriving DecidableEq, Repr

/-- `Sentence.cpp:53-60`: every character of `text[0 .. len-2]` is `.`, `-` or a digit. -/
def onlyNumbersOrDots (text : List Wc) (len : Nat) : UB Bool :=
  go 0
where
  /-- The `for` loop from index `i`. -/
  go (i : Nat) : UB Bool :=
    if _h : i < len - 1 then do
      let c ← rd text i
      if c ≠ 0x2E ∧ c ≠ 0x2D ∧ isDigit c = false then return false
      else go (i + 1)
    else return true
  termination_by len - 1 - i

/-- `Sentence.cpp:42-70`, `dot_part_of_word`; `text` starts at the word and is the rest of the buffer.
The speller reads `len` characters. -/
def dotPartOfWord (spellOk : List Wc → Bool) (text : List Wc) (len : Nat) : UB Bool :=
  if len < 2 then return false
  else do
    let c ← rd text 0
    if len = 2 ∧ isUpper c = true then return true
    else do
      let only ← onlyNumbersOrDots text len
      if only then return true
      else if text.length < len then ub
      else return spellOk (text.take len)

/-- Local variables of `Sentence::next` (`Sentence.cpp:74-82`) and the handle's `ignore_dot`. -/
structure SentSt where
  slen : Nat := 0
  prevStart : Nat := 0
  prevType : TokenType := .none
  endFound : Bool := false
  inQuotation : Bool := false
  endDotword : Bool := false
  possibleEnd : Bool := false
  ignoreDot : Bool
  deriving DecidableEq, Repr

/-- `Sentence.cpp:100-135`: effect of a punctuation token of length `tokenlen` at `slen`. -/
def sentPunct (spellOk : List Wc → Bool) (text : List Wc) (s : SentSt) (tokenlen : Nat) : UB SentSt := do
  let punct ← rd text s.slen
  if wcschr [0x21, 0x3F] punct then
    return { s with endFound := true, possibleEnd := s.possibleEnd || s.inQuotation }
  else if (punct = 0x2E ∧ tokenlen = 3) ∨ punct = 0x2026 then
    return { s with endFound := true, possibleEnd := true }
  else if punct = 0x2E then
    if s.slen ≠ 0 ∧ s.prevType = .word then do
      let d ← dotPartOfWord spellOk (text.drop s.prevStart) (s.slen - s.prevStart + 1)
      return { s with endFound := true, endDotword := s.endDotword || d }
    else return { s with endFound := true }
  else if punct = 0x3A then
    return { s with endFound := true, possibleEnd := true }
  else if isFinnishQuotationMark punct || punct == 0x201C then
    let s := { s with inQuotation := !s.inQuotation }
    if !s.inQuotation ∧ s.slen + 1 < text.length then do
      let d ← rd text (s.slen + 1)
      if d = 0x2C then return { s with endFound := false, possibleEnd := false }
      else return s
    else return s
  else return s

/-- One iteration of the loop `Sentence.cpp:83-139` (entered with `textlen > slen`): either the
sentence end is returned or the loop continues. -/
def sentStep (spellOk : List Wc → Bool) (text : List Wc) (s : SentSt) :
    UB ((SentenceType × Nat × Bool) ⊕ (SentSt × TokenType)) := do
  -- 84-88: the option is cleared around the tokenizer call and restored
  let saved := s.ignoreDot
  let s := { s with ignoreDot := false }
  let (token, tokenlen) ← nextToken (text.drop s.slen) s.ignoreDot
  let s := { s with ignoreDot := saved }
  if s.endFound ∧ s.inQuotation = false then
    if token ≠ .whitespace then
      if s.endDotword ∨ s.possibleEnd ∨ (s.prevType ≠ .whitespace ∧ token = .word) then
        return .inl (.possible, s.slen, s.ignoreDot)
      else return .inl (.probable, s.slen, s.ignoreDot)
    else
      return .inr ({ s with prevStart := s.slen, prevType := token, slen := s.slen + tokenlen }, token)
  else do
    let s ← if token = .punctuation then sentPunct spellOk text s tokenlen else pure s
    return .inr ({ s with prevStart := s.slen, prevType := token, slen := s.slen + tokenlen }, token)

/-- The loop `Sentence.cpp:83-141` with iteration bound `fuel`; `token` is the loop variable. Result:
sentence type, `*sentencelen`, and the value of `ignore_dot` on return. -/
def sentLoop (spellOk : List Wc → Bool) (text : List Wc) : Nat → TokenType → SentSt →
    UB (SentenceType × Nat × Bool)
  | 0, _, _ => none
  | fuel + 1, token, s =>
    if token ≠ .none ∧ text.length > s.slen then do
      match ← sentStep spellOk text s with
      | .inl r => return r
      | .inr (s', t) => sentLoop spellOk text fuel t s'
    else return (.none, text.length, s.ignoreDot)

/-- `Sentence.cpp:72-142`, `Sentence::next` = `voikkoNextSentenceStartUcs4` (`sentence/interface.cpp:36-39`).
The iteration bound `length + 1` is shown to be sufficient by C06. -/
def sentenceNext (spellOk : List Wc → Bool) (text : List Wc) (ignoreDot : Bool) :
    UB (SentenceType × Nat × Bool) :=
  sentLoop spellOk text (text.length + 1) .word { ignoreDot := ignoreDot }

end Verif
