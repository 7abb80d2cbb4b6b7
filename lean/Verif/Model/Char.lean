import Verif.Model.Basic
/-!
# Characters: `character/SimpleChar.cpp` and `character/charset.cpp` (classification part)
-/

namespace Verif

/-- `character/SimpleChar.cpp:36-97`, `SimpleChar::lower`. -/
def lower (c : Wc) : Wc :=
  if 0x41 ≤ c ∧ c ≤ 0x5A then c + 0x20
  else if 0xC0 ≤ c ∧ c ≤ 0xD6 then c + 0x20
  else if 0xD8 ≤ c ∧ c ≤ 0xDE then c + 0x20
  else if 0x0100 ≤ c ∧ c ≤ 0x0136 ∧ c % 2 = 0 then c + 1
  else if 0x0139 ≤ c ∧ c ≤ 0x0147 ∧ c % 2 = 1 then c + 1
  else if 0x014A ≤ c ∧ c ≤ 0x0176 ∧ c % 2 = 0 then c + 1
  else if 0x0179 ≤ c ∧ c ≤ 0x017D ∧ c % 2 = 1 then c + 1
  else if c = 0x01B7 then 0x0292
  else if 0x01DE ≤ c ∧ c ≤ 0x01EE ∧ c % 2 = 0 then c + 1
  else if 0x01F8 ≤ c ∧ c ≤ 0x021E ∧ c % 2 = 0 then c + 1
  else if 0x0400 ≤ c ∧ c ≤ 0x040F then c + 0x50
  else if 0x0410 ≤ c ∧ c ≤ 0x042F then c + 0x20
  else if 0x0460 ≤ c ∧ c ≤ 0x0480 ∧ c % 2 = 0 then c + 1
  else if 0x048A ≤ c ∧ c ≤ 0x0526 ∧ c % 2 = 0 then c + 1
  else c

/-- `character/SimpleChar.cpp:99-160`, `SimpleChar::upper`. -/
def upper (c : Wc) : Wc :=
  if 0x61 ≤ c ∧ c ≤ 0x7A then c - 0x20
  else if 0xE0 ≤ c ∧ c ≤ 0xF6 then c - 0x20
  else if 0xF8 ≤ c ∧ c ≤ 0xFE then c - 0x20
  else if 0x0101 ≤ c ∧ c ≤ 0x0137 ∧ c % 2 = 1 then c - 1
  else if 0x013A ≤ c ∧ c ≤ 0x0148 ∧ c % 2 = 0 then c - 1
  else if 0x014B ≤ c ∧ c ≤ 0x0177 ∧ c % 2 = 1 then c - 1
  else if 0x017A ≤ c ∧ c ≤ 0x017E ∧ c % 2 = 0 then c - 1
  else if 0x01DF ≤ c ∧ c ≤ 0x01EF ∧ c % 2 = 1 then c - 1
  else if 0x01F9 ≤ c ∧ c ≤ 0x021F ∧ c % 2 = 1 then c - 1
  else if c = 0x0292 then 0x01B7
  else if 0x0450 ≤ c ∧ c ≤ 0x045F then c - 0x50
  else if 0x0430 ≤ c ∧ c ≤ 0x044F then c - 0x20
  else if 0x0461 ≤ c ∧ c ≤ 0x0481 ∧ c % 2 = 1 then c - 1
  else if 0x048B ≤ c ∧ c ≤ 0x0527 ∧ c % 2 = 1 then c - 1
  else c

/-- `character/SimpleChar.cpp:162-165`, `SimpleChar::isUpper`. -/
def isUpper (c : Wc) : Bool := c ≠ lower c || c == 0x018F

/-- `character/SimpleChar.cpp:167-169`, `SimpleChar::isLower`. -/
def isLower (c : Wc) : Bool := c ≠ upper c

/-- `character/SimpleChar.cpp:171-173`, `SimpleChar::isDigit`. -/
def isDigit (c : Wc) : Bool := 0x30 ≤ c && c ≤ 0x39

/-- `character/SimpleChar.cpp:175-188`, `SimpleChar::isWhitespace`. -/
def isWhitespace (c : Wc) : Bool :=
  (0x09 ≤ c && c ≤ 0x0D) || c == 0x20 || c == 0x85 || c == 0xA0 || c == 0x1680 || c == 0x180E ||
  (0x2000 ≤ c && c ≤ 0x200A) || c == 0x2028 || c == 0x2029 || c == 0x202F || c == 0x205F ||
  c == 0x3000

/-- `character/SimpleChar.cpp:190-200`, `SimpleChar::equalsIgnoreCase` on NUL terminated strings
(given without the terminator). -/
def equalsIgnoreCase (a b : List Wc) : Bool :=
  a.length == b.length && a.map lower == b.map lower

/-- `character/charset.hpp`, `enum char_type`. -/
inductive CharType where
  | letter | digit | whitespace | punctuation | unknown
  deriving DecidableEq, Repr

/-- `character/charset.cpp:76-80`, `isFinnishQuotationMark`; the literal is `"`, `»`, U+201D.
`wcschr` also finds the terminator, so NUL counts. -/
def isFinnishQuotationMark (c : Wc) : Bool := wcschr [0x22, 0xBB, 0x201D] c

/-- The punctuation literal of `character/charset.cpp:57-66`. -/
def punctuationChars : List Wc :=
  [0x2E, 0x2C, 0x3B, 0x2D, 0x21, 0x3F, 0x3A, 0x27, 0x28, 0x29, 0x5B, 0x5D, 0x7B, 0x7D, 0x2F, 0x26,
   0xAD, 0x2019, 0x2010, 0x2011, 0x2013, 0x2014, 0x201C, 0x2026]

/-- The letter ranges of `character/charset.cpp:43-51`. -/
def isLetterRange (c : Wc) : Bool :=
  (0x41 ≤ c && c ≤ 0x5A) || (0x61 ≤ c && c ≤ 0x7A) || (0xC1 ≤ c && c ≤ 0xD6) ||
  (0xD8 ≤ c && c ≤ 0xF6) || (0xF8 ≤ c && c ≤ 0x2AF) || (0x400 ≤ c && c ≤ 0x481) ||
  (0x48A ≤ c && c ≤ 0x527) || (0x1400 ≤ c && c ≤ 0x15C3) || (0xFB00 ≤ c && c ≤ 0xFB04)

/-- `character/charset.cpp:42-74`, `get_char_type`. -/
def getCharType (c : Wc) : CharType :=
  if isLetterRange c then .letter
  else if isWhitespace c then .whitespace
  else if wcschr punctuationChars c then .punctuation
  else if isFinnishQuotationMark c then .punctuation
  else if wcschr [0x30, 0x31, 0x32, 0x33, 0x34, 0x35, 0x36, 0x37, 0x38, 0x39] c then .digit
  else .unknown

end Verif
