import Verif.Model.Basic
/-!
# UTF-8 conversion: `utf8/core.hpp`, `utf8/checked.hpp`, `utf8/unchecked.hpp`, `utils/StringUtils.cpp`

A `char` is modelled by its value as `unsigned char` masked by the code (`mask8`), i.e. a `Nat`
(all reads go through `mask8` or `& 0x3f`). A `const char *` iterator into a buffer is the list of bytes
from the iterator to the end of the buffer; `it != end` is "the list is not empty" and `*it` on the empty
list is undefined behaviour. A C++ exception is the value `none` of the inner `Option`.
-/

namespace Verif

/-- `*it`. -/
def deref (it : List Nat) : UB Nat := it.head?

/-- `core.hpp:58-62`, `mask8`. -/
def mask8 (b : Nat) : Nat := b &&& 0xff

/-- `core.hpp:68-72`, `is_trail`. -/
def isTrail (b : Nat) : Bool := mask8 b >>> 6 == 2

/-- `core.hpp:92-96`, `is_code_point_valid`. -/
def isCodePointValid (cp : Nat) : Bool :=
  cp ≤ 0x10ffff && !(0xd800 ≤ cp && cp ≤ 0xdfff) && cp != 0xfffe && cp != 0xffff

/-- `core.hpp:98-113`, `sequence_length` (of the already read lead octet). -/
def sequenceLength (b : Nat) : Nat :=
  let lead := mask8 b
  if lead < 0x80 then 1
  else if lead >>> 5 = 0x6 then 2
  else if lead >>> 4 = 0xe then 3
  else if lead >>> 3 = 0x1e then 4
  else 0

/-- `core.hpp:115-131`, `is_overlong_sequence`. -/
def isOverlong (cp length : Nat) : Bool :=
  if cp < 0x80 then length != 1
  else if cp < 0x800 then length != 2
  else if cp < 0x10000 then length != 3
  else false

/-- `core.hpp:137-146`, `get_sequence_1`: code point and the iterator on the last octet read. -/
def getSequence1 (it : List Nat) : UB (Option (Nat × List Nat)) :=
  if it ≠ [] then do let b ← deref it; return some (mask8 b, it) else return none

/-- `core.hpp:148-171`, `get_sequence_2`. -/
def getSequence2 (it : List Nat) : UB (Option (Nat × List Nat)) :=
  if it ≠ [] then do
    let b0 ← deref it
    let it := it.tail
    if it ≠ [] then do
      let b1 ← deref it
      if isTrail b1 then return some (((mask8 b0 <<< 6) &&& 0x7ff) + (b1 &&& 0x3f), it)
      else return none
    else return none
  else return none

/-- `core.hpp:173-205`, `get_sequence_3`. -/
def getSequence3 (it : List Nat) : UB (Option (Nat × List Nat)) :=
  if it ≠ [] then do
    let b0 ← deref it
    let it := it.tail
    if it ≠ [] then do
      let b1 ← deref it
      if isTrail b1 then
        let cp := ((mask8 b0 <<< 12) &&& 0xffff) + ((mask8 b1 <<< 6) &&& 0xfff)
        let it := it.tail
        if it ≠ [] then do
          let b2 ← deref it
          if isTrail b2 then return some (cp + (b2 &&& 0x3f), it) else return none
        else return none
      else return none
    else return none
  else return none

/-- `core.hpp:207-248`, `get_sequence_4`. -/
def getSequence4 (it : List Nat) : UB (Option (Nat × List Nat)) :=
  if it ≠ [] then do
    let b0 ← deref it
    let it := it.tail
    if it ≠ [] then do
      let b1 ← deref it
      if isTrail b1 then
        let cp := ((mask8 b0 <<< 18) &&& 0x1fffff) + ((mask8 b1 <<< 12) &&& 0x3ffff)
        let it := it.tail
        if it ≠ [] then do
          let b2 ← deref it
          if isTrail b2 then
            let cp := cp + ((mask8 b2 <<< 6) &&& 0xfff)
            let it := it.tail
            if it ≠ [] then do
              let b3 ← deref it
              if isTrail b3 then return some (cp + (b3 &&& 0x3f), it) else return none
            else return none
          else return none
        else return none
      else return none
    else return none
  else return none

/-- The `switch` of `core.hpp:265-279`. -/
def getSequence (length : Nat) (it : List Nat) : UB (Option (Nat × List Nat)) :=
  match length with
  | 1 => getSequence1 it
  | 2 => getSequence2 it
  | 3 => getSequence3 it
  | 4 => getSequence4 it
  | _ => return none

/-- `core.hpp:250-301`, `validate_next` + `checked.hpp:133-151`, `next`: code point and advanced iterator,
or an exception (`some none`). -/
def checkedNext (it : List Nat) : UB (Option (Nat × List Nat)) := do
  let lead ← deref it
  let length := sequenceLength lead
  if length = 0 then return none
  else do
    match ← getSequence length it with
    | none => return none
    | some (cp, it) =>
      if isCodePointValid cp then
        if !isOverlong cp length then return some (cp, it.tail) else return none
      else return none

/-- `checked.hpp:189-197`, `distance(first, last)`, with an iteration bound. -/
def utf8Distance : Nat → List Nat → UB (Option Nat)
  | _, [] => return some 0
  | 0, _ :: _ => none
  | fuel + 1, it@(_ :: _) => do
    match ← checkedNext it with
    | none => return none
    | some (_, it) => do
      match ← utf8Distance fuel it with
      | none => return none
      | some d => return some (d + 1)

/-- `unchecked.hpp:61-89`, `unchecked::next`. -/
def uncheckedNext (it : List Nat) : UB (Nat × List Nat) := do
  let b0 ← deref it
  match sequenceLength b0 with
  | 2 => do
    let it := it.tail
    let b1 ← deref it
    return (((mask8 b0 <<< 6) &&& 0x7ff) + (b1 &&& 0x3f), it.tail)
  | 3 => do
    let it := it.tail
    let b1 ← deref it
    let it := it.tail
    let b2 ← deref it
    return (((mask8 b0 <<< 12) &&& 0xffff) + ((mask8 b1 <<< 6) &&& 0xfff) + (b2 &&& 0x3f), it.tail)
  | 4 => do
    let it := it.tail
    let b1 ← deref it
    let it := it.tail
    let b2 ← deref it
    let it := it.tail
    let b3 ← deref it
    return (((mask8 b0 <<< 18) &&& 0x1fffff) + ((mask8 b1 <<< 12) &&& 0x3ffff) + ((mask8 b2 <<< 6) &&& 0xfff) +
      (b3 &&& 0x3f), it.tail)
  | _ => return (mask8 b0, it.tail)

/-- `StringUtils.cpp:42-59`, `doUcs4FromUtf8`: decode `chars` code points (the result buffer has exactly the
needed size `chars + 1`; the terminator is not part of the list). -/
def doUcs4FromUtf8 (it : List Nat) : Nat → UB (List Nat)
  | 0 => return []
  | chars + 1 => do
    let (cp, it) ← uncheckedNext it
    let rest ← doUcs4FromUtf8 it chars
    return cp :: rest

/-- `StringUtils.cpp:61-69`, `ucs4FromUtf8(original, byteCount)`; `some none` = null pointer returned. -/
def ucs4FromUtf8 (bytes : List Nat) : UB (Option (List Nat)) := do
  match ← utf8Distance bytes.length bytes with
  | none => return none
  | some chars => do
    let r ← doUcs4FromUtf8 bytes chars
    return some r

/-- `StringUtils.cpp:71-85`, `ucs4FromUtf8(original, byteCount, maxChars)`. -/
def ucs4FromUtf8Max (bytes : List Nat) (maxChars : Nat) : UB (Option (List Nat)) :=
  if maxChars * 6 + 1 < bytes.length then do
    let r ← doUcs4FromUtf8 bytes maxChars
    return some r
  else do
    match ← utf8Distance bytes.length bytes with
    | none => return none
    | some chars => do
      let r ← doUcs4FromUtf8 bytes (min chars maxChars)
      return some r

/-- `static_cast<uint8_t>`. -/
def u8 (n : Nat) : Nat := n % 256

/-- `checked.hpp:107-131`, `append`: the octets written, or an exception. -/
def utf8Append (cp : Nat) : Option (List Nat) :=
  if !isCodePointValid cp then none
  else if cp < 0x80 then some [u8 cp]
  else if cp < 0x800 then some [u8 ((cp >>> 6) ||| 0xc0), u8 ((cp &&& 0x3f) ||| 0x80)]
  else if cp < 0x10000 then
    some [u8 ((cp >>> 12) ||| 0xe0), u8 (((cp >>> 6) &&& 0x3f) ||| 0x80), u8 ((cp &&& 0x3f) ||| 0x80)]
  else
    some [u8 ((cp >>> 18) ||| 0xf0), u8 (((cp >>> 12) &&& 0x3f) ||| 0x80), u8 (((cp >>> 6) &&& 0x3f) ||| 0x80),
      u8 ((cp &&& 0x3f) ||| 0x80)]

/-- `StringUtils.cpp:103-107`: the encoding loop with output so far `out` in a buffer of `cap` octets. -/
def utf8Loop (cap : Nat) : List Nat → List Nat → UB (Option (List Nat))
  | [], out => if out.length + 1 ≤ cap then return some out else ub
  | cp :: rest, out =>
    match utf8Append cp with
    | none => return none
    | some bs => if out.length + bs.length ≤ cap then utf8Loop cap rest (out ++ bs) else ub

/-- `StringUtils.cpp:91-111`, `utf8FromUcs4(original, wlen)`; `some none` = null pointer returned. -/
def utf8FromUcs4 (word : List Nat) : UB (Option (List Nat)) := utf8Loop (word.length * 6 + 1) word []

end Verif
