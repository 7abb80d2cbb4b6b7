import Verif.Model.Basic
/-!
# Word normalisation: `character/charset.cpp:82-276`

`word` is the list of the `len` characters given. The output buffer is an append-only list with an explicit
capacity; writing more than the capacity is undefined behaviour.
-/

namespace Verif

/-- `charset.cpp:85-158`, `CONV_2TO1` (67 triples: base, combining mark, precomposed). -/
def conv2to1 : List (Wc × Wc × Wc) :=
  [(0x0041, 0x0300, 0x00C0), (0x0041, 0x0301, 0x00C1), (0x0041, 0x0302, 0x00C2), (0x0041, 0x0303, 0x00C3),
   (0x0041, 0x0308, 0x00C4), (0x0041, 0x030A, 0x00C5), (0x0043, 0x0327, 0x00C7), (0x0045, 0x0300, 0x00C8),
   (0x0045, 0x0301, 0x00C9), (0x0045, 0x0302, 0x00CA), (0x0045, 0x0308, 0x00CB), (0x0049, 0x0300, 0x00CC),
   (0x0049, 0x0301, 0x00CD), (0x0049, 0x0302, 0x00CE), (0x0049, 0x0308, 0x00CF), (0x004E, 0x0303, 0x00D1),
   (0x004F, 0x0300, 0x00D2), (0x004F, 0x0301, 0x00D3), (0x004F, 0x0302, 0x00D4), (0x004F, 0x0303, 0x00D5),
   (0x004F, 0x0308, 0x00D6), (0x0055, 0x0300, 0x00D9), (0x0055, 0x0301, 0x00DA), (0x0055, 0x0302, 0x00DB),
   (0x0055, 0x0308, 0x00DC), (0x0059, 0x0301, 0x00DD), (0x0061, 0x0300, 0x00E0), (0x0061, 0x0301, 0x00E1),
   (0x0061, 0x0302, 0x00E2), (0x0061, 0x0303, 0x00E3), (0x0061, 0x0308, 0x00E4), (0x0061, 0x030A, 0x00E5),
   (0x0063, 0x0327, 0x00E7), (0x0065, 0x0300, 0x00E8), (0x0065, 0x0301, 0x00E9), (0x0065, 0x0302, 0x00EA),
   (0x0065, 0x0308, 0x00EB), (0x0069, 0x0300, 0x00EC), (0x0069, 0x0301, 0x00ED), (0x0069, 0x0302, 0x00EE),
   (0x0069, 0x0308, 0x00EF), (0x006E, 0x0303, 0x00F1), (0x006F, 0x0300, 0x00F2), (0x006F, 0x0301, 0x00F3),
   (0x006F, 0x0302, 0x00F4), (0x006F, 0x0303, 0x00F5), (0x006F, 0x0308, 0x00F6), (0x0075, 0x0300, 0x00F9),
   (0x0075, 0x0301, 0x00FA), (0x0075, 0x0302, 0x00FB), (0x0075, 0x0308, 0x00FC), (0x0079, 0x0301, 0x00FD),
   (0x0079, 0x0308, 0x00FF), (0x0053, 0x030C, 0x0160), (0x0073, 0x030C, 0x0161), (0x005A, 0x030C, 0x017D),
   (0x007A, 0x030C, 0x017E), (0x0418, 0x0306, 0x0419), (0x0438, 0x0306, 0x0439), (0x0415, 0x0300, 0x0400),
   (0x0435, 0x0300, 0x0450), (0x0415, 0x0308, 0x0401), (0x0435, 0x0308, 0x0451), (0x0413, 0x0301, 0x0403),
   (0x0433, 0x0301, 0x0453), (0x041E, 0x0308, 0x04E6), (0x043E, 0x0308, 0x04E7)]

/-- `charset.cpp:160-165`, `CONV_1TO1`. -/
def conv1to1 : List (Wc × Wc) := [(0x2019, 0x27), (0x2010, 0x2D), (0x2011, 0x2D)]

/-- `charset.cpp:167-175`, `CONV_1TO2`. -/
def conv1to2 : List (Wc × Wc × Wc) :=
  [(0x2103, 0xB0, 0x43), (0x2109, 0xB0, 0x46), (0xFB00, 0x66, 0x66), (0xFB01, 0x66, 0x69), (0xFB02, 0x66, 0x6C)]

/-- `charset.cpp:177-181`, `CONV_1TO3`. -/
def conv1to3 : List (Wc × Wc × Wc × Wc) := [(0xFB03, 0x66, 0x66, 0x69), (0xFB04, 0x66, 0x66, 0x6C)]

/-- The table search loops: first entry whose key matches. -/
def findPair (c d : Wc) : Option Wc :=
  (conv2to1.find? (fun e => c == e.1 && d == e.2.1)).map (·.2.2)

/-- `charset.cpp:201-238`: replacement of the single character `c` (tables 1TO1, 1TO2, 1TO3 in this order,
otherwise the character itself). -/
def convSingle (c : Wc) : List Wc :=
  match conv1to1.find? (fun e => c == e.1) with
  | some e => [e.2]
  | none =>
    match conv1to2.find? (fun e => c == e.1) with
    | some e => [e.2.1, e.2.2]
    | none =>
      match conv1to3.find? (fun e => c == e.1) with
      | some e => [e.2.1, e.2.2.1, e.2.2.2]
      | none => [c]

/-- Writing `xs` at `ptr = buffer + out.length` in a buffer of `cap` elements. -/
def emit (cap : Nat) (out xs : List Wc) : UB (List Wc) :=
  if out.length + xs.length ≤ cap then some (out ++ xs) else none

/-- `charset.cpp:187-240`: the loop at index `i` with output so far `out`. `i < len - 1` cannot wrap because
the loop is entered only with `i < len`. -/
def normaliseLoop (word : List Wc) (cap : Nat) (i : Nat) (out : List Wc) : UB (List Wc) :=
  if _h : i < word.length then do
    let c ← rd word i
    let pair ← if i < word.length - 1 then do
        let d ← rd word (i + 1)
        pure (findPair c d)
      else pure none
    match pair with
    | some e => do
      let out ← emit cap out [e]
      normaliseLoop word cap (i + 2) out
    | none => do
      let out ← emit cap out (convSingle c)
      normaliseLoop word cap (i + 1) out
  else emit cap out [0]
termination_by word.length - i

/-- `charset.cpp:184-242`, `voikko_normalise`: the NUL terminated result, given without the terminator
(which the model writes and then drops). -/
def normalise (word : List Wc) : UB (List Wc) := do
  let buf ← normaliseLoop word (word.length * 3 + 1) 0 []
  return buf.dropLast

end Verif
