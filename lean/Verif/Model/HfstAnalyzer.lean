import Verif.Model.VfstAnalyzer
/-!
# `morphology/HfstAnalyzer.cpp`, `hyphenator/HfstHyphenator.cpp`: analysis and hyphenation with an HFST dictionary

The transducer of the HFST library is a parameter: the outputs (bytes) that it has for a string in UTF-8, in the order in which they
leave its queue. Weights are not used by the analyser. `terminate` does nothing and is left out.
-/

namespace Verif

/-- `std::string::find` with the comparison to `npos`: the pattern occurs in the string. -/
def stdContains (pattern : List Nat) : List Nat → Bool
  | [] => pattern.isPrefixOf []
  | c :: s => pattern.isPrefixOf (c :: s) || stdContains pattern s

/-- `HfstAnalyzer.cpp:43-50`: the member `t` after the constructor. It is not initialised (`none`) if the path contains ".zhfst". A
file that the HFST library does not load is left out. -/
def hfstTransducer (path : List Nat) (transducer : List Nat → List (List Nat)) : Option (List Nat → List (List Nat)) :=
  if stdContains (lit ".zhfst") path then none else some transducer

/-- `std::string::find("+")`; `none` is `npos`. -/
def hfstPlus (s : List Nat) : Option Nat := s.findIdx? (· == 0x2B)

/-- `std::string::substr`. The exception for a position after the end is not caught in the library; it is treated like undefined
behaviour. -/
def stdSubstr (s : List Nat) (pos count : Nat) : UB (List Nat) :=
  if s.length < pos then ub else some ((s.drop pos).take count)

/-- `StringUtils::ucs4FromUtf8(s.c_str())`. If this is not UTF-8, the null pointer is stored as the value of an attribute; in the
model this is treated like undefined behaviour. -/
def hfstText (s : List Nat) : UB (List Wc) := do
  match ← ucs4FromUtf8 (s.takeWhile (· ≠ 0)) with
  | none => ub
  | some w => return w

/-- `HfstAnalyzer.cpp:80-87`: one analysis. `find` gives the largest position if there is no "+" (line 81 throws then). -/
def hfstAnalysis (full : Bool) (analysis : List Nat) : UB Ana :=
  match hfstPlus analysis with
  | none => ub
  | some p => do
    let tags ← stdSubstr analysis p (analysis.length - 1)
    let a : Ana := {}
    if full then do
      let base ← stdSubstr analysis 0 p
      let base ← hfstText base
      let tags ← hfstText tags
      return (a.add .baseform base).add .fstoutput tags
    else do
      let tags ← hfstText tags
      return a.add .fstoutput tags

/-- `HfstAnalyzer.cpp:78-90`: the loop over the queue. -/
def hfstAnalyses (full : Bool) : List (List Nat) → UB (List Ana)
  | [] => return []
  | x :: rest => do
    let a ← hfstAnalysis full x
    let l ← hfstAnalyses full rest
    return a :: l

/-- `HfstAnalyzer.cpp:62-93`, `analyze` for UTF-8. `word` is the string up to its terminator. -/
def hfstAnalyzeBytes (t : Option (List Nat → List (List Nat))) (word : List Nat) (full : Bool) : UB (List Ana) :=
  if word.length > maxWordChars then return []
  else do
    let transducer ← t
    hfstAnalyses full (transducer word)

/-- `HfstAnalyzer.cpp:52-60`, `analyze`. `word` is the memory at the pointer. If the word cannot be encoded, `strlen` (line 64) gets
a null pointer. The analyser has no state. -/
def hfstAnalyze (t : Option (List Nat → List (List Nat))) (s : Unit) (word : List Wc) (wlen : Nat) (full : Bool) : UB (List Ana × Unit) :=
  if wlen > maxWordChars then return ([], s)
  else if word.length < wlen then ub
  else do
    match ← utf8FromUcs4 (word.take wlen) with
    | none => ub
    | some bytes => do
      let l ← hfstAnalyzeBytes t (bytes.takeWhile (· ≠ 0)) full
      return (l, s)

/-- `HfstHyphenator.cpp:43-61`, `hyphenate`, with `hyphenator/interface.cpp:38-49` around it. The result is the memory at the pointer,
`none` for the null pointer. `junk n` is the contents of newly allocated memory of `n` bytes: nothing is written to it. -/
def hfstHyphenate (junk : Nat → List Nat) (word : List Wc) : UB (Option (List Nat)) :=
  if word.length > maxWordChars then return none
  else do
    match ← utf8FromUcs4 word with
    | none => ub
    | some bytes =>
      let bytes := bytes.takeWhile (· ≠ 0)
      if bytes.length > maxWordChars then return none
      else return some (junk (bytes.length + 1))

end Verif
