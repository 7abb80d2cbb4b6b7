import Verif.Model.Hyphenator
import Verif.Model.VoikkoSpell
/-!
# `tools/voikkohyphenate.cpp`

Model of the command line program. Simplifications: the messages on the standard error stream are left out; arguments are already
processed; wide characters are written as they are, without conversion to the locale.
-/

namespace Verif

/-- Storing a character through `hyphenatedPtr` (`voikkohyphenate.cpp:57-62`): the buffer has `cap` elements, `buf` are those before the pointer. -/
def pushChar (cap : Nat) (buf : List Wc) (c : Wc) : UB (List Wc) := if buf.length < cap then some (buf ++ [c]) else ub

/-- `voikkohyphenate.cpp:55-67`: the loop. The pattern and the word are given from `resultPtr` and `wordPtr` on, with their terminators. -/
def hyphenateWordLoop (cap : Nat) (sep : Wc) : Nat → List Wc → List Wc → List Wc → UB (List Wc)
  | 0, _, _, buf => some buf
  | n + 1, res, word, buf => do
    let r ← rd res 0
    let buf ← (if r ≠ 0x20 then pushChar cap buf sep else some buf : UB (List Wc))
    let buf ← (if r ≠ 0x3D ∨ sep ≠ 0x2D then do
        let c ← rd word 0
        pushChar cap buf c
      else some buf : UB (List Wc))
    hyphenateWordLoop cap sep n (res.drop 1) (word.drop 1) buf

/-- `voikkohyphenate.cpp:42-72`, `hyphenateWord`: what is written to the standard output. -/
def hyphenateWordTool (o : HyphOpts) (an : Analyzer) (sep : Wc) (word : List Wc) : UB (List Wc) := do
  match ← hyphenateUcs4 o an word with
  | none => return []
  | some pat =>
    let cap := word.length * 2 + 1
    let buf ← hyphenateWordLoop cap sep word.length (pat ++ [0]) (word ++ [0]) []
    let buf ← pushChar cap buf 0
    return cstr buf ++ nl

/-- `voikkohyphenate.cpp:157-176`: what is written for all words. The words are read as in `voikkospell.cpp` (`inputWords`). -/
def hyphenateTool (o : HyphOpts) (an : Analyzer) (sep : Wc) : List (List Wc) → UB (List Wc)
  | [] => some []
  | w :: r => do
    let l ← hyphenateWordTool o an sep w
    let rest ← hyphenateTool o an sep r
    return l ++ rest

end Verif
