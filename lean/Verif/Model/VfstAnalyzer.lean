import Verif.Model.VfstSpell
import Verif.Model.Analysis
import Verif.Model.Utf8
/-!
# `morphology/VfstAnalyzer.cpp`, `morphology/interface.cpp`: analysis with a weighted transducer and the analysis functions

The analyser keeps its configuration from call to call; the output buffer is written before it is read. `analyze` for UTF-8 strings
(`VfstAnalyzer.cpp:62-67`) is not called by the library and is left out.
-/

namespace Verif

/-- `VfstAnalyzer.cpp:52`, `MAX_ANALYSIS_COUNT`. -/
def vfstMaxAnalysisCount : Nat := 100

/-- `VfstAnalyzer.cpp:87-94`: one analysis. `prob` is the text of the probability for a weight (lines 69-71 and 91-93:
`exp(-0.01 * weight)` with nine digits). `out` is the contents of the output buffer. -/
def vfstAnalysis (prob : Int → List Wc) (full : Bool) (out : List Wc) (weight : Int) : Ana :=
  let a : Ana := {}
  let a := if full then a.add .fstoutput (out.takeWhile (· ≠ 0)) else a
  a.add .weight (prob weight)

/-- `VfstAnalyzer.cpp:86-96`: the loop. `count` is `analysisCount`; the first argument limits the number of iterations. -/
def vfstAnalysisLoop (f : WFst) (prob : Int → List Wc) (full : Bool) : Nat → Nat → WConf → UB (List Ana × WConf)
  | 0, _, _ => ub
  | n + 1, count, c =>
    if count + 1 < vfstMaxAnalysisCount then do
      let (r, _, c) ← wnext f vfstBufferSize c
      match r with
      | .found out weight => do
        let (rest, c) ← vfstAnalysisLoop f prob full n (count + 1) c
        return (vfstAnalysis prob full out weight :: rest, c)
      | _ => return ([], c)
    else return ([], c)

/-- `VfstAnalyzer.cpp:73-101`, `analyze`. `word` is the memory at the pointer; `wlen` characters of it are read. -/
def vfstAnalyze (f : WFst) (prob : Int → List Wc) (c : WConf) (word : List Wc) (wlen : Nat) (full : Bool) :
    UB (List Ana × WConf) :=
  if wlen > maxWordChars then return ([], c)
  else if word.length < wlen then ub
  else do
    let (known, c) ← wprepare f c (setCase .allLower (word.take wlen))
    if known then vfstAnalysisLoop f prob full vfstMaxAnalysisCount 0 c
    else return ([], c)

/-- `interface.cpp:48-51`: the analyses are sealed. -/
def sealEach : List Ana → UB (List Ana)
  | [] => return []
  | a :: l => do
    let a ← a.seal
    let l ← sealEach l
    return a :: l

/-- `interface.cpp:41-56`, `voikkoAnalyzeWordUcs4`. `word` is the string up to its terminator, `analyze` the function of the
analyser for the string with its terminator, and `σ` its state. The array is a list without the terminating null pointer. -/
def analyzeWordUcs4 {σ : Type} (analyze : σ → List Wc → Nat → Bool → UB (List Ana × σ)) (s : σ) (word : List Wc) :
    UB (List Ana × σ) := do
  let (l, s) ← analyze s (word ++ [0]) word.length true
  let l ← sealEach l
  return (l, s)

/-- `interface.cpp:58-66`, `voikko_free_mor_analysis`. -/
def freeAnalyses : List Ana → UB Unit
  | [] => return ()
  | a :: l => do
    a.destroy
    freeAnalyses l

/-- `interface.cpp:80-96`, `voikkoAnalyzeWordCstr`. `word` is the string up to its terminator, or `none` for the null pointer;
`none` as the result is the null pointer. The converted string ends at its first null character (`wcslen` in line 44). -/
def analyzeWordCstr {σ : Type} (analyze : σ → List Wc → Nat → Bool → UB (List Ana × σ)) (s : σ) (word : Option (List Nat)) :
    UB (Option (List Ana) × σ) :=
  match word with
  | none => return (none, s)
  | some [] => return (none, s)
  | some bytes =>
    if bytes.length > maxWordChars then return (none, s)
    else do
      match ← ucs4FromUtf8 bytes with
      | none => return (none, s)
      | some w => do
        let (l, s) ← analyzeWordUcs4 analyze s (w.takeWhile (· ≠ 0))
        return (some l, s)

end Verif
