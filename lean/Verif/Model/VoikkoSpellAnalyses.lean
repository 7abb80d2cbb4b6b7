import Verif.Model.FinnishFst
import Verif.Model.VfstAnalyzer
/-!
# `tools/voikkospell.cpp`, `printMorphology`: what it asks of the library

The keys are narrow strings with ASCII characters; written to a wide stream they are the same characters.
-/

namespace Verif

/-- `voikkospell.cpp:76-82`: the keys of an analysis with their values. A null pointer instead of a value cannot be written to a stream. -/
def shownValues (a : Ana) : List (List Nat) → UB (List (List Wc × List Wc))
  | [] => some []
  | k :: r =>
    match analysisValue a k with
    | none => ub
    | some v => do
      let t ← shownValues a r
      return (k, v) :: t

/-- `voikkospell.cpp:75-82`: an analysis. The list of keys is a null pointer before the analysis is sealed. -/
def shownAttributes (a : Ana) : UB (List (List Wc × List Wc)) :=
  match analysisKeys a with
  | none => ub
  | some ks => shownValues a ks

/-- `voikkospell.cpp:73-83`: the analyses. -/
def shownAnalyses : List Ana → UB (List (List (List Wc × List Wc)))
  | [] => some []
  | a :: l => do
    let x ← shownAttributes a
    let y ← shownAnalyses l
    return x :: y

/-- `voikkospell.cpp:70-85`, `printMorphology`, up to the writing: the analyses of the Finnish analyser with the transducer `f`, which are freed at the end. -/
def toolAnalyses (f : Fst) (c : Conf) (word : List Wc) : UB (List (List (List Wc × List Wc)) × Conf) := do
  let (m, c) ← analyzeWordUcs4 (fun c w n full => finnishAnalyzeFst f c (w.take n) full) c word
  let r ← shownAnalyses m
  freeAnalyses m
  return (r, c)

end Verif
