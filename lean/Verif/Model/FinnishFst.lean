import Verif.Model.Fst
import Verif.Model.FinnishVfst
/-!
# `morphology/FinnishVfstAnalyzer.cpp`: the Finnish analyser with its transducer

The analyser keeps the configuration of its transducer from call to call. The output buffer is written before it is read.
-/

namespace Verif

/-- `FinnishVfstAnalyzer.cpp:48`, `BUFFER_SIZE`. -/
def finnishBufferSize : Nat := 2000

/-- `FinnishVfstAnalyzer.cpp:49`, `MAX_ANALYSIS_COUNT`. -/
def finnishMaxAnalysisCount : Nat := 100

/-- `FinnishVfstAnalyzer.cpp:54`: the configuration of the constructor. -/
def finnishInit (f : Fst) : Conf := Conf.new f.featureCount finnishBufferSize

/-- `FinnishVfstAnalyzer.cpp:1061-1107`: the loop. `count` is `analysisCount`; the first of the numbers limits the number of iterations. All
reasons for the result `false` of `next` are alike. -/
def finnishLoop (f : Fst) (wlen : Nat) (full : Bool) : Nat → Nat → Conf → UB (List Ana × Conf)
  | 0, _, _ => ub
  | n + 1, count, c =>
    if count + 1 < finnishMaxAnalysisCount then do
      let (r, c) ← next f c finnishBufferSize
      match r with
      | .found out _ => do
        let l ← analyzeOutput wlen full out
        let (rest, c) ← finnishLoop f wlen full n (count + 1) c
        return (l ++ rest, c)
      | _ => return ([], c)
    else return ([], c)

/-- `FinnishVfstAnalyzer.cpp:1050-1112`, `analyze`. -/
def finnishAnalyzeFst (f : Fst) (c : Conf) (word : List Wc) (full : Bool) : UB (List Ana × Conf) :=
  if word.length > 255 then return ([], c)
  else do
    let (known, c) ← prepare f c (setCase .allLower word)
    if known then finnishLoop f word.length full finnishMaxAnalysisCount 0 c
    else return ([], c)

end Verif
