import Verif.Model.Fst
import Verif.Model.GrammarChecks
/-!
# The autocorrection transducer
-/

namespace Verif

/-- `VfstAutocorrectCheck.cpp:128-130`: `prepare` and one call of `nextPrefix`. All reasons for the result `false` are alike. -/
def fstLookup (f : Fst) : Lookup Conf where
  find c w := do
    let (_, c) ← prepare f c w
    let (r, c) ← nextPrefix f c bufferSize
    match r with
    | .found out n => return (c, some (out, n))
    | _ => return (c, none)

/-- `VfstAutocorrectCheck.cpp:44`: the configuration of the constructor. -/
def fstLookupInit (f : Fst) : Conf := Conf.new f.featureCount bufferSize

end Verif
