import Verif.Model.SpellUtils
/-!
# `morphology/Analysis.cpp`: the attribute map of a morphological analysis

Simplifications: a value is the contents of its string together with the information whether the string was allocated
with `new[]` (`heap`) or is a string constant; `delete[]` of a string constant is undefined behaviour. The pointers given
to `addAttribute` are fresh (each is owned by one analysis only), as at all call sites. `keys` holds the strings
themselves instead of pointers to them; the terminating null pointer of the array is left out.
-/

namespace Verif

/-- `Analysis.hpp:44-66`, `enum class Key`. -/
inductive AKey where
  | baseform | cls | comparison | focus | fstoutput | kysymysliite | vapaaJalkiosa | mood | negative | number
  | participle | person | possessive | geographical | requireVerb | sijamuoto | structure_ | tense | weight
  | wordbases | wordids
  deriving DecidableEq, Repr

/-- `Analysis.hpp:44-66`: the numerical values of the keys, by which `std::map` orders them. -/
def AKey.num : AKey → Nat
  | .baseform => 0 | .cls => 1 | .comparison => 2 | .focus => 3 | .fstoutput => 4 | .kysymysliite => 5
  | .vapaaJalkiosa => 6 | .mood => 7 | .negative => 8 | .number => 9 | .participle => 10 | .person => 11
  | .possessive => 12 | .geographical => 13 | .requireVerb => 14 | .sijamuoto => 15 | .structure_ => 16
  | .tense => 17 | .weight => 18 | .wordbases => 19 | .wordids => 20

/-- `Analysis.cpp:35-57`, `KEY_TO_STRING`. -/
def keyToString : List (List Nat) :=
  [lit "BASEFORM", lit "CLASS", lit "COMPARISON", lit "FOCUS", lit "FSTOUTPUT", lit "KYSYMYSLIITE",
   lit "MALAGA_VAPAA_JALKIOSA", lit "MOOD", lit "NEGATIVE", lit "NUMBER", lit "PARTICIPLE", lit "PERSON",
   lit "POSSESSIVE", lit "POSSIBLE_GEOGRAPHICAL_NAME", lit "REQUIRE_FOLLOWING_VERB", lit "SIJAMUOTO",
   lit "STRUCTURE", lit "TENSE", lit "WEIGHT", lit "WORDBASES", lit "WORDIDS"]

/-- `Analysis.cpp:59-81`, `STRING_TO_KEY`. -/
def stringToKey : List (List Nat × AKey) :=
  [(lit "BASEFORM", .baseform), (lit "CLASS", .cls), (lit "COMPARISON", .comparison), (lit "FOCUS", .focus),
   (lit "FSTOUTPUT", .fstoutput), (lit "KYSYMYSLIITE", .kysymysliite),
   (lit "MALAGA_VAPAA_JALKIOSA", .vapaaJalkiosa), (lit "MOOD", .mood), (lit "NEGATIVE", .negative),
   (lit "NUMBER", .number), (lit "PARTICIPLE", .participle), (lit "PERSON", .person),
   (lit "POSSESSIVE", .possessive), (lit "POSSIBLE_GEOGRAPHICAL_NAME", .geographical),
   (lit "REQUIRE_FOLLOWING_VERB", .requireVerb), (lit "SIJAMUOTO", .sijamuoto), (lit "STRUCTURE", .structure_),
   (lit "TENSE", .tense), (lit "WEIGHT", .weight), (lit "WORDBASES", .wordbases), (lit "WORDIDS", .wordids)]

/-- A stored value; `heap` tells whether the string was allocated with `new[]`. -/
structure AVal where
  str : List Wc
  heap : Bool
  deriving DecidableEq, Repr

/-- `Analysis.hpp:120-122`: the members of an analysis. `attributes` is the `std::map` as the list of its entries in
iteration order, `consts` the keys whose bit is set in `constAttributes`. -/
structure Ana where
  attributes : List (AKey × AVal) := []
  consts : List AKey := []
  keys : Option (List (List Nat)) := none
  deriving DecidableEq, Repr

/-- `std::map::insert`: the entry goes to its place in key order; an existing entry is kept. -/
def mapInsert (k : AKey) (v : AVal) : List (AKey × AVal) → List (AKey × AVal)
  | [] => [(k, v)]
  | (k', v') :: r =>
    if k = k' then (k', v') :: r
    else if k.num < k'.num then (k, v) :: (k', v') :: r
    else (k', v') :: mapInsert k v r

/-- `Analysis.cpp:97-99`; `s` is the string whose ownership is passed. -/
def Ana.add (a : Ana) (k : AKey) (s : List Wc) : Ana :=
  { a with attributes := mapInsert k ⟨s, true⟩ a.attributes }

/-- `Analysis.cpp:101-104` -/
def Ana.addConst (a : Ana) (k : AKey) (s : List Wc) : Ana :=
  { a with attributes := mapInsert k ⟨s, false⟩ a.attributes,
           consts := if k ∈ a.consts then a.consts else k :: a.consts }

/-- `delete[] value`: only for strings from `new[]`. -/
def deleteVal (v : AVal) : UB Unit := if v.heap then some () else ub

/-- `Analysis.cpp:106-117` -/
def Ana.remove (a : Ana) (k : AKey) : UB Ana :=
  match a.attributes.lookup k with
  | none => some a
  | some v =>
    if k ∈ a.consts then
      some { a with attributes := a.attributes.filter (·.1 ≠ k), consts := a.consts.filter (· ≠ k) }
    else do
      deleteVal v
      return { a with attributes := a.attributes.filter (·.1 ≠ k) }

/-- `Analysis.cpp:131-140`; `none` is the null pointer. -/
def Ana.getValue (a : Ana) (k : AKey) : Option (List Wc) := (a.attributes.lookup k).map AVal.str

/-- `Analysis.cpp:142-150` -/
def Ana.getValueS (a : Ana) (name : List Nat) : Option (List Wc) :=
  match stringToKey.lookup name with
  | none => none
  | some k => a.getValue k

/-- `Analysis.cpp:123-129` -/
def Ana.internalKeys (a : Ana) : List AKey := a.attributes.map (·.1)

/-- `Analysis.cpp:160-164`: the loop of `seal`. -/
def sealLoop : List (AKey × AVal) → UB (List (List Nat))
  | [] => some []
  | (k, _) :: r => do
    let s ← rd keyToString k.num
    let t ← sealLoop r
    return s :: t

/-- `Analysis.cpp:157-166` -/
def Ana.seal (a : Ana) : UB Ana := do
  let ks ← sealLoop a.attributes
  return { a with keys := some ks }

/-- `Analysis.cpp:88-94`: the loop of the destructor. -/
def destroyLoop (consts : List AKey) : List (AKey × AVal) → UB Unit
  | [] => some ()
  | (k, v) :: r => do
    if k ∈ consts then destroyLoop consts r
    else do
      deleteVal v
      destroyLoop consts r

/-- `Analysis.cpp:86-95`, the destructor. -/
def Ana.destroy (a : Ana) : UB Unit := destroyLoop a.consts a.attributes

/-- The operations by which an analyser builds an analysis. -/
inductive AOp where
  | add (k : AKey) (s : List Wc)
  | addConst (k : AKey) (s : List Wc)
  | remove (k : AKey)
  deriving DecidableEq, Repr

/-- One operation. -/
def Ana.step (a : Ana) : AOp → UB Ana
  | .add k s => some (a.add k s)
  | .addConst k s => some (a.addConst k s)
  | .remove k => a.remove k

/-- A sequence of operations. -/
def Ana.run (a : Ana) : List AOp → UB Ana
  | [] => some a
  | op :: r => do
    let a ← a.step op
    a.run r

/-- `interface.cpp:74-78` and `98-108` up to the conversion to UTF-8: `voikko_mor_analysis_value_ucs4`. -/
def analysisValue (a : Ana) (name : List Nat) : Option (List Wc) := a.getValueS name

/-- `interface.cpp:69-72`, `voikko_mor_analysis_keys`. -/
def analysisKeys (a : Ana) : Option (List (List Nat)) := a.keys

end Verif
