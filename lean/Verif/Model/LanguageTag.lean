import Verif.Model.SpellUtils
/-!
# `setup/LanguageTag.cpp`: language tags

Strings are lists of bytes.
-/

namespace Verif

/-- `std::string::find`: position of the first occurrence of `pat`. -/
def findSub (pat : List Nat) : List Nat → Option Nat
  | [] => if pat = [] then some 0 else none
  | c :: s => if pat.isPrefixOf (c :: s) then some 0 else (findSub pat s).map (· + 1)

/-- `std::string::rfind`: position of the last occurrence of `pat`. -/
def rfindSub (pat : List Nat) : List Nat → Option Nat
  | [] => if pat = [] then some 0 else none
  | c :: s =>
    match rfindSub pat s with
    | some k => some (k + 1)
    | none => if pat.isPrefixOf (c :: s) then some 0 else none

/-- `LanguageTag.cpp:47-54`, `lowercaseTagPart`. -/
def lowercaseTagPart (s : List Nat) : List Nat := s.map fun c => if 65 ≤ c ∧ c ≤ 90 then c + 32 else c

/-- `LanguageTag.hpp:59-61`, members of `LanguageTag`; the defaults are those of the constructor
(`LanguageTag.cpp:35-39`). -/
structure LanguageTag where
  language : List Nat := []
  script : List Nat := []
  privateUse : List Nat := []
  deriving DecidableEq, Repr

/-- `LanguageTag.cpp:60-69`, `setLanguage`. -/
def LanguageTag.setLanguage (t : LanguageTag) (s : List Nat) : LanguageTag :=
  match findSub (lit "_") s with
  | some p => { t with language := lowercaseTagPart (s.take p) }
  | none => { t with language := lowercaseTagPart s }

/-- `LanguageTag.cpp:75-79`, `setScript`. -/
def LanguageTag.setScript (t : LanguageTag) (s : List Nat) : LanguageTag :=
  if s.length = 4 then { t with script := s } else t

/-- `LanguageTag.cpp:87-90`: the loop that erases hyphens; `k` is at least the number of iterations. -/
def eraseHyphens : Nat → List Nat → List Nat
  | 0, s => s
  | k + 1, s =>
    match findSub (lit "-") s with
    | some p => eraseHyphens k (s.eraseIdx p)
    | none => s

/-- `LanguageTag.cpp:85-92`, `setPrivateUse`. -/
def LanguageTag.setPrivateUse (t : LanguageTag) (s : List Nat) : LanguageTag :=
  { t with privateUse := lowercaseTagPart (eraseHyphens s.length s) }

/-- `LanguageTag.cpp:94-105`, `setLanguageAndScript`. -/
def LanguageTag.setLanguageAndScript (t : LanguageTag) (s : List Nat) : LanguageTag :=
  match findSub (lit "-") s with
  | some p => (t.setLanguage (s.take p)).setScript (s.drop (p + 1))
  | none => t.setLanguage s

/-- `LanguageTag.cpp:107-116`, `setBcp47`. -/
def LanguageTag.setBcp47 (t : LanguageTag) (bcp : List Nat) : LanguageTag :=
  match findSub (lit "-x-") bcp with
  | some p => (t.setLanguageAndScript (bcp.take p)).setPrivateUse (bcp.drop (p + 3))
  | none => t.setLanguageAndScript bcp

/-- `LanguageTag.cpp:118-129`, `toBcp47`. -/
def LanguageTag.toBcp47 (t : LanguageTag) : List Nat :=
  let tag := t.language
  let tag := if t.script ≠ [] then tag ++ lit "-" ++ t.script else tag
  if t.privateUse ≠ [] then tag ++ lit "-x-" ++ t.privateUse else tag

end Verif
