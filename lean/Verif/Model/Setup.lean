import Verif.Model.Spell
/-!
# `setup/setup.cpp`: the handle and its options
-/

namespace Verif

/-- Settings of the hyphenator (`AnalyzerToFinnishHyphenatorAdapter.cpp:48-54`, setters 147-161).
`minLength` is a `size_t` (64 bits). -/
structure HyphOpts where
  ugly : Bool := true
  hyphenateUnknown : Bool := true
  minLength : Nat := 2
  ignoreDot : Bool := false
  deriving DecidableEq, Repr

/-- `setup.hpp:49-69`, `VoikkoHandle`, restricted to the members that options change. The integers used as
Booleans are `Bool`. `G` is the type of cached grammar errors; `gcCache` is the grammar checker's cache
(paragraph and errors, `none` = empty). The components selected by the dictionary are not part of it. -/
structure Handle (G : Type) where
  spell : SpellOpts := {}
  acceptExtraHyphens : Bool := false
  acceptTitles : Bool := false
  acceptUnfinished : Bool := false
  acceptBulleted : Bool := false
  ocr : Bool := false
  hyph : HyphOpts := {}
  spellerCache : Option SpellerCache := none
  gcCache : Option (List Wc × List G) := none

/-- `setup.cpp:163-233`, `voikkoInit`: the option part of a new handle. -/
def initHandle (G : Type) : UB (Handle G) := do
  let c ← newCache 0
  return { spellerCache := some c }

/-- `setup.cpp:54-64`, `setGrammarOption`: the grammar cache after setting an option from `old` to `new`. -/
def gcCacheAfter {G : Type} (c : Option (List Wc × List G)) (old new : Bool) : Option (List Wc × List G) :=
  if old != new then none else c

/-- `setup.cpp:66-136`, `voikkoSetBooleanOption`: new handle and return value. -/
def setBooleanOption {G : Type} (h : Handle G) (option value : Int) : Handle G × Int :=
  let v : Bool := value != 0
  if option = 0 then
    ({ h with spell := { h.spell with ignoreDot := v }, hyph := { h.hyph with ignoreDot := v } }, 1)
  else if option = 1 then ({ h with spell := { h.spell with ignoreNumbers := v } }, 1)
  else if option = 3 then ({ h with spell := { h.spell with ignoreUppercase := v } }, 1)
  else if option = 6 then ({ h with spell := { h.spell with acceptFirstUppercase := v } }, 1)
  else if option = 7 then ({ h with spell := { h.spell with acceptAllUppercase := v } }, 1)
  else if option = 4 then ({ h with hyph := { h.hyph with ugly := !v } }, 1)
  else if option = 8 then ({ h with ocr := v }, 1)
  else if option = 10 then ({ h with spell := { h.spell with ignoreNonwords := v } }, 1)
  else if option = 11 then ({ h with acceptExtraHyphens := v }, 1)
  else if option = 12 then ({ h with spell := { h.spell with acceptMissingHyphens := v } }, 1)
  else if option = 13 then
    ({ h with acceptTitles := v, gcCache := gcCacheAfter h.gcCache h.acceptTitles v }, 1)
  else if option = 14 then
    ({ h with acceptUnfinished := v, gcCache := gcCacheAfter h.gcCache h.acceptUnfinished v }, 1)
  else if option = 16 then
    ({ h with acceptBulleted := v, gcCache := gcCacheAfter h.gcCache h.acceptBulleted v }, 1)
  else if option = 15 then ({ h with hyph := { h.hyph with hyphenateUnknown := v } }, 1)
  else (h, 0)

/-- Conversion of an `int` to `size_t` (64 bits). -/
def intToSize (v : Int) : Nat := (v % (2 ^ 64)).toNat

/-- `new SpellerCache(value)` if `value >= 0`, else a null pointer. -/
def makeCache (value : Int) : UB (Option SpellerCache) :=
  if 0 ≤ value then do
    let c ← newCache value.toNat
    return some c
  else return none

/-- `setup.cpp:143-158`: the speller cache after `VOIKKO_SPELLER_CACHE_SIZE` is set to `value`. -/
def resizeCache (old : Option SpellerCache) (value : Int) : UB (Option SpellerCache) :=
  match old with
  | some c => if (c.sizeParam : Int) = value then return some c else makeCache value
  | none => makeCache value

/-- `setup.cpp:138-161`, `voikkoSetIntegerOption`. -/
def setIntegerOption {G : Type} (h : Handle G) (option value : Int) : UB (Handle G × Int) :=
  if option = 9 then return ({ h with hyph := { h.hyph with minLength := intToSize value } }, 1)
  else if option = 17 then do
    let c ← resizeCache h.spellerCache value
    return ({ h with spellerCache := c }, 1)
  else return (h, 0)

/-- `voikkoSpellUcs4` on a handle. `dict` is the speller of the dictionary; it reads
`ACCEPT_EXTRA_HYPHENS` from the handle. -/
def Handle.spellWord {G : Type} (dict : Bool → List Wc → SpellRes) (h : Handle G) (word : List Wc) :
    UB (Handle G × SpellCode) := do
  let (r, c) ← spellUcs4 (dict h.acceptExtraHyphens) h.spell h.spellerCache word
  return ({ h with spellerCache := c }, r)

end Verif
