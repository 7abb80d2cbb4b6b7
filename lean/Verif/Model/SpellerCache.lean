import Verif.Model.Basic
/-!
# `spellchecker/SpellerCache.cpp`: the cache of accepted words
-/

namespace Verif

/-- `spellchecker/Speller.hpp:42`, `enum spellresult`. -/
inductive SpellRes where
  | failed | ok | capFirst | capError
  deriving DecidableEq, Repr

/-- Result of an `int` computation with mathematically non-negative value `n`: overflow is undefined. -/
def int32 (n : Nat) : UB Nat := if n < 2 ^ 31 then some n else none

/-- `SpellerCache.cpp:49`, `VOIKKO_HASH_ORDERS`. -/
def hashOrders : List Nat := [0, 3, 5, 6, 7, 7, 7, 7, 7, 7, 7]
/-- `SpellerCache.cpp:50`, `VOIKKO_CACHE_OFFSETS`. -/
def cacheOffsets : List Nat := [0, 0, 16, 80, 272, 784, 1424, 2192, 3088, 4112, 5264]
/-- `SpellerCache.cpp:51`, `VOIKKO_META_OFFSETS`. -/
def metaOffsets : List Nat := [0, 0, 16, 48, 112, 240, 368, 496, 624, 752, 880]

/-- `SpellerCache.hpp:40-75`: the object. `words` has `6544 << sizeParam` elements, `results` has
`1008 << sizeParam`. -/
structure SpellerCache where
  sizeParam : Nat
  words : List Wc
  results : List Nat
  deriving DecidableEq, Repr

/-- `SpellerCache.cpp:68-73`, constructor. `6544 << sizeParam` is an `int` computation. -/
def newCache (sizeParam : Nat) : UB SpellerCache := do
  let n ← int32 (6544 * 2 ^ sizeParam)
  return { sizeParam, words := List.replicate n 0, results := List.replicate (1008 * 2 ^ sizeParam) 0 }

/-- `SpellerCache.cpp:60-66`, `voikko_hash`: `hash` so far, remaining characters. -/
def voikkoHashLoop (m : Nat) : Nat → List Wc → UB Nat
  | hash, [] => return hash
  | hash, c :: cs => do
    let x ← int32 (hash * 37 + c)
    voikkoHashLoop m (x % m) cs

/-- `SpellerCache.cpp:60-66`, `voikko_hash`. `1 << order` is an `int` computation. -/
def voikkoHash (word : List Wc) (order : Nat) : UB Nat := do
  let m ← int32 (2 ^ order)
  voikkoHashLoop m 0 word

/-- `SpellerCache.cpp:88,94,106`: `hashCode`. -/
def cacheHash (sizeParam : Nat) (word : List Wc) : UB Nat := do
  let order ← rd hashOrders word.length
  voikkoHash word (order + sizeParam)

/-- `SpellerCache.cpp:89,107`: `cacheOffset`. -/
def cacheOffset (sizeParam : Nat) (word : List Wc) : UB Nat := do
  let hashCode ← cacheHash sizeParam word
  let base ← rd cacheOffsets word.length
  int32 (base * 2 ^ sizeParam + hashCode * word.length)

/-- `SpellerCache.cpp:95,108`: `resultOffset`. -/
def resultOffset (sizeParam : Nat) (word : List Wc) : UB Nat := do
  let hashCode ← cacheHash sizeParam word
  let base ← rd metaOffsets word.length
  int32 (base * 2 ^ sizeParam + hashCode)

/-- `wcsncmp(buf + off, word, wlen) == 0` with `wlen = word.length`: stops after a common NUL. -/
def wcsncmpBuf (buf : List Wc) (off : Nat) : List Wc → UB Bool
  | [] => return true
  | c :: cs => do
    let d ← rd buf off
    if d ≠ c then return false
    else if d = 0 then return true
    else wcsncmpBuf buf (off + 1) cs

/-- Consecutive writes at `off`. -/
def wrList {α : Type} (buf : List α) (off : Nat) : List α → UB (List α)
  | [] => return buf
  | x :: xs => do
    let buf ← wr buf off x
    wrList buf (off + 1) xs

/-- `SpellerCache.cpp:84-91`, `isInCache`. -/
def SpellerCache.isInCache (c : SpellerCache) (word : List Wc) : UB Bool :=
  if word.length > 10 then return false
  else do
    let off ← cacheOffset c.sizeParam word
    wcsncmpBuf c.words off word

/-- `SpellerCache.cpp:93-101`, `getSpellResult`; `'i'` = 0x69. -/
def SpellerCache.getSpellResult (c : SpellerCache) (word : List Wc) : UB SpellRes := do
  let off ← resultOffset c.sizeParam word
  let r ← rd c.results off
  if r = 0x69 then return .capFirst else return .ok

/-- `SpellerCache.cpp:103-112`, `setSpellResult`. `wcsncpy` copies exactly `wlen` characters (the words given
contain no NUL). -/
def SpellerCache.setSpellResult (c : SpellerCache) (word : List Wc) (result : SpellRes) : UB SpellerCache :=
  if word.length > 10 || (result != .ok && result != .capFirst) then return c
  else do
    let off ← cacheOffset c.sizeParam word
    let roff ← resultOffset c.sizeParam word
    let words ← wrList c.words off word
    let results ← wr c.results roff (if result = .ok then 0x70 else 0x69)
    return { c with words, results }

end Verif
