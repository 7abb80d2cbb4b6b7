import Verif.Model.SpellerCache
import Verif.Model.Case
import Verif.Model.Normalise
import Verif.Model.Utf8
import Verif.Model.TokenizerCstr
/-!
# `spellchecker/spell.cpp`: the spelling functions of the API

The dictionary backend (`voikkoOptions->speller->spell`) is a parameter `dict : List Wc → SpellRes`; it may
depend on `ACCEPT_EXTRA_HYPHENS` (see `Model/Tweaks.lean`) but not on the other options.
-/

namespace Verif

/-- Spelling related members of `VoikkoHandle` (`setup/setup.hpp`). -/
structure SpellOpts where
  ignoreDot : Bool := false
  ignoreNumbers : Bool := false
  ignoreUppercase : Bool := false
  ignoreNonwords : Bool := true
  acceptFirstUppercase : Bool := true
  acceptAllUppercase : Bool := true
  acceptMissingHyphens : Bool := false
  deriving DecidableEq, Repr

/-- `voikko_defines.h`: results of the spelling functions. -/
inductive SpellCode where
  | failed | ok | internalError | charsetConversionFailed
  deriving DecidableEq, Repr

/-- `speller->spell(buf, len)`: the backend gets `len` characters at `buf`, which must exist. -/
def dictSpell (dict : List Wc → SpellRes) (buf : List Wc) (len : Nat) : UB SpellRes :=
  if len ≤ buf.length then return dict (buf.take len) else ub

/-- `spell.cpp:53-80`, `hyphenAwareSpell`. The temporary buffer of `len + 2` characters is the list passed to
the dictionary. -/
def hyphenAwareSpell (dict : List Wc → SpellRes) (missing : Bool) (buf : List Wc) (len : Nat) : UB SpellRes := do
  let spres ← dictSpell dict buf len
  if spres != .failed || !missing then return spres
  else if len < 2 then return .failed
  else do
    let first ← rd buf 0
    let last ← rd buf (len - 1)
    let word := buf.take len
    if first == 0x2D && last == 0x2D then return .failed
    else if first == 0x2D then return dict (word ++ [0x2D])
    else if last != 0x2D then return dict (0x2D :: word ++ [0x2D])
    else return dict (0x2D :: word)

/-- `spell.cpp:89-103`, `voikko_cached_spell`. -/
def cachedSpell (dict : List Wc → SpellRes) (missing : Bool) (cache : Option SpellerCache) (buf : List Wc)
    (len : Nat) : UB (SpellRes × Option SpellerCache) :=
  match cache with
  | none => do
    let r ← hyphenAwareSpell dict missing buf len
    return (r, none)
  | some c => do
    let hit ← c.isInCache (buf.take len)
    if hit then do
      let r ← c.getSpellResult (buf.take len)
      return (r, some c)
    else do
      let r ← hyphenAwareSpell dict missing buf len
      let c ← c.setSpellResult (buf.take len) r
      return (r, some c)

/-- `spell.cpp:166-172` / `176-179`: test of a word that needs exact capitalisation. -/
def exactOk (o : SpellOpts) (first : Wc) (sres : SpellRes) : Bool :=
  sres == .ok || (sres == .capFirst && o.acceptFirstUppercase && isUpper first)

/-- `spell.cpp:189-203` / `213-230`: the `switch (caps)`. -/
def judge (o : SpellOpts) (caps : CaseType) (sres : SpellRes) : SpellCode :=
  match caps with
  | .allLower => if sres == .ok then .ok else .failed
  | .firstUpper => if (sres == .ok && o.acceptFirstUppercase) || sres == .capFirst then .ok else .failed
  | .allUpper => if sres == .failed then .failed else .ok
  | _ => .internalError

/-- `spell.cpp:151-159`: `dot_index` (`none` = -1). `buffer` is the lower case copy. -/
def dotIndex (o : SpellOpts) (buffer : List Wc) (nchars : Nat) : UB (Option Nat) :=
  if o.ignoreDot then
    if nchars = 0 then ub
    else do
      let c ← rd buffer (nchars - 1)
      if c = 0x2E then return some (nchars - 1) else return none
  else return none

/-- `spell.cpp:162-184`: words that require exact capitalisation. -/
def spellExact (dict : List Wc → SpellRes) (o : SpellOpts) (nword buffer : List Wc) (dot : Option Nat) :
    UB SpellCode := do
  let nchars := nword.length
  let buffer ← wrList buffer 0 nword
  let b0 ← rd buffer 0
  let n0 ← rd nword 0
  let buffer ← wr buffer 0 (lower b0)
  let sres ← hyphenAwareSpell dict o.acceptMissingHyphens buffer nchars
  if exactOk o n0 sres then return .ok
  else match dot with
    | none => return .failed
    | some d => do
      let buffer ← wr buffer d 0
      let sres ← hyphenAwareSpell dict o.acceptMissingHyphens buffer (nchars - 1)
      if exactOk o n0 sres then return .ok else return .failed

/-- `spell.cpp:187-234`: words checked in lower case, through the cache. -/
def spellFolded (dict : List Wc → SpellRes) (o : SpellOpts) (caps : CaseType) (cache : Option SpellerCache)
    (nchars : Nat) (buffer : List Wc) (dot : Option Nat) : UB (SpellCode × Option SpellerCache) := do
  let realChars := match dot with | some _ => nchars - 1 | none => nchars
  let (sres, cache) ← cachedSpell dict o.acceptMissingHyphens cache buffer realChars
  let result := judge o caps sres
  if result == .ok then return (.ok, cache)
  else match dot with
    | none => return (result, cache)
    | some d => do
      let buffer ← wr buffer d 0x2E
      let (sres, cache) ← cachedSpell dict o.acceptMissingHyphens cache buffer nchars
      return (judge o caps sres, cache)

/-- `LIBVOIKKO_MAX_WORD_CHARS` -/
def maxWordChars : Nat := 255

/-- `spell.cpp:137-140`. -/
def effectiveCaps (o : SpellOpts) (caps : CaseType) : CaseType :=
  if caps == .allUpper && !o.acceptAllUppercase then .complex else caps

/-- `spell.cpp:155-157`: `buffer[dot_index] = L'\0'`. -/
def cutDot (buffer : List Wc) (dot : Option Nat) : UB (List Wc) :=
  match dot with
  | some d => wr buffer d 0
  | none => return buffer

/-- `spell.cpp:142-234`: the part of `voikkoSpellUcs4` that consults the dictionary. -/
def spellDict (dict : List Wc → SpellRes) (o : SpellOpts) (cache : Option SpellerCache) (nword : List Wc) :
    UB (SpellCode × Option SpellerCache) := do
  let caps := effectiveCaps o (caseType nword)
  let nchars := nword.length
  let buffer := nword.map lower ++ [0]
  let dot ← dotIndex o buffer nchars
  let buffer ← cutDot buffer dot
  if caps == .complex || caps == .noLetters then do
    let r ← spellExact dict o nword buffer dot
    return (r, cache)
  else spellFolded dict o caps cache nchars buffer dot

/-- `spell.cpp:131-133`: `voikkoOptions->ignore_nonwords && voikko_is_nonword(nword, nchars)`. -/
def ignoredNonword (o : SpellOpts) (nword : List Wc) : UB Bool :=
  if o.ignoreNonwords then isNonword nword else return false

/-- `spell.cpp:106-235`, `voikkoSpellUcs4`; `word` is the NUL terminated string without terminator. -/
def spellUcs4 (dict : List Wc → SpellRes) (o : SpellOpts) (cache : Option SpellerCache) (word : List Wc) :
    UB (SpellCode × Option SpellerCache) :=
  if word.length = 0 then return (.ok, cache)
  else if word.length > maxWordChars then return (.failed, cache)
  else do
    let buf ← normalise word
    let nword := cstr buf
    if o.ignoreNumbers && nword.any isDigit then return (.ok, cache)
    else do
      let nonword ← ignoredNonword o nword
      if (o.ignoreUppercase && caseType nword == .allUpper) || nonword then return (.ok, cache)
      else spellDict dict o cache nword

/-- `spell.cpp:237-252`, `voikkoSpellCstr` (for `word != 0`); `word` is the C string without terminator. -/
def spellCstr (dict : List Wc → SpellRes) (o : SpellOpts) (cache : Option SpellerCache) (word : List Nat) :
    UB (SpellCode × Option SpellerCache) :=
  if word.length = 0 then return (.ok, cache)
  else if word.length > maxWordChars then return (.failed, cache)
  else do
    match ← ucs4FromUtf8 word with
    | none => return (.charsetConversionFailed, cache)
    | some w => spellUcs4 dict o cache w

end Verif
