import Verif.Model.Sentence
import Verif.Model.SpellUtils
import Verif.Model.TokenizerCstr
/-!
# `grammar/FinnishAnalysis.cpp`: tokens, sentences and paragraphs of the grammar checker
-/

namespace Verif

/-- The attributes of a morphological analysis read by the grammar checker. `none` = `getValue` gives the null
pointer. -/
structure GramAn extends MorAn where
  mood : Option (List Wc) := none
  person : Option (List Wc) := none
  negative : Option (List Wc) := none
  participle : Option (List Wc) := none
  possibleGeo : Option (List Wc) := none
  requireVerb : Option (List Wc) := none
  deriving DecidableEq, Repr

/-- `Token.hpp:42-46`. -/
inductive FollowingVerb where
  | none | aInf | maInf
  deriving DecidableEq, Repr

/-- `Token.hpp:51-113`, `Token`, without the unused list of analyses. `str` is the token text without the terminating
NUL, so `tokenlen` is its length. -/
structure GTok where
  type : TokenType
  str : List Wc
  pos : Nat
  isValidWord : Bool := false
  firstLetterLcase : Bool := false
  possibleSentenceStart : Bool := false
  isGeoGenitive : Bool := false
  possibleGeo : Bool := false
  possibleMainVerb : Bool := false
  isMainVerb : Bool := true
  isVerbNegative : Bool := true
  isPositiveVerb : Bool := true
  isConjunction : Bool := true
  possibleConjunction : Bool := false
  requireVerb : FollowingVerb := .none
  verbFollower : FollowingVerb := .none
  deriving DecidableEq, Repr

/-- `token->tokenlen`. -/
def GTok.len (t : GTok) : Nat := t.str.length

/-- `token->str[0]`; the buffer ends with a NUL. -/
def GTok.ch0 (t : GTok) : Wc :=
  match t.str with
  | [] => 0
  | c :: _ => c

/-- `Sentence.hpp:39-63`, `Sentence`; `tokenCount` is the length of `tokens`. -/
structure GSent where
  pos : Nat
  tokens : List GTok
  type : SentenceType := .none
  deriving DecidableEq, Repr

/-- `Sentence.hpp:46`. -/
def maxTokens : Nat := 500
/-- `Paragraph.hpp:48`. -/
def maxSentences : Nat := 200

/-- `StringUtils.cpp:206-217`, `stripSpecialCharsForMalaga`, as the C string passed on to the analyser (`wcslen`). -/
def stripShy (s : List Wc) : List Wc := cstr (s.filter (· != 0xAD))

/-- A null pointer or a string: `p && wcscmp(p, lit) == 0`. -/
def isLit (v : Option (List Wc)) (s : String) : Bool := v == some (lit s)

/-- `FinnishAnalysis.cpp:94-103`: letter case and place names. A null STRUCTURE is undefined behaviour. -/
def anaCase (a : GramAn) (t : GTok) : UB GTok :=
  match a.struct with
  | none => ub
  | some st =>
    if decide (st.length < 2) || (st[1]? != some 0x70 && st[1]? != some 0x71) then
      return { t with firstLetterLcase := false,
                      isGeoGenitive := t.isGeoGenitive || (isLit a.cls "paikannimi" && isLit a.sijamuoto "omanto") }
    else return t

/-- `FinnishAnalysis.cpp:105-111`: conjunctions. `last` is `token->str[token->tokenlen - 1]`. -/
def anaConj (a : GramAn) (last : Wc) (t : GTok) : GTok :=
  if isLit a.cls "sidesana" || (isLit a.cls "kieltosana" && last == 0xE4) then { t with possibleConjunction := true }
  else { t with isConjunction := false }

/-- `FinnishAnalysis.cpp:113-141`: verbs. -/
def anaVerb (a : GramAn) (t : GTok) : GTok :=
  if a.cls = none then
    { t with isPositiveVerb := false, possibleMainVerb := true, isMainVerb := false, isVerbNegative := false }
  else if isLit a.cls "kieltosana" then { t with isPositiveVerb := false, isMainVerb := false }
  else if isLit a.cls "teonsana" then
    { t with
      isPositiveVerb := t.isPositiveVerb &&
        !(!(isLit a.negative "false") ||
          ((a.mood == none || isLit a.mood "conditional") && (a.person == none || isLit a.person "3")))
      possibleMainVerb := t.possibleMainVerb ||
        ((a.mood == none || (!(isLit a.mood "A-infinitive") && !(isLit a.mood "E-infinitive"))) &&
         (a.negative == none || !(isLit a.negative "true")))
      isMainVerb := t.isMainVerb && isLit a.mood "indicative"
      isVerbNegative := false }
  else { t with isPositiveVerb := false, isMainVerb := false, isVerbNegative := false }

/-- `FinnishAnalysis.cpp:146-161`: the verb that must follow. `first` is `it == analyses->begin()`. -/
def anaRequire (a : GramAn) (first : Bool) (t : GTok) : GTok :=
  let required : FollowingVerb :=
    if isLit a.requireVerb "A-infinitive" then .aInf
    else if isLit a.requireVerb "MA-infinitive" then .maInf else .none
  if required = .none ∨ first = true then { t with requireVerb := required }
  else if t.requireVerb ≠ required then { t with requireVerb := .none }
  else t

/-- `FinnishAnalysis.cpp:162-182`: the kind of infinitive. `set` is `verbFollowerTypeSet`. -/
def anaFollower (a : GramAn) (set : Bool) (t : GTok) : GTok × Bool :=
  let follower : FollowingVerb :=
    if isLit a.mood "A-infinitive" then .aInf else if isLit a.mood "MA-infinitive" then .maInf else .none
  if follower ≠ .none then
    if set = false then ({ t with verbFollower := follower }, true)
    else if t.verbFollower ≠ follower then ({ t with verbFollower := .none }, set)
    else (t, set)
  else if isLit a.participle "agent" && isLit a.sijamuoto "vajanto" then ({ t with verbFollower := .none }, set)
  else (t, set)

/-- `FinnishAnalysis.cpp:83-184`: the loop over the analyses. -/
def anaLoop (last : Wc) : Bool → Bool → GTok → List GramAn → UB GTok
  | _, _, t, [] => return t
  | first, set, t, a :: as => do
    let t1 ← anaCase a { t with isValidWord := true }
    let t2 := anaVerb a (anaConj a last t1)
    let t3 := { t2 with possibleGeo := t2.possibleGeo || isLit a.possibleGeo "true" }
    let r := anaFollower a set (anaRequire a first t3)
    anaLoop last false r.2 r.1 as

/-- `FinnishAnalysis.cpp:53-192`, `analyseToken`; `type`, `str` and `pos` are set. The defaults of `GTok` are the values
of lines 54-65. Each analysis of a word reads `str[tokenlen - 1]` at most; the model reads it for every word. -/
def analyseToken (an : List Wc → List GramAn) (type : TokenType) (str : List Wc) (pos : Nat) : UB GTok :=
  if type ≠ .word then
    return { type, str, pos, firstLetterLcase := false, isConjunction := false, isVerbNegative := false }
  else do
    let last ← rd str (str.length - 1)
    let t ← anaLoop last true false { type, str, pos, firstLetterLcase := true } (an (stripShy str))
    if t.isValidWord then return t
    else return { t with isPositiveVerb := false, isConjunction := false, isMainVerb := false, isVerbNegative := false }

/-- `FinnishAnalysis.cpp:224-226`: punctuation that may separate sentences. -/
def maySeparate (tt : TokenType) (str : List Wc) : Bool :=
  tt == .punctuation && ((str.length == 1 && str.all (wcschr [0x2E, 0x3A, 0x2026, 0x2013, 0x2014])) || str.length == 3)

/-- `FinnishAnalysis.cpp:202-234`: the loop, with `n` iterations left; `rest` is the text at `pos`, `off` is
`sentencepos + (pos - text)`. `some none` is the null pointer (too long sentence). -/
def sentTokens (an : List Wc → List GramAn) : Nat → Bool → List Wc → Nat → UB (Option (List GTok))
  | 0, _, _, _ => return none
  | n + 1, start, rest, off => do
    let (tt, len) ← nextToken rest false
    if tt = .none then return some []
    else if rest.length < len then ub
    else
      let str := rest.take len
      let t ← analyseToken an tt str off
      let isStart := start && tt == .word
      let t := if isStart then { t with possibleSentenceStart := true } else t
      let start := if isStart then false else start || maySeparate tt str
      if rest.length = len then return some [t]
      else do
        let r ← sentTokens an n start (rest.drop len) (off + len)
        return r.map (t :: ·)

/-- `FinnishAnalysis.cpp:195-238`, `analyseSentence`. The handle's `ignore_dot` is saved and restored around each call of
the tokenizer. -/
def analyseSentence (an : List Wc → List GramAn) (text : List Wc) (sentencepos : Nat) : UB (Option (List GTok)) :=
  sentTokens an maxTokens false text sentencepos

/-- `FinnishAnalysis.cpp:249-256`: the inner loop; `rest` is the text at `pos2` (`remaining` characters) and `acc` is
`sentencelen`. At most `fuel` iterations; running out of fuel is the undefined outcome. -/
def joinSentences (spellOk : List Wc → Bool) (dot : Bool) : Nat → List Wc → Nat → UB (SentenceType × Nat)
  | 0, _, _ => ub
  | fuel + 1, rest, acc => do
    let (st, n, _) ← sentenceNext spellOk rest dot
    if st = .possible then joinSentences spellOk dot fuel (rest.drop n) (acc + n)
    else return (st, acc + n)

/-- `FinnishAnalysis.cpp:246-267`: the outer loop with `n` more sentences allowed; `rest` is the text at `pos`, `off` is
`pos - text`. `some none` is the null pointer. -/
def paraLoop (an : List Wc → List GramAn) (spellOk : List Wc → Bool) (dot : Bool) :
    Nat → List Wc → Nat → UB (Option (List GSent))
  | 0, _, _ => return some []
  | n + 1, rest, off => do
    let (st, len) ← joinSentences spellOk dot (rest.length + 1) rest 0
    if rest.length < len then ub
    else do
      let toks ← analyseSentence an (rest.take len) off
      match toks with
      | none => return none
      | some toks =>
        if st = .none ∨ st = .noStart then return some [⟨off, toks, st⟩]
        else do
          let r ← paraLoop an spellOk dot n (rest.drop len) (off + len)
          return r.map (⟨off, toks, st⟩ :: ·)

/-- `FinnishAnalysis.cpp:241-269`, `analyseParagraph`. -/
def analyseParagraph (an : List Wc → List GramAn) (spellOk : List Wc → Bool) (dot : Bool) (text : List Wc) :
    UB (Option (List GSent)) :=
  paraLoop an spellOk dot maxSentences text 0

end Verif
