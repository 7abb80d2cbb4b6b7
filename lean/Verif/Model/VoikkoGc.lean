import Verif.Model.GrammarCache
import Verif.Model.GrammarError
import Verif.Model.VoikkoSpell
/-!
# `tools/voikkogc.cpp`

Model of the command line program. Simplifications: the messages on the standard error stream are left out; arguments are already
processed; characters are written as they are, without conversion to the locale (suggestions, which the library keeps in UTF-8, as the
characters they stand for; explanations as bytes).
-/

namespace Verif

/-- `voikkogc.cpp:68-83`: the beginning of the line of a token. -/
def tokenLabel : TokenType → List Wc
  | .word => lit "W: \""
  | .punctuation => lit "P: \""
  | .whitespace => lit "S: \""
  | .unknown => lit "U: \""
  | .none => []

/-- `voikkogc.cpp:61-93`, `print_tokens`, from `linePtr` on. -/
def printTokens (dot : Bool) : Nat → List Wc → UB (List Wc)
  | 0, _ => ub
  | fuel + 1, line =>
    if line = [] then return []
    else do
      let (t, n) ← nextToken line dot
      if t = .none then return lit "E: unknown token\n"
      else if line.length < n then ub
      else do
        let rest ← printTokens dot fuel (line.drop n)
        return tokenLabel t ++ line.take n ++ lit "\"" ++ nl ++ rest

/-- `voikkogc.cpp:104-118`: the beginning of the line of a sentence. -/
def sentenceLabel : SentenceType → List Wc
  | .none => lit "E: "
  | .probable => lit "B: "
  | .possible => lit "P: "
  | .noStart => []

/-- `voikkogc.cpp:96-127`, `split_sentences`, from `linePtr` on. `spellOk` is the speller and `dot` the option `IGNORE_DOT`. -/
def splitSentences (spellOk : List Wc → Bool) : Nat → Bool → List Wc → UB (List Wc)
  | 0, _, _ => ub
  | fuel + 1, dot, line =>
    if line = [] then return []
    else do
      let (t, n, dot) ← sentenceNext spellOk line dot
      if t = .none then return sentenceLabel t ++ cstr (line ++ [0]) ++ nl
      else if line.length < n then ub
      else do
        let rest ← splitSentences spellOk fuel dot (line.drop n)
        return sentenceLabel t ++ line.take n ++ nl ++ rest

/-- `voikkogc.cpp:147-158`: the suggestions. -/
def quotedSuggestions : List (List Wc) → List Wc
  | [] => []
  | [s] => lit "\"" ++ s ++ lit "\""
  | s :: r => lit "\"" ++ s ++ lit "\"" ++ lit "," ++ quotedSuggestions r

/-- `voikkogc.cpp:143-167`: the line of an error. -/
def errorLine (language : Option (List Nat)) (e : GErr) : UB (List Wc) := do
  let expl ← (match language with
    | none => some []
    | some l => do
      let m ← errorMessage e.code (some l)
      return lit " (" ++ m ++ lit ")" : UB (List Wc))
  return lit "[code=" ++ decimal e.code ++ lit ", level=0, descr=\"\", stpos=" ++ decimal e.start ++ lit ", len=" ++ decimal e.len ++
    lit ", suggs={" ++ quotedSuggestions e.sugg ++ lit "}]" ++ expl ++ nl

/-- The static variables of `voikkogc.cpp:44-45` and the language of the explanations (`voikkogc.cpp:202`). -/
structure GcOpts where
  printNumbers : Bool := false
  lineNumber : Nat := 0
  language : Option (List Nat) := none

/-- `voikkogc.cpp:130-170`, `check_grammar`, for the error number `skip` and those after it. -/
def checkGrammar {σ : Type} (env : GramEnv σ) (o : GcOpts) (line : List Wc) : Nat → Int → Handle GErr → σ → UB (List Wc × Handle GErr × σ)
  | 0, _, _, _ => ub
  | fuel + 1, skip, h, c => do
    let (r, h, c) ← nextGrammarError env h c (line ++ [0]) line.length 0 skip
    let num := if o.printNumbers then decimal o.lineNumber ++ lit " " else []
    match r with
    | none => return (num ++ lit "-" ++ nl, h, c)
    | some e => do
      let l ← errorLine o.language e
      let (rest, h, c) ← checkGrammar env o line fuel (skip + 1) h c
      return (num ++ l ++ rest, h, c)

/-- `voikkogc.cpp:251-279` with the operation `CHECK_GRAMMAR`: the paragraphs are read as in `voikkospell.cpp` (`inputWords`), but may have
100000 characters. `lineNumber` is not changed in the loop. `fuel` limits the number of errors of a paragraph. -/
def gcTool {σ : Type} (env : GramEnv σ) (o : GcOpts) (fuel : Nat) : List (List Wc) → Handle GErr → σ → UB (List Wc)
  | [], _, _ => some []
  | l :: r, h, c => do
    let (out, h, c) ← checkGrammar env o l fuel 0 h c
    let rest ← gcTool env o fuel r h c
    return out ++ rest

end Verif
