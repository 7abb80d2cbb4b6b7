import Verif.Model.Capitalization
import Verif.Model.Setup
/-!
# `grammar/GcCache.cpp`, `GrammarChecker.cpp`, `FinnishRuleEngine.cpp`, `interface.cpp`

The grammar checker with the Finnish analyser and rule engine, its cache and the library functions.
-/

namespace Verif

/-- `GcCache.cpp:62-74`: the loop; the list is the entries from `entry` on. -/
def appendLoop (e : GErr) : List GErr → List GErr
  | [] => [e]
  | [x] => [x, e]
  | x :: y :: rest =>
    if x.start ≤ e.start ∧ y.start > e.start then x :: e :: y :: rest else x :: appendLoop e (y :: rest)

/-- `GcCache.cpp:51-75`, `appendError`; the linked list is a list. -/
def appendError (es : List GErr) (e : GErr) : List GErr :=
  match es with
  | [] => [e]
  | x :: rest => if x.start > e.start then e :: x :: rest else appendLoop e (x :: rest)

/-- `GrammarChecker.cpp:49-58`: the loop; `prev` is `preverrors`. `skip` is an `int`. -/
def findError (startpos : Nat) (skip : Int) : Int → List GErr → Option GErr
  | _, [] => none
  | prev, e :: es => if prev ≥ skip ∧ e.start ≥ startpos then some e else findError startpos skip (prev + 1) es

/-- `wcscmp(a, b) == 0` where `a` is a C string given with its terminator and `b` is a buffer: characters are compared one
by one and reading stops at the first difference. -/
def wcscmpEq : List Wc → List Wc → UB Bool
  | [], _ => ub
  | _ :: _, [] => ub
  | a :: as, b :: bs => if a ≠ b then return false else if a = 0 then return true else wcscmpEq as bs

/-- The parts of the library the grammar checker calls: the analyser, the speller (which reads `ACCEPT_EXTRA_HYPHENS`)
and the autocorrection transducer, if there is one. -/
structure GramEnv (σ : Type) where
  an : List Wc → List GramAn
  spellOk : Bool → List Wc → Bool
  auto : Option (Lookup σ)

/-- `FinnishRuleEngine.cpp:72-78`: the checks of one sentence, in order. The list of checks is that of lines 49-58. -/
def sentenceChecks {σ : Type} (auto : Option (Lookup σ)) (o : GramOpts) (s : GSent) (c : σ) : UB (σ × List GErr) := do
  let mv ← missingVerb o s
  let si ← sidesana s
  let es := localPunct 0 true s.tokens ++ quotations s.tokens ++ repeatingWords 0 s.tokens ++ mv ++
    negativeVerb s.tokens ++ compoundVerb s.tokens ++ si
  match auto with
  | none => return (c, es)
  | some m => do
    let (c, ac) ← autocorrect m s c
    return (c, es ++ ac)

/-- `FinnishRuleEngine.cpp:71-80`: the loop over the sentences. -/
def allSentences {σ : Type} (auto : Option (Lookup σ)) (o : GramOpts) : List GSent → σ → UB (σ × List GErr)
  | [], c => return (c, [])
  | s :: ss, c => do
    let (c, es) ← sentenceChecks auto o s c
    let (c, es2) ← allSentences auto o ss c
    return (c, es ++ es2)

/-- `FinnishRuleEngine.cpp:69-86`, `check`: the errors in the order in which they are found. -/
def ruleEngine {σ : Type} (auto : Option (Lookup σ)) (o : GramOpts) (p : List GSent) (c : σ) : UB (σ × List GErr) := do
  let (c, es) ← allSentences auto o p c
  let cap ← capCheck o p
  let ep ← endPunct o p
  return (c, es ++ cap ++ ep)

/-- `GrammarChecker.cpp:78-96`: nothing is checked in a paragraph that is one sentence without whitespace, unless it is a
single word, possibly followed by another token. -/
def notChecked (p : List GSent) : Bool :=
  match p with
  | [s] =>
    !(s.tokens.any fun t => t.type == .whitespace) &&
      (decide (s.tokens.length > 2) ||
        match s.tokens with
        | [] => true
        | t :: _ => t.type != .word)
  | _ => false

/-- `GrammarChecker.cpp:70-99`: the errors of a text in the order in which they are found. -/
def foundErrors {σ : Type} (env : GramEnv σ) (extra dot : Bool) (o : GramOpts) (text : List Wc) (c : σ) :
    UB (σ × List GErr) := do
  match ← analyseParagraph env.an (env.spellOk extra) dot text with
  | none => return (c, [])
  | some p => if notChecked p then return (c, []) else ruleEngine env.auto o p c

/-- The grammar options of a handle. -/
def gramOpts {G : Type} (h : Handle G) : GramOpts := ⟨h.acceptTitles, h.acceptUnfinished, h.acceptBulleted⟩

/-- `GrammarChecker.cpp:42-60`, `errorFromCache`. `none` inside is the null pointer, `some none` is
`no_grammar_error`. `text` is the memory from the pointer on. -/
def errorFromCache (cache : Option (List Wc × List GErr)) (text : List Wc) (startpos : Nat) (skip : Int) :
    UB (Option (Option GErr)) :=
  match cache with
  | none => return none
  | some (para, es) => do
    let same ← wcscmpEq (para ++ [0]) text
    if same = false then return none else return some (findError startpos skip 0 es)

/-- `GrammarChecker.cpp:62-100`, `paragraphToCache`. -/
def paragraphToCache {σ : Type} (env : GramEnv σ) (h : Handle GErr) (c : σ) (text : List Wc) (textlen : Nat) :
    UB (Handle GErr × σ) :=
  if text.length < textlen then ub
  else do
    let (c, es) ← foundErrors env h.acceptExtraHyphens h.spell.ignoreDot (gramOpts h) (text.take textlen) c
    return ({ h with gcCache := some (text.take textlen, es.foldl appendError []) }, c)

/-- `interface.cpp:52-54`: no error, or the error with code 0. -/
def realError (r : Option (Option GErr)) : Option GErr :=
  match r with
  | some (some e) => if e.code = 0 then none else some e
  | _ => none

/-- `grammar/interface.cpp:40-74`, `voikkoNextGrammarErrorUcs4` for a non-null `text`; `text` is the memory from the
pointer on. `none` is the null pointer. -/
def nextGrammarError {σ : Type} (env : GramEnv σ) (h : Handle GErr) (c : σ) (text : List Wc) (textlen startpos : Nat)
    (skip : Int) : UB (Option GErr × Handle GErr × σ) :=
  if textlen = 0 then return (none, h, c)
  else do
    let r ← errorFromCache h.gcCache text startpos skip
    match r with
    | some r => return (realError (some r), h, c)
    | none => do
      let (h, c) ← paragraphToCache env h c text textlen
      let r ← errorFromCache h.gcCache text startpos skip
      return (realError r, h, c)

/-- `grammar/interface.cpp:76-93`, `voikkoNextGrammarErrorCstr` for a non-null `text` of `textlen` bytes. The converted
text is followed by a terminator, and its length is taken with `wcslen`. -/
def nextGrammarErrorCstr {σ : Type} (env : GramEnv σ) (h : Handle GErr) (c : σ) (bytes : List Nat) (startpos : Nat)
    (skip : Int) : UB (Option GErr × Handle GErr × σ) :=
  if bytes.length = 0 then return (none, h, c)
  else do
    match ← ucs4FromUtf8 bytes with
    | none => return (none, h, c)
    | some w => nextGrammarError env h c (w ++ [0]) (cstr w).length startpos skip

end Verif
