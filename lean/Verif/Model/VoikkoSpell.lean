import Verif.Model.Spell
import Verif.Model.SpellUtils
/-!
# `tools/voikkospell.cpp`

Model of the command line program: reading words, checking them, and the distribution of the words to threads.

Simplifications: the messages on the standard error stream are left out; the program ends normally if a library call fails to
create a thread (lines 197-200 are not modelled); arguments are already processed (`Model/ToolArgs`); the conversion `mbsrtowcs` of lines 494-501 to wide
characters depends on the locale and is a parameter; threads of the program only touch the handle they are given, so that steps of
different threads are interleaved one word at a time.
-/

namespace Verif

/-- `voikkospell.cpp:50` -/
inductive CheckMode where
  | normal | onlyCW | onlyIncorrect | none
  deriving DecidableEq, Repr

/-- The static variables of `voikkospell.cpp:55-60` after `main` has processed the arguments. -/
structure ToolOpts where
  mode : CheckMode := .normal
  suggest : Bool := false
  morphology : Bool := false
  oneLine : Bool := false
  separator : Wc := 0x20
  space : Bool := false
  deriving DecidableEq, Repr

/-- The library functions that `check_word` calls, for one handle with the state `σ`. `spell` is `voikkoSpellUcs4`, `suggest` is
`voikkoSuggestUcs4` (`none` is the null pointer) and `analyze` is `voikkoAnalyzeWordUcs4`, with the keys and values of each analysis. -/
structure ToolApi (σ : Type) where
  spell : σ → List Wc → UB (SpellCode × σ)
  suggest : List Wc → UB (Option (List (List Wc)))
  analyze : List Wc → UB (List (List (List Wc × List Wc)))

/-- `endl` -/
def nl : List Wc := [0x0A]

/-- A number as written by `operator<<`. -/
def decimal (n : Nat) : List Wc := lit (toString n)

/-- `voikkospell.cpp:76-82`: the lines of one analysis, `n` is its number. -/
def printAttributes (word : List Wc) (n : Nat) : List (List Wc × List Wc) → List Wc
  | [] => []
  | (k, v) :: r => lit "A(" ++ word ++ lit "):" ++ decimal n ++ lit ":" ++ k ++ lit "=" ++ v ++ nl ++ printAttributes word n r

/-- `voikkospell.cpp:73-83`: the loop over the analyses, the first of which has the number `n`. -/
def printAnalyses (word : List Wc) : Nat → List (List (List Wc × List Wc)) → List Wc
  | _, [] => []
  | n, a :: r => printAttributes word n a ++ printAnalyses word (n + 1) r

/-- `voikkospell.cpp:70-85`, `printMorphology`. -/
def printMorphology {σ : Type} (api : ToolApi σ) (word : List Wc) : UB (List Wc) := do
  let l ← api.analyze word
  return printAnalyses word 1 l

/-- `voikkospell.cpp:103-108`: the suggestions on the line of the word. -/
def inlineSuggestions (o : ToolOpts) : List (List Wc) → List Wc
  | [] => []
  | s :: r => (if o.space || !s.contains 0x20 then o.separator :: s else []) ++ inlineSuggestions o r

/-- `voikkospell.cpp:145-147`: the suggestions on lines of their own. -/
def suggestionLines : List (List Wc) → List Wc
  | [] => []
  | s :: r => lit "S: " ++ s ++ nl ++ suggestionLines r

/-- `voikkospell.cpp:114-136`: the verdict. -/
def verdictLine (mode : CheckMode) (word : List Wc) (ok : Bool) : List Wc :=
  match mode with
  | .normal => if ok then lit "C: " ++ word ++ nl else lit "W: " ++ word ++ nl
  | .onlyCW => if ok then lit "C" ++ nl else lit "W" ++ nl
  | .onlyIncorrect => if ok then [] else word ++ nl
  | .none => []

/-- `voikkospell.cpp:87-151`, `check_word`: what is written to `out`, and the state of the handle. `VOIKKO_SPELL_FAILED` is 0
(`voikko_defines.h:50`), the other results are not. -/
def checkWord {σ : Type} (api : ToolApi σ) (o : ToolOpts) (h : σ) (word : List Wc) : UB (List Wc × σ) := do
  let (result, h) ← (if o.mode ≠ .none then api.spell h word else some (.ok, h) : UB (SpellCode × σ))
  if result = .charsetConversionFailed ∨ result = .internalError then return ([], h)
  let ok := decide (result ≠ .failed)
  let first ← (if o.oneLine then do
      let sug ← (if ok then some [] else do
        let l ← api.suggest word
        match l with
        | some l => return inlineSuggestions o l
        | none => return [] : UB (List Wc))
      return word ++ sug ++ nl
    else some (verdictLine o.mode word ok) : UB (List Wc))
  let mor ← (if o.morphology && ok then printMorphology api word else some [] : UB (List Wc))
  let last ← (if !o.oneLine && o.suggest && !ok then do
      let l ← api.suggest word
      match l with
      | some l => return suggestionLines l
      | none => return []
    else some [] : UB (List Wc))
  return (first ++ mor ++ last, h)

/-! ### Reading words -/

/-- `std::getline` (`voikkospell.cpp:491`): the lines of the input. Text after the last newline is a line unless it is empty. -/
def inputLines : List Nat → List Nat → List (List Nat)
  | cur, [] => if cur = [] then [] else [cur]
  | cur, b :: r => if b = 0x0A then cur :: inputLines [] r else inputLines (cur ++ [b]) r

/-- `voikkospell.cpp:491-509`: the words that are checked. `decode` is `mbsrtowcs`, which fails for invalid texts and ends at a NUL.
`LIBVOIKKO_MAX_WORD_CHARS` is 255. -/
def inputWords (decode : List Nat → Option (List Wc)) (input : List Nat) : List (List Wc) :=
  (inputLines [] input).filterMap fun line =>
    if line = [] then none
    else match decode (line.takeWhile (· ≠ 0)) with
      | some w => if w.length > 255 then none else some w
      | none => none

/-! ### One thread -/

/-- `voikkospell.cpp:235-240`, `handleWordSingleThread`, for all words: what is written to the standard output. -/
def runSingle {σ : Type} (check : σ → List Wc → UB (List Wc × σ)) : σ → List (List Wc) → UB (List Wc)
  | _, [] => some []
  | h, w :: r => do
    let (o, h) ← check h w
    let rest ← runSingle check h r
    return o ++ rest

/-! ### Several threads -/

/-- The state of one element of `threads` (`voikkospell.cpp:167`). -/
inductive Slot where
  /-- no thread has been created in it, or the thread has been joined -/
  | free
  /-- the thread runs `processBlock` (lines 155-165): the words that are left, and its `out` -/
  | running (todo : List (List Wc)) (out : List Wc)
  /-- `processBlock` has returned -/
  | finished (out : List Wc)
  deriving DecidableEq, Repr

/-- Where the main thread is. -/
inductive Pc where
  /-- in the loop of lines 491-509 -/
  | reading
  /-- in `queueNextBlock`, called by `handleWordMultiThread`, or (`true`) by `finishProcessing` -/
  | queueing (final : Bool)
  /-- in the loop of `finishProcessing` (lines 219-222) -/
  | finishing
  /-- after `finishProcessing` -/
  | terminated
  deriving DecidableEq, Repr

/-- The state of the program: the variables of `voikkospell.cpp:167-170`, the words that are still to be read, the standard output and the
state of the handles. -/
structure Tool (σ : Type) where
  pc : Pc := .reading
  input : List (List Wc)
  block : List (List Wc) := []
  next : Nat := 0
  inUse : Nat := 0
  out : List Wc := []
  slots : List Slot
  handles : List σ

/-- What a step of a thread does. -/
inductive Outcome (α : Type) where
  /-- the thread has to wait, or has nothing to do -/
  | blocked
  /-- undefined behaviour -/
  | ub
  | ok (a : α)

/-- `voikkospell.cpp:53` -/
def wordsPerBlock : Nat := 500

/-- `voikkospell.cpp:177-187`, `cleanupThread`: `pthread_join` waits for the thread to end; joining something that is not a thread, or a
thread that has been joined, is undefined. -/
def cleanupThread {σ : Type} (t : Tool σ) : Outcome (Tool σ) :=
  match t.slots[t.next]? with
  | some (.finished r) => .ok { t with inUse := t.inUse - 1, out := t.out ++ r, slots := t.slots.set t.next .free }
  | some (.running _ _) => .blocked
  | some .free => .ub
  | none => .ub

/-- The next step of the main thread. -/
def mainStep {σ : Type} (t : Tool σ) : Outcome (Tool σ) :=
  match t.pc with
  | .reading =>
    -- lines 491-509 and 207-212
    match t.input with
    | w :: r =>
      if (t.block ++ [w]).length = wordsPerBlock then .ok { t with input := r, block := t.block ++ [w], pc := .queueing false }
      else .ok { t with input := r, block := t.block ++ [w] }
    | [] => .ok { t with pc := .queueing true }
  | .queueing final =>
    -- lines 189-205
    if t.block = [] then .ok { t with pc := if final then .finishing else .reading }
    else if t.inUse = t.slots.length then cleanupThread t
    else
      match t.slots[t.next]? with
      | some .free =>
        .ok { t with slots := t.slots.set t.next (.running t.block []), next := (t.next + 1) % t.slots.length, inUse := t.inUse + 1, block := [],
                     pc := if final then .finishing else .reading }
      | _ => .ub
  | .finishing =>
    -- lines 219-222
    if 0 < t.inUse then
      match cleanupThread t with
      | .ok t => .ok { t with next := (t.next + 1) % t.slots.length }
      | x => x
    else .ok { t with pc := .terminated }
  | .terminated => .blocked

/-- The next step of the thread number `i` (`voikkospell.cpp:155-165`). -/
def threadStep {σ : Type} (check : σ → List Wc → UB (List Wc × σ)) (i : Nat) (t : Tool σ) : Outcome (Tool σ) :=
  match t.slots[i]?, t.handles[i]? with
  | some (.running (w :: r) out), some h =>
    match check h w with
    | some (o, h') => .ok { t with slots := t.slots.set i (.running r (out ++ o)), handles := t.handles.set i h' }
    | none => .ub
  | some (.running [] out), some _ => .ok { t with slots := t.slots.set i (.finished out) }
  | _, _ => .blocked

/-- `voikkospell.cpp:226-233` and `voikkospell.cpp:402-413`: the program before the first word is read. There is a handle per thread. -/
def startTool {σ : Type} (handles : List σ) (words : List (List Wc)) : Tool σ :=
  { input := words, slots := handles.map fun _ => .free, handles := handles }

/-- One step of any thread. -/
inductive ToolStep {σ : Type} (check : σ → List Wc → UB (List Wc × σ)) : Tool σ → Tool σ → Prop
  | main {t t' : Tool σ} : mainStep t = .ok t' → ToolStep check t t'
  | thread {t t' : Tool σ} (i : Nat) : threadStep check i t = .ok t' → ToolStep check t t'

/-- `n` steps of the threads, in any order. -/
inductive ToolRun {σ : Type} (check : σ → List Wc → UB (List Wc × σ)) : Nat → Tool σ → Tool σ → Prop
  | nil (t : Tool σ) : ToolRun check 0 t t
  | cons {t t' t'' : Tool σ} {n : Nat} : ToolStep check t t' → ToolRun check n t' t'' → ToolRun check (n + 1) t t''

/-- The next step of some thread is undefined. -/
def ToolUb {σ : Type} (check : σ → List Wc → UB (List Wc × σ)) (t : Tool σ) : Prop :=
  mainStep t = .ub ∨ ∃ i, threadStep check i t = .ub

end Verif
