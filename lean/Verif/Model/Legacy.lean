import Verif.Model.Handles
import Verif.Model.GrammarCache
import Verif.Model.Hyphenator
import Verif.Model.Suggest
import Verif.Model.Sentence
import Verif.Model.TokenizerCstr
/-!
# `compatibility/interface.cpp`: the functions that take an integer handle

What a function of the deprecated interface does with the object behind the handle is written with the models of the functions of
the current interface. Conversions of results to memory from `malloc` are not modelled (for them see `Model/ApiHeap`).
-/

namespace Verif

/-- The object that `voikkoInit` makes: the components chosen by the dictionary, the options and caches of the handle and the state
of the autocorrection transducer. -/
structure LegacyObj (σ : Type) where
  dict : Bool → List Wc → SpellRes
  an : Analyzer
  gen : Handle GErr → Gen
  env : GramEnv σ
  handle : Handle GErr
  memory : σ

/-- `voikko_structs.h:43-57`, `voikko_grammar_error`; `error_level` and `error_description` are always zero
(`compatibility/interface.cpp:231-232`). The empty list of suggestions stands for the null pointer. -/
structure LegacyError where
  code : Nat
  start : Nat
  len : Nat
  sugg : List (List Wc)
  deriving DecidableEq, Repr

/-- The functions with a handle other than `voikko_terminate`. Strings are without their terminators; the text of the grammar
checker is the memory from the pointer on, or `none` for the null pointer. -/
inductive LegacyOp where
  | setBool (option value : Int)
  | setInt (option value : Int)
  | spellCstr (word : List Nat)
  | spellUcs4 (word : List Wc)
  | suggestUcs4 (word : List Wc)
  | hyphenateCstr (word : List Nat)
  | hyphenateUcs4 (word : List Wc)
  | tokenUcs4 (text : List Wc)
  | tokenCstr (text : List Nat)
  | sentenceUcs4 (text : List Wc)
  | grammarUcs4 (text : Option (List Wc)) (textlen startpos : Nat) (skip : Int)
  | grammarCstr (text : Option (List Nat)) (startpos : Nat) (skip : Int)

/-- What these functions return. -/
inductive LegacyRes where
  | int (value : Int)
  | code (c : SpellCode)
  | words (l : List (List Wc))
  | pattern (p : Option (List Wc))
  | token (t : TokenType) (len : Nat)
  | sentence (t : SentenceType) (len : Nat)
  | error (e : LegacyError)
  deriving DecidableEq

/-- `compatibility/interface.cpp:234-262`: the structure made of an error, or of the null pointer. -/
def legacyError : Option GErr → LegacyError
  | some e => ⟨e.code, e.start, e.len, e.sugg⟩
  | none => ⟨0, 0, 0, []⟩

/-- `compatibility/interface.cpp:228-264`, `voikko_next_grammar_error_ucs4`, on the object behind the handle
(lines 42-44 of `grammar/interface.cpp` for the null pointer). -/
def legacyGrammarUcs4 {σ : Type} (x : LegacyObj σ) (text : Option (List Wc)) (textlen startpos : Nat) (skip : Int) :
    UB (LegacyObj σ × LegacyRes) :=
  match text with
  | none => some (x, .error (legacyError none))
  | some t => do
    let (e, h, m) ← nextGrammarError x.env x.handle x.memory t textlen startpos skip
    some ({ x with handle := h, memory := m }, .error (legacyError e))

/-- `compatibility/interface.cpp:266-284`, `voikko_next_grammar_error_cstr`, on the object behind the handle. -/
def legacyGrammarCstr {σ : Type} (x : LegacyObj σ) (text : Option (List Nat)) (startpos : Nat) (skip : Int) :
    UB (LegacyObj σ × LegacyRes) :=
  match text with
  | none => legacyGrammarUcs4 x none 0 0 0
  | some [] => legacyGrammarUcs4 x none 0 0 0
  | some bytes => do
    match ← ucs4FromUtf8 bytes with
    | none => legacyGrammarUcs4 x none 0 0 0
    | some w => legacyGrammarUcs4 x (some (w ++ [0])) (cstr w).length startpos skip

/-- `compatibility/interface.cpp:145-151`, `voikko_set_int_option`, on the object behind the handle. -/
def legacySetInt {σ : Type} (x : LegacyObj σ) (option value : Int) : UB (LegacyObj σ × LegacyRes) :=
  if option = 5 then some (x, .int 1)
  else do
    let (h, r) ← setIntegerOption x.handle option value
    some ({ x with handle := h }, .int r)

/-- What each function does with the object behind the handle: `compatibility/interface.cpp:141-151` (options), 165-192 (words),
208-226 (tokens and sentences), 228-284 (grammar). -/
def legacyApply {σ : Type} (x : LegacyObj σ) : LegacyOp → UB (LegacyObj σ × LegacyRes)
  | .setBool option value =>
    let (h, r) := setBooleanOption x.handle option value
    some ({ x with handle := h }, .int r)
  | .setInt option value => legacySetInt x option value
  | .spellCstr word => do
    let (r, c) ← spellCstr (x.dict x.handle.acceptExtraHyphens) x.handle.spell x.handle.spellerCache word
    some ({ x with handle := { x.handle with spellerCache := c } }, .code r)
  | .spellUcs4 word => do
    let (h, r) ← x.handle.spellWord x.dict word
    some ({ x with handle := h }, .code r)
  | .suggestUcs4 word => do
    let l ← suggestUcs4 (x.gen x.handle) x.handle.spell.ignoreDot x.handle.spell.acceptAllUppercase word
    some (x, .words l)
  | .hyphenateCstr word => do
    let p ← hyphenateCstr x.handle.hyph x.an word
    some (x, .pattern p)
  | .hyphenateUcs4 word => do
    let p ← hyphenateUcs4 x.handle.hyph x.an word
    some (x, .pattern p)
  | .tokenUcs4 text => do
    let (t, n) ← nextToken text x.handle.spell.ignoreDot
    some (x, .token t n)
  | .tokenCstr text => do
    let (t, n) ← nextTokenCstr text x.handle.spell.ignoreDot
    some (x, .token t n)
  | .sentenceUcs4 text => do
    let (t, n, dot) ← sentenceNext (x.env.spellOk x.handle.acceptExtraHyphens) text x.handle.spell.ignoreDot
    some ({ x with handle := { x.handle with spell := { x.handle.spell with ignoreDot := dot } } }, .sentence t n)
  | .grammarUcs4 text textlen startpos skip => legacyGrammarUcs4 x text textlen startpos skip
  | .grammarCstr text startpos skip => legacyGrammarCstr x text startpos skip

/-- `handles[handle]` used as a pointer to an object: undefined if the table is null, the index is outside of the table or the slot
is empty. Simplification: a few calls never follow the pointer (an unknown option, option 5 of `voikko_set_int_option`, a null text); here they are undefined too if it
is null. -/
def handleAt {H : Type} (t : HandleTable H) (handle : Int) : UB H := do
  let a ← t
  if handle < 0 then ub
  else do
    let slot ← rd a handle.toNat
    slot

/-- A function of the deprecated interface with the handle `handle`: the object behind the handle is read from the table and is
changed in place. `apply` is what the function does with the object. -/
def legacyUse {H Op R : Type} (apply : H → Op → UB (H × R)) (t : HandleTable H) (handle : Int) (op : Op) :
    UB (HandleTable H × R) := do
  let x ← handleAt t handle
  let (x, r) ← apply x op
  let a ← t
  let a ← wr a handle.toNat (some x)
  some (some a, r)

/-- `compatibility/interface.cpp:96-124`, `voikko_init_with_path`, with line 117: the size of the cache of the new object is set.
`resize` is what `voikkoSetIntegerOption` does with the object. -/
def legacyOpen {H : Type} (junk : Nat → List Nat) (make : List Nat → Option H) (resize : H → Int → UB H) (t : HandleTable H)
    (langcode : Option (List Nat)) (cacheSize : Int) : UB (HandleTable H × InitResult) := do
  let (t, r) ← legacyInit junk make t langcode
  match r with
  | .ok i =>
    let x ← handleAt t i
    let x ← resize x cacheSize
    let a ← t
    let a ← wr a i (some x)
    some (some a, .ok i)
  | r => some (t, r)

/-- `compatibility/interface.cpp:117`: the size of the cache is set to `cache_size`. -/
def legacyResize {σ : Type} (x : LegacyObj σ) (cacheSize : Int) : UB (LegacyObj σ) := do
  let (h, _) ← setIntegerOption x.handle 17 cacheSize
  some { x with handle := h }

/-- `compatibility/interface.cpp:153-163`, `voikko_set_string_option`; the handle is not used. -/
def legacySetString (option : Int) (value : Option (List Nat)) : Int :=
  match value with
  | none => 0
  | some v => if option ≠ 2 then 0 else if v = lit "UTF-8" then 1 else 0

end Verif
