import Verif.Model.ToolArgs
/-!
# What the arguments of the command line programs mean

Written after the manual pages (`tools/voikkospell.1`, `tools/voikkohyphenate.1`, `tools/voikkogc.1`): a command line is a sequence of items, an item is either an
option with a value in the next argument or one argument, and of the items that set the same thing the last one counts. Only `Arg`, `CheckMode`, `atoi` and the
handle are taken from the model.
-/

namespace Verif.Args
open Verif

/-- An option with its value, or another argument. -/
inductive Item where
  | valued (key value : Arg)
  | word (w : Arg)
  deriving DecidableEq, Repr

/-- The arguments of an item. -/
def Item.args : Item → List Arg
  | .valued k v => [k, v]
  | .word w => [w]

/-- The command line `args` consists of `items`; `rest` is an option at the end whose value is missing. `keys` are the options that have values. -/
structure Reads (keys : List Arg) (args : List Arg) (items : List Item) (rest : Option Arg) : Prop where
  split : args = items.flatMap Item.args ++ rest.toList
  valued : ∀ k v, Item.valued k v ∈ items → k ∈ keys
  word : ∀ w, Item.word w ∈ items → w ∉ keys
  rest : ∀ k, rest = some k → k ∈ keys

/-- What the last of the items that say something about it says. -/
def lastOf {β : Type} (f : Item → Option β) (items : List Item) : Option β := (items.filterMap f).getLast?

/-- `name=1` or `name=0`. -/
def setting (name : String) : Item → Option Bool
  | .word w => if w = lit name ++ lit "=1" then some true else if w = lit name ++ lit "=0" then some false else none
  | .valued .. => none

/-- The value given with the option `key`. -/
def valueOf (key : String) : Item → Option Arg
  | .valued k v => if k = lit key then some v else none
  | .word _ => none

/-- The number after `-c`. -/
def cacheOf : Item → Option (UB Int)
  | .word w => if lit "-c" <+: w then some (atoi (w.drop 2)) else none
  | .valued .. => none

/-- The number of threads. -/
def threadsOf : Item → Option (UB Int)
  | .valued k v => if k = lit "-j" then some (atoi v) else none
  | .word _ => none

/-- The options `-t`, `-tt` and `-M`. -/
def modeOf : Item → Option CheckMode
  | .word w =>
    if w = lit "-t" then some .onlyCW else if w = lit "-tt" then some .onlyIncorrect else if w = lit "-M" then some .none else none
  | .valued .. => none

/-- `-xc`: the character `c`. -/
def separatorOf : Item → Option Nat
  | .word [0x2D, 0x78, c] => some c
  | _ => none

/-- The Boolean options of `voikkospell`. -/
def spellNames : List String :=
  ["ignore_dot", "ignore_numbers", "ignore_nonwords", "accept_first_uppercase", "accept_all_uppercase", "accept_extra_hyphens", "accept_missing_hyphens",
   "ocr_suggestions"]

/-- The arguments that `voikkospell` knows, apart from options with values and the requests for help, version and lists. -/
def SpellKnown (w : Arg) : Prop :=
  w ∈ ["-t", "-tt", "-s", "-m", "-M"].map lit ∨ (∃ n ∈ spellNames, (setting n (.word w)).isSome) ∨ lit "-x" <+: w ∨ lit "-c" <+: w

/-- The options of `voikkospell` with values. -/
def spellKeys : List Arg := [lit "-p", lit "-d", lit "-j"]

/-- An item that ends the program as soon as it is met. -/
def stopOf {α : Type} : Item → Option (ArgsRes α)
  | .word w => if w = lit "-h" ∨ w = lit "--help" then some .help else if w = lit "--version" then some .version else none
  | .valued k v => if k = lit "-j" ∧ ∃ n, atoi v = some n ∧ ¬ (1 ≤ n ∧ n ≤ 200) then some .fail else none

/-- The numbers of an item are in the range of `int`. -/
def NumbersOk (it : Item) : Prop := cacheOf it ≠ some none ∧ threadsOf it ≠ some none

/-- The options of a handle after the items. -/
def handleAfter {G : Type} (h : Handle G) (items : List Item) : Handle G :=
  { h with
    spell := { h.spell with
      ignoreDot := (lastOf (setting "ignore_dot") items).getD h.spell.ignoreDot
      ignoreNumbers := (lastOf (setting "ignore_numbers") items).getD h.spell.ignoreNumbers
      ignoreNonwords := (lastOf (setting "ignore_nonwords") items).getD h.spell.ignoreNonwords
      acceptFirstUppercase := (lastOf (setting "accept_first_uppercase") items).getD h.spell.acceptFirstUppercase
      acceptAllUppercase := (lastOf (setting "accept_all_uppercase") items).getD h.spell.acceptAllUppercase
      acceptMissingHyphens := (lastOf (setting "accept_missing_hyphens") items).getD h.spell.acceptMissingHyphens }
    hyph := { h.hyph with ignoreDot := (lastOf (setting "ignore_dot") items).getD h.hyph.ignoreDot }
    acceptExtraHyphens := (lastOf (setting "accept_extra_hyphens") items).getD h.acceptExtraHyphens
    ocr := (lastOf (setting "ocr_suggestions") items).getD h.ocr }

/-- `voikkospell` runs as its manual page says for the items: `h` is a new handle and `n` the number of threads. -/
structure SpellMeans {G : Type} (h : Handle G) (n : Nat) (items : List Item) (t : SpellTool G) : Prop where
  mode : t.opts.mode = (lastOf modeOf items).getD .normal
  suggest : t.opts.suggest = true ↔ .word (lit "-s") ∈ items
  morphology : t.opts.morphology = true ↔ .word (lit "-m") ∈ items ∨ .word (lit "-M") ∈ items
  oneLine : t.opts.oneLine = true ↔ ∃ w, .word w ∈ items ∧ lit "-x" <+: w
  separator : t.opts.separator = (lastOf separatorOf items).getD 0x20
  space : t.opts.space = true ↔ t.opts.separator ≠ 0x20
  handles : t.handles = List.replicate n (handleAfter h items)

/-! ### voikkohyphenate and voikkogc -/

/-- The options of `voikkohyphenate` and `voikkogc` with values. -/
def commonKeys : List Arg := [lit "-p", lit "-d"]

/-- The number after `min_hyphenated_word_length=`. -/
def minLengthOf : Item → Option (UB Int)
  | .word w => if lit "min_hyphenated_word_length=" <+: w then some (atoi (w.drop 27)) else none
  | .valued .. => none

/-- `-sc`: the character `c`. -/
def hyphSeparatorOf (mbtowc : Nat → Option Wc) : Item → Option Wc
  | .word [0x2D, 0x73, c] => mbtowc c
  | _ => none

/-- The arguments that `voikkohyphenate` knows. -/
def HyphKnown (mbtowc : Nat → Option Wc) (w : Arg) : Prop :=
  (∃ n ∈ ["no_ugly_hyphenation", "ignore_dot", "hyphenate_unknown_words"], (setting n (.word w)).isSome) ∨ lit "min_hyphenated_word_length=" <+: w ∨
    (hyphSeparatorOf mbtowc (.word w)).isSome

/-- The handle of `voikkohyphenate` after the items: ugly hyphenation is allowed unless the command line says otherwise, and words are at least two
characters long. -/
def hyphHandleAfter {G : Type} (h : Handle G) (items : List Item) : Handle G :=
  { h with
    spell := { h.spell with ignoreDot := (lastOf (setting "ignore_dot") items).getD h.spell.ignoreDot }
    hyph := {
      ugly := !((lastOf (setting "no_ugly_hyphenation") items).getD false)
      hyphenateUnknown := (lastOf (setting "hyphenate_unknown_words") items).getD h.hyph.hyphenateUnknown
      ignoreDot := (lastOf (setting "ignore_dot") items).getD h.hyph.ignoreDot
      minLength := match lastOf minLengthOf items with
        | some (some n) => max 2 n.toNat
        | _ => h.hyph.minLength } }

/-- `--tokenize` and `--split-sentences`. -/
def operationOf : Item → Option GcOperation
  | .word w =>
    if lit "--tokenize" <+: w then some .tokenize else if lit "--split-sentences" <+: w then some .splitSentences else none
  | .valued .. => none

/-- The language of the explanations: Finnish, or English for everything that does not begin with `fi`. -/
def languageOf : Item → Option Arg
  | .word w =>
    if lit "explanation_language=fi" <+: w then some (lit "fi") else if lit "explanation_language=" <+: w then some (lit "en") else none
  | .valued .. => none

/-- The arguments that `voikkogc` knows. -/
def GcKnown (w : Arg) : Prop :=
  w = lit "-n" ∨ (∃ n ∈ ["accept_titles", "accept_unfinished_paragraphs", "accept_bulleted_lists"], (setting n (.word w)).isSome) ∨
    (operationOf (.word w)).isSome ∨ (languageOf (.word w)).isSome

/-- `voikkogc` runs as its manual page says for the items. -/
structure GcMeans {G : Type} (h : Handle G) (items : List Item) (t : GcTool G) : Prop where
  op : t.op = (lastOf operationOf items).getD .checkGrammar
  numbers : t.opts.printNumbers = true ↔ .word (lit "-n") ∈ items
  first : t.opts.lineNumber = 0
  language : t.opts.language = lastOf languageOf items
  titles : t.handle.acceptTitles = (lastOf (setting "accept_titles") items).getD h.acceptTitles
  unfinished : t.handle.acceptUnfinished = (lastOf (setting "accept_unfinished_paragraphs") items).getD h.acceptUnfinished
  bulleted : t.handle.acceptBulleted = (lastOf (setting "accept_bulleted_lists") items).getD h.acceptBulleted
  others : t.handle.spell = h.spell ∧ t.handle.hyph = h.hyph ∧ t.handle.ocr = h.ocr ∧ t.handle.acceptExtraHyphens = h.acceptExtraHyphens ∧
    t.handle.spellerCache = h.spellerCache
  cache : h.gcCache = none → t.handle.gcCache = none

end Verif.Args
