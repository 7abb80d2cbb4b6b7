import Verif.Model.Setup
import Verif.Model.VoikkoSpell
import Verif.Model.VoikkoGc
/-!
# The arguments of the command line programs

`main` of `tools/voikkospell.cpp`, `tools/voikkohyphenate.cpp` and `tools/voikkogc.cpp` up to the loop that reads the input. Arguments are lists of bytes without
NUL, `args` is `argv[1]`, ..., `argv[argc - 1]`.

Simplifications: the texts of help, version, error messages and lists are not modelled, only which of them is written; `HAVE_PTHREAD` is defined. `init` stands
for `voikkoInit` (C57, C72); it gives the same for each thread.
-/

namespace Verif

/-- An element of `argv`. -/
abbrev Arg := List Nat

/-- `isspace` in the "C" locale. -/
def isSpaceByte (c : Nat) : Bool := c == 0x20 || (0x09 ≤ c && c ≤ 0x0D)

/-- The value of the digits at the beginning. -/
def digitsValue : Int → List Nat → Int
  | v, [] => v
  | v, c :: r => if 0x30 ≤ c ∧ c ≤ 0x39 then digitsValue (v * 10 + ((c - 0x30 : Nat) : Int)) r else v

/-- `atoi` of the C library: undefined if the value is not an `int`. -/
def atoi (s : List Nat) : UB Int :=
  let t := s.dropWhile isSpaceByte
  let v := match t with
    | 0x2D :: r => -digitsValue 0 r
    | 0x2B :: r => digitsValue 0 r
    | r => digitsValue 0 r
  if -2147483648 ≤ v ∧ v ≤ 2147483647 then some v else ub

/-- What a program does after processing its arguments. -/
inductive ArgsRes (α : Type) where
  /-- writes its usage and ends with the status 0 -/
  | help
  /-- writes the version and ends with the status 0 -/
  | version
  /-- writes the list of dictionaries in `path` and ends -/
  | listDicts (path : Option Arg)
  /-- writes the list of capabilities and ends -/
  | listCapabilities (path : Option Arg)
  /-- writes an error message and ends with the status 1 -/
  | fail
  /-- reads the input -/
  | run (settings : α)

/-! ### voikkospell -/

/-- The variables of `voikkospell.cpp:344-350` and `threadCount` (line 61). -/
structure SpellFirst where
  path : Option Arg := none
  variant : Arg := lit "fi"
  cacheSize : Int := 0
  listDicts : Bool := false
  listCapabilities : Bool := false
  threadCount : Int := 1
  deriving DecidableEq, Repr

/-- `voikkospell.cpp:351-392`: the first loop, from `argv[i]` on. -/
def spellFirstPass : List Arg → SpellFirst → UB (ArgsRes SpellFirst)
  | [], s => some (.run s)
  | a :: r, s =>
    if (lit "-c").isPrefixOf a then do
      let n ← atoi (a.drop 2)
      spellFirstPass r { s with cacheSize := n }
    else match r with
    | v :: r' =>
      if a = lit "-p" then spellFirstPass r' { s with path := some v }
      else if a = lit "-d" then spellFirstPass r' { s with variant := v }
      else if a = lit "-h" ∨ a = lit "--help" then some .help
      else if a = lit "--version" then some .version
      else if a = lit "-l" then spellFirstPass (v :: r') { s with listDicts := true }
      else if a = lit "-L" then spellFirstPass (v :: r') { s with listCapabilities := true }
      else if a = lit "-j" then do
        let n ← atoi v
        if n ≤ 0 ∨ n > 200 then some .fail else spellFirstPass r' { s with threadCount := n }
      else spellFirstPass (v :: r') s
    | [] =>
      -- the last argument: `i + 1 == argc`
      if a = lit "-h" ∨ a = lit "--help" then some .help
      else if a = lit "--version" then some .version
      else if a = lit "-l" then some (.run { s with listDicts := true })
      else if a = lit "-L" then some (.run { s with listCapabilities := true })
      else if a = lit "-j" then some .fail
      else some (.run s)

/-- The state of `voikkospell` when it begins to read words: its static variables and the handles of `spellers`. `wordSeparator` is a `char` there: the model
keeps the byte. -/
structure SpellTool (G : Type) where
  opts : ToolOpts := {}
  handles : List (Handle G)

/-- What to do with an argument in the second loop. -/
inductive ArgStep (α : Type) where
  | set (s : α)
  /-- `i++; continue` -/
  | skipValue
  | unknown
  /-- undefined behaviour -/
  | undefined

/-- `voikkospell.cpp:254-258`, `setBooleanOption`. -/
def SpellTool.setBoolean {G : Type} (s : SpellTool G) (option value : Int) : SpellTool G :=
  { s with handles := s.handles.map fun h => (setBooleanOption h option value).1 }

/-- `voikkospell.cpp:417-480`: one argument in the second loop. -/
def spellSecondArg {G : Type} (a : Arg) (s : SpellTool G) : ArgStep (SpellTool G) :=
  if a = lit "-t" then .set { s with opts := { s.opts with mode := .onlyCW } }
  else if a = lit "-tt" then .set { s with opts := { s.opts with mode := .onlyIncorrect } }
  else if a = lit "ignore_dot=1" then .set (s.setBoolean 0 1)
  else if a = lit "ignore_dot=0" then .set (s.setBoolean 0 0)
  else if a = lit "ignore_numbers=1" then .set (s.setBoolean 1 1)
  else if a = lit "ignore_numbers=0" then .set (s.setBoolean 1 0)
  else if a = lit "ignore_nonwords=1" then .set (s.setBoolean 10 1)
  else if a = lit "ignore_nonwords=0" then .set (s.setBoolean 10 0)
  else if a = lit "accept_first_uppercase=1" then .set (s.setBoolean 6 1)
  else if a = lit "accept_first_uppercase=0" then .set (s.setBoolean 6 0)
  else if a = lit "accept_all_uppercase=1" then .set (s.setBoolean 7 1)
  else if a = lit "accept_all_uppercase=0" then .set (s.setBoolean 7 0)
  else if a = lit "accept_extra_hyphens=1" then .set (s.setBoolean 11 1)
  else if a = lit "accept_extra_hyphens=0" then .set (s.setBoolean 11 0)
  else if a = lit "accept_missing_hyphens=1" then .set (s.setBoolean 12 1)
  else if a = lit "accept_missing_hyphens=0" then .set (s.setBoolean 12 0)
  else if a = lit "ocr_suggestions=1" then .set (s.setBoolean 8 1)
  else if a = lit "ocr_suggestions=0" then .set (s.setBoolean 8 0)
  else if (lit "-x").isPrefixOf a then
    let sep := match a with
      | [_, _, c] => c
      | _ => s.opts.separator
    .set { s with opts := { s.opts with oneLine := true, separator := sep, space := sep != 0x20 } }
  else if a = lit "-s" then .set { s with opts := { s.opts with suggest := true } }
  else if a = lit "-m" then .set { s with opts := { s.opts with morphology := true } }
  else if a = lit "-M" then .set { s with opts := { s.opts with morphology := true, mode := .none } }
  else if (lit "-c").isPrefixOf a then .set s
  else if a = lit "-p" ∨ a = lit "-d" ∨ a = lit "-j" then .skipValue
  else .unknown

/-- A second loop (`voikkospell.cpp:415-481`, `voikkohyphenate.cpp:118-152`, `voikkogc.cpp:204-246`): `some none` if the program returns 1. -/
def secondPass {α : Type} (step : Arg → α → ArgStep α) : List Arg → α → UB (Option α)
  | [], s => some (some s)
  | a :: r, s =>
    match step a s with
    | .set s => secondPass step r s
    | .skipValue =>
      match r with
      | _ :: r => secondPass step r s
      | [] => some (some s)
    | .unknown => some none
    | .undefined => ub

/-- `voikkospell.cpp:343-481`. -/
def spellToolArgs {G : Type} (init : Arg → Option Arg → Option (Handle G)) (args : List Arg) : UB (ArgsRes (SpellTool G)) := do
  match ← spellFirstPass args {} with
  | .run f =>
    if f.listDicts then return .listDicts f.path
    else if f.listCapabilities then return .listCapabilities f.path
    else match init f.variant f.path with
    | none => return .fail
    | some h =>
      let (h, _) ← setIntegerOption h 17 f.cacheSize
      match ← secondPass spellSecondArg args { handles := List.replicate f.threadCount.toNat h } with
      | some s => return .run s
      | none => return .fail
  | .help => return .help
  | .version => return .version
  | .listDicts p => return .listDicts p
  | .listCapabilities p => return .listCapabilities p
  | .fail => return .fail

/-! ### voikkohyphenate and voikkogc -/

/-- The first loop of `voikkohyphenate.cpp:93-108` and `voikkogc.cpp:179-194`: path and variant. -/
def commonFirstPass : List Arg → Option Arg × Arg → ArgsRes (Option Arg × Arg)
  | [], s => .run s
  | a :: v :: r, s =>
    if a = lit "-p" then commonFirstPass r (some v, s.2)
    else if a = lit "-d" then commonFirstPass r (s.1, v)
    else if a = lit "-h" ∨ a = lit "--help" then .help
    else if a = lit "--version" then .version
    else commonFirstPass (v :: r) s
  | [a], s =>
    if a = lit "-h" ∨ a = lit "--help" then .help
    else if a = lit "--version" then .version
    else .run s

/-- The separator and the handle of `voikkohyphenate`. -/
structure HyphTool (G : Type) where
  separator : Wc := 0x2D
  handle : Handle G

/-- `voikkohyphenate.cpp:119-151`: one argument in the second loop. `mbtowc` is the conversion of one byte in the "C" locale (the locale is set later). -/
def hyphSecondArg {G : Type} (mbtowc : Nat → Option Wc) (a : Arg) (s : HyphTool G) : ArgStep (HyphTool G) :=
  if a = lit "no_ugly_hyphenation=1" then .set { s with handle := (setBooleanOption s.handle 4 1).1 }
  else if a = lit "no_ugly_hyphenation=0" then .set { s with handle := (setBooleanOption s.handle 4 0).1 }
  else if a = lit "ignore_dot=1" then .set { s with handle := (setBooleanOption s.handle 0 1).1 }
  else if a = lit "ignore_dot=0" then .set { s with handle := (setBooleanOption s.handle 0 0).1 }
  else if a = lit "hyphenate_unknown_words=1" then .set { s with handle := (setBooleanOption s.handle 15 1).1 }
  else if a = lit "hyphenate_unknown_words=0" then .set { s with handle := (setBooleanOption s.handle 15 0).1 }
  else if (lit "min_hyphenated_word_length=").isPrefixOf a then
    match atoi (a.drop 27) with
    | some n =>
      match setIntegerOption s.handle 9 (if n < 2 then 2 else n) with
      | some (h, _) => .set { s with handle := h }
      | none => .undefined
    | none => .undefined
  else if (lit "-s").isPrefixOf a then
    match a with
    | [_, _, c] =>
      match mbtowc c with
      | some w => .set { s with separator := w }
      | none => .unknown
    | _ => .unknown
  else if a = lit "-p" ∨ a = lit "-d" then .skipValue
  else .unknown

/-- `voikkohyphenate.cpp:89-152`. -/
def hyphToolArgs {G : Type} (init : Arg → Option Arg → Option (Handle G)) (mbtowc : Nat → Option Wc) (args : List Arg) :
    UB (ArgsRes (HyphTool G)) :=
  match commonFirstPass args (none, lit "fi") with
  | .run (path, variant) =>
    match init variant path with
    | none => some .fail
    | some h =>
      match secondPass (hyphSecondArg mbtowc) args { handle := (setBooleanOption h 4 0).1 } with
      | some (some s) => some (.run s)
      | some none => some .fail
      | none => ub
  | .help => some .help
  | .version => some .version
  | .listDicts p => some (.listDicts p)
  | .listCapabilities p => some (.listCapabilities p)
  | .fail => some .fail

/-- `voikkogc.cpp:172`, `operation`. -/
inductive GcOperation where
  | tokenize | splitSentences | checkGrammar
  deriving DecidableEq, Repr

/-- The settings of `voikkogc`. -/
structure GcTool (G : Type) where
  op : GcOperation := .checkGrammar
  opts : GcOpts := {}
  handle : Handle G

/-- `voikkogc.cpp:205-245`: one argument in the second loop. -/
def gcSecondArg {G : Type} (a : Arg) (s : GcTool G) : ArgStep (GcTool G) :=
  if (lit "--tokenize").isPrefixOf a then .set { s with op := .tokenize }
  else if (lit "--split-sentences").isPrefixOf a then .set { s with op := .splitSentences }
  else if a = lit "accept_titles=1" then .set { s with handle := (setBooleanOption s.handle 13 1).1 }
  else if a = lit "accept_titles=0" then .set { s with handle := (setBooleanOption s.handle 13 0).1 }
  else if a = lit "accept_unfinished_paragraphs=1" then .set { s with handle := (setBooleanOption s.handle 14 1).1 }
  else if a = lit "accept_unfinished_paragraphs=0" then .set { s with handle := (setBooleanOption s.handle 14 0).1 }
  else if a = lit "accept_bulleted_lists=1" then .set { s with handle := (setBooleanOption s.handle 16 1).1 }
  else if a = lit "accept_bulleted_lists=0" then .set { s with handle := (setBooleanOption s.handle 16 0).1 }
  else if (lit "explanation_language=fi").isPrefixOf a then .set { s with opts := { s.opts with language := some (lit "fi") } }
  else if (lit "explanation_language=").isPrefixOf a then .set { s with opts := { s.opts with language := some (lit "en") } }
  else if a = lit "-n" then .set { s with opts := { s.opts with printNumbers := true } }
  else if a = lit "-p" ∨ a = lit "-d" then .skipValue
  else .unknown

/-- `voikkogc.cpp:174-246`. -/
def gcToolArgs {G : Type} (init : Arg → Option Arg → Option (Handle G)) (args : List Arg) : UB (ArgsRes (GcTool G)) :=
  match commonFirstPass args (none, lit "fi") with
  | .run (path, variant) =>
    match init variant path with
    | none => some .fail
    | some h =>
      match secondPass gcSecondArg args { handle := h } with
      | some (some s) => some (.run s)
      | some none => some .fail
      | none => ub
  | .help => some .help
  | .version => some .version
  | .listDicts p => some (.listDicts p)
  | .listCapabilities p => some (.listCapabilities p)
  | .fail => some .fail

end Verif
