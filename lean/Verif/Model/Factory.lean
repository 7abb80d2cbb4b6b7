import Verif.Model.Dictionary
/-!
# Creating and releasing a handle: `setup/setup.cpp`, the factories, and the lists of `setup/interface.cpp`

The model follows which blocks of memory (objects, mapped files, buffers) are allocated and released. A block is a number that is
never used again. Releasing a block that is not allocated is undefined behaviour. A function may throw a `DictionaryException`.

Simplifications: a block stands for an object with everything its destructor releases by itself (strings, lists, the symbol strings
of a transducer, the generators of a suggestion strategy, the words of a speller cache); the memory of an object whose constructor
throws is released by C++ and is never counted. Allocation always succeeds. The backends that need libraries outside of the project
(HFST, Lttoolbox, VISL CG-3) are not built.
-/

namespace Verif

/-- The allocated blocks and the number of the next block. -/
structure Mem where
  live : List Nat := []
  next : Nat := 0
  deriving DecidableEq, Repr

/-- Code that changes the memory, may throw a `DictionaryException` with a message, and may be undefined. -/
def Cpp (α : Type) := Mem → UB (Mem × Except String α)

/-- A normal return. -/
def Cpp.ret {α : Type} (a : α) : Cpp α := fun m => some (m, .ok a)

/-- `throw DictionaryException(message)`. -/
def Cpp.throw {α : Type} (message : String) : Cpp α := fun m => some (m, .error message)

/-- First `x`, then `f`, unless `x` throws. -/
def Cpp.next {α β : Type} (x : Cpp α) (f : α → Cpp β) : Cpp β := fun m =>
  match x m with
  | none => none
  | some (m', .error e) => some (m', .error e)
  | some (m', .ok a) => f a m'

instance : Monad Cpp where
  pure := Cpp.ret
  bind := Cpp.next

/-- `try { x } catch (DictionaryException & e) { handler; ... }`, where the message is handed on after the handler. -/
def Cpp.orElse {α : Type} (x : Cpp α) (handler : Cpp Unit) : Cpp α := fun m =>
  match x m with
  | none => none
  | some (m', .error e) =>
    match handler m' with
    | none => none
    | some (m'', _) => some (m'', .error e)
  | some (m', .ok a) => some (m', .ok a)

/-- `new`, `mmap` -/
def alloc : Cpp Nat := fun m => some (⟨m.next :: m.live, m.next + 1⟩, .ok m.next)

/-- Several blocks. -/
def allocs : Nat → Cpp (List Nat)
  | 0 => Cpp.ret []
  | n + 1 => do
    let p ← alloc
    let ps ← allocs n
    return p :: ps

/-- `delete`, `munmap` -/
def free (p : Nat) : Cpp Unit := fun m => if p ∈ m.live then some (⟨m.live.erase p, m.next⟩, .ok ()) else ub

/-- Release of several blocks. -/
def freeAll : List Nat → Cpp Unit
  | [] => Cpp.ret ()
  | p :: ps => do
    free p
    freeAll ps

/-! ## Transducers -/

/-- What is found at the path of a transducer. `unmappable`: it can be opened but not mapped (an empty file or a directory);
`malformed`: the header is right but a flag diacritic is not. The argument says whether it is weighted. -/
inductive VfstFile where
  | missing | unmappable | unknown
  | malformed (weighted : Bool)
  | valid (weighted : Bool)
  deriving DecidableEq, Repr

/-- `UnweightedTransducer.cpp:125-189`, `WeightedTransducer.cpp:130-194`, the constructors: the mapping and the object. If
`mmap` fails its result -1 is not recognised (`Transducer.cpp:136-138`) and read as an address. Nothing releases the mapping if the
constructor throws. -/
def newTransducer (weighted : Bool) (file : VfstFile) : Cpp (List Nat) :=
  match file with
  | .missing => Cpp.throw (if weighted then "Weighted transducer file could not be read" else "Unweighted transducer file could not be read")
  | .unmappable => fun _ => ub
  | .unknown => do
    let _ ← alloc
    Cpp.throw "Unknown byte order or file type"
  | .malformed w => do
    let _ ← alloc
    if w = weighted then Cpp.throw "Malformed flag diacritic"
    else Cpp.throw (if weighted then "Expected weighted but got unweighted transducer" else "Expected unweighted but got weighted transducer")
  | .valid w => do
    let map ← alloc
    if w = weighted then do
      let obj ← alloc
      return [map, obj]
    else Cpp.throw (if weighted then "Expected weighted but got unweighted transducer" else "Expected unweighted but got weighted transducer")

/-! ## Components -/

/-- A component of a handle: its class, its object and the blocks that its `terminate` (of the grammar checker: its destructor)
releases. -/
structure Part (K : Type) where
  kind : K
  obj : Nat
  inner : List Nat := []
  deriving DecidableEq, Repr

/-- The classes of analysers. -/
inductive AnalyzerKind where
  | null | finnishVfst | vfst
  deriving DecidableEq, Repr

/-- The classes of spellers. -/
inductive SpellerKind where
  | adapter | finnishTweaks | allOk | allError | vfst
  deriving DecidableEq, Repr

/-- The classes of suggestion generators. -/
inductive SuggestionKind where
  | typing | ocr | null | vfst
  deriving DecidableEq, Repr

/-- The classes of grammar checkers. -/
inductive GrammarKind where
  | null | finnish
  deriving DecidableEq, Repr

/-- How the library was built: `configure --disable-vfst`, `--enable-expvfst`. -/
structure Build where
  vfst : Bool := true
  expVfst : Bool := false
  deriving DecidableEq, Repr

/-- The files of transducers, by path. -/
abbrev Files := List Nat → VfstFile

/-- `AnalyzerFactory.cpp:50-77`, `getAnalyzer`; `FinnishVfstAnalyzer.cpp:51-55`, `VfstAnalyzer.cpp:54-60`: the transducer, its
configuration and the output buffer, which `terminate` releases (`FinnishVfstAnalyzer.cpp:1172-1177`, `VfstAnalyzer.cpp:103-108`). -/
def getAnalyzer (b : Build) (files : Files) (d : Dict) : Cpp (Part AnalyzerKind) :=
  if d.mor.name = lit "null" then do
    let obj ← alloc
    return { kind := .null, obj := obj }
  else if b.expVfst = true ∧ d.mor.name = lit "vfst" then do
    let t ← newTransducer true (files (d.mor.path ++ lit "/mor.vfst"))
    let rest ← allocs 2
    let obj ← alloc
    return { kind := .vfst, obj := obj, inner := t ++ rest }
  else if b.vfst = true ∧ d.mor.name = lit "finnishVfst" then do
    let t ← newTransducer false (files (d.mor.path ++ lit "/mor.vfst"))
    let rest ← allocs 2
    let obj ← alloc
    return { kind := .finnishVfst, obj := obj, inner := t ++ rest }
  else Cpp.throw "Failed to create analyzer because of unknown morphology backend"

/-- `SpellerFactory.cpp:47-73`, `getSpeller`. The wrapper owns the adapter and a hyphenator (`FinnishSpellerTweaksWrapper.cpp:42-51`,
`218-221`); `VfstSpeller.cpp:43-48`, `78-83`. -/
def getSpeller (b : Build) (files : Files) (d : Dict) : Cpp (Part SpellerKind) :=
  if d.spell.name = lit "AnalyzerToSpellerAdapter(currentAnalyzer)" then do
    let obj ← alloc
    return { kind := .adapter, obj := obj }
  else if d.spell.name = lit "FinnishSpellerTweaksWrapper(AnalyzerToSpellerAdapter(currentAnalyzer),currentAnalyzer)" then do
    let inner ← allocs 2
    let obj ← alloc
    return { kind := .finnishTweaks, obj := obj, inner := inner }
  else if d.spell.name = lit "AllOk" then do
    let obj ← alloc
    return { kind := .allOk, obj := obj }
  else if d.spell.name = lit "AllError" then do
    let obj ← alloc
    return { kind := .allError, obj := obj }
  else if b.expVfst = true ∧ d.spell.name = lit "vfst" then do
    let t ← newTransducer true (files (d.mor.path ++ lit "/spl.vfst"))
    let rest ← allocs 2
    let obj ← alloc
    return { kind := .vfst, obj := obj, inner := t ++ rest }
  else Cpp.throw "Failed to create speller because backend configuration could not be parsed"

/-- `SuggestionGeneratorFactory.cpp:50-83`, `getSuggestionGenerator`; `VfstSuggestion.cpp:52-61`: the error model, two configurations
and two buffers. -/
def getSuggestionGenerator (b : Build) (files : Files) (d : Dict) (speller : SpellerKind) (ocr : Bool) : Cpp (Part SuggestionKind) :=
  if d.suggestion.name = lit "FinnishSuggestionStrategy(currentAnalyzer)" then do
    let obj ← alloc
    return { kind := if ocr then .ocr else .typing, obj := obj }
  else if d.suggestion.name = lit "null" then do
    let obj ← alloc
    return { kind := .null, obj := obj }
  else if b.expVfst = true ∧ d.suggestion.name = lit "vfst" then
    if speller ≠ .vfst then Cpp.throw "VFST suggestion generator works only with VFST speller"
    else do
      let t ← newTransducer true (files (d.mor.path ++ lit "/err.vfst"))
      let rest ← allocs 4
      let obj ← alloc
      return { kind := .vfst, obj := obj, inner := t ++ rest }
  else Cpp.throw "Failed to create suggestion generator because of unknown suggestion generator backend"

/-- `HyphenatorFactory.cpp:41-53`, `getHyphenator`. -/
def getHyphenator (d : Dict) : Cpp (Part Unit) :=
  if d.hyphenator.name = lit "AnalyzerToFinnishHyphenatorAdapter(currentAnalyzer)" then do
    let obj ← alloc
    return { kind := (), obj := obj }
  else Cpp.throw "Could not create hyphenator due to unknown hyphenator backend"

/-- `GrammarCheckerFactory.cpp:42-58`, `getGrammarChecker`, with `FinnishGrammarChecker.cpp:37-40` and
`FinnishRuleEngine.cpp:47-60`: five checks, then the check that reads the autocorrection file (its transducer, configuration and
two buffers), the rule engine and the paragraph analyser. If the file cannot be read the five checks are not released. -/
def getGrammarChecker (b : Build) (files : Files) (d : Dict) : Cpp (Part GrammarKind) :=
  if d.grammar.name = lit "null" then do
    let inner ← allocs 2
    let obj ← alloc
    return { kind := .null, obj := obj, inner := inner }
  else if d.grammar.name = lit "finnish" ∨ d.grammar.name = lit "finnishVfst" then do
    let checks ← allocs 5
    if b.vfst = true ∧ d.grammar.name = lit "finnishVfst" then do
      let t ← newTransducer false (files (d.grammar.path ++ lit "/autocorr.vfst"))
      let auto ← allocs 4
      let engine ← allocs 2
      let obj ← alloc
      return { kind := .finnish, obj := obj, inner := checks ++ (t ++ (auto ++ engine)) }
    else do
      let engine ← allocs 2
      let obj ← alloc
      return { kind := .finnish, obj := obj, inner := checks ++ engine }
  else Cpp.throw "Failed to create checker because of unknown grammar backend"

/-! ## Handles -/

/-- `setup.hpp:49-69`, `VoikkoHandle`: the components. `self` is the handle itself; `cache` is the speller cache with its size
parameter. -/
structure Components where
  self : Nat
  dict : Dict
  analyzer : Part AnalyzerKind
  speller : Part SpellerKind
  suggestion : Part SuggestionKind
  hyphenator : Part Unit
  grammar : Part GrammarKind
  cache : Option (Nat × Int)
  deriving DecidableEq, Repr

/-- `p->terminate(); delete p;` -/
def dispose {K : Type} (p : Part K) : Cpp Unit := do
  freeAll p.inner
  free p.obj

/-- The same behind `if (p)`. -/
def disposeIf {K : Type} : Option (Part K) → Cpp Unit
  | none => Cpp.ret ()
  | some p => dispose p

/-- `delete p;` without `terminate`; deleting a null pointer does nothing. -/
def deleteOnly {K : Type} : Option (Part K) → Cpp Unit
  | none => Cpp.ret ()
  | some p => free p.obj

/-- `setup.cpp:207-228`: the handler in `voikkoInit`, with the components that exist. The suggestion generator is deleted but not
terminated. -/
def initFailed (self : Nat) (an : Option (Part AnalyzerKind)) (sp : Option (Part SpellerKind)) (su : Option (Part SuggestionKind))
    (hy : Option (Part Unit)) : Cpp Unit := do
  disposeIf hy
  deleteOnly su
  disposeIf sp
  disposeIf an
  free self

/-- `DictionaryFactory.cpp:110-136`, `load`, with the messages. -/
def loadOrThrow (found : List Nat → List Dict) (defaultLocations : List (List Nat)) (env : Option (List Nat))
    (language path : List Nat) : Cpp Dict :=
  if findAllAvailable found defaultLocations path = [] then Cpp.throw "No valid dictionaries were found"
  else match loadDictionary found defaultLocations env language path with
    | some d => Cpp.ret d
    | none => Cpp.throw "Specified dictionary variant was not found"

/-- `setup.cpp:163-233`, `voikkoInit`. The result is the handle, or the message in `*error` if the handle is null. `path` is empty if
the argument is null. -/
def voikkoInit (b : Build) (files : Files) (found : List Nat → List Dict) (defaultLocations : List (List Nat))
    (env : Option (List Nat)) (language : Option (List Nat)) (path : List Nat) : Cpp Components :=
  match language with
  | none => Cpp.throw "Language must not be null"
  | some lang => do
    let self ← alloc
    let d ← (loadOrThrow found defaultLocations env lang path).orElse (initFailed self none none none none)
    let an ← (getAnalyzer b files d).orElse (initFailed self none none none none)
    let sp ← (getSpeller b files d).orElse (initFailed self (some an) none none none)
    let su ← (getSuggestionGenerator b files d sp.kind false).orElse (initFailed self (some an) (some sp) none none)
    let hy ← (getHyphenator d).orElse (initFailed self (some an) (some sp) (some su) none)
    let gr ← (getGrammarChecker b files d).orElse (initFailed self (some an) (some sp) (some su) (some hy))
    let cache ← alloc
    return { self := self, dict := d, analyzer := an, speller := sp, suggestion := su, hyphenator := hy, grammar := gr,
             cache := some (cache, 0) }

/-- `setup.cpp:245`: the speller cache, if there is one. -/
def freeCache : Option (Nat × Int) → Cpp Unit
  | some (p, _) => free p
  | none => Cpp.ret ()

/-- `setup.cpp:235-247`, `voikkoTerminate`. -/
def voikkoTerminate (h : Components) : Cpp Unit := do
  dispose h.grammar
  dispose h.hyphenator
  dispose h.suggestion
  dispose h.speller
  dispose h.analyzer
  freeCache h.cache
  free h.self

/-- `setup.cpp:98-107`: `voikkoSetBooleanOption` with `VOIKKO_OPT_OCR_SUGGESTIONS`. The old generator is deleted but not terminated. -/
def setOcrSuggestions (b : Build) (files : Files) (h : Components) (value : Bool) : Cpp Components := do
  free h.suggestion.obj
  let su ← getSuggestionGenerator b files h.dict h.speller.kind value
  return { h with suggestion := su }

/-- `setup.cpp:143-159`: `voikkoSetIntegerOption` with `VOIKKO_SPELLER_CACHE_SIZE`. -/
def setCacheSize (h : Components) (value : Int) : Cpp Components :=
  match h.cache with
  | some (p, size) =>
    if size ≠ value then do
      free p
      if 0 ≤ value then do
        let q ← alloc
        return { h with cache := some (q, value) }
      else return { h with cache := none }
    else return h
  | none =>
    if 0 ≤ value then do
      let q ← alloc
      return { h with cache := some (q, value) }
    else return h

/-- The changes of a handle that replace components. -/
inductive Change where
  | ocr (value : Bool)
  | cacheSize (value : Int)
  deriving DecidableEq, Repr

/-- One change. -/
def change (b : Build) (files : Files) (h : Components) : Change → Cpp Components
  | .ocr v => setOcrSuggestions b files h v
  | .cacheSize v => setCacheSize h v

/-- Several changes. -/
def changes (b : Build) (files : Files) (h : Components) : List Change → Cpp Components
  | [] => Cpp.ret h
  | c :: cs => do
    let h' ← change b files h c
    changes b files h' cs

/-! ## Lists of languages and dictionaries -/

/-- `setup/interface.cpp:74-80`, `voikko_dict_variant`. -/
def dictVariant (d : Dict) : List Nat := if d.tag.privateUse ≠ [] then d.tag.privateUse else lit "standard"

/-- `setup/interface.cpp:86-93`, `getShortLangForCapabilityFilteredList`. -/
def shortLang (t : LanguageTag) : List Nat := if t.script = [] then t.language else t.language ++ lit "-" ++ t.script

/-- `std::set<string>::insert`: the set in its order. -/
def setInsert (s : List Nat) : List (List Nat) → List (List Nat)
  | [] => [s]
  | t :: rest => if s = t then t :: rest else if bytesLt s t then s :: t :: rest else t :: setInsert s rest

/-- The capabilities of `setup/interface.cpp:41-43`. -/
inductive Capability where
  | spell | grammar | hyphenation
  deriving DecidableEq, Repr

/-- `setup/interface.cpp:103-105`: does the dictionary advertise the capability? -/
def advertises : Capability → Dict → Bool
  | .spell, d => d.spell.advertised
  | .hyphenation, d => d.hyphenator.advertised
  | .grammar, d => d.grammar.advertised

/-- `setup/interface.cpp:96-120`, `listSupportedLanguagesForCapability`, for the available dictionaries. -/
def listLanguages (cap : Capability) (dicts : List Dict) : List (List Nat) :=
  dicts.foldl (fun acc d => if advertises cap d then setInsert (shortLang d.tag) acc else acc) []

end Verif
