import Verif.Model.LanguageTag
/-!
# `setup/Dictionary.cpp`, `setup/DictionaryLoader.cpp`, `setup/DictionaryFactory.cpp`: finding dictionaries

Directory listings, files and environment variables are inputs of the model. The loaders for the formats 3 and 4 need libraries
that are not part of the project; what they find is an input. For format 5 the reading of the index file is modelled.
-/

namespace Verif

/-- `BackendProperties.cpp:35-56`, `BackendProperties`. -/
structure Backend where
  name : List Nat := []
  path : List Nat := []
  advertised : Bool := false
  deriving DecidableEq, Repr

/-- `Dictionary.cpp:35-64`, members of `Dictionary`. -/
@[ext] structure Dict where
  mor : Backend := {}
  gramMor : Backend := {}
  grammar : Backend := {}
  spell : Backend := {}
  suggestion : Backend := {}
  hyphenator : Backend := {}
  tag : LanguageTag := {}
  description : List Nat := []
  isDefault : Bool := false
  deriving DecidableEq, Repr

/-- `Dictionary.cpp:110-112`, `isValid`. -/
def Dict.isValid (d : Dict) : Bool := d.tag.language ≠ []

/-! ## Index files of format 5 -/

/-- `V5DictionaryLoader.cpp:93-113`: one line of the index file. -/
def v5Line (path : List Nat) (d : Dict) (line : List Nat) : Dict :=
  if findSub (lit "Language: ") line = some 0 then { d with tag := d.tag.setBcp47 (line.drop 10) }
  else if findSub (lit "Description: ") line = some 0 then { d with description := line.drop 13 }
  else if findSub (lit "Morphology-Backend: ") line = some 0 then { d with mor := ⟨line.drop 20, path, true⟩ }
  else if findSub (lit "Speller-Backend: ") line = some 0 then { d with spell := ⟨line.drop 17, [], true⟩ }
  else if findSub (lit "Suggestion-Backend: ") line = some 0 then { d with suggestion := ⟨line.drop 20, [], true⟩ }
  else if findSub (lit "Hyphenator-Backend: ") line = some 0 then { d with hyphenator := ⟨line.drop 20, [], true⟩ }
  else if findSub (lit "Grammar-Backend: ") line = some 0 then { d with grammar := ⟨line.drop 17, [], true⟩ }
  else d

/-- `V5DictionaryLoader.cpp:66-118`, `dictionaryFromPath`; `lines` are the lines of the index file (none if it cannot be read). -/
def dictionaryFromPath (path : List Nat) (lines : List (List Nat)) : Dict :=
  match lines with
  | [] => {}
  | first :: rest =>
    if first ≠ lit "Voikko-Dictionary-Format: 5" then {}
    else rest.foldl (v5Line path)
      { mor := ⟨lit "finnishVfst", path, true⟩
        grammar := ⟨lit "finnishVfst", path, true⟩
        spell := ⟨lit "FinnishSpellerTweaksWrapper(AnalyzerToSpellerAdapter(currentAnalyzer),currentAnalyzer)", [], true⟩
        suggestion := ⟨lit "FinnishSuggestionStrategy(currentAnalyzer)", [], true⟩
        hyphenator := ⟨lit "AnalyzerToFinnishHyphenatorAdapter(currentAnalyzer)", [], true⟩
        tag := LanguageTag.setLanguage {} (lit "fi") }

/-- `V5DictionaryLoader.cpp:73-75`, `93-94`: the lines that `getline` gives for the text of a file. The last line may be empty: the
loop notices the end of the file only after it has tried to read another line. -/
def getlines : List Nat → List (List Nat)
  | [] => [[]]
  | c :: rest =>
    if c = 10 then [] :: getlines rest
    else match getlines rest with
      | [] => [[c]]
      | l :: ls => (c :: l) :: ls

/-- `V5DictionaryLoader.cpp:66-118`, `dictionaryFromPath` with the text of the index file, `none` if it cannot be opened. -/
def dictionaryFromFile (path : List Nat) (text : Option (List Nat)) : Dict :=
  dictionaryFromPath path (match text with
    | some t => getlines t
    | none => [])

/-- `V5DictionaryLoader.cpp:44-64`, `findDictionaries`: the dictionaries in the order in which they are added, for a directory
with the given entries (name and lines of `index.txt`). -/
def findDictionariesV5 (path : List Nat) (entries : List (List Nat × List (List Nat))) : List Dict :=
  entries.filterMap fun (name, lines) =>
    if findSub (lit "mor-") name ≠ some 0 then none
    else if name.drop 4 = [] then none
    else some (dictionaryFromPath (path ++ lit "/5/" ++ name) lines)

/-! ## The map of variants -/

/-- `operator<` of `std::string`. -/
def bytesLt : List Nat → List Nat → Bool
  | _, [] => false
  | [], _ :: _ => true
  | a :: s, b :: t => if a < b then true else if b < a then false else bytesLt s t

/-- `std::map<string, Dictionary>`: entries in the order of their keys. -/
abbrev DictMap := List (List Nat × Dict)

/-- `std::map::find` -/
def mapFind (m : DictMap) (key : List Nat) : Option Dict := m.lookup key

/-- `std::map::operator[]` with an assignment: replaces the value or adds a new entry. -/
def mapSet (m : DictMap) (key : List Nat) (d : Dict) : DictMap :=
  match m with
  | [] => [(key, d)]
  | e :: rest =>
    if e.1 = key then (key, d) :: rest
    else if bytesLt key e.1 then (key, d) :: e :: rest
    else e :: mapSet rest key d

/-- `DictionaryLoader.cpp:53-60`, `hasDefaultForLanguage`. -/
def hasDefaultForLanguage (m : DictMap) (language : List Nat) : Bool :=
  m.any fun e => e.2.tag.language == language && e.2.isDefault

/-- `DictionaryLoader.cpp:98-111`, `addDictionary`. -/
def addDictionary (m : DictMap) (d : Dict) : DictMap :=
  let d := if d.tag.privateUse = lit "default" ∧ hasDefaultForLanguage m d.tag.language = false then { d with isDefault := true }
    else d
  if d.isValid then
    match mapFind m d.tag.toBcp47 with
    | none => mapSet m d.tag.toBcp47 d
    | some e => if d.isDefault then mapSet m d.tag.toBcp47 { e with isDefault := true } else m
  else m

/-- `DictionaryFactory.cpp:80-88`: the map after looking at all locations. `found` gives the dictionaries found in a location, in
the order in which the loaders add them (`DictionaryFactory.cpp:138-154`). -/
def collect (found : List Nat → List Dict) (defaultLocations : List (List Nat)) (path : List Nat) : DictMap :=
  let locations := if path ≠ [] then path :: defaultLocations else defaultLocations
  locations.foldl (fun m loc => (found loc).foldl addDictionary m) []

/-- `DictionaryFactory.cpp:173-175`, the loop with `getline` in `splitPathAndAppend`; `acc` is what has been read of the current
piece. At the end of the text there is a last piece only if at least one character has been read. -/
def splitPathFrom (acc : List Nat) : List Nat → List (List Nat)
  | [] => if acc = [] then [] else [acc]
  | c :: rest => if c = 58 then acc :: splitPathFrom [] rest else splitPathFrom (acc ++ [c]) rest

/-- `DictionaryFactory.cpp:162-176`, `splitPathAndAppend` (with the separator `:`). -/
def splitPath (s : List Nat) : List (List Nat) := splitPathFrom [] s

/-- `DictionaryFactory.cpp:180-266`, `getDefaultLocations`, in the branch for Linux. `envPath` is the variable
`VOIKKO_DICTIONARY_PATH`, `home` the home directory of the user, `compiled` the path given when the library was built. -/
def defaultLocations (envPath home : Option (List Nat)) (compiled : List Nat) : List (List Nat) :=
  ((envPath.map splitPath).getD []) ++ (home.map fun h => h ++ lit "/.voikko").toList ++ [lit "/etc/voikko"] ++ splitPath compiled

/-- `DictionaryFactory.cpp:95`: `rfind` gives 2^64 - 1 if there is no occurrence, and `size() - 11` wraps around. -/
def isStandardKey (key : List Nat) : Bool :=
  (match rfindSub (lit "-x-standard") key with
    | some p => p
    | none => 2 ^ 64 - 1) == (key.length + (2 ^ 64 - 11)) % 2 ^ 64

/-- `DictionaryFactory.cpp:90-103`: the list of dictionaries. -/
def listDicts (m : DictMap) : List Dict :=
  m.foldl (fun dicts e =>
    if e.2.isDefault then e.2 :: dicts
    else if isStandardKey e.1 && !hasDefaultForLanguage m e.2.tag.language then e.2 :: dicts
    else dicts ++ [e.2]) []

/-- `DictionaryFactory.cpp:79-104`, `findAllAvailable`. -/
def findAllAvailable (found : List Nat → List Dict) (defaultLocations : List (List Nat)) (path : List Nat) : List Dict :=
  listDicts (collect found defaultLocations path)

/-- `DictionaryFactory.cpp:56-72`, `isMatchingLanguage`. -/
def isMatchingLanguage (requested available : LanguageTag) : Bool :=
  if requested.language ≠ available.language then false
  else if requested.script ≠ available.script then false
  else if requested.privateUse = lit "standard" ∧ available.privateUse = [] then true
  else if requested.privateUse ≠ [] ∧ requested.privateUse ≠ available.privateUse then false
  else true

/-- `DictionaryFactory.cpp:111-127`: the tag that is searched; `env` is the value of the variable `VOIKKO_DICTIONARY`. -/
def requestedTag (env : Option (List Nat)) (language : List Nat) : LanguageTag :=
  let t := LanguageTag.setBcp47 {} language
  if t.privateUse = [] ∨ t.privateUse = lit "default" ∨ t.privateUse = lit "fi_FI" then
    match env with
    | some e => t.setPrivateUse e
    | none => t
  else t

/-- `DictionaryFactory.cpp:110-136`, `load`; `none` is an exception. -/
def loadDictionary (found : List Nat → List Dict) (defaultLocations : List (List Nat)) (env : Option (List Nat))
    (language path : List Nat) : Option Dict :=
  (findAllAvailable found defaultLocations path).find? fun d => isMatchingLanguage (requestedTag env language) d.tag

end Verif
