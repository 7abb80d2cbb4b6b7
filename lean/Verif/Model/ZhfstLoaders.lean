import Verif.Model.Dictionary
/-!
# `setup/V3DictionaryLoader.cpp`, `setup/V4DictionaryLoader.cpp`: the dictionaries of the formats 3 and 4

The directory listings are inputs. The files are read by the library HFST, which is not part of the project; what it says about a file is an input, too.
-/

namespace Verif

/-- What `read_zhfst` and `get_metadata` do with a file: the locale and the titles by language, a `ZHfstZipReadingError`, or another exception. -/
inductive ZhfstRead where
  | metadata (locale : List Nat) (titles : List (List Nat × List Nat))
  | zipError
  | otherError
  deriving DecidableEq, Repr

/-- `V3DictionaryLoader.cpp:77`: `operator[]` of the map of titles. -/
def titleOf (titles : List (List Nat × List Nat)) (locale : List Nat) : List Nat := (titles.lookup locale).getD []

/-- `std::string::find` as a number: `npos` is 2^64 - 1. -/
def findPos (pat s : List Nat) : Nat :=
  match findSub pat s with
  | some p => p
  | none => 2 ^ 64 - 1

/-- `V3DictionaryLoader.cpp:56`: the addition wraps around. -/
def v3Name (name : List Nat) : Bool := (findPos (lit ".zhfst") name + 6) % 2 ^ 64 == name.length

/-- The private hyphenator of `V3DictionaryLoader.cpp:62` and `V4DictionaryLoader.cpp:56`. -/
def zhfstHyphenator : Backend := ⟨lit "AnalyzerToFinnishHyphenatorAdapter(currentAnalyzer)", [], false⟩

/-- `V3DictionaryLoader.cpp:57-82`: the dictionary in a file. -/
def v3Dict (fullPath locale : List Nat) (titles : List (List Nat × List Nat)) : Dict :=
  { mor := ⟨lit "null", fullPath, false⟩
    gramMor := ⟨lit "null", [], false⟩
    grammar := ⟨lit "null", [], false⟩
    spell := ⟨lit "hfst", [], true⟩
    suggestion := ⟨lit "hfst", [], true⟩
    hyphenator := zhfstHyphenator
    tag := LanguageTag.setBcp47 {} locale
    description := titleOf titles locale }

/-- `V3DictionaryLoader.cpp:49-86`, `findDictionaries`: the dictionaries in the order in which they are added; `none` is an exception that is not caught. `names` are the
entries of the directory. -/
def findDictionariesV3 (read : List Nat → ZhfstRead) (path : List Nat) : List (List Nat) → Option (List Dict)
  | [] => some []
  | name :: rest =>
    if v3Name name then
      let fullPath := path ++ lit "/3" ++ lit "/" ++ name
      match read fullPath with
      | .metadata locale titles => (findDictionariesV3 read path rest).map (v3Dict fullPath locale titles :: ·)
      | .zipError => findDictionariesV3 read path rest
      | .otherError => none
    else findDictionariesV3 read path rest

/-- `V4DictionaryLoader.cpp:53-54`: the variables that are declared before the loops. (`gramErrMsgBackend` is not used.) -/
structure V4Vars where
  grammar : Backend := ⟨lit "null", [], false⟩
  gramMor : Backend := ⟨lit "null", [], false⟩
  deriving DecidableEq, Repr

/-- `V4DictionaryLoader.cpp:68-76`: what a file name changes. -/
def v4Name (dir : List Nat) (v : V4Vars) (fileName : List Nat) : V4Vars :=
  let v := if findSub (lit "gramchk.bin") fileName ≠ none then { v with grammar := ⟨lit "vislcg3", dir ++ lit "/" ++ fileName, true⟩ } else v
  if findSub (lit "-desc.hfst") fileName ≠ none then { v with gramMor := ⟨lit "hfst", dir ++ lit "/" ++ fileName, false⟩ } else v

/-- `V4DictionaryLoader.cpp:78-114`: the dictionary in a file. -/
def v4Dict (v : V4Vars) (fullPath locale : List Nat) (titles : List (List Nat × List Nat)) : Dict :=
  { mor := ⟨lit "hfst", fullPath, true⟩
    gramMor := v.gramMor
    grammar := v.grammar
    spell := ⟨lit "hfst", [], true⟩
    suggestion := ⟨lit "hfst", [], true⟩
    hyphenator := zhfstHyphenator
    tag := LanguageTag.setBcp47 {} locale
    description := titleOf titles locale }

/-- `V4DictionaryLoader.cpp:65-117`: the files of a directory. The result are the variables afterwards and the dictionaries. -/
def v4Files (read : List Nat → ZhfstRead) (dir : List Nat) : V4Vars → List (List Nat) → Option (V4Vars × List Dict)
  | v, [] => some (v, [])
  | v, fileName :: rest =>
    let v := v4Name dir v fileName
    if findSub (lit ".zhfst") fileName ≠ none then
      let fullPath := dir ++ lit "/" ++ fileName
      match read fullPath with
      | .metadata locale titles => (v4Files read dir v rest).map fun r => (r.1, v4Dict v fullPath locale titles :: r.2)
      | .zipError => v4Files read dir v rest
      | .otherError => none
    else v4Files read dir v rest

/-- `V4DictionaryLoader.cpp:58-118`: the directories, each with the list of its entries. -/
def v4Dirs (read : List Nat → ZhfstRead) (path : List Nat) : V4Vars → List (List Nat × List (List Nat)) → Option (List Dict)
  | _, [] => some []
  | v, (dirName, files) :: rest =>
    if dirName = lit ".." then v4Dirs read path v rest
    else
      match v4Files read (path ++ lit "/4" ++ lit "/" ++ dirName) v files with
      | none => none
      | some (v, ds) => (v4Dirs read path v rest).map (ds ++ ·)

/-- `V4DictionaryLoader.cpp:46-119`, `findDictionaries`, as `findDictionariesV3`. -/
def findDictionariesV4 (read : List Nat → ZhfstRead) (path : List Nat) (entries : List (List Nat × List (List Nat))) : Option (List Dict) := v4Dirs read path {} entries

/-- What is in a location: the entries of its directories `5` (with the lines of their index files), `4` (with their entries) and `3`. -/
structure Location where
  five : List (List Nat × List (List Nat)) := []
  four : List (List Nat × List (List Nat)) := []
  three : List (List Nat) := []

/-- `DictionaryFactory.cpp:138-154`, `addAllVersionVariantsFromPath`, with the loaders for all formats: what is found, in the order in which it is added. -/
def findDictionariesAll (read : List Nat → ZhfstRead) (path : List Nat) (l : Location) : Option (List Dict) := do
  let four ← findDictionariesV4 read path l.four
  let three ← findDictionariesV3 read path l.three
  return findDictionariesV5 path l.five ++ four ++ three

end Verif
