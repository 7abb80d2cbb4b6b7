import Verif.Props.Dictionary
/-!
# C71: what the index file of a dictionary means

A dictionary of format 5 is described by a text file `index.txt`. The specification: the first line names the format; each later
line is a key and a value; the value of a field is that of the last line with its key. The other input that chooses a dictionary
is the environment variable `VOIKKO_DICTIONARY`.
-/

set_option linter.unusedSimpArgs false

namespace Verif.Props

/-- The values of the lines with a key, in the order of the lines. -/
def valuesOf (key : List Nat) (lines : List (List Nat)) : List (List Nat) :=
  lines.filterMap fun l => if key <+: l then some (l.drop key.length) else none

/-- The value of the last line with a key. -/
def fieldOf (key : List Nat) (lines : List (List Nat)) : Option (List Nat) := (valuesOf key lines).getLast?

/-- The first line of every index file. -/
def formatLine : List Nat := lit "Voikko-Dictionary-Format: 5"

theorem findSub_zero {pat s : List Nat} : findSub pat s = some 0 ↔ pat <+: s := by
  cases s with
  | nil =>
    simp only [findSub]
    cases pat <;> simp
  | cons c s =>
    simp only [findSub]
    by_cases h : pat <+: c :: s
    · simp [h]
    · simp [h]

/-- The keys of an index file. -/
def indexKeys : List (List Nat) :=
  [lit "Language: ", lit "Description: ", lit "Morphology-Backend: ", lit "Speller-Backend: ", lit "Suggestion-Backend: ",
    lit "Hyphenator-Backend: ", lit "Grammar-Backend: "]

theorem two_prefixes {a b s : List Nat} (ha : a <+: s) (hb : b <+: s) : a <+: b ∨ b <+: a := List.prefix_or_prefix_of_prefix ha hb

theorem keys_apart : ∀ a ∈ indexKeys, ∀ b ∈ indexKeys, a <+: b → a = b := by decide

theorem key_unique {a b s : List Nat} (ha : a ∈ indexKeys) (hb : b ∈ indexKeys) (h1 : a <+: s) (h2 : b <+: s) : a = b := by
  cases two_prefixes h1 h2 with
  | inl h => exact keys_apart a ha b hb h
  | inr h => exact (keys_apart b hb a ha h).symm

theorem valuesOf_append (key : List Nat) (a b : List (List Nat)) : valuesOf key (a ++ b) = valuesOf key a ++ valuesOf key b :=
  List.filterMap_append ..

theorem valuesOf_single (key l : List Nat) : valuesOf key [l] = if key <+: l then [l.drop key.length] else [] := by
  simp only [valuesOf, List.filterMap_cons, List.filterMap_nil]
  split <;> split at * <;> simp_all

theorem fieldOf_concat (key l : List Nat) (ls : List (List Nat)) :
    fieldOf key (ls ++ [l]) = if key <+: l then some (l.drop key.length) else fieldOf key ls := by
  simp only [fieldOf, valuesOf_append, valuesOf_single]
  split
  · simp
  · simp

/-- What a backend of the speller, the suggestions and the hyphenator is: a name without path. -/
def namedBackend (name : List Nat) : Backend := { name := name, path := [], advertised := true }

/-- The fields of a dictionary after some lines. -/
structure FieldsAre (path : List Nat) (lines : List (List Nat)) (d : Dict) : Prop where
  description : d.description = (fieldOf (lit "Description: ") lines).getD []
  mor : d.mor = { name := (fieldOf (lit "Morphology-Backend: ") lines).getD (lit "finnishVfst"), path := path, advertised := true }
  spell : d.spell = namedBackend ((fieldOf (lit "Speller-Backend: ") lines).getD
    (lit "FinnishSpellerTweaksWrapper(AnalyzerToSpellerAdapter(currentAnalyzer),currentAnalyzer)"))
  suggestion : d.suggestion = namedBackend ((fieldOf (lit "Suggestion-Backend: ") lines).getD
    (lit "FinnishSuggestionStrategy(currentAnalyzer)"))
  hyphenator : d.hyphenator = namedBackend ((fieldOf (lit "Hyphenator-Backend: ") lines).getD
    (lit "AnalyzerToFinnishHyphenatorAdapter(currentAnalyzer)"))
  grammar : d.grammar = ((fieldOf (lit "Grammar-Backend: ") lines).map namedBackend).getD
    { name := lit "finnishVfst", path := path, advertised := true }
  gramMor : d.gramMor = {}
  tag : d.tag = (valuesOf (lit "Language: ") lines).foldl LanguageTag.setBcp47 { language := lit "fi" }
  notDefault : d.isDefault = false

theorem fields_step {path : List Nat} {lines : List (List Nat)} {d : Dict} (h : FieldsAre path lines d) (l : List Nat) :
    FieldsAre path (lines ++ [l]) (v5Line path d l) := by
  have key : ∀ a ∈ indexKeys, ∀ b ∈ indexKeys, a ≠ b → a <+: l → ¬ b <+: l := fun a ha b hb hn h1 h2 => hn (key_unique ha hb h1 h2)
  obtain ⟨h1, h2, h3, h4, h5, h6, h7, h8, h9⟩ := h
  have l1 : (lit "Language: ").length = 10 := rfl
  have l2 : (lit "Description: ").length = 13 := rfl
  have l3 : (lit "Morphology-Backend: ").length = 20 := rfl
  have l4 : (lit "Speller-Backend: ").length = 17 := rfl
  have l5 : (lit "Suggestion-Backend: ").length = 20 := rfl
  have l6 : (lit "Hyphenator-Backend: ").length = 20 := rfl
  have l7 : (lit "Grammar-Backend: ").length = 17 := rfl
  have x12 := key (lit "Language: ") (by decide) (lit "Description: ") (by decide) (by decide)
  have x13 := key (lit "Language: ") (by decide) (lit "Morphology-Backend: ") (by decide) (by decide)
  have x14 := key (lit "Language: ") (by decide) (lit "Speller-Backend: ") (by decide) (by decide)
  have x15 := key (lit "Language: ") (by decide) (lit "Suggestion-Backend: ") (by decide) (by decide)
  have x16 := key (lit "Language: ") (by decide) (lit "Hyphenator-Backend: ") (by decide) (by decide)
  have x17 := key (lit "Language: ") (by decide) (lit "Grammar-Backend: ") (by decide) (by decide)
  have x23 := key (lit "Description: ") (by decide) (lit "Morphology-Backend: ") (by decide) (by decide)
  have x24 := key (lit "Description: ") (by decide) (lit "Speller-Backend: ") (by decide) (by decide)
  have x25 := key (lit "Description: ") (by decide) (lit "Suggestion-Backend: ") (by decide) (by decide)
  have x26 := key (lit "Description: ") (by decide) (lit "Hyphenator-Backend: ") (by decide) (by decide)
  have x27 := key (lit "Description: ") (by decide) (lit "Grammar-Backend: ") (by decide) (by decide)
  have x34 := key (lit "Morphology-Backend: ") (by decide) (lit "Speller-Backend: ") (by decide) (by decide)
  have x35 := key (lit "Morphology-Backend: ") (by decide) (lit "Suggestion-Backend: ") (by decide) (by decide)
  have x36 := key (lit "Morphology-Backend: ") (by decide) (lit "Hyphenator-Backend: ") (by decide) (by decide)
  have x37 := key (lit "Morphology-Backend: ") (by decide) (lit "Grammar-Backend: ") (by decide) (by decide)
  have x45 := key (lit "Speller-Backend: ") (by decide) (lit "Suggestion-Backend: ") (by decide) (by decide)
  have x46 := key (lit "Speller-Backend: ") (by decide) (lit "Hyphenator-Backend: ") (by decide) (by decide)
  have x47 := key (lit "Speller-Backend: ") (by decide) (lit "Grammar-Backend: ") (by decide) (by decide)
  have x56 := key (lit "Suggestion-Backend: ") (by decide) (lit "Hyphenator-Backend: ") (by decide) (by decide)
  have x57 := key (lit "Suggestion-Backend: ") (by decide) (lit "Grammar-Backend: ") (by decide) (by decide)
  have x67 := key (lit "Hyphenator-Backend: ") (by decide) (lit "Grammar-Backend: ") (by decide) (by decide)
  simp only [v5Line, findSub_zero]
  by_cases k1 : lit "Language: " <+: l
  · have k2 := x12 k1
    have k3 := x13 k1
    have k4 := x14 k1
    have k5 := x15 k1
    have k6 := x16 k1
    have k7 := x17 k1
    simp only [if_pos k1]
    constructor <;> simp only [fieldOf_concat, valuesOf_append, valuesOf_single, if_pos k1, if_neg k2, if_neg k3, if_neg k4, if_neg k5, if_neg k6, if_neg k7, l1, List.append_nil,
      List.foldl_append, List.foldl_cons, List.foldl_nil, Option.getD_some, Option.map_some, namedBackend, h1, h2, h3, h4, h5, h6, h7, h8, h9]
  by_cases k2 : lit "Description: " <+: l
  · have k3 := x23 k2
    have k4 := x24 k2
    have k5 := x25 k2
    have k6 := x26 k2
    have k7 := x27 k2
    simp only [if_pos k2, if_neg k1]
    constructor <;> simp only [fieldOf_concat, valuesOf_append, valuesOf_single, if_pos k2, if_neg k1, if_neg k3, if_neg k4, if_neg k5, if_neg k6, if_neg k7, l2, List.append_nil,
      List.foldl_append, List.foldl_cons, List.foldl_nil, Option.getD_some, Option.map_some, namedBackend, h1, h2, h3, h4, h5, h6, h7, h8, h9]
  by_cases k3 : lit "Morphology-Backend: " <+: l
  · have k4 := x34 k3
    have k5 := x35 k3
    have k6 := x36 k3
    have k7 := x37 k3
    simp only [if_pos k3, if_neg k1, if_neg k2]
    constructor <;> simp only [fieldOf_concat, valuesOf_append, valuesOf_single, if_pos k3, if_neg k1, if_neg k2, if_neg k4, if_neg k5, if_neg k6, if_neg k7, l3, List.append_nil,
      List.foldl_append, List.foldl_cons, List.foldl_nil, Option.getD_some, Option.map_some, namedBackend, h1, h2, h3, h4, h5, h6, h7, h8, h9]
  by_cases k4 : lit "Speller-Backend: " <+: l
  · have k5 := x45 k4
    have k6 := x46 k4
    have k7 := x47 k4
    simp only [if_pos k4, if_neg k1, if_neg k2, if_neg k3]
    constructor <;> simp only [fieldOf_concat, valuesOf_append, valuesOf_single, if_pos k4, if_neg k1, if_neg k2, if_neg k3, if_neg k5, if_neg k6, if_neg k7, l4, List.append_nil,
      List.foldl_append, List.foldl_cons, List.foldl_nil, Option.getD_some, Option.map_some, namedBackend, h1, h2, h3, h4, h5, h6, h7, h8, h9]
  by_cases k5 : lit "Suggestion-Backend: " <+: l
  · have k6 := x56 k5
    have k7 := x57 k5
    simp only [if_pos k5, if_neg k1, if_neg k2, if_neg k3, if_neg k4]
    constructor <;> simp only [fieldOf_concat, valuesOf_append, valuesOf_single, if_pos k5, if_neg k1, if_neg k2, if_neg k3, if_neg k4, if_neg k6, if_neg k7, l5, List.append_nil,
      List.foldl_append, List.foldl_cons, List.foldl_nil, Option.getD_some, Option.map_some, namedBackend, h1, h2, h3, h4, h5, h6, h7, h8, h9]
  by_cases k6 : lit "Hyphenator-Backend: " <+: l
  · have k7 := x67 k6
    simp only [if_pos k6, if_neg k1, if_neg k2, if_neg k3, if_neg k4, if_neg k5]
    constructor <;> simp only [fieldOf_concat, valuesOf_append, valuesOf_single, if_pos k6, if_neg k1, if_neg k2, if_neg k3, if_neg k4, if_neg k5, if_neg k7, l6, List.append_nil,
      List.foldl_append, List.foldl_cons, List.foldl_nil, Option.getD_some, Option.map_some, namedBackend, h1, h2, h3, h4, h5, h6, h7, h8, h9]
  by_cases k7 : lit "Grammar-Backend: " <+: l
  · simp only [if_pos k7, if_neg k1, if_neg k2, if_neg k3, if_neg k4, if_neg k5, if_neg k6]
    constructor <;> simp only [fieldOf_concat, valuesOf_append, valuesOf_single, if_pos k7, if_neg k1, if_neg k2, if_neg k3, if_neg k4, if_neg k5, if_neg k6, l7, List.append_nil,
      List.foldl_append, List.foldl_cons, List.foldl_nil, Option.getD_some, Option.map_some, namedBackend, h1, h2, h3, h4, h5, h6, h7, h8, h9]
  simp only [if_neg k1, if_neg k2, if_neg k3, if_neg k4, if_neg k5, if_neg k6, if_neg k7]
  constructor <;> simp only [fieldOf_concat, valuesOf_append, valuesOf_single, if_neg k1, if_neg k2, if_neg k3, if_neg k4, if_neg k5, if_neg k6, if_neg k7, List.append_nil, h1, h2, h3, h4, h5, h6, h7, h8, h9]

theorem fields_foldl {path : List Nat} : ∀ (rest lines : List (List Nat)) (d : Dict), FieldsAre path lines d →
    FieldsAre path (lines ++ rest) (rest.foldl (v5Line path) d)
  | [], lines, d, h => by simpa using h
  | l :: rest, lines, d, h => by
    have := fields_foldl rest (lines ++ [l]) _ (fields_step h l)
    simpa using this

/-- C71 (format): a directory whose index file does not begin with the line of this format gives no dictionary: nothing is added
to those that have been found. -/
theorem C71_format (path : List Nat) (lines : List (List Nat)) (h : lines.head? ≠ some formatLine) (m : DictMap) :
    addDictionary m (dictionaryFromPath path lines) = m := by
  have : dictionaryFromPath path lines = {} := by
    cases lines with
    | nil => rfl
    | cons f r =>
      simp only [dictionaryFromPath]
      rw [if_pos (by intro he; exact h (by simp [he, formatLine]))]
  rw [this]
  simp [addDictionary, Dict.isValid, lit]

/-- C71 (fields): with the line of this format, every field has the value of the last line with its key, and the default if there
is none. The morphology is read from the directory of the dictionary. -/
theorem C71_fields (path : List Nat) (lines : List (List Nat)) : FieldsAre path lines (dictionaryFromPath path (formatLine :: lines)) := by
  have h := fields_foldl (path := path) lines []
    { mor := ⟨lit "finnishVfst", path, true⟩
      grammar := ⟨lit "finnishVfst", path, true⟩
      spell := ⟨lit "FinnishSpellerTweaksWrapper(AnalyzerToSpellerAdapter(currentAnalyzer),currentAnalyzer)", [], true⟩
      suggestion := ⟨lit "FinnishSuggestionStrategy(currentAnalyzer)", [], true⟩
      hyphenator := ⟨lit "AnalyzerToFinnishHyphenatorAdapter(currentAnalyzer)", [], true⟩
      tag := LanguageTag.setLanguage {} (lit "fi") } ⟨rfl, rfl, rfl, rfl, rfl, rfl, rfl,
      (by show LanguageTag.setLanguage {} (lit "fi") = { language := lit "fi" }; decide), rfl⟩
  rw [List.nil_append] at h
  exact h

theorem bcp47_fresh {t : LanguageTag} (hs : t.script = []) (hp : t.privateUse = []) (x : List Nat) :
    t.setBcp47 x = LanguageTag.setBcp47 {} x := by
  have ls : ∀ y, t.setLanguageAndScript y = LanguageTag.setLanguageAndScript {} y := by
    intro y
    have l : ∀ z, t.setLanguage z = LanguageTag.setLanguage {} z := by
      intro z
      simp only [LanguageTag.setLanguage]
      split <;> simp [hs, hp]
    simp only [LanguageTag.setLanguageAndScript]
    split <;> simp [l]
  simp only [LanguageTag.setBcp47]
  split <;> simp [ls]

/-- C71 (language): without a line for the language it is Finnish; with one such line it is what that line says. -/
theorem C71_language (path : List Nat) (lines : List (List Nat)) :
    (valuesOf (lit "Language: ") lines = [] → (dictionaryFromPath path (formatLine :: lines)).tag = { language := lit "fi" }) ∧
    (∀ x, valuesOf (lit "Language: ") lines = [x] →
      (dictionaryFromPath path (formatLine :: lines)).tag = LanguageTag.setBcp47 {} x) := by
  constructor
  · intro h
    rw [(C71_fields path lines).tag, h]; rfl
  · intro x h
    rw [(C71_fields path lines).tag, h, List.foldl_cons, List.foldl_nil]
    exact bcp47_fresh rfl rfl x

/-- C71 fails for the language if there are two lines for it: the private part of the first remains although the second has none. -/
theorem C71_language_violation :
    fieldOf (lit "Language: ") [lit "Language: fi-x-medicine", lit "Language: sv"] = some (lit "sv") ∧
    (dictionaryFromPath (lit "/d") [formatLine, lit "Language: fi-x-medicine", lit "Language: sv"]).tag ≠ LanguageTag.setBcp47 {} (lit "sv") ∧
    (dictionaryFromPath (lit "/d") [formatLine, lit "Language: fi-x-medicine", lit "Language: sv"]).tag.toBcp47 = lit "sv-x-medicine" := by
  decide +kernel

theorem fields_determine {path : List Nat} {lines lines' : List (List Nat)}
    (h : ∀ k ∈ indexKeys, k ≠ lit "Language: " → fieldOf k lines = fieldOf k lines')
    (hl : valuesOf (lit "Language: ") lines = valuesOf (lit "Language: ") lines') :
    dictionaryFromPath path (formatLine :: lines) = dictionaryFromPath path (formatLine :: lines') := by
  have a := C71_fields path lines
  have b := C71_fields path lines'
  rw [Dict.ext_iff]
  refine ⟨?_, ?_, ?_, ?_, ?_, ?_, ?_, ?_, ?_⟩
  · rw [a.mor, b.mor, h _ (by decide) (by decide)]
  · rw [a.gramMor, b.gramMor]
  · rw [a.grammar, b.grammar, h _ (by decide) (by decide)]
  · rw [a.spell, b.spell, h _ (by decide) (by decide)]
  · rw [a.suggestion, b.suggestion, h _ (by decide) (by decide)]
  · rw [a.hyphenator, b.hyphenator, h _ (by decide) (by decide)]
  · rw [a.tag, b.tag, hl]
  · rw [a.description, b.description, h _ (by decide) (by decide)]
  · rw [a.notDefault, b.notDefault]

/-- C71 (order): only the last line with each key matters, and lines with other keys or none do not: two files that agree in this
describe the same dictionary. -/
theorem C71_last_line (path : List Nat) (lines lines' : List (List Nat))
    (h : ∀ k ∈ indexKeys, k ≠ lit "Language: " → fieldOf k lines = fieldOf k lines')
    (hl : valuesOf (lit "Language: ") lines = valuesOf (lit "Language: ") lines') :
    dictionaryFromPath path (formatLine :: lines) = dictionaryFromPath path (formatLine :: lines') := fields_determine h hl

/-- The default values that can be written down without changing anything. -/
def defaultLines : List (List Nat × List Nat) :=
  [(lit "Description: ", []), (lit "Morphology-Backend: ", lit "finnishVfst"),
    (lit "Speller-Backend: ", lit "FinnishSpellerTweaksWrapper(AnalyzerToSpellerAdapter(currentAnalyzer),currentAnalyzer)"),
    (lit "Suggestion-Backend: ", lit "FinnishSuggestionStrategy(currentAnalyzer)"),
    (lit "Hyphenator-Backend: ", lit "AnalyzerToFinnishHyphenatorAdapter(currentAnalyzer)")]

/-- C71 (defaults), the part that holds: writing the default of a field into a file that does not have the field changes nothing.
(Missing: `Grammar-Backend`, see `C71_grammar_violation`.) -/
theorem C71_explicit_default_partial (path : List Nat) (lines : List (List Nat)) (kv : List Nat × List Nat) (hk : kv ∈ defaultLines)
    (h : fieldOf kv.1 lines = none) :
    dictionaryFromPath path (formatLine :: (lines ++ [kv.1 ++ kv.2])) = dictionaryFromPath path (formatLine :: lines) := by
  have a := C71_fields path lines
  have b := C71_fields path (lines ++ [kv.1 ++ kv.2])
  have hkey : kv.1 ∈ indexKeys ∧ kv.1 ≠ lit "Language: " := by
    clear a b h; revert kv; decide
  have same : ∀ k ∈ indexKeys, k ≠ kv.1 → ¬ k <+: kv.1 ++ kv.2 := by
    intro k hm hn hp
    exact hn (key_unique hm hkey.1 hp (List.prefix_append ..))
  have field : ∀ k ∈ indexKeys, k ≠ kv.1 → fieldOf k (lines ++ [kv.1 ++ kv.2]) = fieldOf k lines := by
    intro k hm hn
    rw [fieldOf_concat, if_neg (same k hm hn)]
  have own : fieldOf kv.1 (lines ++ [kv.1 ++ kv.2]) = some kv.2 := by
    rw [fieldOf_concat, if_pos (List.prefix_append ..), List.drop_left]
  have dflt : ∀ k ∈ indexKeys, ∀ dv, (k = kv.1 → kv.2 = dv) →
      (fieldOf k (lines ++ [kv.1 ++ kv.2])).getD dv = (fieldOf k lines).getD dv := by
    intro k hm dv hd
    by_cases hn : k = kv.1
    · rw [hn, own, h, ← hd hn]; rfl
    · rw [field k hm hn]
  rw [Dict.ext_iff]
  refine ⟨?_, ?_, ?_, ?_, ?_, ?_, ?_, ?_, ?_⟩
  · rw [a.mor, b.mor, dflt _ (by decide) _ (by clear own h field same dflt a b hkey; revert kv; decide)]
  · rw [a.gramMor, b.gramMor]
  · rw [a.grammar, b.grammar, field _ (by decide) (by clear own h field same dflt a b hkey; revert kv; decide)]
  · rw [a.spell, b.spell, dflt _ (by decide) _ (by clear own h field same dflt a b hkey; revert kv; decide)]
  · rw [a.suggestion, b.suggestion, dflt _ (by decide) _ (by clear own h field same dflt a b hkey; revert kv; decide)]
  · rw [a.hyphenator, b.hyphenator, dflt _ (by decide) _ (by clear own h field same dflt a b hkey; revert kv; decide)]
  · rw [a.tag, b.tag, valuesOf_append, valuesOf_single,
      if_neg (same _ (by decide) (by clear own h field same dflt a b hkey; revert kv; decide)), List.append_nil]
  · rw [a.description, b.description, dflt _ (by decide) _ (by clear own h field same dflt a b hkey; revert kv; decide)]
  · rw [a.notDefault, b.notDefault]

/-- C71 (defaults) fails for the grammar: `Grammar-Backend: finnishVfst` loses the directory of the dictionary, from which the
rules are read. -/
theorem C71_grammar_violation (path : List Nat) :
    (dictionaryFromPath path [formatLine]).grammar = ⟨lit "finnishVfst", path, true⟩ ∧
    (dictionaryFromPath path [formatLine, lit "Grammar-Backend: finnishVfst"]).grammar = ⟨lit "finnishVfst", [], true⟩ := by
  constructor
  · exact (C71_fields path []).grammar
  · rw [(C71_fields path _).grammar]
    have : fieldOf (lit "Grammar-Backend: ") [lit "Grammar-Backend: finnishVfst"] = some (lit "finnishVfst") := by decide
    rw [this]; rfl

/-- C71 (lines): the lines of a text are what is between the line feeds. -/
theorem C71_getlines (ls : List (List Nat)) (l : List Nat) (h : ∀ x ∈ ls, 10 ∉ x) (hl : 10 ∉ l) :
    getlines ((ls.map fun x => x ++ [10]).flatten ++ l) = ls ++ [l] := by
  have last : ∀ l : List Nat, 10 ∉ l → getlines l = [l] := by
    intro l
    induction l with
    | nil => intro _; rfl
    | cons c r ih =>
      intro hn
      simp only [List.mem_cons, not_or] at hn
      simp only [getlines]
      rw [if_neg (fun e => hn.1 e.symm), ih hn.2]
  have one : ∀ x r : List Nat, 10 ∉ x → getlines (x ++ 10 :: r) = x :: getlines r := by
    intro x
    induction x with
    | nil => intro r _; simp [getlines]
    | cons c x ih =>
      intro r hn
      simp only [List.mem_cons, not_or] at hn
      simp only [List.cons_append, getlines]
      rw [if_neg (fun e => hn.1 e.symm), ih r hn.2]
  induction ls with
  | nil => simpa using last l hl
  | cons x ls ih =>
    have hx := h x (List.mem_cons_self ..)
    have := ih fun y hy => h y (List.mem_cons_of_mem _ hy)
    simp only [List.map_cons, List.flatten_cons, List.append_assoc, List.singleton_append, List.cons_append]
    rw [one x _ hx, List.nil_append, this]

/-- C71 (environment): the variable `VOIKKO_DICTIONARY` replaces the variant exactly if the request has none or asks for the
variant `default`; language and script are always those of the request. -/
theorem C71_environment (env : Option (List Nat)) (request : List Nat) :
    (requestedTag env request).language = (LanguageTag.setBcp47 {} request).language ∧
    (requestedTag env request).script = (LanguageTag.setBcp47 {} request).script ∧
    (requestedTag none request) = LanguageTag.setBcp47 {} request ∧
    (∀ e, env = some e → (LanguageTag.setBcp47 {} request).privateUse ∈ [[], lit "default"] →
      (requestedTag env request).privateUse = lowercaseTagPart (e.filter (· ≠ 45))) ∧
    ((LanguageTag.setBcp47 {} request).privateUse ∉ [[], lit "default"] →
      (requestedTag env request).privateUse = (LanguageTag.setBcp47 {} request).privateUse) := by
  have hn := (normal_setBcp47 normal_empty request)
  have hfi : (LanguageTag.setBcp47 {} request).privateUse ≠ lit "fi_FI" := by
    intro he
    have := hn.privateUse.2
    rw [he] at this
    revert this; decide
  refine ⟨?_, ?_, ?_, ?_, ?_⟩
  · simp only [requestedTag]; split <;> [split; skip] <;> first | rfl | (simp [setPrivateUse_eq])
  · simp only [requestedTag]; split <;> [split; skip] <;> first | rfl | (simp [setPrivateUse_eq])
  · simp only [requestedTag]; split <;> rfl
  · intro e he hm
    subst he
    simp only [requestedTag]
    rw [if_pos (by simp only [List.mem_cons, List.not_mem_nil, or_false] at hm; rcases hm with h | h <;> simp [h])]
    rw [setPrivateUse_eq]
  · intro hm
    simp only [List.mem_cons, List.not_mem_nil, or_false, not_or] at hm
    simp only [requestedTag]
    rw [if_neg (by simp [hm.1, hm.2, hfi])]

/-- A file with a comment, two descriptions and a backend. -/
example : fieldOf (lit "Description: ") [lit "# x", lit "Description: a", lit "Speller-Backend: AllOk", lit "Description: b"] = some (lit "b") ∧
    (dictionaryFromFile (lit "/d") (some (formatLine ++ [10] ++ lit "Language: sv-x-a" ++ [10] ++ lit "Speller-Backend: AllOk" ++ [10]))).spell.name =
      lit "AllOk" ∧
    (dictionaryFromFile (lit "/d") (some (formatLine ++ [13, 10] ++ lit "Language: sv"))).isValid = false ∧
    valuesOf (lit "Language: ") [lit "Language: sv-x-a"] = [lit "sv-x-a"] ∧ fieldOf (lit "Description: ") [lit "Language: sv-x-a"] = none ∧
    (requestedTag (some (lit "Medi-cine")) (lit "fi-x-default")).toBcp47 = lit "fi-x-medicine" ∧
    (requestedTag (some (lit "medicine")) (lit "fi-x-standard")).toBcp47 = lit "fi-x-standard" := by decide +kernel

end Verif.Props
