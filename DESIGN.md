# Formal model of libvoikko (corevoikko, C++) in Lean 4

Source: `/repo/libvoikko/src` (read as text, never executed). All paths below are
relative to that directory. The Lean project is `/verif/lean`; models, helper lemmas
and property theorems live under `lean/Verif/`.

## Layout

For each area `X`:

* `Verif/Model/X.lean` – executable model. Every definition cites the C++ file and lines it
  models and says where it simplifies.
* `Verif/Lemmas/X.lean` – helper lemmas (only where needed).
* `Verif/Props/X.lean` – independent specification, the property theorems, non-vacuity examples.

## Modelling conventions

* `wchar_t` is `Nat` (`Verif.Wc`), i.e. a non-negative code unit. C strings and buffers are
  `List Nat`; a pointer+length pair is the list of the addressed elements. Where a negative
  `wchar_t` matters (speller cache) this is stated.
* **Undefined behaviour is a distinct outcome.** A read or write outside a buffer, a null
  dereference or a failed `size_t` assumption makes the model return `none` (`Option` used as the
  UB monad; the monad is named `UB`). Safety theorems state that the outcome is never `none`; negative
  results exhibit an input for which it is.
* `size_t` subtraction is modelled by an explicit guard returning UB/wrap-around where the code relies on
  it; otherwise unbounded `Nat`. Texts are assumed shorter than 2^64 (no `size_t` overflow on addition).
* `wcschr(s, c)` finds the terminating NUL, so it is modelled as `c = 0 ∨ c ∈ s`.
* External components (dictionary speller, morphological analyser, hyphenator used by the speller) are
  arbitrary functions, universally quantified in the theorems. They are assumed deterministic
  (same argument, same answer) where a theorem says so.
* Memory allocation always succeeds. Deallocation is modelled for the legacy handle table and for the components of a handle
  (`Model/Factory`: a set of live blocks, a second release is UB), not for strings and other results.

## Trusted base

* Lean 4.33.0 kernel; axioms at most `propext`, `Classical.choice`, `Quot.sound`.
  No own axioms, `sorry`, `native_decide` or `bv_decide`. `lean/Verif/Axioms.lean` prints the axioms of every
  theorem named in `MANIFEST.json`; the last section of this file lists them.
* The hand translation C++ → Lean (line citations in every definition).
* C/C++ library functions (`wcslen`, `wcschr`, `wcsncmp`, `wcstok`, `std::map`, `std::list`, `std::sort`, ...) behave
  per standard. `std::sort` of elements that compare equal may give any order; theorems about sorted results hold for
  every sorting function that sorts.
* A little-endian host with 64 bit `size_t`, 32 bit `int` and a `wchar_t` that holds a code point.

### What is modelled

| Area | Files | Model |
|------|-------|-------|
| Tokenizer, sentences | `tokenizer/Tokenizer.cpp`, `tokenizer/interface.cpp`, `sentence/Sentence.cpp` | `Tokenizer`, `TokenizerCstr`, `Sentence` |
| Characters, case, normalisation, UTF-8 | `character/*`, `utils/StringUtils.cpp`, `utils/utils.cpp`, `utf8/` | `Char`, `Case`, `Normalise`, `Utf8` |
| Spelling | `spellchecker/spell.cpp`, `SpellerCache.cpp`, `SpellUtils.cpp`, `SpellWithPriority.cpp`, `AnalyzerToSpellerAdapter.cpp`, `FinnishSpellerTweaksWrapper.cpp` | `Spell`, `SpellerCache`, `SpellUtils`, `Tweaks` |
| Options | `setup/setup.cpp` | `Setup` |
| Suggestions | `spellchecker/suggestions.cpp`, `spellchecker/suggestion/*` (except `Hfst*`) | `Suggest`, `FinnishSuggest` |
| Speller and suggestions of ZHFST dictionaries | `spellchecker/HfstSpeller.cpp`, `spellchecker/HfstSuggestion.cpp` (without the HFST library) | `HfstSpell` |
| Analyser and hyphenator of HFST dictionaries | `morphology/HfstAnalyzer.cpp`, `hyphenator/HfstHyphenator.cpp` (without the HFST library) | `HfstAnalyzer` |
| Weighted speller and suggestions | `spellchecker/VfstSpeller.cpp`, `spellchecker/VfstSuggestion.cpp` | `VfstSpell` |
| Components without data | `spellchecker/FixedResultSpeller.cpp`, `morphology/NullAnalyzer.cpp`, `spellchecker/suggestion/SuggestionGeneratorNull.cpp`, `grammar/NullGrammarChecker.cpp` | `NullBackends` |
| Hyphenation | `hyphenator/*` | `Hyphenator` |
| Transducers | `fst/*` (readers), the compiler `tools/voikkovfstc.cpp` (arguments, reading the text and writing, with and without weights) | `Fst`, `FstFile`, `FstWeighted`, `FstText`, `FstTextW`, `VfstcMain` |
| Language tags, dictionaries, legacy handles | `setup/LanguageTag.cpp`, `setup/DictionaryFactory.cpp`, `setup/V*DictionaryLoader.cpp`, `compatibility/*` | `LanguageTag`, `Dictionary`, `ZhfstLoaders`, `Handles`, `Legacy` |
| Creation and release of handles, language lists | `setup/setup.cpp`, `setup/interface.cpp`, the five factories, constructors and `terminate` of the backends | `Factory` |
| Grammar checking | `grammar/*` (`FinnishGrammarChecker`, `FinnishAnalysis`, rule engines, caches) | `Grammar`, `GrammarChecks`, `AutocorrectFst`, `Capitalization`, `GrammarCache`, `GrammarError`, `GrammarFst` |
| Morphology | `morphology/Analysis.cpp`, `morphology/FinnishVfstAnalyzer.cpp`, `morphology/VfstAnalyzer.cpp`, `morphology/interface.cpp` | `Analysis`, `FinnishVfst`, `FinnishFst`, `VfstAnalyzer` |
| Memory of API results | `utils/StringUtils.cpp`, `spellchecker/suggestions.cpp`, `grammar/interface.cpp`, `grammar/GcCache.cpp`, `compatibility/interface.cpp` (allocation, copying, release; addresses are never reused, `new` does not fail) | `ApiHeap` |
| Command line programs | `tools/voikkospell.cpp`, `tools/voikkohyphenate.cpp`, `tools/voikkogc.cpp` (without the conversion of the locale's characters) | `VoikkoSpell`, `VoikkoHyphenate`, `VoikkoGc`, `ToolArgs` |

### What is a parameter

* Speller, suggestions, hyphenator and grammar checker take the morphological analyser (and the dictionary speller) as an
  arbitrary function. `Props/FinnishSpell.lean` puts the library's own hyphenator into the speller, and
  `Props/FinnishStructure.lean` describes the STRUCTURE strings of the analyser for well-formed transducer outputs.
* `Model/FinnishVfst` takes the outputs of the transducer as an arbitrary function; `Model/FinnishFst` puts the transducer look-up of `Model/Fst` in its place (C98).
* The autocorrection transducer is an arbitrary look-up function; `Model/AutocorrectFst` puts the transducer reader in its place (C83).
* The text of the probability in WEIGHT (`exp` and the output of a floating point number) is a function of the weight (C91).
* Reading a `double` from a text and its conversion to a weight of 16 bits in the transducer compiler (`-w prob`, `-w log`) are functions (C95).
* What a transducer file is (missing, not mappable, of no known format, malformed, valid) is an input of `voikkoInit`.
* Directory contents are inputs of the dictionary search, and so are the variants that a loader finds in `Model/Dictionary`; `Model/ZhfstLoaders` computes those of the formats 3 and 4.
* What the HFST library does with a `.zhfst` file (locale and titles, archive error, another exception) is an input (C108); so are the words that its speller accepts and the queue of its corrections (C112), and the outputs of its transducers (C113).

### What is not modelled

File I/O and mmap, the HFST library, Lttoolbox, Malaga and VISL CG backends, threads sharing a handle (a handle is single-threaded by contract; the
threads of `voikkospell` have one each), a failing `pthread_create`, memory exhaustion, leaks of strings and results, floating point weights and priorities (compared as rationals where they occur), bindings for other languages, and compiler behaviour after UB.
A failed `assert` is undefined behaviour in the model.
The VISL CG and Lttoolbox backends cannot be compiled at this commit (*(read)*: `grammar/CgRuleEngine.cpp:167` assigns a `const char *` to the `char *` member
`error_id`; the functions `analyze` of `LttoolboxAnalyzer.hpp:36-38` lack the parameter `fullMorphology` of `Analyzer.hpp:46-47`, so that the class is abstract).

## Plan per property

| Id | Model | Proof |
|----|-------|-------|
| C01–C04 | `Model/Tokenizer`: `getCharType`, `findUrlOrEmail`, `wordLength`, `nextToken` over `List Nat` in the UB monad | functional induction on scanners; two-run simulation for C04 |
| C05 | `Model/TokenizerCstr` on top of UTF-8 model | negation by witness (e-mail beyond the 50 char prefix); `_partial` for short texts |
| C06–C08 | `Model/Sentence`: loop with state record, speller a parameter, `ignore_dot` part of the state | loop invariant by well-founded induction on remaining text |
| C09–C11 | `Model/Char`, `Model/Case` | interval case analysis with `omega`; finite tables by `decide` lifted to all code points |
| C12, C13 | `Model/Normalise` | induction on word; idempotence refuted by witness, `_partial` under a side condition |
| C14, C15 | `Model/Utf8` | arithmetic on byte ranges, induction on string |
| C16–C24 | `Model/Spell`, `Model/SpellerCache`, `Model/Setup` | refinement: cached = uncached for all histories; monotonicity by case analysis; negations by witness |
| C25, C26 | `Model/SpellUtils` | fold = minimum; pointwise spec |
| C27, C28 | `Model/Tweaks` | well-founded recursion on length; monotonicity by induction |
| C29 | `Model/Case` (`isNonword`) | iff with independent spec; negation by witness |
| C30–C34 | `Model/Suggest*` | insertion sort invariant, candidate enumeration, cost invariant; UB witnesses |
| C35–C40 | `Model/Hyphenator` | length/alphabet invariants of buffer updates, fold of intersection |
| C41, C42 | `Model/Fst`: table + configuration machine | invariant "outputs so far = accepting paths lexicographically before the position"; witness for history dependence |
| C43, C44 | `Model/FstFile` | involution; compile/read round trip |
| C45 | `Model/FstWeighted` | witness; `_partial` outside the faulty situation |
| C46–C50 | `Model/Setup`, `Model/LanguageTag`, `Model/Dictionary`, `Model/Handles` | induction over operation sequences; witnesses |
| C51–C56 | `Model/GrammarCache`, `Model/Grammar*`, `Model/Capitalization` | insertion sort, enumeration by index, tiling, span arithmetic |
| C57–C60 | `Model/Analysis`, `Model/FinnishVfst` | map invariants; buffer bound; witnesses |
| C61 | `Model/Hyphenator` | borders of the structure are kept by every later stage |
| C62–C64 | `Model/VfstSpell` | readings enumerated in order (C45); invariant "recorded = best corrections so far"; skipped outputs share a rejected prefix |
| C65 | `Model/Spell` | exact characterisation by a separate inductive predicate |
| C66 | `Model/Tweaks` | exact characterisation of hyphenated words; best verdict over the analyses with a border |
| C67 | `Model/Hyphenator` | invariants over the loops of the rules: every point has vowels on both sides, consonant-vowel places are points; exact result for words of one part |
| C68 | `Model/Suggest` | exact characterisation of the steps after the generator: full stop, case, characters put back |
| C69 | `Model/Hyphenator` | no step but the apostrophe rule writes `=`; the borders of the structures aligned with the word |
| C70 | `Model/FinnishVfst`, `Model/Spell`, `Model/Tweaks`, `Model/Hyphenator` | composition: the structure parser aligned with the word (C59) discharges the hypotheses of the speller and the hyphenator |
| C71 | `Model/Dictionary` | the keys exclude each other; induction over the lines keeps `FieldsAre` |
| C72 | `Model/Factory`: a heap of blocks, exceptions | every step keeps which blocks are owned (`Own`); composition of steps |
| C73 | `Model/Factory`: `listLanguages`, `dictVariant` | insertion keeps the order; the short tag parses to the tag without its variant |
| C74 | `Model/GrammarChecks`, `Model/GrammarCache` | induction over the tokens, with skipped tokens and the pending main verb as state; codes tell the checks apart |
| C75 | `Model/Grammar` | the fold over the analyses keeps, for each attribute, its declarative meaning over the analyses seen so far |
| C76 | `Model/Capitalization` | the state machine over the words that are left refines a recursion over the words and their separators; the derived rules by induction over the words before a given one |
| C77 | `Model/FinnishVfst` | the check is a run over the events of the output; each variable means a statement about the events so far, by induction on the prefix |
| C78 | `Model/Sentence` | each variable of the search means a statement about the tokens read so far; induction on the tokens that are left |
| C79 | `Model/FinnishVfst` | the backward loop is a fold over the tags of the output; each attribute of the state means a statement about the tags behind, by induction on the tags; then the corrections and the copy |
| C80 | `Model/FinnishVfst` | each variable of the loop means a statement about the items before it; the text so far is the relation `Written`, by induction on the items; the loop for numerals separately |
| C81 | `Model/SpellUtils`, `Model/Suggest` | the status of the code abstracts to the state of a specified search; each generator runs its list of tries, by induction on the list; the search is deterministic |
| C82 | `Model/FstText` | the text is parsed to lines; tables as functions of the lines, by induction; symbols keep their texts under renumbering; runs of the tables and of the lines correspond step by step (flags as texts); then C44 |
| C83 | `Model/GrammarChecks`, `Model/AutocorrectFst` | the loop over the tokens is described by the marks of the tokens; on clean sentences the marks are the boundaries; a look-up that is not run to the end leaves a usable state; then C82 and the sentence rules of C77 |
| C84 | `Model/GrammarError` | the range of codes is an invariant of all rules (C55); the tables are compared completely |
| C85 | `Model/FinnishVfst`, `Model/SpellUtils` | invariant linking the loop variables of parseStructure to what the items before them say; induction over the items for fixStructure; with C70 and C79 for the spelling verdict |
| C86 | `Model/VoikkoSpell` | labelled transition system of the main thread and the worker threads; invariant over the queued and joined blocks; a measure that every step decreases |
| C87 | `Model/VoikkoHyphenate` | induction over the loop of `hyphenate_word`; comparison with the loop of `voikkoInsertHyphensCstr` |
| C88 | `Model/VoikkoSpell`, `Spec/SpellOutput` | a reader (splitting into lines and fields) is a left inverse of the printing; induction over the words |
| C89 | `Model/VoikkoGc`, `Spec/GcOutput` | tiling theorems of C01 and C06; the invariant of the grammar cache (C52); a reader that is a left inverse of the printing |
| C90 | `Model/FinnishVfst` (`parseDebugAttributes`), `Spec/WordBases` | simulation of the loop item by item: the state of the loop between items is determined by the parts read so far |
| C91 | `Model/VfstAnalyzer`, `Model/FstWeighted` | the loop is an initial part of the enumeration of C45; prepare resets the state (C42) |
| C92 | `Model/VfstAnalyzer` (`analyzeWordUcs4`, `analyzeWordCstr`) | the decoder is exact (C15); analyses made by operations can be sealed and destroyed (C57) |
| C93 | `Model/Tokenizer` | the flags of the loops say what came before the position; each punctuation character is decided as in the specification; first positions are unique |
| C94 | `Model/Hyphenator` | simulation: the rules read and write only cells 1..n-1 of a part and test cell 0 for X; every part with the stated borders is visited by the loop; cells of a visited part are those of the rules |
| C95 | `Model/FstTextW` | the weighted compiler builds the tables of the unweighted one (C82) with a weight and a byte per line; the look-up of C45 on the loaded table is transported to runs of the text; the weights are those of the lines |
| C96 | `Spec/FstTextUse` | C95's stored tables make readings of the loaded transducer and runs of the text correspond one to one, so C62 and C65 apply; a graph of words meets all limits because a run is as long as the word and is determined by its length |
| C97 | `Spec/FstTextUse` | corrections of the loaded transducers and corrections of the texts correspond through the bijection of readings and runs; then the specification behind C63 and C64 |
| C98 | `Model/FinnishFst` | the loop of the analyser is an enumeration of the search (C41) of at most 99 calls followed by the analyses of the outputs; C82 turns its results into the runs of the text, their finite number follows from the limits, and C42 shows that a search that was brought to its end leaves nothing behind |
| C99 | `Model/FinnishFst`, `Model/Speller` | composition of C98 (analyses of the text), C70 (the adapter), C77 (validity), C85 (capital letters) and C65 (options and cache); the example dictionary has infinitely many words |
| C100 | `Model/Hyphenator`, `Model/FinnishVfst` | the elements of a STRUCTURE are recovered from the borders of the reading (C59), each part is hyphenated by the rules (C94, C67), the analyses are joined by C37 |
| C101 | `Model/ToolArgs` | both loops are followed along the unique decomposition into items; each setting is a fold whose value is the last one set |
| C102 | `Model/ToolArgs` | as C101 |
| C103 | `Model/ApiHeap` | the heap is described as the exact list of its live blocks; every operation changes that list in a known way, for any other blocks around it; induction over the session |
| C104 | `Props/SpellProgram` | the handles after the command line keep their options and a cache that agrees with the dictionary; so the library answers as the text says (C99), and C86 and C88 apply |
| C105 | `Props/HyphProgram` | the options after the command line are those of C102; each line is made of the pattern (C87); the pattern of a known word is that of C100, an unknown word has no analyses, so C67 and C94 apply |
| C106 | `Model/VoikkoSpellAnalyses`, `Props/AnalysisProgram` | the output of each run is rendered from a reading; C79, C85, C80 and C90 give the attributes of its analyses, FSTOUTPUT and the absence of WEIGHT come from an invariant of the additions; sealing publishes exactly the attributes with a value; no value has a line break if the reading has none, by induction over the reading |
| C107 | `Model/VfstcMain`, `Props/VfstcMain` | the argument loop is a fold over the unique reading of the command line; the stages of the compiler agree with C82 and C95; an error of the first stage is equivalent to a line out of order or a lone bracket, by induction over the lines with the table invariant of C82; an error of the second to a target without a line, because every state has a transition |
| C108 | `Model/ZhfstLoaders`, `Props/ZhfstLoaders` | the two loops of format 4 are one loop over the listing; its variables are the latest files with the names, by induction; the tags are set by the functions of C47, so C48 and C73 apply |
| C109 | `Model/GrammarFst`, `Props/GcProgram` | the analyses of a word are, one by one, the views of its readings (C79, C85); so the attributes of C75 are those of the views; C74, C76 and C83 give the errors, C102 the options, C89 the output |
| C110 | `Props/HyphenText` | the analyses of a word are, one by one, the views of its readings, with the same borders and letters; so each rule of the model is one of the specification; the verdicts are unique by induction on the length; C65 and C104 give the accepted words and the output |
| C111 | `Model/Legacy` | a call changes the slot of its own handle only; by induction over the calls the object behind a handle goes through the states of an object that is used alone |
| C112 | `Model/HfstSpell` | the look-ups are those of three forms of the word; with C65 the casings of a known word lead back to one of them; the loop over the queue keeps the priorities ascending, so sorting changes nothing |
| C113 | `Model/HfstAnalyzer` | the plus sign is one byte, so that cutting the bytes is cutting the characters; attributes by C57, UTF-8 by C14 and C92 |
| C114 | `Model/NullBackends` | invariant of the handle over the calls: the cached verdicts are those of the constant dictionary, which no hyphen option changes, and the cached list of errors is empty; C65 for the verdict |
| C115 | `Model/Suggest`, `Model/FinnishVfst`, `Model/FstText` | C33 and C81 for the analyser of C99; the verdict `ok` of the analyser and the runs of the text say the same, and the analyser sees only the lower case letters of a word |
| C116 | `Model/FinnishSuggest`, `Model/VoikkoSpell` | C106, C110 and C115 for one analyser; the suggestions have no line breaks because the words of the text have none |
| C117 | `Model/Hyphenator`, `Model/Tweaks` | the union of the patterns has a hyphen exactly where one of the retained readings has (as C37 for the intersection); each reading by C100, `-` told from `=` by C61 and C69; C27 for the verdict |
| C118 | `Model/Tweaks`, `Model/Hyphenator`, `Model/VoikkoSpell` | C117 and C110 as one set of rules with one solution; C65 for the options, C104 for the program |
| C119 | `Model/Tweaks`, `Model/Hyphenator` | the points of C105 are points of C117 if the options are at least as strict; the rest by a witness |

Properties that the code violates are recorded in the section "Findings" together with the theorem that
proves the violation; what does hold is proved under the suffix `_partial`.

## Findings

Each of the following is proved in Lean with a concrete witness unless marked *(read)*, which means that it was seen in
the code while modelling it and is at most visible in a definition.

### Behaviour that differs from the property

| Id | What happens | Theorem |
|----|--------------|---------|
| C05 | The UTF-8 tokenizer looks at a growing prefix of the text; an e-mail address of 45 or more characters is cut differently from the wide-character function. | `C05_violation` |
| C10 | `À` (U+00C0) is of unknown class although `à` is a letter: the letter range begins at U+00C1. | `C10_violation` |
| C13 | Normalisation is not idempotent: a ligature or `℃` followed by a combining mark changes again. | `C13_violation` |
| C16 | `voikkoSpellCstr` limits the number of bytes, `voikkoSpellUcs4` the number of characters: 128 × `ä` fails only as UTF-8. | `C16_violation` |
| C20 | `www.x.fi` is accepted as a non-word, `WWW.X.FI` is not. | `C20_nonword_violation` |
| C21 | With ACCEPT_FIRST_UPPERCASE off `Ea-X` is accepted: words of mixed case do not consult the option for SPELL_OK. | `C21_violation` |
| C22 | A word accepted with ACCEPT_MISSING_HYPHENS stays accepted from the cache after the option is switched off. | `C22_violation` |
| C23 | A speller cache size of 19 or more overflows an `int`. | `C23_size_overflow` |
| C25, C54 | An analysis without STRUCTURE is dereferenced as a null pointer by the speller and the grammar checker. | `C25_null_structure`, `C54_violation_null_structure` |
| C28 | With ACCEPT_FIRST_UPPERCASE off, switching ACCEPT_EXTRA_HYPHENS on rejects `Ab-cd`, which was accepted. | `C28_violation` |
| C29 | `www.ab.` and `a/b//c.d` are treated as non-words although they have no documented shape; some documented shapes are not recognised. | `C29_sound_violation`, `C29_complete_violation` |
| C32 | The splitting generator leaks the capitalisation of one candidate into the next. | `C32_split_capital_leak` |
| C33 | Suggestion generation leaves its buffers for words that normalise to one character, for ligatures, and for words with 33 or more vowels. | `C33_violation_*` |
| C36 | Hyphenation reads past the end of a STRUCTURE that ends in `=`, and dereferences a missing one. | `C36_violation` |
| C38 | In `talo--aika` the second hyphen counts as a character of the next part, so parts shorter than the minimum are hyphenated. | `C38_violation` |
| C39 | NO_UGLY_HYPHENATION adds a hyphenation point in `baa'tka`, and in the unknown non-word `www.aa-ka.` with IGNORE_DOT. | `C39_violation`, `C39_violation_dot` |
| C42 | In unweighted transducers flag values survive an abandoned search and change the next look-up. | `C42_violation` |
| C43 | The weight 200 of a weighted transducer file of the other byte order is read as −56. | `C43_weighted_violation` |
| C45 | At the end of the input a failing flag transition hides the transitions behind it (weighted transducers). | `C45_violation` |
| C47 | `sr_Cyrl` and `sr-RS-Cyrl` are not read like `sr-Cyrl` and `sr-Cyrl-RS`. | `C47_violation` |
| C49 | A tag of ten characters such as `fi-x-zzzzz` is taken for the standard variant. | `C49_violation` |
| C50 | `voikko_terminate(1..4)` dereferences a null pointer when no handle is live. | `C50_violation` |
| C52, C53 | A wide-character text that continues after `textlen` gives no errors or stale ones; one without a terminator is read past its end. | `C52_violation_continued`, `C53_violation_continued`, `C53_violation_unterminated` |
| C53 | Changing ACCEPT_EXTRA_HYPHENS leaves old grammar errors in the cache. | `C53_violation_extra_hyphens` |
| C55 | An autocorrection entry with an empty input reports an error of length zero. | `C55_violation_empty_prefix` |
| C58 | COMPARISON can be `positive`, which `voikkoGetAttributeValues` does not list. | `C58_violation` |
| C59 | Colons, early and late boundaries, and patterns with colons give a wrong STRUCTURE; a boundary with nothing after it overflows the buffer. | `C59_*_violation` |
| C60 | An empty transducer output and an unterminated `[X` section are read past their end. | `C60_empty_violation`, `C60_structure_violation` |
| C63 | Going back in an error model does not restore its flags; a word that the error model does not produce is suggested. | `C63_violation` |
| C64 | For the same reason a correction is lost. | `C64_violation` |
| C68 | Typographic characters at the end of a word are not put back into its suggestions if an ignored full stop follows. | `C68_violation_dot` |
| C71 | `Grammar-Backend: finnishVfst` in an index file is not the same as leaving the line out: the directory of the dictionary is lost. | `C71_grammar_violation` |
| C71 | With two `Language` lines the script and the private part of the first remain. | `C71_language_violation` |
| C72 | A failing `voikkoInit` leaves memory behind: the other checks of the grammar checker without `autocorr.vfst`, the mapping of a transducer of the wrong kind, the weighted suggestion generator. | `C72_failure_violation` |
| C72 | An empty `mor.vfst` is undefined behaviour in `voikkoInit` (`mmap` reports failure with -1 and is compared with 0). | `C72_unmappable_violation` |
| C72 | The line `Grammar-Backend: finnishVfst`, the default, makes `voikkoInit` fail. | `C72_grammar_line_violation` |
| C72 | Each change of OCR_SUGGESTIONS leaves the weighted suggestion generator in memory. | `C72_ocr_violation` |
| C73 | A language is listed for grammar checking although its dictionary has the null checker, and for hyphenation although its hyphenator is unknown and `voikkoInit` fails. | `C73_capability_violation` |
| C73 | A script that ends in `-x` hides the variant: the tag made of language, script and variant does not find the dictionary. | `C73_variant_violation` |
| C74 | In `ab--cd --cd` the repeated word is not reported: the tokenizer gives the words `ab` and `--cd` without whitespace between them, and the check passes over the second one. | `C74_violation_touching` |
| C75 | Whether a word such as `tekemättä` counts as a MA-infinitive depends on the order in which the analyser returns its analyses: the agent participle clears the attribute, and an infinitive that comes after it sets it again. With one order error 14 is reported, with the other it is not. | `C75_violation_order`, `C75_violation_order_reported` |
| C76 | A text that ends with a word is checked for letter case only up to the word before it: in `Menen Talo` only the missing full stop is reported, in `Menen Talo` with a space after it also the capital letter. | `C76_violation_last` |
| C76 | The check remembers that a sentence has ended until it leaves a quotation or a bracket: in `Menen (kotiin) Talo.` the capital letter is reported, in `Tulen. Menen (kotiin) Talo.` it is not. | `C76_violation_memory` |
| C76 | A sentence with the foreign quotation mark `“` is left out only if no word with a small letter comes before the mark. | `C76_violation_foreign` |
| C76 | A bracket is closed by one of another kind: nothing is reported for `Menen (kotiin] ja tulen.` | `C76_violation_kinds` |
| C80 | Without the full morphology an analysis has no BASEFORM, but the added analysis as the name of an organisation has one. | `C80_violation_short` |
| C80 | In numerals the marks `=` of the base form and the identifiers in `[Xs]` sections come out in BASEFORM; in other words they do not. | `C80_violation_numeral_mark`, `C80_violation_numeral_id` |
| C80 | A section of an unknown kind comes out in BASEFORM together with its tag (`Xx]abcd`). | `C80_violation_section` |
| C82 | An empty line in the text of a dictionary makes the initial state final: the empty word is accepted. | `C82_empty_line` |
| C82 | A symbol with more than one letter is accepted by the compiler, but the file uses it for its first letter alone. | `C82_long_symbol` |
| C82 | Without a letter or tag the look-up takes flag diacritics and epsilon for letters; nothing is found. | `C82_no_letters` |
| C82 | An empty text compiles to a file with which the look-up reads outside of the file. | `C82_empty_text` |
| C83 | A phrase of the autocorrection list that begins another one hides it: only the first prefix found is tried. | `C83_violation_hidden` |
| C83 | Soft hyphens or long white space earlier in the sentence make the autocorrection check miss phrases or report wrong ones: a position in the original text is compared with normalised ones. | `C83_violation_missed`, `C83_violation_false` |
| C83 | A phrase with soft hyphens is reported with a wrong length at the end of a sentence and in later sentences. | `C83_violation_end`, `C83_violation_later` |
| C84 | Every language code that begins with `fi`, such as `fil`, gives Finnish descriptions of grammar errors. | `C84_violation_language` |
| C85 | The hyphens that `fixStructure` counts for `[Dg]` include hyphens inside of base forms and patterns, so a derived word after one keeps the capital letter of the name. | `C85_violation_base_hyphen` |
| C85 | A class of a name in the middle of a word part changes the letters before it. | `C85_violation_late_class` |
| C85 | `[De]` has no effect before two hyphens at the end of a word. | `C85_violation_two_hyphens` |
| C86 | `voikkospell -j N` calls `pthread_join` for a slot of `threads` that was never set, if there are words but fewer blocks of 500 words than threads (`finishProcessing` starts at `nextThread`). | `C86_violation_few_words` |
| C89 | `voikkogc` prints suggestions with quotation marks unescaped (a FIXME in the source admits it): for `"On x.", on.` it prints `suggs={"","}`. | `C89_violation_quotation_mark` |
| C89 | `voikkogc -n` prints the line number 0 on every line (`lineNumber` is never incremented); the manual promises the line number of the input. | `C89_violation_line_numbers` |
| C90 | WORDBASES has no `+` before a suffix (`[Xj]`) that stands in the middle of a word without a class of its own: `+tunt(tuntea)u(+ua)+sarvi(sarvi)`; the documentation says that parts and suffixes are separated by `+`. | `C90_violation_suffix` |
| C90 | If the last part of a reading has a base form but no letters, WORDBASES loses the part before it. | `C90_violation_no_letters` |
| C92 | `voikkoAnalyzeWordCstr` counts bytes where the limit is meant for characters (as C16 for spelling): a word of 128 times `ä` has analyses, but the null pointer is returned for its UTF-8 form. | `C92_violation` |
| C94 | A letter marked as not to be divided (`j`, `q`) loses the mark if a compound border without hyphen is before it: the part is then divided (`puu` + `KISSA`), though it is not divided alone or after a hyphen. | `C94_violation` |
| C94 | With HYPHENATE_UNKNOWN_WORDS off, an unknown word is still divided by the rules after two hyphens (`talo--ai-ka`). | `C94_violation_unknown` |
| C95 | In a weighted dictionary text, a word that ends before two flag diacritics of a state is lost if the first one (in byte order) is not allowed (`@R.F@`, `@U.F.X@` after `a`). | `C95_masked_flag` |
| C95 | A weighted dictionary compiled for the opposite byte order has other weights (200 becomes -56). | `C95_byte_order` |
| C95 | With `-w`, white space after the number of a final state makes the compiler use an uninitialised weight. | `C95_trailing_space` |
| C95 | With `-w`, a final weight that is not a number is accepted silently (as 0), while that of a transition is an error. | `C95_unchecked_final_weight` |
| C98 | The Finnish analyser gives the search up after 99 outputs; a flag diacritic that was set then remains set, and a word analysed afterwards can lose its analyses. | `C98_violation` |
| C101 | `voikkospell -c19` and more, or any number that is no `int` after `-c` or `-j`, is undefined behaviour. | `C101_cache_undefined`, `C101_undefined` |
| C102 | The manual page documents `ignore_numbers=n` for `voikkohyphenate`, which rejects it as an unknown option. | `C102_ignore_numbers` |
| C103 | When `malloc` fails, `voikko_suggest_cstr` and `voikko_hyphenate_*` return memory of `new[]` that `voikko_free_*` then gives to `free`; strings copied before leak; `voikko_next_grammar_error_ucs4` writes through a null pointer. | `C103_suggest_out_of_memory`, `C103_hyphenate_out_of_memory`, `C103_copied_strings_leak`, `C103_error_out_of_memory` |
| C107 | `voikkovfstc` opens the output file before it finds that a target state has no line: it ends with the status 1 and the former dictionary is lost. | `Verif.VfstcProgram.C107_lost_violation` |
| C108 | A directory entry with a name of five letters (`a.txt`) is taken for a dictionary of format 3: `find` gives `npos`, and `npos + 6` is 5. `sv.zhfst.zhfst` is not taken. | `Verif.Zhfst.C108_names_violation` |
| C108 | A dictionary of format 4 without a grammar checker gets that of a directory that was listed before; if its own is listed after it, it has none. | `Verif.Zhfst.C108_leak_violation`, `Verif.Zhfst.C108_order_violation` |
| C108 | If the reader of `.zhfst` files throws anything but `ZHfstZipReadingError`, the exception leaves the search; `voikkoInit` does not catch it. | `Verif.Zhfst.C108_exception_violation` |
| C119 | With the default options the hyphenator divides parts of two letters in compounds, but the speller rejects a word with a soft hyphen there: its minimum length is three. | `Verif.SoftHyphenation.C119_violation` |

### Other observations *(read)*

* C103: `voikkoInsertHyphensCstr` leaks the decoded word and the decoded hyphen when `voikkoHyphenateUcs4` returns null.
* C101: `-x` after `-x,` keeps the comma, although the manual page says that without a character words are separated by space; `-xab` is accepted and
  the characters are ignored. `-p` and `-d` at the end are silently ignored. The manual page of `-l` says that the first variant listed is the default, but
  the default is always `fi`.
* C102: arguments that only begin with `--tokenize`, `--split-sentences` or `explanation_language=fi` are accepted as these.
* C95: `-w prob` multiplies the logarithm by 100 and `-w log` by 1000, so the same weights given in the two ways differ by a factor of 10;
  neither checks the range of `int16_t` (a probability of 0 gives infinity, whose conversion is undefined).
* C03: `wcschr` finds the terminating NUL, so a NUL inside a buffer acts like a hyphen in the tokenizer.
* C09, C11: U+018F (capital schwa) counts as an upper case letter but has no lower case mapping.
* C15: U+FFFE and U+FFFF are rejected by the UTF-8 decoder although they are code points.
* C77: a hyphen with `[Bh]` at the very end of an output is read as a boundary without a hyphen (`C77_violation_end`).
* C78: a comma after a closed quotation cancels the end of the sentence but not that it was an abbreviation (`C78_witness_dotword`).
* C79: the correction for past passive participles compares the participle instead of the class with "laatusana"
  (`FinnishVfstAnalyzer.cpp`, `analyze`); the effect is the same, because the class is replaced by itself.
  A class tag that is not in the table hides an earlier class (`C79_violation_unknown_class`).
* C82: a line for a final state with white space at its end (also a carriage return) is refused as a format error; with more than 65535
  symbols the codes wrap and no error is reported.
* Compatibility: the deprecated integer option 5 returns success and does nothing.
* Hyphenator: the result of `voikkoHyphenate` leaks in `voikkoInsertHyphensCstr` if the pattern is null.
* Transducer files: the first symbol is assumed to be the empty one; `flagDepth` is not initialised before the first `prepare`; without a
  normal symbol `firstNormalChar` stays 0; the byte-swapping loader runs over the end of a table that ends in an overflow cell; an
  invalid symbol name is dereferenced as null; the compiler does not check that offsets fit in their fields and leaves `reserved`
  uninitialised; preparing a word with an unknown character in a weighted transducer keeps a truncated input.
* Transducer files: `mmap` reports failure with -1 but is compared with 0, so an empty file `mor.vfst` makes `voikkoInit` read address -1.
* Deprecated interface: only `voikko_terminate` checks its handle; every other function follows the pointer `handles[handle]` for any
  number (`C111_violation`); `voikko_init` with a cache size over 18 overflows (`C111_violation_cache_size`).
* Dictionaries: the comparison with `fi_FI` in `setup/DictionaryFactory.cpp:120` can never succeed; one branch of `addDictionary` is dead.
* Grammar: the autocorrection of words with soft hyphens computes wrong positions, leaks and copies past the end; the last word of a
  paragraph without punctuation is not checked for capitalisation. The constructor of an error leaves `error_id`, `title` and `checker`
  unset and copying an error reads them (`grammar/VoikkoGrammarError.cpp:32-46`), harmless in practice.
* HFST dictionaries (C113): words of at most 255 characters but more than 255 bytes have no analyses; an output without a plus sign makes
  an exception leave the library; an output that begins with one loses its last character; with ".zhfst" in the path of the dictionary the
  analyser follows an uninitialised pointer; the hyphenator returns memory that was never written.
* ZHFST dictionaries: words in capitals that begin with another character ("3D") are rejected although the speller knows them (C112); a
  character that cannot be encoded in UTF-8 makes the library pass a null pointer to HFST; without ACCEPT_ALL_UPPERCASE and
  ACCEPT_FIRST_UPPERCASE a known abbreviation in capitals is rejected.
* Weighted suggestions: negative total weights would be converted to huge priorities.
* Morphology: `FinnishVfstAnalyzer.cpp:1081` tests `participle` where the word class seems meant, so the test is always true;
  adding an attribute that exists already leaks the new value; a structure buffer for an empty word is too small;
  `[Lur]` at the very end of an output is counted as characters.

## Axioms of the theorems

* **none** (1): `C10_violation`
* **propext** (20): `C103_copied_strings_leak`, `C103_error_out_of_memory`, `C103_hyphenate_out_of_memory`,
  `C103_suggest_out_of_memory`, `C114_allError`, `C114_allOk_default`, `C15_nonchar_rejected`,
  `C29_complete_violation`, `C45_no_flags`, `C45_single_flag`, `C45_unknown`, `C46_ignore_dot_in_sync`, `C57_replace`,
  `C71_getlines`, `C74_end`, `C82_empty_line`, `C82_empty_text`, `C82_long_symbol`, `C82_no_letters`, `C90_letters`
* **propext, Classical.choice, Quot.sound** (468): `C01_progress`, `C01_tiling`, `C02_in_bounds`,
  `C03_no_adjacent_whitespace`, `C03_shapes`, `C05_agree_partial`, `C06_tiling`, `C06_usable_length`, `C07_boundary`,
  `C08_ignore_dot`, `C09_ascii`, `C100_division`, `C100_text`, `C101_cache_undefined`, `C101_missing`, `C101_number`,
  `C101_outcome`, `C101_reads`, `C101_stops`, `C101_threads`, `C101_undefined`, `C102_gc`, `C102_gc_stops`,
  `C102_hyph`, `C102_hyph_stops`, `C102_ignore_numbers`, `C103_all_released_partial`, `C103_session_partial`,
  `C103_stays_partial`, `C104_program_partial`, `C105_program`, `C106_analyses`, `C106_hyphens_partial`,
  `C106_program_partial`, `C106_reading`, `C107_asks_unique`, `C107_dictionary`, `C107_lost_violation`,
  `C107_machine`, `C107_not_asked`, `C107_other_files`, `C107_plain`, `C107_text`, `C107_total`, `C107_weighted`,
  `C107_weighted_dictionary`, `C108_exception_violation`, `C108_format3_partial`, `C108_format4_partial`,
  `C108_leak_violation`, `C108_loader`, `C108_names_violation`, `C108_newest_first`, `C108_order_violation`,
  `C108_own_grammar_partial`, `C108_parsed`, `C109_phrases_partial`, `C109_program_partial`, `C109_sentences`,
  `C110_accepted`, `C110_program_partial`, `C110_unique`, `C111_current`, `C111_defined`, `C111_grammar`,
  `C111_grammar_none`, `C111_isolated`, `C111_options`, `C111_session`, `C111_spelling`, `C111_violation`,
  `C111_violation_cache_size`, `C112_known_partial`, `C112_missing`, `C112_sound`, `C112_suggestions`, `C112_verdict`,
  `C112_violation`, `C112_violation_encoding`, `C113_analyses_partial`, `C113_utf8_partial`, `C113_violation_bytes`,
  `C113_violation_first`, `C113_violation_hyphenation`, `C113_violation_plus`, `C113_violation_word`,
  `C113_violation_zhfst`, `C114_capital_example`, `C114_session`, `C115_case`, `C115_complete`, `C115_correct`,
  `C115_dictionary`, `C116_one_line_partial`, `C116_program_partial`, `C117_accepted`, `C117_points`, `C117_verdict`,
  `C118_accepted`, `C118_one_line_partial`, `C118_program_partial`, `C118_suggestions_partial`, `C118_unique`,
  `C119_accepted_partial`, `C119_verdict_partial`, `C119_violation`, `C11_caseType`, `C14_invalid_refused`,
  `C14_no_nul`, `C14_round_trip`, `C15_decoder_exact`, `C15_in_bounds`, `C16_agree_partial`, `C16_invalid`,
  `C17_total`, `C18_ignore_monotone`, `C19_ignore_dot`, `C19_no_dot`, `C20_all_uppercase`, `C20_first_uppercase`,
  `C21_first_uppercase_partial`, `C22_cache_transparent_partial`, `C22_new_handle_partial`, `C23_slots_disjoint`,
  `C24_exact`, `C24_lower_words`, `C24_monotone`, `C25_best`, `C25_null_structure`, `C25_order_independent`,
  `C25_priority`, `C26_verdict`, `C27_finnish`, `C27_only_restricts`, `C27_soft_hyphens`, `C28_api_partial`,
  `C28_finnish_total`, `C28_finnish_verdict`, `C28_total`, `C28_verdict`, `C28_violation`, `C29_complete_partial`,
  `C29_exact`, `C29_sound_partial`, `C29_sound_violation`, `C30_capacity`, `C31_ocr`, `C31_typing`, `C32_deletions`,
  `C32_hyphens`, `C32_split`, `C32_split_capital_leak`, `C32_split_places`, `C32_submits`, `C32_vowelChanges`,
  `C33_ocr_partial`, `C33_typing_partial`, `C33_violation_ligature`, `C33_violation_short`, `C33_violation_vowels`,
  `C33_violation_vowels_api`, `C34_ocr`, `C34_typing`, `C35_cstr`, `C35_pattern`, `C36_all_positions_partial`,
  `C36_partial`, `C36_violation`, `C37_intersection`, `C37_unsplit`, `C38_parts_partial`, `C38_short_word`,
  `C38_violation`, `C39_partial`, `C39_violation`, `C39_violation_dot`, `C40_context`, `C40_insert`,
  `C40_total_partial`, `C41_complete`, `C41_readings`, `C41_unknown`, `C42_partial`, `C42_violation`,
  `C43_byte_order`, `C43_compiler`, `C43_content`, `C43_weighted_exact`, `C43_weighted_partial`, `C44_loads`,
  `C44_look_up`, `C44_read_back`, `C44_weighted_loads`, `C44_weighted_read_back`, `C44_weighted_well_formed`,
  `C44_well_formed`, `C45_complete_partial`, `C45_partial`, `C45_unknown_no_readings`, `C45_violation`,
  `C47_area_partial`, `C47_components`, `C47_idempotent`, `C47_language_case`, `C47_printed_stable`,
  `C47_private_case`, `C47_same_dictionary`, `C47_violation`, `C48_default`, `C48_first_location`,
  `C48_load_complete`, `C48_load_default`, `C48_load_sound`, `C48_loader`, `C48_locations`, `C48_no_duplicates`,
  `C48_one_default`, `C49_exact`, `C49_load_standard_partial`, `C49_partial`, `C49_violation`, `C50_history`,
  `C50_init`, `C50_no_ub_partial`, `C50_terminate_other_partial`, `C50_variant`, `C50_violation`, `C51_text_order`,
  `C52_iterate_partial`, `C52_iterate_utf8`, `C52_startpos_partial`, `C52_violation_continued`,
  `C53_invisible_partial`, `C53_invisible_utf8_partial`, `C53_violation_continued`, `C53_violation_extra_hyphens`,
  `C53_violation_unterminated`, `C54_analysis`, `C54_token_text`, `C54_violation_null_structure`,
  `C55_inside_partial`, `C55_inside_utf8`, `C55_violation_empty_prefix`, `C56_capitalisation`, `C57_analysis`,
  `C57_names_distinct`, `C58_listed_partial`, `C58_no_duplicates`, `C58_violation`, `C59_analysis_partial`,
  `C59_colon_order_violation`, `C59_initial_border_violation`, `C59_lost_border_violation`, `C59_overflow_violation`,
  `C59_pattern_colon_violation`, `C59_structure_partial`, `C60_analysis_partial`, `C60_attributes_partial`,
  `C60_baseform`, `C60_empty_violation`, `C60_structure_violation`, `C60_validity`, `C61_borders`,
  `C62_deterministic`, `C62_partial`, `C63_accepted`, `C63_partial`, `C63_violation`, `C64_partial`, `C64_violation`,
  `C65_exact`, `C66_accepted`, `C66_verdict`, `C67_complete_ugly`, `C67_exact_pretty`, `C67_exact_ugly`,
  `C67_syllables`, `C68_all_upper`, `C68_capitalised`, `C68_dot`, `C68_prefix_kept`, `C68_presentation`,
  `C68_violation_dot`, `C69_insert_loses_nothing`, `C69_marks`, `C69_misfit_loses_letter`, `C69_unknown_hyphens`,
  `C70_analyser`, `C70_hyphenate`, `C70_lookup`, `C70_lookup_capital`, `C70_spell`, `C71_environment`,
  `C71_explicit_default_partial`, `C71_fields`, `C71_format`, `C71_grammar_violation`, `C71_language`,
  `C71_language_violation`, `C71_last_line`, `C72_failure_partial`, `C72_failure_violation`,
  `C72_grammar_line_violation`, `C72_init`, `C72_ocr_violation`, `C72_release`, `C72_unmappable_violation`,
  `C73_capability_violation`, `C73_list`, `C73_parsed`, `C73_usable`, `C73_variant`, `C73_variant_violation`,
  `C74_applies`, `C74_conjunction`, `C74_punctuation`, `C74_quotations`, `C74_repeated_partial`,
  `C74_reported_partial`, `C74_verbs`, `C74_violation_touching`, `C75_attributes`, `C75_order`, `C75_other`,
  `C75_paragraph`, `C75_violation_order`, `C75_violation_order_reported`, `C76_brackets`, `C76_inside`, `C76_plain`,
  `C76_reported`, `C76_violation_foreign`, `C76_violation_kinds`, `C76_violation_last`, `C76_violation_memory`,
  `C77_analyses`, `C77_hyphenated`, `C77_joined`, `C77_valid`, `C77_violation_end`, `C78_none`, `C78_simple`,
  `C78_start`, `C79_analyses`, `C79_consistent`, `C79_noun`, `C79_plain`, `C79_reading`,
  `C79_violation_unknown_class`, `C80_analyses`, `C80_baseform`, `C80_itself`, `C80_last_word`, `C80_noun`,
  `C80_short`, `C80_simple`, `C80_unique`, `C80_violation_numeral_id`, `C80_violation_numeral_mark`,
  `C80_violation_section`, `C80_violation_short`, `C81_case_only`, `C81_earlier`, `C81_found_tried`, `C81_ocr`,
  `C81_suggestions`, `C81_suggestions_ocr`, `C81_tried`, `C81_typing`, `C81_unique`, `C82_look_up_partial`,
  `C82_symbol_order`, `C82_total`, `C82_transition_order`, `C83_compiled_partial`, `C83_reports_partial`,
  `C83_text_partial`, `C83_violation_end`, `C83_violation_false`, `C83_violation_hidden`, `C83_violation_later`,
  `C83_violation_missed`, `C84_described`, `C84_described_ucs4_partial`, `C84_distinct`, `C84_unknown`,
  `C84_violation_language`, `C85_lookup_capital_partial`, `C85_lookup_partial`, `C85_name`, `C85_noun`,
  `C85_reading_partial`, `C85_violation_base_hyphen`, `C85_violation_late_class`, `C85_violation_two_hyphens`,
  `C86_all_executions_partial`, `C86_complete_execution`, `C86_defined_partial`, `C86_library_partial`,
  `C86_library_steady`, `C86_progress`, `C86_same_output`, `C86_violation_few_words`, `C87_hyphen`, `C87_insert`,
  `C87_lines`, `C87_reversible`, `C87_separator`, `C87_total_partial`, `C88_library`, `C88_one_line`,
  `C88_only_incorrect`, `C88_only_letters`, `C88_readback`, `C88_readback_threads`, `C89_grammar_partial`,
  `C89_sentences`, `C89_tokens`, `C89_violation_line_numbers`, `C89_violation_quotation_mark`, `C90_analyses`,
  `C90_baseform`, `C90_compound`, `C90_notes`, `C90_short`, `C90_violation_no_letters`, `C90_violation_suffix`,
  `C90_wordbases_partial`, `C91_case`, `C91_deterministic`, `C91_history`, `C91_limits`, `C91_long`, `C91_partial`,
  `C92_null`, `C92_ucs4`, `C92_utf8_partial`, `C92_violation`, `C93_mail`, `C93_no_dot`, `C93_stream`, `C93_token`,
  `C93_unique`, `C93_url`, `C94_exact_pretty`, `C94_exact_ugly`, `C94_off_partial`, `C94_parts_partial`,
  `C94_unknown`, `C94_violation`, `C94_violation_unknown`, `C95_byte_order`, `C95_look_up_partial`, `C95_masked_flag`,
  `C95_trailing_space`, `C95_unchecked_final_weight`, `C96_accepted`, `C96_spell_partial`, `C96_words`,
  `C97_suggestions_partial`, `C98_analyses_partial`, `C98_known`, `C98_no_flags`, `C98_violation`, `C99_accepted`,
  `C99_dictionary`, `charType_digit_iff`, `suggestions_follow`
* **propext, Quot.sound** (50): `C01_empty`, `C04_ignore_dot`, `C05_violation`, `C09_case_laws`,
  `C09_lower_injective`, `C09_upper_injective`, `C101_last`, `C103_new_interface`, `C10_cased_is_letter_partial`,
  `C10_class_case_insensitive_partial`, `C112_firsts`, `C112_violation_options`, `C114_allOk_rejects`, `C11_setCase`,
  `C11_setCase_same_letters`, `C12_bounded`, `C12_canonical_equivalents`, `C12_typographic_equivalents`,
  `C12_unchanged`, `C13_idempotent_partial`, `C13_violation`, `C16_violation`, `C20_nonword_violation`,
  `C21_violation`, `C22_violation`, `C23_in_bounds`, `C23_set_get`, `C23_size_overflow`, `C30_at_most_five`,
  `C30_sort`, `C32_insertions`, `C32_replacements`, `C32_swaps`, `C42_no_flags`, `C42_weighted`,
  `C43_weighted_violation`, `C46_boolean_options`, `C46_integer_options`, `C46_unknown_boolean`,
  `C46_unknown_integer`, `C50_terminate_live`, `C52_cached`, `C74_compound_verb`, `C74_negative_verb`,
  `C78_witness_dotword`, `C81_parts`, `C83_listed`, `C83_soft_hyphens_partial`, `C86_finite`,
  `charType_whitespace_iff`
