{"id": "C01", "title": "Token iteration makes progress and stays inside the buffer", "statement": "voikkoNextTokenUcs4 on a non-empty buffer returns a token type other than TOKEN_NONE and sets tokenlen with 1 <= tokenlen <= textlen; on an empty buffer it returns TOKEN_NONE and 0. Repeatedly advancing by tokenlen therefore terminates and the tokens, concatenated, are exactly the input text.", "quantifier": "all texts (any characters, any length), both values of IGNORE_DOT", "why_tests_cant": "The word scanner has many look-ahead exits; a zero-length or over-long token for one unseen combination hangs or overruns every caller's loop.", "anchors": ["libvoikko/src/tokenizer/Tokenizer.cpp: Tokenizer::nextToken, word_length, findUrlOrEmail", "libvoikko/src/tokenizer/interface.cpp: voikkoNextTokenUcs4"]}
{"id": "C02", "title": "The tokenizer never reads outside the given buffer", "statement": "voikkoNextTokenUcs4(text, textlen) reads only text[0..textlen-1]; the buffer needs no terminator.", "quantifier": "all texts, all textlen, both values of IGNORE_DOT", "why_tests_cant": "Look-ahead reads (i+1, wlen+1, prefix compares) are guarded case by case; absence of any out-of-bounds read is a statement about all inputs.", "anchors": ["libvoikko/src/tokenizer/Tokenizer.cpp: Tokenizer::nextToken, word_length, findUrlOrEmail"]}
{"id": "C03", "title": "Token shapes", "statement": "A TOKEN_WHITESPACE token is a maximal run of whitespace. A TOKEN_WORD token contains no whitespace and begins with a letter, a digit or one of the hyphens '-', U+2010, U+2011. A TOKEN_PUNCTUATION token is one punctuation character or '...'. A TOKEN_UNKNOWN token is exactly one character that is in no other class. Hence two neighbouring tokens are never both whitespace.", "quantifier": "all texts, both values of IGNORE_DOT", "why_tests_cant": "Universal over all texts and URL/e-mail detection paths.", "anchors": ["libvoikko/src/tokenizer/Tokenizer.cpp: Tokenizer::nextToken", "libvoikko/src/character/charset.cpp: get_char_type"]}
{"id": "C04", "title": "IGNORE_DOT only lengthens a word token by its trailing dot", "statement": "Turning IGNORE_DOT on changes the first token's length only by adding at most one character, which is then a '.' immediately following the token found with the option off.", "quantifier": "all texts", "why_tests_cant": "Relates two runs on every possible text.", "anchors": ["libvoikko/src/tokenizer/Tokenizer.cpp: word_length", "libvoikko/src/setup/setup.cpp: voikkoSetBooleanOption"]}
{"id": "C05", "title": "UTF-8 and wide-character tokenisation agree", "statement": "For well-formed UTF-8 text voikkoNextTokenCstr returns the same token type and length (in characters) as voikkoNextTokenUcs4 on the decoded text. (Expected to fail: the byte variant only looks at a growing prefix.)", "quantifier": "all well-formed UTF-8 texts of any length, both values of IGNORE_DOT", "why_tests_cant": "The two entry points differ only for texts longer than an internal prefix length whose tail influences the token.", "anchors": ["libvoikko/src/tokenizer/interface.cpp: voikkoNextTokenCstr", "libvoikko/src/utils/StringUtils.cpp: ucs4FromUtf8"]}
{"id": "C06", "title": "Sentence detection terminates with a usable length", "statement": "voikkoNextSentenceStartUcs4 always terminates with sentencelen <= textlen. SENTENCE_NONE is returned with sentencelen = textlen; SENTENCE_PROBABLE/POSSIBLE only with 0 < sentencelen < textlen; SENTENCE_NO_START is never returned. Repeatedly skipping sentencelen characters therefore splits any text into consecutive sentences whose concatenation is the text.", "quantifier": "all texts, all spellers", "why_tests_cant": "Loop progress and output range must hold for every text and every dictionary.", "anchors": ["libvoikko/src/sentence/Sentence.cpp: Sentence::next", "libvoikko/src/sentence/interface.cpp: voikkoNextSentenceStartUcs4"]}
{"id": "C07", "title": "A sentence boundary never splits a token or starts with whitespace", "statement": "When a sentence start is reported at offset n, n is a boundary in the token sequence of the text (tokenised without IGNORE_DOT), the character at n is not whitespace, and the text before n contains sentence-ending punctuation.", "quantifier": "all texts, all spellers", "why_tests_cant": "Universal statement on all texts.", "anchors": ["libvoikko/src/sentence/Sentence.cpp: Sentence::next"]}
{"id": "C08", "title": "IGNORE_DOT does not influence sentence detection and is left unchanged by it", "statement": "The sentence type and length returned do not depend on the IGNORE_DOT option, and after the call the option has the value it had before.", "quantifier": "all texts, all spellers, both option values", "why_tests_cant": "The function temporarily overwrites the shared option on every loop iteration; restoration must hold on every exit path.", "anchors": ["libvoikko/src/sentence/Sentence.cpp: Sentence::next"]}
{"id": "C09", "title": "Case mapping laws", "statement": "Lower- and uppercasing of single characters are idempotent, lower(upper(c)) = lower(c), upper(lower(c)) = upper(c), no character is both upper and lower case, and case mapping is injective on upper case (and on lower case) characters.", "quantifier": "all wide character values", "why_tests_cant": "Tables have hundreds of entries with mixed strides over the full code space.", "anchors": ["libvoikko/src/character/SimpleChar.cpp: SimpleChar::lower, upper, isUpper, isLower"]}
{"id": "C10", "title": "Character class is insensitive to case", "statement": "A letter and its upper or lower case counterpart belong to the same character class of the tokenizer, so that apart from the prefix \"http://\" (recognised in lower case only) the class of no character depends on letter case. (Expected to fail for U+00C0.)", "quantifier": "all wide character values", "why_tests_cant": "One wrong range bound affects a single code point.", "anchors": ["libvoikko/src/character/charset.cpp: get_char_type", "libvoikko/src/character/SimpleChar.cpp: SimpleChar::lower"]}
{"id": "C11", "title": "Case pattern of a word is classified correctly", "statement": "The case type computed for a word agrees with its definition: no letters, all lower case, only first letter upper case, all upper case (at least ... per the documented rule), otherwise complex; and setting the case of a word makes every character have that case without changing its length.", "quantifier": "all words", "why_tests_cant": "Universal over all mixtures of letters and non-letters.", "anchors": ["libvoikko/src/utils/utils.cpp: voikko_casetype, voikko_set_case"]}
{"id": "C12", "title": "Normalisation writes only inside its buffer and maps canonical equivalents together", "statement": "Normalisation of an n character word produces at most 3n characters (never overflowing the allocated buffer), leaves words without convertible characters unchanged, and gives the same result for a word in which any supported base+combining pair is replaced by the precomposed character.", "quantifier": "all words of any length", "why_tests_cant": "Unbounded strings and all table entries in all contexts.", "anchors": ["libvoikko/src/character/charset.cpp: voikko_normalise"]}
{"id": "C13", "title": "Normalisation is idempotent", "statement": "Normalising an already normalised word does not change it, so spelling results do not depend on whether the caller normalised first. (Expected to fail: ligature followed by a combining mark.)", "quantifier": "all words", "why_tests_cant": "Counterexamples need a specific two-character interaction across tables.", "anchors": ["libvoikko/src/character/charset.cpp: voikko_normalise"]}
{"id": "C14", "title": "UTF-8 conversion round trip", "statement": "Converting any sequence of valid, non-NUL code points to UTF-8 and back yields the same sequence; the encoder output is always accepted by the decoder and fits the allocated buffer.", "quantifier": "all sequences of valid code points of any length", "why_tests_cant": "Unbounded strings over the whole code space.", "anchors": ["libvoikko/src/utils/StringUtils.cpp: ucs4FromUtf8, utf8FromUcs4", "libvoikko/src/utf8/core.hpp: validate_next", "libvoikko/src/utf8/unchecked.hpp: append, next", "libvoikko/src/utf8/checked.hpp: append, next"]}
{"id": "C15", "title": "Ill-formed UTF-8 is rejected, never misread", "statement": "The decoder succeeds exactly on byte strings that are the UTF-8 encoding of some sequence of valid code points (no overlong forms, surrogates, truncated sequences or values above U+10FFFF), and it never reads past the given length.", "quantifier": "all byte strings", "why_tests_cant": "2^(8n) byte strings; security relevant corner cases are rare.", "anchors": ["libvoikko/src/utf8/core.hpp: validate_next, is_code_point_valid, is_overlong_sequence, sequence_length", "libvoikko/src/utils/StringUtils.cpp: ucs4FromUtf8"]}
{"id": "C16", "title": "UTF-8 and wide-character spell checking agree", "statement": "For well-formed UTF-8 voikkoSpellCstr returns the same code as voikkoSpellUcs4 on the decoded word. (Expected to fail: the length limit is applied to bytes in one and characters in the other.)", "quantifier": "all well-formed UTF-8 words, all options, all spellers", "why_tests_cant": "Only words within a narrow length window differ.", "anchors": ["libvoikko/src/spellchecker/spell.cpp: voikkoSpellCstr, voikkoSpellUcs4"]}
{"id": "C17", "title": "Spelling result codes are total and bounded", "statement": "voikkoSpellUcs4 always returns VOIKKO_SPELL_OK or VOIKKO_SPELL_FAILED (never INTERNAL_ERROR); the empty word is OK; a word longer than 255 characters is FAILED; no buffer access is out of bounds.", "quantifier": "all words, all option settings, all spellers, all cache contents", "why_tests_cant": "Must hold for every word/option/speller combination.", "anchors": ["libvoikko/src/spellchecker/spell.cpp: voikkoSpellUcs4, hyphenAwareSpell, voikko_cached_spell"]}
{"id": "C18", "title": "Ignore options only ever accept more", "statement": "Switching on IGNORE_DOT, IGNORE_NUMBERS, IGNORE_UPPERCASE or IGNORE_NONWORDS never turns an accepted word into a rejected one.", "quantifier": "all words, all spellers, all settings of the other options", "why_tests_cant": "A two-run property over all words and dictionaries.", "anchors": ["libvoikko/src/spellchecker/spell.cpp: voikkoSpellUcs4"]}
{"id": "C19", "title": "IGNORE_DOT accepts exactly the word with or without its dot", "statement": "With IGNORE_DOT on, a word ending in '.' is accepted iff it is accepted (with the option off) as such or without its final dot (case type taken from the whole word).", "quantifier": "all words ending in a dot, all spellers, all other options", "why_tests_cant": "Two-run property over all words and dictionaries.", "anchors": ["libvoikko/src/spellchecker/spell.cpp: voikkoSpellUcs4"]}
{"id": "C20", "title": "Capitalisation options follow their documentation", "statement": "If a lower-case word is accepted then, with ACCEPT_FIRST_UPPERCASE, the same word with its first letter capitalised is accepted and, with ACCEPT_ALL_UPPERCASE, so is the all-capitals form.", "quantifier": "all words in normal form, all spellers, all other options", "why_tests_cant": "Quantifies over every word and every dictionary.", "anchors": ["libvoikko/src/spellchecker/spell.cpp: voikkoSpellUcs4", "libvoikko/src/utils/utils.cpp: voikko_casetype"]}
{"id": "C21", "title": "ACCEPT_FIRST_UPPERCASE off means capitalised common words are rejected", "statement": "With ACCEPT_FIRST_UPPERCASE off, a word whose first letter is upper case is accepted only if the dictionary requires or allows a capital there. (Expected to fail for mixed-case words, where the option is not consulted.)", "quantifier": "all words, all spellers", "why_tests_cant": "Only the mixed-case path is wrong; needs a particular dictionary and word pattern.", "anchors": ["libvoikko/src/spellchecker/spell.cpp: voikkoSpellUcs4"]}
{"id": "C22", "title": "The spelling cache is invisible", "statement": "In any sequence of spelling calls and option changes, every call returns what it would return with caching disabled. (Expected to fail when ACCEPT_MISSING_HYPHENS or ACCEPT_EXTRA_HYPHENS changes between calls; must hold for every history without such changes.)", "quantifier": "all histories of spell calls, option changes and cache size changes, all deterministic spellers", "why_tests_cant": "Depends on unbounded histories and on hash-slot collisions between words.", "anchors": ["libvoikko/src/spellchecker/spell.cpp: voikko_cached_spell", "libvoikko/src/spellchecker/SpellerCache.cpp: isInCache, getSpellResult, setSpellResult", "libvoikko/src/setup/setup.cpp: voikkoSetBooleanOption, voikkoSetIntegerOption"]}
{"id": "C23", "title": "The spelling cache stays inside its tables and slots do not overlap", "statement": "For every accepted cache size and every word, cache lookups and updates touch only memory inside the cache's tables, and two different (length, hash) slots never share storage.", "quantifier": "all cache size parameters, all words", "why_tests_cant": "Index arithmetic over all lengths and all character values.", "anchors": ["libvoikko/src/spellchecker/SpellerCache.cpp"]}
{"id": "C24", "title": "ACCEPT_MISSING_HYPHENS only ever accepts more, and only by adding edge hyphens", "statement": "With the option on a word is accepted iff it is accepted as such or after adding the missing leading/trailing hyphen(s).", "quantifier": "all words, all spellers", "why_tests_cant": "All words and dictionaries.", "anchors": ["libvoikko/src/spellchecker/spell.cpp: hyphenAwareSpell"]}
{"id": "C25", "title": "The dictionary answer for a word is the best over its analyses", "statement": "A word is unknown iff the morphological analyser has no analysis for it; otherwise the answer is the best capitalisation verdict over all analyses, independent of their order. The prioritising speller used for suggestions gives the same verdict and the smallest priority among the analyses having it.", "quantifier": "all analyses lists, all words", "why_tests_cant": "Order independence and optimality over unbounded lists.", "anchors": ["libvoikko/src/spellchecker/AnalyzerToSpellerAdapter.cpp: spell", "libvoikko/src/spellchecker/SpellUtils.cpp: matchWordAndAnalysis", "libvoikko/src/spellchecker/SpellWithPriority.cpp"]}
{"id": "C26", "title": "Capitalisation verdict of one analysis", "statement": "Matching a word against an analysis structure yields SPELL_OK exactly if every character has the case required by the structure, CAP_FIRST exactly if only the first letter has the wrong (lower) case, CAP_ERROR otherwise, and never reads outside word or structure.", "quantifier": "all words and structures", "why_tests_cant": "All alignments of words with structures.", "anchors": ["libvoikko/src/spellchecker/SpellUtils.cpp: matchWordAndAnalysis"]}
{"id": "C27", "title": "Soft hyphens", "statement": "A word containing soft hyphens is accepted only if it neither starts nor ends with one, has no two in a row, is accepted without them and every soft hyphen stands at a permitted hyphenation point; otherwise it is rejected. Index arithmetic stays in bounds.", "quantifier": "all words, all analysers/hyphenators", "why_tests_cant": "All placements of soft hyphens in all words.", "anchors": ["libvoikko/src/spellchecker/FinnishSpellerTweaksWrapper.cpp"]}
{"id": "C28", "title": "ACCEPT_EXTRA_HYPHENS only ever accepts more", "statement": "Turning ACCEPT_EXTRA_HYPHENS on never rejects a word that was accepted, and the recursive splitting it performs terminates for every word.", "quantifier": "all words, all analysers", "why_tests_cant": "Recursion on arbitrary words; two-run property.", "anchors": ["libvoikko/src/spellchecker/FinnishSpellerTweaksWrapper.cpp"]}
{"id": "C29", "title": "URL and e-mail recognition in IGNORE_NONWORDS", "statement": "A word is skipped as a non-word only if it has one of the documented shapes (scheme://..., www.x.y, a.b/c paths or e-mail), and the check never reads outside the word. Words with the documented shape are recognised. (Expected to fail: only the first '/' is examined.)", "quantifier": "all words", "why_tests_cant": "All strings.", "anchors": ["libvoikko/src/utils/utils.cpp: voikko_is_nonword"]}
{"id": "C30", "title": "At most five suggestions, sorted by priority", "statement": "voikkoSuggest returns at most five suggestions; internally collected suggestions never exceed the capacity, are returned in non-decreasing priority value, ties in order of discovery, and nothing is lost or invented by sorting.", "quantifier": "all sequences of generated suggestions", "why_tests_cant": "Unbounded generation sequences.", "anchors": ["libvoikko/src/spellchecker/suggestion/SuggestionStatus.cpp", "libvoikko/src/spellchecker/suggestions.cpp"]}
{"id": "C31", "title": "Every suggestion is a correctly spelled word", "statement": "Every suggestion produced by the edit generators is (up to the capitalisation demanded by the dictionary) a string the analyser accepted.", "quantifier": "all misspelled words, all analysers", "why_tests_cant": "All words and dictionaries.", "anchors": ["libvoikko/src/spellchecker/suggestion/SuggestionGeneratorCaseChange.cpp: suggestForBuffer", "libvoikko/src/spellchecker/suggestion/*.cpp"]}
{"id": "C32", "title": "Edit generators enumerate exactly the advertised neighbours", "statement": "The deletion, insertion, replacement, swap, split generators submit exactly the documented edits of the word (each candidate is one edit away; every such edit not filtered out is tried unless the search was aborted).", "quantifier": "all words", "why_tests_cant": "All words of any length.", "anchors": ["libvoikko/src/spellchecker/suggestion/SuggestionGeneratorDeletion.cpp", "libvoikko/src/spellchecker/suggestion/SuggestionGeneratorSwap.cpp", "libvoikko/src/spellchecker/suggestion/SuggestionGeneratorReplacement.cpp", "libvoikko/src/spellchecker/suggestion/SuggestionGeneratorInsertion.cpp"]}
{"id": "C33", "title": "Suggestion generation is memory safe", "statement": "No generator accesses memory outside its buffers, for any word accepted by voikkoSuggestUcs4. (Expected to fail: words of two characters that normalise to one, and ligatures in the reformat step.)", "quantifier": "all words", "why_tests_cant": "Triggers need a specific interaction of length checks and normalisation.", "anchors": ["libvoikko/src/spellchecker/suggestions.cpp: voikkoSuggestUcs4", "libvoikko/src/spellchecker/suggestion/SuggestionGeneratorInsertSpecial.cpp", "libvoikko/src/spellchecker/suggestion/SuggestionGeneratorSplitWord.cpp"]}
{"id": "C34", "title": "Suggestion search effort is bounded", "statement": "The number of dictionary look-ups charged while generating suggestions is bounded by the cost budget plus a constant, for every word and dictionary; generation always terminates.", "quantifier": "all words, all analysers", "why_tests_cant": "Worst-case bound.", "anchors": ["libvoikko/src/spellchecker/suggestion/SuggestionStatus.cpp: shouldAbort, charge", "libvoikko/src/spellchecker/suggestion/SuggestionStrategy.cpp: generate"]}
{"id": "C35", "title": "Hyphenation pattern has the length of the word and a fixed alphabet", "statement": "voikkoHyphenate returns a string with one pattern character per character of the word, each of ' ', '-' or '='.", "quantifier": "all words, all analysers, all options", "why_tests_cant": "All words and all analysis lists.", "anchors": ["libvoikko/src/hyphenator/AnalyzerToFinnishHyphenatorAdapter.cpp: hyphenate", "libvoikko/src/hyphenator/interface.cpp: voikkoHyphenateUcs4"]}
{"id": "C36", "title": "Hyphenation is memory safe", "statement": "Hyphenation never reads or writes outside the word, the pattern buffers or the analysis structure string. (Expected to fail for a structure ending in '='.)", "quantifier": "all words, all analysis structures", "why_tests_cant": "Arbitrary structures and words.", "anchors": ["libvoikko/src/hyphenator/AnalyzerToFinnishHyphenatorAdapter.cpp: interpretAnalysis, ruleHyphenation, compoundHyphenation"]}
{"id": "C37", "title": "Ambiguous words are hyphenated only where all readings agree", "statement": "With several analyses the returned pattern has a hyphenation point only where every (retained) analysis' hyphenation has one.", "quantifier": "all lists of hyphenations", "why_tests_cant": "Fold over unbounded lists.", "anchors": ["libvoikko/src/hyphenator/AnalyzerToFinnishHyphenatorAdapter.cpp: intersectHyphenations, removeExtraHyphenations"]}
{"id": "C38", "title": "Words and compound parts shorter than the minimum are not hyphenated", "statement": "No rule hyphenation point is placed inside a word or compound part shorter than VOIKKO_MIN_HYPHENATED_WORD_LENGTH. (Expected to fail after two consecutive hyphens: the second one is counted as part of the following compound part.)", "quantifier": "all words, all minimum lengths", "why_tests_cant": "All words and settings.", "anchors": ["libvoikko/src/hyphenator/AnalyzerToFinnishHyphenatorAdapter.cpp: ruleHyphenation, compoundHyphenation"]}
{"id": "C39", "title": "NO_UGLY_HYPHENATION only removes hyphenation points", "statement": "Turning NO_UGLY_HYPHENATION on never adds a hyphenation point. (Expected to fail for words with an apostrophe and for unknown non-words ending in a dot when IGNORE_DOT is set.)", "quantifier": "all words", "why_tests_cant": "Two-run property over all words.", "anchors": ["libvoikko/src/hyphenator/AnalyzerToFinnishHyphenatorAdapter.cpp: ruleHyphenation"]}
{"id": "C40", "title": "Inserting hyphens is reversible", "statement": "voikkoInsertHyphensCstr with context changes disallowed returns the original word with copies of the hyphen string inserted; deleting the inserted copies gives the word back. With context changes allowed, only characters marked '=' are replaced.", "quantifier": "all words, hyphen strings, patterns", "why_tests_cant": "All words and hyphen strings.", "anchors": ["libvoikko/src/hyphenator/interface.cpp: voikkoInsertHyphensCstr"]}
{"id": "C41", "title": "The transducer look-up enumerates exactly the accepted readings", "statement": "Successive calls after preparing a word return exactly the output strings of accepting paths of the transducer for that word (flag constraints respected), each path once, and then report exhaustion (within the fixed buffer and loop limits).", "quantifier": "all transducers and words within the limits", "why_tests_cant": "Depth-first search over arbitrary graphs with backtracking state.", "anchors": ["libvoikko/src/fst/UnweightedTransducer.cpp: next, nextPrefix, prepare", "libvoikko/src/fst/Configuration.cpp"]}
{"id": "C42", "title": "Look-up results do not depend on earlier look-ups", "statement": "The analyses of a word are the same whatever words were analysed before. (Expected to fail: flag values survive a search that was abandoned early.)", "quantifier": "all histories of look-ups, all transducers with flag diacritics", "why_tests_cant": "Depends on unbounded history and early termination of an earlier search.", "anchors": ["libvoikko/src/fst/UnweightedTransducer.cpp: prepare", "libvoikko/src/fst/WeightedTransducer.cpp: prepare", "libvoikko/src/morphology/FinnishVfstAnalyzer.cpp: analyze", "libvoikko/src/grammar/FinnishRuleEngine/VfstAutocorrectCheck.cpp"]}
{"id": "C43", "title": "Transducer file byte order is irrelevant", "statement": "Loading a transducer file written in the opposite byte order yields the same transition table and symbols as loading the native one.", "quantifier": "all transition tables", "why_tests_cant": "All field values.", "anchors": ["libvoikko/src/fst/UnweightedTransducer.cpp: byteSwapTransducer", "libvoikko/src/fst/WeightedTransducer.cpp", "libvoikko/src/tools/voikkovfstc.cpp: writeTrans, writeOverflow"]}
{"id": "C44", "title": "Compiled transition tables are read back completely", "statement": "For every state the transitions found by the look-up code (including states with more than 254 transitions, which use an overflow cell) are exactly those written by the compiler, and state offsets never overlap.", "quantifier": "all automata, all out-degrees", "why_tests_cant": "Off-by-one at out-degree 255/256 and offset accumulation over all states.", "anchors": ["libvoikko/src/tools/voikkovfstc.cpp: main, setTarget, compareTransitionsForFileOrder", "libvoikko/src/fst/UnweightedTransducer.cpp: getMaxTc", "libvoikko/src/fst/WeightedTransducer.cpp: getMaxTc"]}
{"id": "C45", "title": "Weighted look-up considers every matching transition", "statement": "In the weighted transducer all transitions whose input symbol matches (epsilon, flag, or the next input symbol) are followed. (Expected to fail at end of input after a failing flag transition.)", "quantifier": "all sorted transition lists and inputs", "why_tests_cant": "Ordering interplay of final, flag and symbol transitions.", "anchors": ["libvoikko/src/fst/WeightedTransducer.cpp: next, backtrackToOutputDepth"]}
{"id": "C46", "title": "Options behave as independent variables", "statement": "After any sequence of option calls each option has the value last set successfully (or its documented default); setting one option never changes another; unknown option numbers return failure and change nothing.", "quantifier": "all sequences of option calls", "why_tests_cant": "Unbounded call sequences.", "anchors": ["libvoikko/src/setup/setup.cpp: voikkoSetBooleanOption, voikkoSetIntegerOption, voikkoInit"]}
{"id": "C47", "title": "Language tag parsing is canonical", "statement": "Parsing a BCP 47 tag and printing it again is idempotent, insensitive to case of the language and to '_' versus '-', and two tags differing only in those respects select the same dictionary.", "quantifier": "all tag strings", "why_tests_cant": "All strings.", "anchors": ["libvoikko/src/setup/LanguageTag.cpp: setBcp47, toBcp47"]}
{"id": "C48", "title": "Dictionary search order", "statement": "If the same dictionary variant exists in several locations the first location in the search order is used; for each language at most one dictionary is marked default.", "quantifier": "all directory contents and search paths", "why_tests_cant": "Unbounded sets of dictionaries.", "anchors": ["libvoikko/src/setup/DictionaryLoader.cpp: addDictionary", "libvoikko/src/setup/DictionaryFactory.cpp: findAllAvailable, load"]}
{"id": "C49", "title": "Only the standard variant is treated as standard", "statement": "The dictionary listed first / used as default for a language is treated as '-x-standard' only if its tag really ends in '-x-standard'. (Expected to fail for ten-character tags.)", "quantifier": "all dictionary tags", "why_tests_cant": "Needs a tag of one particular length.", "anchors": ["libvoikko/src/setup/DictionaryFactory.cpp: findAllAvailable"]}
{"id": "C50", "title": "Legacy handle table", "statement": "The deprecated integer-handle API never hands out a handle that is in use, supports exactly four simultaneous handles, and voikko_terminate on any integer that is not a live handle returns 0 without other effect. (Expected to fail when no handle is live.)", "quantifier": "all sequences of init/terminate calls", "why_tests_cant": "Unbounded histories; the table itself is freed and re-allocated.", "anchors": ["libvoikko/src/compatibility/interface.cpp: findFreeSlotForHandle, voikko_init_with_path, voikko_terminate, freeHandlesIfPossible"]}
{"id": "C51", "title": "Grammar errors are reported in text order", "statement": "The cached error list is always sorted by start position, errors with equal start keep the order in which they were found, and none is lost.", "quantifier": "all sequences of appended errors", "why_tests_cant": "Insertion into a linked list in arbitrary order.", "anchors": ["libvoikko/src/grammar/GcCache.cpp: appendError"]}
{"id": "C52", "title": "Iterating with skiperrors visits every error once", "statement": "Calling voikkoNextGrammarError with startpos 0 and skiperrors = 0, 1, 2, ... returns the errors in order, each once, then none; for other startpos the documented combination of both parameters is returned.", "quantifier": "all error lists, all startpos/skiperrors", "why_tests_cant": "All lists.", "anchors": ["libvoikko/src/grammar/GrammarChecker.cpp: errorFromCache"]}
{"id": "C53", "title": "The grammar cache is invisible", "statement": "In any sequence of grammar checks and option changes each check returns what a fresh check of the same text would return. (Expected to fail if the wide-character text continues after textlen, and when ACCEPT_EXTRA_HYPHENS changes.)", "quantifier": "all histories", "why_tests_cant": "Unbounded histories.", "anchors": ["libvoikko/src/grammar/GrammarChecker.cpp", "libvoikko/src/grammar/interface.cpp", "libvoikko/src/setup/setup.cpp: setGrammarOption"]}
{"id": "C54", "title": "Grammar analysis covers the paragraph with consecutive tokens", "statement": "Sentences of the analysed paragraph are consecutive, start at position 0, and inside each sentence the tokens are consecutive with correct positions and texts, up to the fixed limits on tokens per sentence and sentences per paragraph.", "quantifier": "all texts, all spellers/analysers", "why_tests_cant": "All texts.", "anchors": ["libvoikko/src/grammar/FinnishAnalysis.cpp: analyseToken, analyseSentence, analyseParagraph"]}
{"id": "C55", "title": "Reported grammar errors lie inside the text", "statement": "For every reported grammar error, startpos + errorlen <= number of characters in the text and errorlen > 0.", "quantifier": "all paragraphs", "why_tests_cant": "All texts and all checks.", "anchors": ["libvoikko/src/grammar/FinnishRuleEngine/checks.cpp", "libvoikko/src/grammar/FinnishRuleEngine/CapitalizationCheck.cpp", "libvoikko/src/grammar/FinnishRuleEngine/VfstAutocorrectCheck.cpp"]}
{"id": "C56", "title": "Grammar checks never dereference missing tokens", "statement": "The capitalisation state machine terminates and never uses a null token, for every paragraph.", "quantifier": "all paragraphs", "why_tests_cant": "State machine over arbitrary token sequences.", "anchors": ["libvoikko/src/grammar/FinnishRuleEngine/CapitalizationCheck.cpp"]}
{"id": "C57", "title": "Analysis keys and values agree", "statement": "After any sequence of attribute additions/removals, the key list of an analysis has exactly the keys with a non-null value, without duplicates, in fixed order; the first value added for a key is the one returned.", "quantifier": "all sequences of attribute operations", "why_tests_cant": "All histories.", "anchors": ["libvoikko/src/morphology/Analysis.cpp: addAttribute, addConstAttribute, removeAttribute, seal, getValueS"]}
{"id": "C58", "title": "Attribute value enumeration is complete", "statement": "Every value an analysis can have for an enumerable attribute is listed by voikkoGetAttributeValues, without duplicates. (Expected to fail: COMPARISON 'positive'.)", "quantifier": "all analyser outputs", "why_tests_cant": "All analyser outputs.", "anchors": ["libvoikko/src/morphology/FinnishVfstAnalyzer.cpp: getAttributeValues, parseBasicAttributes, analyze"]}
{"id": "C59", "title": "Structure strings align with the word", "statement": "The STRUCTURE of an analysis of a word has exactly one case/boundary pattern character per character of the word besides the '=' marks and never overflows its buffer, for every well-formed transducer output.", "quantifier": "all well-formed transducer outputs", "why_tests_cant": "All outputs.", "anchors": ["libvoikko/src/morphology/FinnishVfstAnalyzer.cpp: parseStructure, createDefaultStructure, decreaseCharsMissing"]}
{"id": "C60", "title": "Analysis validity check handles every transducer output", "statement": "Parsing of transducer output (validity check, attributes, base form) terminates without reading outside the output string. (Expected to fail for very short outputs.)", "quantifier": "all output strings", "why_tests_cant": "All strings.", "anchors": ["libvoikko/src/morphology/FinnishVfstAnalyzer.cpp: isValidAnalysis, parseBasicAttributes, parseNumeralBaseform"]}
{"id": "C61", "title": "Compound borders of the analysis appear in the hyphenation", "statement": "If the dictionary gives a word a single analysis and the word is long enough to be hyphenated, every compound border of its STRUCTURE is in the returned pattern: '-' at the first letter of the next part, '=' at a hyphen of the word that is a border (unless it is the first character).", "quantifier": "all words, options and STRUCTURE strings", "why_tests_cant": "Arbitrary structures; later stages rewrite the pattern around the borders.", "anchors": ["libvoikko/src/hyphenator/AnalyzerToFinnishHyphenatorAdapter.cpp: interpretAnalysis, compoundHyphenation, ruleHyphenation"]}
{"id": "C62", "title": "Spelling with a weighted transducer is membership in its language", "statement": "With the weighted transducer backend a word is correct if and only if it has at most 255 characters and the transducer accepts it, and correct with an initial capital if and only if it is not accepted but its capitalised form is; whatever was spelled before.", "quantifier": "all transducers, words and histories", "why_tests_cant": "All transducers and histories.", "anchors": ["libvoikko/src/spellchecker/VfstSpeller.cpp: spell, doSpell", "libvoikko/src/fst/WeightedTransducer.cpp: prepare, next"]}
{"id": "C63", "title": "Suggestions of a weighted error model are words, best first", "statement": "With the weighted transducer backend every suggestion is a word into which the error model turns the misspelled word and which the dictionary accepts; suggestions are distinct and ordered by the lowest total weight of error model and dictionary. (Expected to fail for error models with flag diacritics: going back does not restore the flags.)", "quantifier": "all error models, dictionaries, words and histories", "why_tests_cant": "All pairs of transducers; depends on the pruned search of one driven by the other.", "anchors": ["libvoikko/src/spellchecker/VfstSuggestion.cpp: generate", "libvoikko/src/fst/WeightedTransducer.cpp: backtrackToOutputDepth"]}
{"id": "C64", "title": "Pruning of the suggestion search loses no correction", "statement": "Every word into which the error model turns the misspelled word and which the dictionary accepts is suggested, unless there are fifteen suggestions with at most its weight. Skipping the outputs that share a prefix rejected by the dictionary never loses one. (Expected to fail for error models with flag diacritics.)", "quantifier": "all error models, dictionaries, words and histories", "why_tests_cant": "A lost suggestion is invisible unless all readings are known.", "anchors": ["libvoikko/src/spellchecker/VfstSuggestion.cpp: generate", "libvoikko/src/fst/WeightedTransducer.cpp: backtrackToOutputDepth, next"]}
{"id": "C65", "title": "Exactly which words the spelling check accepts", "statement": "For any dictionary component, option setting and consistent cache, a word is reported correct if and only if it is empty or it has at most 255 characters and one of these holds for its normalised form: it contains a digit and numbers are ignored; it is all capitals and such words are ignored; it looks like a URL, e-mail address or other non-word and non-words are ignored; or the dictionary accepts it, as it stands or (if dots are ignored) without its final dot. The dictionary accepts: a lower-case word it knows as correct; a capitalised word that it knows as correct, if capitalised words are accepted, or knows to need a capital; an all-capitals word it knows in any form, if all capitals are accepted; any other word that is correct with only its first letter lowered, or needs a capital there and has one. Otherwise the word is reported as misspelled. The answer never depends on what the cache holds.", "quantifier": "all dictionaries, option values, consistent caches and words", "why_tests_cant": "The rule combines options, four capitalisation classes, the dot rule and the cache; tests visit a few combinations for a few words.", "anchors": ["libvoikko/src/spellchecker/spell.cpp: voikkoSpellUcs4, voikko_do_spell, voikko_cached_spell"]}
{"id": "C66", "title": "Exactly which hyphenated Finnish words are accepted", "statement": "A word without soft hyphens is accepted by the Finnish speller if and only if the dictionary has an analysis for it, or it has more than three characters and an inner hyphen and one of these holds: extra hyphens are accepted and the word is correct without its first inner hyphen; the same vowel-consonant pair stands on both sides of the hyphen and the dictionary knows the joined word; the part before the last inner hyphen is accepted and the part after it is a free final part; the joined word is ambiguous, with a compound border at the hyphen in one analysis and none there in another. The verdict on letter case is that of the analyses or of the reason used, and a word the dictionary considers correct stays correct.", "quantifier": "all words, analysers giving structures, hyphenators and values of the extra-hyphens option", "why_tests_cant": "The rules are recursive over arbitrarily many hyphens and depend on all analyses of several derived words.", "anchors": ["libvoikko/src/spellchecker/FinnishSpellerTweaksWrapper.cpp: spellWithoutSoftHyphen, spell", "libvoikko/src/spellchecker/AnalyzerToSpellerAdapter.cpp: spell"]}
{"id": "C67", "title": "Finnish hyphenation follows the syllables", "statement": "In a word of Finnish vowels and consonants every hyphenation point that is not a compound border stands before a consonant followed by a vowel, before one of the undivided consonant groups (shtsh, štš, tsh, tš, zh), or, if ugly hyphenation is allowed, between two vowels of different syllables (a separate pair such as ia or eo, next to a long vowel, after ie or ai); and both syllables it divides contain a vowel, so no part between two points is left without one. Without ugly hyphenation a word of one part that has no such group is hyphenated exactly before every consonant-vowel pair that has a vowel before it, except after the first letter. With ugly hyphenation all consonant-vowel pairs and separate vowel pairs are points, and these are all the points unless three vowels follow each other; there the points next to long vowels and after ie and ai are added.", "quantifier": "all words of Finnish letters, analysers and options; the exact results for words without a compound border (unknown words with unknown words hyphenated, or all analyses of one part)", "why_tests_cant": "Six passes over the word add, move and remove points depending on each other; that no order of them leaves a syllable without a vowel or adds another point must hold for words of any length.", "anchors": ["libvoikko/src/hyphenator/AnalyzerToFinnishHyphenatorAdapter.cpp: ruleHyphenation, isGoodHyphenPosition, compoundHyphenation, SPLIT_VOWELS, LONG_CONSONANTS, SPLIT_AFTER"]}
{"id": "C68", "title": "Suggestions are presented like the word they correct", "statement": "voikkoSuggest returns, in order, the presentation of the five best suggestions found for the normalised word: a full stop that was ignored is put back unless the suggestion ends in one; if the word is in capital letters and such words are acceptable, the suggestion is in capital letters too; if the word begins with a capital letter, a suggestion without capital letters gets one at its beginning and nothing else is changed; otherwise the letters are those of the suggestion. Typographic apostrophes and hyphens of the word reappear where the beginning of the suggestion and, unless a full stop was ignored, then its end agree with the word.", "quantifier": "all suggestion generators (including any dictionary), all words without NUL, all settings of the options", "why_tests_cant": "The result combines an unbounded word with an arbitrary suggestion; that no combination of case pattern, final full stop and typographic characters loses or invents a character is a statement about all of them.", "anchors": ["libvoikko/src/spellchecker/suggestions.cpp: voikkoSuggestUcs4, getSuggestions", "libvoikko/src/character/charset.cpp: voikko_cset_reformat", "libvoikko/src/utils/utils.cpp: voikko_casetype, voikko_set_case"]}
{"id": "C69", "title": "Only hyphens and apostrophes are removed at a division", "statement": "A pattern character '=' (the character is removed when the word is divided there) stands only inside the word, at a hyphen or at an apostrophe followed by a vowel, provided that a hyphen which the analyser reports as compound border is a hyphen of the word. In unknown words every hyphen inside the word gets it. Hence voikkoInsertHyphensCstr with context changes keeps every character except such apostrophes.", "quantifier": "all words, options and analysers whose STRUCTURE strings have their border hyphens where the word has hyphens", "why_tests_cant": "A letter silently lost at a line break corrupts the text; that it can never happen is a statement about all words, compound borders and options together.", "anchors": ["libvoikko/src/hyphenator/AnalyzerToFinnishHyphenatorAdapter.cpp: splitCompounds, interpretAnalysis, ruleHyphenation, intersectHyphenations", "libvoikko/src/hyphenator/interface.cpp: voikkoInsertHyphensCstr"]}
{"id": "C70", "title": "A sound Finnish transducer makes every service total", "statement": "If every output of the Finnish transducer for a word is well formed, has as many characters as the word and hyphens exactly where the word has hyphens, then: every analysis has a STRUCTURE with one pattern character per character of the word; a word has an analysis exactly if it is at most 255 characters long and one of the first 99 outputs is valid; looking a word up gives 'unknown' exactly if it has no analysis and 'correct' exactly if its capital letters agree with an analysis at every character; the complete Finnish speller and the hyphenator give a result for every word without undefined behaviour, and the hyphenation has the length of the word.", "quantifier": "all dictionaries with such outputs, all words, all options", "why_tests_cant": "The analyser, the speller and the hyphenator trust one another's data across four layers; that the trust is justified for every word of every sound dictionary cannot be sampled.", "anchors": ["libvoikko/src/morphology/FinnishVfstAnalyzer.cpp: analyze, parseStructure, isValidAnalysis", "libvoikko/src/spellchecker/AnalyzerToSpellerAdapter.cpp: spell", "libvoikko/src/spellchecker/FinnishSpellerTweaksWrapper.cpp: spell", "libvoikko/src/hyphenator/AnalyzerToFinnishHyphenatorAdapter.cpp: hyphenate"]}
{"id": "C71", "title": "What the index file of a dictionary means", "statement": "A directory whose index.txt does not begin with the line of format 5 contributes no dictionary. Otherwise the description and the backends (morphology, speller, suggestions, hyphenator, grammar) have the value of the last line with their key and their defaults if there is none; the language is that of the line for it, Finnish if there is none; other lines do not matter. Writing a default value down changes nothing. The variable VOIKKO_DICTIONARY replaces the requested variant exactly if no variant or the variant 'default' is requested, and never changes language or script.", "quantifier": "all index files, directories, requests and values of the variable", "why_tests_cant": "Index files are written by dictionary maintainers; any line may be missing, repeated or unknown, in any order.", "anchors": ["libvoikko/src/setup/V5DictionaryLoader.cpp: findDictionaries, dictionaryFromPath", "libvoikko/src/setup/DictionaryFactory.cpp: load", "libvoikko/src/setup/DictionaryLoader.cpp: addDictionary"]}
{"id": "C72", "title": "Life of a handle: creation, failure, release", "statement": "voikkoInit gives a handle exactly if a dictionary is found for the request and every backend that it names can be created from the files that exist; the components of the handle are those the dictionary asks for. If it fails, everything allocated on the way is released. A handle can be reconfigured (OCR_SUGGESTIONS, SPELLER_CACHE_SIZE) any number of times and then given to voikkoTerminate: nothing is released twice, no exception escapes, and exactly what was allocated before voikkoInit is allocated afterwards.", "quantifier": "all dictionaries, directories, contents of the transducer files, build configurations, requests and sequences of option changes", "why_tests_cant": "Releases that are missing or doubled are not visible in results, and the combinations of backends, files that are missing or of the wrong kind, and option changes cannot be enumerated.", "anchors": ["libvoikko/src/setup/setup.cpp: voikkoInit, voikkoTerminate, voikkoSetBooleanOption, voikkoSetIntegerOption", "libvoikko/src/morphology/AnalyzerFactory.cpp: getAnalyzer", "libvoikko/src/spellchecker/SpellerFactory.cpp: getSpeller", "libvoikko/src/spellchecker/suggestion/SuggestionGeneratorFactory.cpp: getSuggestionGenerator", "libvoikko/src/hyphenator/HyphenatorFactory.cpp: getHyphenator", "libvoikko/src/grammar/GrammarCheckerFactory.cpp: getGrammarChecker"]}
{"id": "C73", "title": "The lists of supported languages and the shown variants can be used", "statement": "voikkoListSupportedSpellingLanguages (and those for hyphenation and grammar checking) give each language, with script if there is one, exactly once and in the order of bytes, and exactly for the available dictionaries that advertise the capability. Each listed language can be passed to voikkoInit with the same path: a dictionary for it is loaded. The variant shown for a dictionary is not empty, and language, script and variant together load a dictionary that is shown with the same three.", "quantifier": "all sets of available dictionaries, directories, capabilities and listed languages", "why_tests_cant": "Depends on the dictionaries that happen to be installed; tags of every form occur in index files.", "anchors": ["libvoikko/src/setup/interface.cpp: listSupportedLanguagesForCapability, voikko_dict_variant", "libvoikko/src/setup/DictionaryFactory.cpp: load, findAllAvailable", "libvoikko/src/setup/LanguageTag.cpp: setBcp47, toBcp47"]}
{"id": "C74", "title": "Grammar errors are reported exactly where the documented rules say", "statement": "Apart from letter case and fixed expressions, the grammar checker reports an error in a sentence exactly if the tokens around it are as the rule says: several whitespace characters (2), space before a comma (3), two commas (4), punctuation at the start of a sentence (5), a repeated word (8), end punctuation missing (9), punctuation at the end of a quotation (10), foreign quotation mark (11), a negative verb and a positive verb (13), a wrong infinitive (14, 15), a conjunction before the full stop (16), a sentence without a verb (17), two main verbs in a clause (18). The reported range and the correction are those of the rule. Nothing is reported in a paragraph that is one token sequence without whitespace, unless it is a word with at most one more token.", "quantifier": "all texts without NUL, analysers, spellers and grammar options", "why_tests_cant": "The unit tests try one or two sentences for each rule; that a rule fires nowhere else, for all sequences of tokens and after all earlier errors in the sentence, is a statement about all sentences.", "anchors": ["libvoikko/src/grammar/FinnishRuleEngine/checks.cpp: gc_local_punctuation, gc_punctuation_of_quotations, gc_repeating_words, gc_end_punctuation", "libvoikko/src/grammar/FinnishRuleEngine/MissingVerbCheck.cpp: check", "libvoikko/src/grammar/FinnishRuleEngine/NegativeVerbCheck.cpp: check", "libvoikko/src/grammar/FinnishRuleEngine/CompoundVerbCheck.cpp: check", "libvoikko/src/grammar/FinnishRuleEngine/SidesanaCheck.cpp: check", "libvoikko/src/grammar/GrammarChecker.cpp: paragraphToCache", "libvoikko/src/grammar/FinnishRuleEngine.cpp: check"]}
{"id": "C75", "title": "What the grammar checker assumes about a word follows from all its analyses, not from their order", "statement": "For each word of a text the grammar rules use attributes that follow from the morphological analyses of the word without soft hyphens: it is known if there is an analysis; its first letter is written small if all analyses say so; it is a conjunction, a main verb, a negative verb or a positive verb if it has an analysis and all of them are such; it may be a conjunction, a main verb or a geographical name if some analysis is such; it requires a kind of infinitive if all analyses require that kind. Words without analyses and tokens that are not words are none of these. A word may start a sentence exactly if since the word before it in the same sentence there is a full stop, a colon, an ellipsis or a dash. The order in which the analyser returns the analyses does not matter.", "quantifier": "all words and texts without NUL, all analysers that return a STRUCTURE attribute, all orders of the analyses", "why_tests_cant": "The result is a fold over a list of analyses with eleven flags that each analysis may clear or set; tests use the one order that their dictionary produces for a few words, while the claim is about all lists of analyses and all permutations of them.", "anchors": ["libvoikko/src/grammar/FinnishAnalysis.cpp: FinnishAnalysis::analyseToken, FinnishAnalysis::analyseSentence", "libvoikko/src/grammar/Token.hpp: Token"]}
{"id": "C76", "title": "Which letter case and bracket errors are reported", "statement": "In a text that is checked, error 7 is reported for a word at the start of a sentence exactly if it lacks a capital letter, error 6 for another word exactly if it has a capital letter that its analyses do not allow, and error 12 for a closing bracket exactly if nothing is open before it. The text is seen as words and the separators between them: a sentence starts at the start of the text and after separators whose last punctuation other than commas is a full stop, a question mark or an exclamation mark. Words inside quotations and brackets are not judged. Either case is accepted after tabs, after the name of a list item, after a chapter number (if titles are accepted), after an ordinal at the start, after the place in the name of an institution, and at the start of a list item. Sentences in capital letters and with foreign quotation marks are left out. The suggestion is the word with the case of the first letter changed.", "quantifier": "all analysers, speller results, options and texts without NUL", "why_tests_cant": "The check is a state machine with four states, a stack of marks and a flag, and looks at each word with the separators on both sides. Tests cover single transitions; the claim is about which words of any text, with any nesting of quotations and brackets, are reported.", "anchors": ["libvoikko/src/grammar/FinnishRuleEngine/CapitalizationCheck.cpp: CapitalizationCheck::check, inInitial, inUpper, inLower, inDontCare, inQuoted, pushAndPopQuotes", "libvoikko/src/grammar/FinnishRuleEngine.cpp: FinnishRuleEngine::check"]}
{"id": "C77", "title": "Which readings of a compound word are analyses of it", "statement": "A reading of a word is an analysis exactly if its hyphens are right. Where two words meet, a hyphen is needed if the first ends in the vowel that the second begins with, or in a digit; otherwise it may be used only if the first word ends in \"is\", or nothing is before it, or a mark in the reading allows it, and a mark lasts for a known number of such places. If a reading says that a hyphen must be used and the words meet without one, a mark of a place name must follow before words meet so again. A proper noun followed by a noun is not joined to it without a hyphen. A word of at most 255 letters has an analysis exactly if one of the first 99 readings is valid.", "quantifier": "all well-formed transducer outputs in small letters that do not end in a hyphen with a boundary, of any length; all words", "why_tests_cant": "The check is a loop with ten variables over a string of mark-up and letters. Tests cover single compounds; the claim is about any number of parts and any order of the marks.", "anchors": ["libvoikko/src/morphology/FinnishVfstAnalyzer.cpp: isValidAnalysis, FinnishVfstAnalyzer::analyze"]}
{"id": "C78", "title": "Where sentences start, and when that is uncertain", "statement": "A sentence is reported to start at the first token other than whitespace before which the text has ended outside of a quotation: one of ! ? . ... (or the character for it) : has come, and no quotation was closed directly before a comma after it. If there is no such token, the whole text is one sentence. The start is reported as possible, not as probable, exactly if the text ended with ... or : or with ! or ? in a quotation, or a word directly follows the mark, or somewhere before there was a word with a dot of its own: an initial, a number, or a word that the dictionary accepts with the dot.", "quantifier": "all texts without NUL, all dictionaries, both values of IGNORE_DOT", "why_tests_cant": "The search keeps six variables over the tokens of a text of any length, with quotations opened and closed any number of times. The claim gives the first start of every text.", "anchors": ["libvoikko/src/sentence/Sentence.cpp: Sentence::next, dot_part_of_word", "libvoikko/src/sentence/interface.cpp: voikkoNextSentenceStartUcs4"]}
{"id": "C79", "title": "The grammatical attributes of an analysis of a Finnish word", "statement": "The analyses of a word of at most 255 characters come from its first 99 readings, in order. Each valid reading gives one analysis whose CLASS, SIJAMUOTO, NUMBER, PERSON, MOOD, TENSE, NEGATIVE, COMPARISON, PARTICIPLE, POSSESSIVE, FOCUS, KYSYMYSLIITE, REQUIRE_FOLLOWING_VERB, POSSIBLE_GEOGRAPHICAL_NAME and MALAGA_VAPAA_JALKIOSA are exactly those that the tags of the reading tell: the last tag of a kind decides, of those that the tags behind it let count. An adjective has a degree of comparison and a noun has none. A reading of a compound noun marked as such gives a second analysis as the name of an organisation, with the same attributes but CLASS nimi and no geographical mark.", "quantifier": "all well-formed transducer outputs without stray brackets, of any length and with any sequence of tags; all words", "why_tests_cant": "The attributes come from a loop that runs over the output backwards and looks at and around each tag; which tags count depends on all the tags behind them. Tests look at the analyses of single words.", "anchors": ["libvoikko/src/morphology/FinnishVfstAnalyzer.cpp: parseBasicAttributes, parseBasicAttribute, duplicateOrgName, FinnishVfstAnalyzer::analyze", "libvoikko/src/morphology/Analysis.cpp: addAttribute, removeAttribute, getValue"]}
{"id": "C80", "title": "The base form of an analysis of a Finnish word", "statement": "With the full morphology, every analysis of a valid reading has as BASEFORM exactly the base form of the reading. This is the text before the last word for which the dictionary gives a base form, written with the capital letters of STRUCTURE, followed by that base form without its marks; a reading with no base form, or with a hyphen after it that is not part of it, gives the word itself with its capital letters. In a marked compound place name the first part is in its base form too. In a numeral each part is in its base form. For a simple word the BASEFORM is the same in every inflected form.", "quantifier": "all well-formed transducer outputs without stray brackets and unknown sections, of any length; all words", "why_tests_cant": "BASEFORM is built by one pass that copies letters, rewinds to the start of a word at a hyphen and again at the end, and switches to another loop at a numeral; what is kept depends on all earlier sections, classes and hyphens. Tests compare the base forms of single words.", "anchors": ["libvoikko/src/morphology/FinnishVfstAnalyzer.cpp: parseBaseform, parseNumeralBaseform, duplicateOrgName, FinnishVfstAnalyzer::analyze"]}
{"id": "C81", "title": "Which suggestions are found, and how they are ranked", "statement": "For a misspelled word a fixed sequence of candidates is looked up in a fixed order until fifteen suggestions are found or the budget of look-ups is used up; other corrections are tried only if changing capital letters (and, for typing errors, removing soft hyphens) gives nothing. Each finding has a rank given by the best verdict on its capital letters, the weight of its grammatical case, and eight times more for every further part of a compound. The user is given the five best by rank times order of finding; of two findings the earlier one comes first unless its rank is higher. A word that is recognised but for its capital letters is corrected in this way only, and every word among the first 260 candidates is found unless there are enough suggestions already. No suggestion is given exactly if nothing is found or the word is too short or too long.", "quantifier": "all dictionaries whose analyses have a structure; all words (for typing errors with at most 32 vowels), of any length", "why_tests_cant": "The outcome depends on the whole order of hundreds of candidates, on the budget that every look-up uses up, and on all analyses of each candidate. Tests look at the suggestions for single words with one dictionary.", "anchors": ["libvoikko/src/spellchecker/SpellWithPriority.cpp: spellWithPriority, handleAnalysis", "libvoikko/src/spellchecker/suggestion/SuggestionStrategy.cpp: generate", "libvoikko/src/spellchecker/suggestion/SuggestionStrategyTyping.cpp", "libvoikko/src/spellchecker/suggestion/SuggestionStrategyOcr.cpp", "libvoikko/src/spellchecker/suggestion/SuggestionStatus.cpp", "libvoikko/src/spellchecker/suggestion/SuggestionGeneratorSplitWord.cpp: generate", "libvoikko/src/spellchecker/suggestions.cpp: voikkoSuggestUcs4"]}
{"id": "C82", "title": "A dictionary text compiles to a file with the same meaning", "statement": "The transducer compiler reads a text with one line per transition (source, target, input symbol, output symbol) and per final state. For every text that describes a proper automaton - states in order, every target with a line, symbols that are empty, flag diacritics, tags beginning with a bracket, or single letters, at least one of them a letter - the compiler writes a file in either byte order, the library loads the file, and looking up a word gives exactly the outputs of the accepting runs of the automaton as described by the lines: each run once, in the order epsilon, final, flag diacritics, letters by code point, tags; all of them unless a fixed limit is reached. The orders that the compiler gives to the standard sorting function are strict weak orders, and no text makes it read outside of its tables.", "quantifier": "all texts; for the meaning of the look-up all texts that describe a proper automaton, both byte orders, all results of sorting, all words, buffer sizes and numbers of results", "why_tests_cant": "The meaning of a file depends on the symbol codes after sorting, offsets, overflow cells, byte order and flag numbering of arbitrary automata. Tests compile single dictionaries and look up single words.", "anchors": ["libvoikko/src/tools/voikkovfstc.cpp: main, ensureSymbolInMap, convertSymbolNames, setTarget, compareSymbolsForLookupOrder, compareTransitionsForFileOrder", "libvoikko/src/fst/Transducer.cpp", "libvoikko/src/fst/UnweightedTransducer.cpp: next"]}
{"id": "C83", "title": "What the list of corrections makes the grammar checker report", "statement": "With a list of corrections (autocorr.vfst) the grammar checker reports errors of code 1. In every sentence without soft hyphens, long white space and empty tokens exactly these are reported: for each word of the sentence, the first phrase in the order of the list with which the text from this word on begins, if this phrase ends where a token ends; and if nothing is found for a capital first word of the sentence, the same with a small letter, the correction then getting a capital letter. The error begins at the word, covers exactly the phrase, and has the correction of the list as its only suggestion; no place is reported twice. A phrase of the list to which there is no alternative is always reported. In the first sentence a phrase written with soft hyphens or several spaces is reported with the length it has in the text. All this holds from the text of the list, through the compiler and the loaded file, to the error list of a whole text, and the result for a sentence does not depend on the sentences checked before.", "quantifier": "all lists that compile to proper automata without flag diacritics, all sentences and texts as described, all earlier look-ups", "why_tests_cant": "The check combines positions in the original and the normalised sentence, the order of readings of a transducer that is not run to the end and keeps its state for the next look-up, and two spellings of the first word. Tests contain single phrases in short sentences.", "anchors": ["libvoikko/src/grammar/FinnishRuleEngine/VfstAutocorrectCheck.cpp: check", "libvoikko/src/grammar/FinnishRuleEngine.cpp", "libvoikko/src/fst/UnweightedTransducer.cpp: prepare, nextPrefix", "libvoikko/src/tools/voikkovfstc.cpp"]}
{"id": "C84", "title": "Every grammar error has its own description", "statement": "After any sequence of calls, each grammar error that is reported has a short description in every language that is asked for: a non-empty valid UTF-8 string that is not the text for unknown errors. Different kinds of errors have different descriptions. Numbers that are not codes of errors are described as unknown. The description is Finnish if the language is Finnish and English otherwise. (Fails for languages whose code begins with fi, such as fil.)", "quantifier": "all texts, all histories of calls, all language codes, all error codes", "why_tests_cant": "That no rule can report a code without a description needs all texts and all rules.", "anchors": ["libvoikko/src/grammar/error.cpp: voikkoGetGrammarErrorShortDescription, voikko_error_message_cstr", "libvoikko/src/grammar/FinnishRuleEngine/checks.cpp", "libvoikko/src/grammar/interface.cpp"]}
{"id": "C85", "title": "Which letters of a Finnish word have to be capital letters", "statement": "The STRUCTURE of an analysis of a Finnish word asks for capital letters exactly where its reading in the dictionary does: a name begins with a capital letter, a pattern of the dictionary is followed letter by letter, words derived from names are written small, a word like 'itä' before a hyphen and the name of a place gets a capital letter, and the name of an organisation may begin with one; all other letters are small. Looking a word up finds it correct exactly if one of its valid readings allows its capital letters. So a common noun is correct exactly if it has no capital letters, and a name exactly if only its first letter is one. (Fails for outputs with hyphens inside of base forms, for classes in the middle of a word part and for double hyphens.)", "quantifier": "all well-formed transducer outputs, all words, all dictionaries with such outputs", "why_tests_cant": "The requirement for one letter depends on marks arbitrarily far before and after it, and the words and readings are unlimited.", "anchors": ["libvoikko/src/morphology/FinnishVfstAnalyzer.cpp: parseStructure, createDefaultStructure, fixStructure, duplicateOrgName", "libvoikko/src/spellchecker/SpellUtils.cpp: matchWordAndAnalysis", "libvoikko/src/spellchecker/AnalyzerToSpellerAdapter.cpp: spell"]}
{"id": "C86", "title": "The spelling program prints the same with any number of threads", "statement": "With `voikkospell -j N` the program reads words, hands them out to N threads in blocks and prints the answers. However the threads are scheduled, it prints exactly what it prints with one thread, in the order of the words; it never does anything undefined, it never waits forever, and it ends after a number of steps proportional to the number of words. (Fails if there are words, but fewer blocks of 500 words than threads: then it always waits for a thread that was never created.)", "quantifier": "all lists of words, all numbers of threads, all interleavings of the threads, all dictionaries, options and cache contents", "why_tests_cant": "The number of schedules grows exponentially with the number of steps, and a test sees one of them.", "anchors": ["libvoikko/src/tools/voikkospell.cpp: processBlock, cleanupThread, queueNextBlock, handleWordMultiThread, finishProcessing, initThreads, handleWordSingleThread, check_word", "libvoikko/src/spellchecker/spell.cpp: voikkoSpellUcs4"]}
{"id": "C87", "title": "What the hyphenation program prints", "statement": "For each word `voikkohyphenate` prints a line. With a separator other than the hyphen, every character of the word is printed in order, with the separator before the characters where `voikkoHyphenateUcs4` reports a hyphenation point; deleting the separators gives the word back. With the hyphen as separator the line is what `voikkoInsertHyphensCstr` returns for \"-\" with context changes, and nothing of the word is lost except an apostrophe before a vowel. Lines come in the order of the words.", "quantifier": "all words without NUL, all separators, hyphenation options and dictionaries", "why_tests_cant": "It relates two programs that compute the same thing in different ways, for all words, patterns and separators.", "anchors": ["libvoikko/src/tools/voikkohyphenate.cpp: hyphenate_word, main", "libvoikko/src/hyphenator/interface.cpp: voikkoHyphenateUcs4, voikkoInsertHyphensCstr"]}
{"id": "C88", "title": "What the spelling program prints can be read back", "statement": "A reader of the output of `voikkospell` learns for every word, in the order of the words, the verdict of `voikkoSpellUcs4`, the analyses of correct words with their attributes (with -m) and the suggestions for wrong words (with -s), exactly as the library returns them, with one or several threads. With -t there is one letter per word, with -tt exactly the wrong words, and with -x one line per word whose fields are the word and its suggestions (without those with spaces if the separator is the space).", "quantifier": "all lists of words, dictionaries, options, suggestions, analyses, numbers of threads and schedules", "why_tests_cant": "That a text format is unambiguous is a statement about all words, suggestions and attribute values.", "anchors": ["libvoikko/src/tools/voikkospell.cpp: check_word, printMorphology, processBlock, main", "libvoikko/src/spellchecker/spell.cpp: voikkoSpellUcs4"]}
{"id": "C89", "title": "What the grammar checking program prints", "statement": "`voikkogc --tokenize` prints the tokens of each paragraph with the letters of their types, and the tokens together are the paragraph. `--split-sentences` prints its sentences, with E before the last one only and B or P before the others as the API reports; together they are the paragraph. Otherwise the program prints for each paragraph exactly the errors that the library finds, in the order of the text: code, position, length and suggestions can be read back, and a line `-` ends the paragraph. (Fails for suggestions that contain a quotation mark, which are not escaped. The documented option -n, which is to number the lines of input, prints 0 on every line.)", "quantifier": "all lists of paragraphs, all dictionaries and autocorrection lists, all states of the handle that calls can lead to", "why_tests_cant": "It is about all paragraphs and all dictionaries, and about the effect of earlier paragraphs on later ones through the cache of the handle.", "anchors": ["libvoikko/src/tools/voikkogc.cpp: print_tokens, split_sentences, check_grammar, main", "libvoikko/src/grammar/interface.cpp: voikkoNextGrammarErrorUcs4"]}
{"id": "C90", "title": "The parts of a word in WORDBASES and WORDIDS", "statement": "With the full morphology, WORDBASES of the analysis of a Finnish reading gives the parts of the word in order: before each part a `+`, a hyphen between parts as `+-`, and after each part its base form in parentheses; the last part is itself in its base form. WORDIDS does the same with the identifiers `(w...)`, and is there exactly if the reading has one. What stands in parentheses are exactly the base forms (identifiers) that the reading gives; without them and without `+` WORDBASES is BASEFORM, except for its capital letters. (Fails for a suffix in the middle of a word that has no class of its own, which gets no `+`; and if the last part has no letters the part before it is lost.)", "quantifier": "all well-formed readings of a transducer: any number of parts, tags, base forms and letters", "why_tests_cant": "The value is built in two buffers with positions that are moved back at the end; the claim is about all sequences of parts.", "anchors": ["libvoikko/src/morphology/FinnishVfstAnalyzer.cpp: parseDebugAttributes, debugContentEnd", "libvoikko/doc/morphological-analysis.txt: WORDBASES, WORDIDS"]}
{"id": "C91", "title": "Analyses with a weighted dictionary are the readings of the word", "statement": "With a dictionary whose morphology is a weighted transducer, voikkoAnalyzeWordUcs4 gives for a word of at most 255 characters one analysis for each reading of the word in lower case, in the order of the transition table and at most 99; a longer word has none. Each analysis has exactly the keys FSTOUTPUT, whose value is the output of the reading, and WEIGHT, whose value depends only on the weight of the reading. The analyses do not depend on the case of the letters and not on the words analysed before.", "quantifier": "all well-formed transducers, all words, all histories of calls", "why_tests_cant": "The search keeps its state in an object that is used again for the next word, also when it was abandoned after 99 readings; completeness and order of the readings are statements about all transducers.", "anchors": ["libvoikko/src/morphology/VfstAnalyzer.cpp: VfstAnalyzer::analyze", "libvoikko/src/fst/WeightedTransducer.cpp: prepare, next", "libvoikko/src/morphology/interface.cpp: voikkoAnalyzeWordUcs4"]}
{"id": "C92", "title": "Analysing a UTF-8 string and a wide string give the same", "statement": "voikkoAnalyzeWordCstr gives for the UTF-8 form of a non-empty word what voikkoAnalyzeWordUcs4 gives for the word. It returns the null pointer exactly for the null pointer, the empty string, strings of more than 255 bytes and strings that are not valid UTF-8, and then the analyser is not called. voikkoAnalyzeWordUcs4 gives the analyses of the analyser in their order, with their keys published, and voikko_free_mor_analysis can free them. (Fails for words of at most 255 characters whose UTF-8 form has more than 255 bytes: the null pointer is returned although the word has analyses.)", "quantifier": "all byte strings, all analysers, all states of them", "why_tests_cant": "The claim is about all byte strings, valid or not, and about memory safety of the conversion and of freeing.", "anchors": ["libvoikko/src/morphology/interface.cpp: voikkoAnalyzeWordUcs4, voikkoAnalyzeWordCstr, voikko_free_mor_analysis"]}
{"id": "C93", "title": "Exactly where a token begins and ends", "statement": "voikkoNextTokenUcs4 gives exactly the first token of the text. A word begins with a letter, a digit, or a hyphen before such a word. It is a web address (http:// or https://, at least 12 characters of text, up to a space, a character of unknown class other than = # %, or a dot before a space or the end), an e-mail address (one @, a dot after it, no characters that addresses cannot have, without the dot at its end), or an ordinary word: letters and digits, apostrophes and colons before a letter, hyphens before a letter or a digit, dots before a letter, dots before a digit if no letter came before, commas between digits. A hyphen at the end belongs to the word if a space, a comma, a quotation mark, a character of unknown class or the end of the text follows; a dot at the end belongs to it only with IGNORE_DOT. Other tokens are runs of whitespace, '...', single punctuation characters and single characters of unknown class. The tokens of a text are found by repeating this.", "quantifier": "all texts, both values of IGNORE_DOT", "why_tests_cant": "The rules look at the neighbours of a character and at everything before it; which of the rules applies is decided in loops with several flags.", "anchors": ["libvoikko/src/tokenizer/Tokenizer.cpp: Tokenizer::nextToken, word_length, findUrlOrEmail", "libvoikko/src/tokenizer/interface.cpp: voikkoNextTokenUcs4"]}
{"id": "C94", "title": "The parts of a compound are hyphenated like words of their own", "statement": "Inside a part of a compound (between compound borders or hyphens of STRUCTURE) the result of hyphenation is the same as when the part is hyphenated alone as a word with the corresponding STRUCTURE; in particular a part shorter than MIN_HYPHENATED_WORD_LENGTH has no points. The same holds for the parts between the hyphens of an unknown word, and with HYPHENATE_UNKNOWN_WORDS off an unknown word is divided only at its hyphens. (Expected to fail for parts after two consecutive hyphens and for parts that begin with a letter marked as not to be divided and follow a border without hyphen.)", "quantifier": "all words, options, analysers and parts", "why_tests_cant": "It relates the hyphenation of every compound to that of each of its parts.", "anchors": ["libvoikko/src/hyphenator/AnalyzerToFinnishHyphenatorAdapter.cpp: compoundHyphenation, ruleHyphenation, interpretAnalysis, splitCompounds", "libvoikko/src/hyphenator/interface.cpp: voikkoHyphenateUcs4"]}
{"id": "C95", "title": "A weighted dictionary means what its text says", "statement": "If a text describes a weighted automaton (lines with source, target, input symbol, output symbol and weight, and lines for final states with or without a weight), voikkovfstc -w compiles it to a file that loads, and looking up a word in the file gives exactly the outputs of the accepting runs of the described automaton, each with the sum of the weights of its lines (in 16 bits), each run once and in a fixed order; words with characters outside of the alphabet are refused and have no accepting runs. (Expected to fail for words with a masked flag diacritic at the end, and in the opposite byte order for weights whose bytes have their highest bit set; white space after the number of a final state makes the weight undefined.)", "quantifier": "all texts, all weights, all words, both byte orders, all ways in which std::sort may order equal elements, all contents of the unset byte of a transition", "why_tests_cant": "It relates every text to the results of every look-up, through compiler, file format, loader and search.", "anchors": ["libvoikko/src/tools/voikkovfstc.cpp: main, probWeightToLog, logWeightToLog, ensureSymbolInMap, compareSymbolsForLookupOrder, compareTransitionsForFileOrder", "libvoikko/src/fst/WeightedTransducer.cpp: WeightedTransducer, prepare, next"]}
{"id": "C96", "title": "The words of a dictionary text are the correctly spelled words", "statement": "If the dictionary of the weighted backend is compiled by voikkovfstc from a text that describes an automaton, then the speller finds a word correct if and only if it has at most 255 characters and the automaton of the text accepts it, and correct with an initial capital if and only if only the capitalised word is accepted, whatever was spelled before. With the options that accept other things switched off, voikkoSpellUcs4 accepts a word in lower case if and only if the text accepts it, and a word with a capital if and only if the text accepts it in lower case (with ACCEPT_FIRST_UPPERCASE) or with the capital only.", "quantifier": "all texts, all words, all histories of earlier look-ups, both byte orders, all options and caches", "why_tests_cant": "It relates every dictionary text to the verdict on every word, through compiler, file, loader, search, speller and cache.", "anchors": ["libvoikko/src/tools/voikkovfstc.cpp: main", "libvoikko/src/fst/WeightedTransducer.cpp: WeightedTransducer, prepare, next", "libvoikko/src/spellchecker/VfstSpeller.cpp: spell, doSpell", "libvoikko/src/spellchecker/spell.cpp: voikkoSpellUcs4"]}
{"id": "C97", "title": "The suggestions are the corrections that the two texts describe", "statement": "If an error model and a dictionary are compiled from texts, the suggestions for a word are the first 15 of a list that contains exactly the words into which the text of the error model turns the word and which the text of the dictionary accepts, each once, ordered by the lowest sum of the weights of the two runs. This does not depend on earlier calls. (Expected to fail for error models with flag diacritics.)", "quantifier": "all pairs of texts, all words, all histories, both byte orders, all orders in which the priority queue may return equal weights", "why_tests_cant": "Completeness and order of the suggestions for every pair of texts and every word cannot be sampled.", "anchors": ["libvoikko/src/tools/voikkovfstc.cpp: main", "libvoikko/src/fst/WeightedTransducer.cpp: WeightedTransducer, prepare, next, backtrackToOutputDepth", "libvoikko/src/spellchecker/VfstSuggestion.cpp: generate"]}
{"id": "C98", "title": "The analyses of the Finnish analyser are those that the dictionary text describes", "statement": "If the Finnish dictionary is compiled by voikkovfstc from a text that describes an automaton, then the analyses of a word are the analyses that stand for the outputs of the runs of the automaton accepting the word in lower case, in the order of the lines of the text, at most 99 of them, whatever was analysed before. A word is known if and only if one of these outputs is valid. (Expected to fail for the words analysed after one with 99 runs or more, if there are flag diacritics.)", "quantifier": "all texts, all words, all histories of earlier analyses, both byte orders", "why_tests_cant": "It relates every dictionary text to the analyses of every word, through compiler, file, loader, search and analyser, after every history.", "anchors": ["libvoikko/src/morphology/FinnishVfstAnalyzer.cpp: FinnishVfstAnalyzer, analyze", "libvoikko/src/fst/UnweightedTransducer.cpp: UnweightedTransducer, prepare, next", "libvoikko/src/tools/voikkovfstc.cpp: main"]}
{"id": "C99", "title": "What is correct Finnish is what the dictionary text says", "statement": "If the Finnish dictionary is compiled by voikkovfstc from a text whose readings have the usual form, then for words without hyphens inside of them the verdict of the library follows the text. A word is accepted if it is empty, if it has at most 255 letters and the options ignore it (a digit in it, capital letters only, an address), or if the text gives it; with the option for it, a full stop at the end may be left out; and with ACCEPT_MISSING_HYPHENS a word that the text does not give may be given with hyphens at its ends. The text gives the word as follows: a word in lower case is accepted if and only if one of the first 99 runs for the word gives a valid reading that allows it without capital letters; a word in capital letters, with the option for accepting them, if and only if one of these runs gives a valid reading; a word with a capital at its beginning if and only if one of them gives a valid reading that asks for this capital or, with the option for accepting it, allows it to be missing; any other word if and only if one of them allows its capital letters; a word of more than 255 letters is not in the dictionary. This does not depend on what was checked before, and every word (with hyphens, too) gets a verdict and a hyphenation pattern of its own length.", "quantifier": "all texts of this form, all words of any length, all histories of earlier analyses, all states of the cache, both byte orders", "why_tests_cant": "It relates every dictionary text to the verdict for every word, through compiler, file, loader, search, analyser, validity of compounds, capital letters, cache and options.", "anchors": ["libvoikko/src/tools/voikkovfstc.cpp: main", "libvoikko/src/morphology/FinnishVfstAnalyzer.cpp: analyze", "libvoikko/src/spellchecker/AnalyzerToSpellerAdapter.cpp: spell", "libvoikko/src/spellchecker/FinnishSpellerTweaksWrapper.cpp: spell", "libvoikko/src/spellchecker/spell.cpp: voikkoSpellUcs4"]}
{"id": "C100", "title": "Where a Finnish word is divided is what the readings of the dictionary say", "statement": "For a word with up to fifteen readings in the Finnish dictionary, at least one of them valid, the hyphenator allows dividing the word before a letter if and only if every valid reading allows it; if some valid reading has no borders between parts, only the readings without borders are asked. A reading allows it where it has a border between parts (at a hyphen of the word: instead of the hyphen), and inside of a part of sufficient length before a consonant that is followed by a vowel and has a vowel of the same part before it; without ugly hyphenation not after the first letter of the part, with it also between two vowels that belong to different syllables. Thus \"kaivosaukko\" (kaivos+aukko or kaivo+saukko) is kai-vosauk-ko.", "quantifier": "all dictionaries of this form, all words, all lists of up to fifteen readings with any number of parts, both settings of ugly hyphenation, all minimum lengths", "why_tests_cant": "The points are the intersection over all readings of what transducer output, STRUCTURE and syllable rules give for parts anywhere in the word; a test covers single words of a single dictionary.", "anchors": ["libvoikko/src/hyphenator/AnalyzerToFinnishHyphenatorAdapter.cpp: hyphenate, splitCompounds, interpretAnalysis, removeExtraHyphenations, compoundHyphenation, ruleHyphenation, intersectHyphenations", "libvoikko/src/morphology/FinnishVfstAnalyzer.cpp: analyze, parseStructure"]}
{"id": "C101", "title": "A command line of voikkospell means what the manual page says", "statement": "Every command line of voikkospell is read in exactly one way as a sequence of items: options with a value in the next argument (-p, -d, -j) and single arguments; a value is never taken for an option. The first -h, --help, --version or impossible number of threads decides the outcome. Otherwise -l and -L list dictionaries and capabilities for the last -p; otherwise the dictionary of the last -d (\"fi\" if none) from the last -p is loaded, and the program fails with status 1 exactly if this fails or if some argument is unknown. Otherwise all of the 1 to 200 threads run with the same settings, and each setting (the eight Boolean options, the output mode, separator, cache size) is the one of the last item that sets it, whatever the order and number of the other items.", "quantifier": "all lists of arguments of any length with any bytes, all results of loading dictionaries, cache sizes up to 18", "why_tests_cant": "Two loops with different rules have to agree about which arguments are values for every sequence of arguments; a test runs single command lines.", "anchors": ["libvoikko/src/tools/voikkospell.cpp: main, setBooleanOption", "libvoikko/src/tools/voikkospell.1"]}
{"id": "C102", "title": "Command lines of voikkohyphenate and voikkogc mean what the manual pages say", "statement": "For every command line of voikkohyphenate and voikkogc without -h, --help and --version: the dictionary of the last -d from the last -p is loaded; the program fails exactly if this fails or if an argument is unknown; otherwise each setting (separator, smallest length of at least 2, ugly hyphenation, unknown words, ignored dot; tokenizing, sentences or grammar checking, line numbers, language of explanations, the three grammar options) is the one of the last item that sets it and no other setting is changed. Every option that the manual pages document for a program is accepted by it.", "quantifier": "all lists of arguments of any length with any bytes, all results of loading dictionaries", "why_tests_cant": "As C101.", "anchors": ["libvoikko/src/tools/voikkohyphenate.cpp: main", "libvoikko/src/tools/voikkogc.cpp: main", "libvoikko/src/tools/voikkospell.1: COMMON OPTIONS"]}
{"id": "C103", "title": "Results of the C API belong to the caller", "statement": "In every session of calls for suggestions, hyphenation and grammar errors (new and old interface), checked paragraphs and results released with the function meant for them, in any order: nothing is undefined (no access to released memory, no double or mismatched release, no access outside a block); every result that is still held has the value with which it was returned, whatever was called, released or checked since; the memory in use is exactly that of the results held and of the errors in the cache of the grammar checker; when everything is released and the cache is empty no memory is in use.", "quantifier": "all sequences of calls of any length, any numbers, lengths and contents of suggestions, texts and errors, any order of releases", "why_tests_cant": "Sharing, leaks and dangling pointers depend on the interleaving of calls and releases, and mostly have no visible effect in a single test run.", "anchors": ["libvoikko/src/utils/StringUtils.cpp: convertCStringToMalloc, convertCStringArrayToMalloc, utf8FromUcs4", "libvoikko/src/spellchecker/suggestions.cpp: voikkoSuggestCstr, voikkoFreeCstrArray, voikko_free_suggest_ucs4", "libvoikko/src/grammar/interface.cpp: voikkoNextGrammarErrorUcs4, voikkoFreeGrammarError", "libvoikko/src/grammar/GcCache.cpp: clear", "libvoikko/src/grammar/VoikkoGrammarError.cpp: ~VoikkoGrammarError", "libvoikko/src/compatibility/interface.cpp: voikko_suggest_cstr, voikko_free_suggest_cstr, voikko_next_grammar_error_ucs4"]}
{"id": "C104", "title": "What voikkospell prints follows from the text of the dictionary", "statement": "Compile the text of a Finnish dictionary, load the file and run voikkospell with it on a list of words, with any command line of known options that starts a check (any number of threads, any cache size up to 18, any settings of the Boolean options): the program runs; however its threads are scheduled, every execution ends; with -tt it prints exactly the words that neither the text gives nor the options accept as they are, in order, with -t the letter C or W for every word, and in the usual mode its output says about every word whether it is correct in this sense, with the analyses of the correct words (-m) and the suggestions for the others (-s).", "quantifier": "all dictionary texts of the usual form, all command lines, all lists of words without hyphens inside of them, all schedules of the threads", "why_tests_cant": "The claim relates an unbounded language (the dictionary text), all command lines and all interleavings to the output; a test sees one dictionary, one command line and one schedule.", "anchors": ["libvoikko/src/tools/voikkospell.cpp: main, check_word, handle_word", "libvoikko/src/tools/voikkovfstc.cpp: main", "libvoikko/src/spellchecker/spell.cpp: voikkoSpellUcs4", "libvoikko/src/spellchecker/FinnishSpellerTweaksWrapper.cpp: spell", "libvoikko/src/morphology/FinnishVfstAnalyzer.cpp: analyze"]}
{"id": "C105", "title": "What voikkohyphenate prints follows from the text of the dictionary", "statement": "Compile the text of a Finnish dictionary, load the file and run voikkohyphenate with it, with any command line of known options and any input: the program runs and prints one line for each line of the input that is a word, in order; a line is the word with separators at some places, nothing else changed (with the hyphen as separator, a hyphen or an apostrophe before a vowel may be replaced by it). For a word that has at most fifteen readings with simple parts, or no valid reading and simple letters, the places are exactly those that the text allows: where every valid reading (every one without borders, if there are such) has a border or a point of the rules inside of a part; for a word without valid readings the points of the rules if unknown words are hyphenated, and none otherwise; and none for words shorter than the minimum. The separator, the minimum length and the options are those that the command line gives last.", "quantifier": "all dictionary texts of the usual form, all command lines of known options, all inputs and all words in them", "why_tests_cant": "The claim relates an unbounded language (the dictionary text), all command lines and all inputs to the output; a test sees one dictionary, one command line and a few words.", "anchors": ["libvoikko/src/tools/voikkohyphenate.cpp: main, hyphenateWord", "libvoikko/src/tools/voikkovfstc.cpp: main", "libvoikko/src/hyphenator/AnalyzerToFinnishHyphenatorAdapter.cpp: hyphenate, splitCompounds, ruleHyphenation", "libvoikko/src/morphology/FinnishVfstAnalyzer.cpp: analyze"]}
{"id": "C106", "title": "The analyses that voikkospell -m prints follow from the text of the dictionary", "statement": "Compile the text of a Finnish dictionary and load the file. The analyses that the library publishes for a word (voikkoAnalyzeWordUcs4, voikko_mor_analysis_keys, voikko_mor_analysis_value_ucs4) do not depend on what was analysed before. They come from the readings that the text gives for the word in small letters, at most 99 of them and in their order: a valid reading gives one analysis, and a second one if it may be the name of an organisation; a reading that is not valid gives none. Each attribute is published at most once, in the order of the names. CLASS, SIJAMUOTO and the other grammatical attributes are those that the tags say; STRUCTURE describes the borders and capital letters; BASEFORM is the base form with these capital letters; FSTOUTPUT is the reading itself; WORDBASES and WORDIDS name the parts; there is no WEIGHT. voikkospell with -m, with any command line of known options that starts a check in the usual mode, prints exactly these analyses, numbered from 1, after every correct word and none after the others, however its threads are scheduled; no attribute takes more than one line.", "quantifier": "all dictionary texts of the usual form, all earlier analyses, all words; for the program all command lines, all lists of words without soft hyphens, all schedules of the threads", "why_tests_cant": "The claim relates an unbounded language (the dictionary text) to all published attributes of all words, after any history and under any schedule; a test sees a few words of one dictionary.", "anchors": ["libvoikko/src/tools/voikkospell.cpp: printMorphology, check_word, main", "libvoikko/src/morphology/interface.cpp: voikkoAnalyzeWordUcs4, voikko_free_mor_analysis, voikko_mor_analysis_keys, voikko_mor_analysis_value_ucs4", "libvoikko/src/morphology/FinnishVfstAnalyzer.cpp: analyze, parseBasicAttributes, parseBaseform, parseDebugAttributes", "libvoikko/src/tools/voikkovfstc.cpp: main"]}
{"id": "C107", "title": "The dictionary compiler writes the file that it is asked for, or leaves all files alone", "statement": "voikkovfstc reads its arguments from left to right; -o gives the output file, -f the byte order (le, be or native; le if there is none) and -w the kind of the weights (prob or log), and of each option the last one counts. Other arguments and an option at the end without its value are ignored. If the name of the output file is missing or empty, the last byte order is unknown or any kind of weights is unknown, the program ends with the status 1 and opens no file. Otherwise the outcome is determined by the text on standard input: if the text can be compiled, the file with that name gets the compiled automaton in the byte order that was asked for, whatever the byte order of the machine, and it can be loaded by the library when the automaton is proper; if the text cannot be compiled, the status is 1 and no file is changed. No other file is ever touched.", "quantifier": "for all argument lists, all texts, all machines (little- or big-endian) and all file systems (which names can be opened)", "why_tests_cant": "Argument lists, texts and the combination of errors are unbounded; tests run on one byte order, and they do not observe files that were there before a failed run.", "anchors": ["libvoikko/src/tools/voikkovfstc.cpp:main", "libvoikko/src/tools/voikkovfstc.cpp:setTarget"]}
{"id": "C108", "title": "Dictionaries of the formats 3 and 4 are found where they are, with their own grammar checkers", "statement": "In a location the library finds exactly the dictionaries of format 3 in the entries of its directory 3 whose names end in .zhfst, and those of format 4 in the files with .zhfst in their names in the subdirectories of its directory 4; archives that cannot be read are left out and do not disturb the others. Each has the language tag and title that its file gives; those of format 3 have only a speller and suggestions; one of format 4 has also a morphology, and the grammar checker of its own directory if there is one, independently of the order in which the system lists the files. The dictionaries of all formats obey the rules of the search order, of defaults and of the language lists (C48, C73), and a dictionary of format 5 hides those of older formats with the same tag.", "quantifier": "for all directory listings in any order, all file names shorter than 2^64 - 6 bytes, all contents of the files", "why_tests_cant": "The formats need a library that most test environments do not have; listings are unbounded, and their order is chosen by the file system.", "anchors": ["libvoikko/src/setup/V3DictionaryLoader.cpp: findDictionaries", "libvoikko/src/setup/V4DictionaryLoader.cpp: findDictionaries", "libvoikko/src/setup/DictionaryFactory.cpp: addAllVersionVariantsFromPath"]}
{"id": "C109", "title": "What voikkogc prints follows from the text of the dictionary", "statement": "Compile the text of a Finnish dictionary, load the file and run voikkogc with it, with any command line of known options that asks for grammar checking and any input: the program runs, and for each line of the input that can be decoded and has at most 100000 characters it reports, in the order of the text, the errors of the documented rules under the options of the command line. What the rules say about a word - whether it is known, has to begin with a capital letter, is or may be a main verb, a negative verb, a conjunction, a place name, requires an infinitive or is one - is what the readings of the word in the text of the dictionary say (the first 99, in the order of the text), whatever has been checked before.", "quantifier": "for all texts of Finnish dictionaries (readings of the usual form), byte orders, command lines, inputs without NUL, and lists of corrections", "why_tests_cant": "The text of the dictionary, the command line and the input are unbounded; a test compares one dictionary and a few sentences, and cannot show that no attribute of a word is lost or invented between the text of the dictionary and the rule that uses it.", "anchors": ["libvoikko/src/tools/voikkogc.cpp: main", "libvoikko/src/grammar/FinnishAnalysis.cpp: FinnishAnalysis::analyseToken", "libvoikko/src/sentence/Sentence.cpp", "libvoikko/src/grammar/FinnishRuleEngine.cpp", "libvoikko/src/morphology/FinnishVfstAnalyzer.cpp", "libvoikko/src/tools/voikkovfstc.cpp"]}
{"id": "C110", "title": "Words with hyphens: the verdict follows from the text of the dictionary", "statement": "Compile the text of a Finnish dictionary and load the file. The verdict of the speller on every word without soft hyphens is the one of these rules, applied in this order to the readings that the text gives: the best verdict of the readings of the word itself, if it is OK or the word has at most three characters or no hyphen inside; OK, if ACCEPT_EXTRA_HYPHENS is set and the word is correct without its first inner hyphen (which has at least two characters before it and no hyphen after it); the verdict of the word without its first inner hyphen, if the same vowel and consonant stand on both sides of it and this verdict is better; the verdict of what precedes the last inner hyphen, if it is not unknown and the rest can be appended to any word; the verdict of the readings of the word without its first inner hyphen that have a border there, if there are readings without one and it is better; otherwise the verdict of the word itself. The rules determine the verdict of each word. With the rules for capital letters and the options they decide which words are accepted and what voikkospell prints.", "quantifier": "for all texts of Finnish dictionaries (readings of the usual form), byte orders, words without NUL and soft hyphens, options, command lines and schedules of the threads", "why_tests_cant": "Words, their hyphens and the readings of the dictionary are unbounded, and the rules refer to the verdicts on shorter words; a test cannot show that no other word with a hyphen is accepted or that the rules never apply in another order.", "anchors": ["libvoikko/src/spellchecker/FinnishSpellerTweaksWrapper.cpp: FinnishSpellerTweaksWrapper::spellWithoutSoftHyphen", "libvoikko/src/spellchecker/AnalyzerToSpellerAdapter.cpp: AnalyzerToSpellerAdapter::spell", "libvoikko/src/spellchecker/spell.cpp: voikkoSpellUcs4", "libvoikko/src/morphology/FinnishVfstAnalyzer.cpp", "libvoikko/src/tools/voikkospell.cpp: main"]}
{"id": "C111", "title": "Handles of the deprecated interface do not disturb each other", "statement": "A program makes any calls of the deprecated interface (voikko_init, voikko_terminate, voikko_set_bool_option, voikko_spell_*, voikko_suggest_ucs4, voikko_hyphenate_*, voikko_next_token_*, voikko_next_sentence_start_ucs4, voikko_next_grammar_error_*), with up to four handles at a time and in any order. When voikko_init gives a handle, the handle is 1, 2, 3 or 4, the object is the one that voikkoInit makes for the language meant by the language code, and its cache has the wanted size. The calls made with this handle until it is terminated return what the same functions of the current interface return for an object that receives these calls only: the other handles have no influence on them, also if the number of the handle is used again. The errors of the grammar checker are those of the current interface, with code 0 if there is none. The integer option 5 is accepted without effect, and of the string options only option 2 with the value UTF-8. If every function gets live handles only, there is no undefined behaviour beyond that of the functions themselves; with other numbers every function but voikko_terminate is undefined.", "quantifier": "for all sequences of calls, languages, dictionaries, options, words and texts", "why_tests_cant": "The number of interleavings of calls with several handles is unbounded, and handle numbers are used again after termination; a test runs one sequence of calls.", "anchors": ["libvoikko/src/compatibility/interface.cpp: voikko_init_with_path", "libvoikko/src/compatibility/interface.cpp: voikko_terminate", "libvoikko/src/compatibility/interface.cpp: voikko_set_int_option", "libvoikko/src/compatibility/interface.cpp: voikko_set_string_option", "libvoikko/src/compatibility/interface.cpp: voikko_next_grammar_error_ucs4", "libvoikko/src/compatibility/interface.cpp: voikko_next_grammar_error_cstr", "libvoikko/src/setup/setup.cpp: voikkoSetIntegerOption"]}
{"id": "C112", "title": "Spelling and suggestions with a ZHFST dictionary", "statement": "With a ZHFST dictionary, a word that the HFST speller knows as it is written is accepted by voikkoSpellUcs4 when ACCEPT_FIRST_UPPERCASE and ACCEPT_ALL_UPPERCASE are set, as they are by default. Conversely, a word is accepted only for one of the reasons that need no dictionary (empty, digits, capitals or non-words to be ignored) or because the HFST speller knows the word, or the word without a final dot if IGNORE_DOT is set, with some choice of capital and small letters; with ACCEPT_MISSING_HYPHENS also because it knows it with the hyphens that are missing at its ends, and words of small letters are then accepted for this reason. The verdict on the first wlen characters of a string is: OK iff the speller knows them; capital missing iff they begin with a small letter and are known with a capital only; wrong capitals iff ACCEPT_ALL_UPPERCASE is set, they are small letters, more than the first one, and they are known only in capitals. The suggestions are the corrections of the HFST speller in its order, as many as asked for; for a capitalised word each correction that equals an earlier one after making the first letter a capital is left out, and no other.", "quantifier": "for all HFST spellers, options, caches, words, and queues of corrections with ascending weights that fit an int", "why_tests_cant": "The set of words known to a speller is arbitrary and the words of every casing are infinitely many; a test has a few words of one dictionary.", "anchors": ["libvoikko/src/spellchecker/HfstSpeller.cpp: spell", "libvoikko/src/spellchecker/HfstSpeller.cpp: doSpell", "libvoikko/src/spellchecker/HfstSuggestion.cpp: generate", "libvoikko/src/spellchecker/spell.cpp: voikkoSpellUcs4", "libvoikko/src/spellchecker/suggestion/SuggestionStatus.cpp: sortSuggestions"]}
{"id": "C113", "title": "Analyses and hyphenation with an HFST dictionary", "statement": "With an HFST dictionary, voikkoAnalyzeWordUcs4 and voikkoAnalyzeWordCstr return for each word of at most 255 characters one analysis for each output that the transducer has for the word, in the order of the transducer. Each analysis has exactly two attributes: BASEFORM is the part of the output before the first plus sign, FSTOUTPUT the rest from the plus sign on. The analyses can be freed. The hyphenation pattern of a word is a string with one of the characters space, '-' and '=' for each character of the word.", "quantifier": "for all transducers, paths of dictionaries and words", "why_tests_cant": "Transducers, their outputs and the words are unbounded, and the failing cases depend on the encoded length, on the first character of an output and on the contents of memory that was never written.", "anchors": ["libvoikko/src/morphology/HfstAnalyzer.cpp: HfstAnalyzer::analyze", "libvoikko/src/morphology/HfstAnalyzer.cpp: HfstAnalyzer::HfstAnalyzer", "libvoikko/src/morphology/interface.cpp: voikkoAnalyzeWordUcs4", "libvoikko/src/morphology/interface.cpp: voikkoAnalyzeWordCstr", "libvoikko/src/hyphenator/HfstHyphenator.cpp: HfstHyphenator::hyphenate"]}
{"id": "C114", "title": "Dictionaries whose components have no data", "statement": "With a dictionary whose analyser, suggestion generator and grammar checker are the empty ones (\"null\") and whose speller is \"AllOk\" or \"AllError\", any sequence of calls is defined: voikkoSuggestUcs4 gives no suggestions, voikkoAnalyzeWordUcs4 no analyses and voikkoNextGrammarErrorUcs4 no errors for any text, in particular none left over from earlier texts. voikkoSpellUcs4 answers from the word and the current options only: \"AllError\" accepts exactly the words that an option excuses (empty words, numbers, capitals, addresses), \"AllOk\" also every word of at most 255 characters, except capitalised words when ACCEPT_FIRST_UPPERCASE is off. Earlier words and changes of options or of the cache size, including changes of the hyphen options, have no other influence.", "quantifier": "for all sequences of calls (option changes, spelling, suggestions, analyses, grammar checks), words and texts", "why_tests_cant": "The sequences of calls and the texts are unbounded; verdicts and errors are kept in two caches that earlier calls filled under other options.", "anchors": ["libvoikko/src/spellchecker/FixedResultSpeller.cpp: FixedResultSpeller::spell", "libvoikko/src/morphology/NullAnalyzer.cpp: NullAnalyzer::analyze", "libvoikko/src/spellchecker/suggestion/SuggestionGeneratorNull.cpp: SuggestionGeneratorNull::generate", "libvoikko/src/grammar/NullGrammarChecker.cpp: NullParagraphAnalyzer, NullRuleEngine", "libvoikko/src/grammar/GrammarChecker.cpp: GrammarChecker::paragraphToCache", "libvoikko/src/spellchecker/SpellerFactory.cpp: SpellerFactory::getSpeller"]}
{"id": "C115", "title": "Suggestions follow from the text of the dictionary", "statement": "For a Finnish dictionary compiled from a text, and a word of 2 to 255 characters with at most 32 vowels that normalisation does not make longer: voikkoSuggestUcs4 returns, and every suggestion is, up to its capital letters, typographic variants of characters and the full stop of the input, a word that the text gives with its capital letters, or two such words with a space between them (each possibly with a capital letter at its beginning, the first possibly with a full stop). If the text gives the letters of the word, there is exactly one suggestion, a word of the text with the same letters. Otherwise, if fewer than five suggestions are given, every word of the text among the first 260 corrections that are tried is suggested. The soundness holds with OCR_SUGGESTIONS too, there for words with any number of vowels.", "quantifier": "for all texts of dictionaries without the empty word and the letter U+018F, all words, and all values of IGNORE_DOT and ACCEPT_ALL_UPPERCASE", "why_tests_cant": "The texts and the words are unbounded, and the suggestions depend on the whole dictionary and on a search with a budget over hundreds of candidates.", "anchors": ["libvoikko/src/spellchecker/suggestion/SuggestionStrategyTyping.cpp: SuggestionStrategyTyping", "libvoikko/src/spellchecker/suggestion/SuggestionStrategyOcr.cpp: SuggestionStrategyOcr", "libvoikko/src/morphology/FinnishVfstAnalyzer.cpp: FinnishVfstAnalyzer::analyze", "libvoikko/src/tools/voikkovfstc.cpp: main"]}
{"id": "C116", "title": "What voikkospell -s prints follows from the text of the dictionary", "statement": "A Finnish dictionary compiled from a text is loaded by voikkospell. With any command line of known options for the usual mode, every execution that cannot be continued has ended and has printed for each word, in order: whether it is correct by the text and the rules of the language; with -m the analyses that the text gives to a correct word; and with -s for a word that is not correct at most five suggestions, each of which comes from one or two words of the text. For a word that differs from a word of the text in its capital letters only, there is one suggestion, with the same letters; otherwise all words of the text among the first 260 corrections appear if there are fewer than five suggestions. The options ignore_dot, accept_all_uppercase and ocr_suggestions of the command line are those that all threads use. With -x there is one line for every word, whose fields are the word and, if it is wrong, these suggestions (without those with spaces, if the space separates the fields).", "quantifier": "for all texts of dictionaries, command lines of known options without -l, -L, -x and other modes, lists of words without soft hyphens, numbers of threads and schedules", "why_tests_cant": "Texts, command lines and lists of words are unbounded and so are the schedules of the threads; suggestions come from a search in the whole dictionary.", "anchors": ["libvoikko/src/tools/voikkospell.cpp: main, check_word, handle_word", "libvoikko/src/tools/voikkovfstc.cpp: main", "libvoikko/src/spellchecker/suggestions.cpp: voikkoSuggestUcs4", "libvoikko/src/spellchecker/suggestion/SuggestionGeneratorFactory.cpp: getSuggestionGenerator", "libvoikko/src/setup/setup.cpp: voikkoSetBooleanOption"]}
{"id": "C117", "title": "Where soft hyphens are accepted follows from the text of the dictionary", "statement": "A Finnish dictionary is compiled from a text. Let a word have soft hyphens. If they are between other characters and not next to each other, let the text have at most fifteen readings of the word without them, let the word without them have a valid reading or no hyphen in its middle, and let its valid readings have simple parts (Finnish letters, no groups of consonants kept together, no three vowels in a row). Then the dictionary gives the word a verdict other than \"unknown\" exactly if its soft hyphens are between other characters and not next to each other, the word without them has the same verdict, and each soft hyphen is where some valid reading of the word can be divided, or some valid reading without borders if there are such. Before a hyphen of the word this means a border directly before the hyphen; a border directly after it is not enough. Spelling a word in lower case through the API without ACCEPT_MISSING_HYPHENS accepts it under the same conditions. The hyphenator, on the contrary, divides only where all these readings can be divided (C100).", "quantifier": "for all texts of dictionaries, words and places of soft hyphens, with and without ACCEPT_EXTRA_HYPHENS", "why_tests_cant": "The verdict combines the readings of the word, the rules of hyphenation for each of them and the union of the results; a test uses one dictionary and some words with one soft hyphen.", "anchors": ["libvoikko/src/spellchecker/FinnishSpellerTweaksWrapper.cpp: spell, constructor", "libvoikko/src/hyphenator/AnalyzerToFinnishHyphenatorAdapter.cpp: allPossibleHyphenPositions, unionHyphenations"]}
{"id": "C118", "title": "What voikkospell prints for words with soft hyphens follows from the text of the dictionary", "statement": "A Finnish dictionary compiled from a text is loaded by voikkospell. The input may have words with soft hyphens, in any capital letters and with any spelling options. By the rules a word with soft hyphens has the verdict of the word without them if each soft hyphen is between other characters and where the text allows it (C117), and is unknown otherwise; words without soft hyphens have the verdicts of C110. The rules give one verdict to each word. The library accepts exactly the words that are correct by these rules and the options, and the program prints for each word, in order, whether it is correct (or only the incorrect words with -tt, or C and W with -t). With -m, -s and -x it prints the analyses and suggestions of C116 for such lists too.", "quantifier": "for all texts of dictionaries, command lines of known options, lists of words and schedules of the threads", "why_tests_cant": "The answer depends on the dictionary, the options, the cache and the schedule of the threads together.", "anchors": ["libvoikko/src/spellchecker/FinnishSpellerTweaksWrapper.cpp: spell", "libvoikko/src/spellchecker/spell.cpp: voikkoSpellUcs4", "libvoikko/src/tools/voikkospell.cpp: main, check_word, processBlock"]}
{"id": "C119", "title": "Soft hyphens at hyphenation points do not change the spelling verdict", "statement": "A Finnish dictionary compiled from a text is loaded. A program asks the library for the hyphenation of a word, with any hyphenation options, and writes soft hyphens into the word at any of the points it was given. The speller then has the same verdict on the word with the soft hyphens as on the word without them.", "quantifier": "for all texts of dictionaries, words, hyphenation options and sets of the hyphenation points", "why_tests_cant": "Hyphenation and spelling use different options of the hyphenator; whether their points agree depends on every word, every reading in the dictionary and the options together.", "anchors": ["libvoikko/src/spellchecker/FinnishSpellerTweaksWrapper.cpp: spell", "libvoikko/src/hyphenator/AnalyzerToFinnishHyphenatorAdapter.cpp: hyphenate", "libvoikko/src/setup/V5DictionaryLoader.cpp", "libvoikko/src/spellchecker/spell.cpp: voikkoSpellUcs4"]}
