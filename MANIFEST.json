{
 "claims": [
  {
   "property": "C01",
   "status": "proved",
   "theorems": [
    "Verif.Props.C01_progress",
    "Verif.Props.C01_empty",
    "Verif.Props.C01_tiling"
   ],
   "note": ""
  },
  {
   "property": "C02",
   "status": "proved",
   "theorems": [
    "Verif.Props.C02_in_bounds"
   ],
   "note": ""
  },
  {
   "property": "C03",
   "status": "proved",
   "theorems": [
    "Verif.Props.C03_shapes",
    "Verif.Props.C03_no_adjacent_whitespace",
    "Verif.Props.charType_whitespace_iff",
    "Verif.Props.charType_digit_iff"
   ],
   "note": "NUL inside the buffer is treated by the code (wcschr) like a hyphen; the shape predicate allows it"
  },
  {
   "property": "C04",
   "status": "proved",
   "theorems": [
    "Verif.Props.C04_ignore_dot"
   ],
   "note": "the token type can change from PUNCTUATION to WORD for '-.'"
  },
  {
   "property": "C06",
   "status": "proved",
   "theorems": [
    "Verif.Props.C06_usable_length",
    "Verif.Props.C06_tiling"
   ],
   "note": ""
  },
  {
   "property": "C07",
   "status": "proved",
   "theorems": [
    "Verif.Props.C07_boundary"
   ],
   "note": ""
  },
  {
   "property": "C08",
   "status": "proved",
   "theorems": [
    "Verif.Props.C08_ignore_dot"
   ],
   "note": ""
  },
  {
   "property": "C09",
   "status": "proved",
   "theorems": [
    "Verif.Props.C09_case_laws",
    "Verif.Props.C09_lower_injective",
    "Verif.Props.C09_upper_injective",
    "Verif.Props.C09_ascii"
   ],
   "note": ""
  },
  {
   "property": "C10",
   "status": "partial",
   "theorems": [
    "Verif.Props.C10_violation",
    "Verif.Props.C10_class_case_insensitive_partial",
    "Verif.Props.C10_cased_is_letter_partial"
   ],
   "note": "the code violates the claim at U+00C0; proved for all other characters"
  },
  {
   "property": "C11",
   "status": "proved",
   "theorems": [
    "Verif.Props.C11_caseType",
    "Verif.Props.C11_setCase",
    "Verif.Props.C11_setCase_same_letters"
   ],
   "note": ""
  },
  {
   "property": "C12",
   "status": "proved",
   "theorems": [
    "Verif.Props.C12_bounded",
    "Verif.Props.C12_unchanged",
    "Verif.Props.C12_canonical_equivalents",
    "Verif.Props.C12_typographic_equivalents"
   ],
   "note": ""
  },
  {
   "property": "C13",
   "status": "partial",
   "theorems": [
    "Verif.Props.C13_violation",
    "Verif.Props.C13_idempotent_partial"
   ],
   "note": "the code is not idempotent; proved for all words outside the exactly described set"
  },
  {
   "property": "C29",
   "status": "partial",
   "theorems": [
    "Verif.Props.C29_exact",
    "Verif.Props.C29_sound_violation",
    "Verif.Props.C29_complete_violation",
    "Verif.Props.C29_sound_partial",
    "Verif.Props.C29_complete_partial"
   ],
   "note": "both directions of the documented shape fail; exact behaviour proved"
  },
  {
   "property": "C05",
   "status": "partial",
   "theorems": [
    "Verif.Props.C05_violation",
    "Verif.Props.C05_agree_partial"
   ],
   "note": "Fails for e-mail addresses of 45+ characters (witness proved); agreement proved for every other valid text."
  },
  {
   "property": "C14",
   "status": "proved",
   "theorems": [
    "Verif.Props.C14_round_trip",
    "Verif.Props.C14_no_nul",
    "Verif.Props.C14_invalid_refused"
   ],
   "note": "Includes the buffer bound of the encoder."
  },
  {
   "property": "C15",
   "status": "proved",
   "theorems": [
    "Verif.Props.C15_decoder_exact",
    "Verif.Props.C15_in_bounds",
    "Verif.Props.C15_nonchar_rejected"
   ],
   "note": "'Valid code point' excludes U+FFFE and U+FFFF as the library does."
  },
  {
   "property": "C16",
   "status": "partial",
   "theorems": [
    "Verif.Props.C16_violation",
    "Verif.Props.C16_agree_partial",
    "Verif.Props.C16_invalid"
   ],
   "note": "The byte length limit makes long non-ASCII words fail (witness proved); agreement proved up to 255 bytes."
  },
  {
   "property": "C17",
   "status": "proved",
   "theorems": [
    "Verif.Props.C17_total"
   ],
   "note": "For every dictionary, option setting and API-reachable cache."
  },
  {
   "property": "C18",
   "status": "proved",
   "theorems": [
    "Verif.Props.C18_ignore_monotone"
   ],
   "note": ""
  },
  {
   "property": "C19",
   "status": "proved",
   "theorems": [
    "Verif.Props.C19_ignore_dot",
    "Verif.Props.C19_no_dot"
   ],
   "note": ""
  },
  {
   "property": "C20",
   "status": "partial",
   "theorems": [
    "Verif.Props.C20_first_uppercase",
    "Verif.Props.C20_all_uppercase",
    "Verif.Props.C20_nonword_violation"
   ],
   "note": "Proved for normalised words not accepted merely as URL/e-mail; the exclusion is necessary (witness proved)."
  },
  {
   "property": "C21",
   "status": "partial",
   "theorems": [
    "Verif.Props.C21_violation",
    "Verif.Props.C21_first_uppercase_partial"
   ],
   "note": "Fails for mixed case words (witness proved); proved for capitalised words."
  },
  {
   "property": "C22",
   "status": "partial",
   "theorems": [
    "Verif.Props.C22_violation",
    "Verif.Props.C22_cache_transparent_partial",
    "Verif.Props.C22_new_handle_partial"
   ],
   "note": "Fails when a hyphen option changes between calls (witness proved); proved for every other history."
  },
  {
   "property": "C23",
   "status": "partial",
   "theorems": [
    "Verif.Props.C23_in_bounds",
    "Verif.Props.C23_slots_disjoint",
    "Verif.Props.C23_set_get",
    "Verif.Props.C23_size_overflow"
   ],
   "note": "Proved for cache sizes 0 to 18; from 19 on the size computation overflows int (proved)."
  },
  {
   "property": "C24",
   "status": "proved",
   "theorems": [
    "Verif.Props.C24_exact",
    "Verif.Props.C24_monotone",
    "Verif.Props.C24_lower_words"
   ],
   "note": ""
  },
  {
   "property": "C46",
   "status": "proved",
   "theorems": [
    "Verif.Props.C46_boolean_options",
    "Verif.Props.C46_integer_options",
    "Verif.Props.C46_unknown_boolean",
    "Verif.Props.C46_unknown_integer",
    "Verif.Props.C46_ignore_dot_in_sync"
   ],
   "note": "Cache sizes from 19 on are undefined behaviour, see C23."
  },
  {
   "property": "C25",
   "status": "proved",
   "theorems": [
    "Verif.Props.C25_best",
    "Verif.Props.C25_order_independent",
    "Verif.Props.C25_priority",
    "Verif.Props.C25_null_structure"
   ],
   "note": "For analysers that give a STRUCTURE with every analysis; without it the code dereferences null (proved)."
  },
  {
   "property": "C26",
   "status": "proved",
   "theorems": [
    "Verif.Props.C26_verdict"
   ],
   "note": ""
  },
  {
   "property": "C27",
   "status": "proved",
   "theorems": [
    "Verif.Props.C27_soft_hyphens",
    "Verif.Props.C27_only_restricts",
    "Verif.Props.C27_finnish",
    "Verif.Props.C28_total",
    "Verif.Props.C28_finnish_total"
   ],
   "note": "For any hyphenator of the right shape, and for the library's own hyphenator with STRUCTURE strings that do not end in = (see C36)."
  },
  {
   "property": "C28",
   "status": "partial",
   "theorems": [
    "Verif.Props.C28_total",
    "Verif.Props.C28_finnish_total",
    "Verif.Props.C28_verdict",
    "Verif.Props.C28_finnish_verdict",
    "Verif.Props.C28_api_partial",
    "Verif.Props.C28_violation"
   ],
   "note": "Termination and monotonicity of the dictionary verdict proved; acceptance by the API is monotone when ACCEPT_FIRST_UPPERCASE is on, and fails when it is off (witness proved)."
  },
  {
   "property": "C30",
   "status": "proved",
   "theorems": [
    "Verif.Props.C30_sort",
    "Verif.Props.C30_at_most_five",
    "Verif.Props.C30_capacity"
   ],
   "note": ""
  },
  {
   "property": "C31",
   "status": "proved",
   "theorems": [
    "Verif.Props.C31_typing",
    "Verif.Props.C31_ocr",
    "Verif.Props.C33_typing_partial",
    "Verif.Props.C33_ocr_partial"
   ],
   "note": "For all inputs on which the search is defined (see C33); at API level the suggestion is rendered up to capitalisation, the full stop of the input and typographic variants."
  },
  {
   "property": "C32",
   "status": "proved",
   "theorems": [
    "Verif.Props.C32_submits",
    "Verif.Props.C32_deletions",
    "Verif.Props.C32_insertions",
    "Verif.Props.C32_replacements",
    "Verif.Props.C32_swaps",
    "Verif.Props.C32_vowelChanges",
    "Verif.Props.C32_hyphens",
    "Verif.Props.C32_split",
    "Verif.Props.C32_split_places",
    "Verif.Props.C32_split_capital_leak"
   ],
   "note": "Also proves the finding that the splitting generator leaks capitalisation between candidates."
  },
  {
   "property": "C33",
   "status": "partial",
   "theorems": [
    "Verif.Props.C33_violation_short",
    "Verif.Props.C33_violation_ligature",
    "Verif.Props.C33_violation_vowels",
    "Verif.Props.C33_violation_vowels_api",
    "Verif.Props.C33_typing_partial",
    "Verif.Props.C33_ocr_partial"
   ],
   "note": "Fails for words normalised to one character, words whose normalisation is longer, and words with 33 or more vowels (witnesses proved); proved for all other words."
  },
  {
   "property": "C34",
   "status": "proved",
   "theorems": [
    "Verif.Props.C34_typing",
    "Verif.Props.C34_ocr"
   ],
   "note": "For all inputs on which the search is defined (see C33)."
  },
  {
   "property": "C35",
   "status": "proved",
   "theorems": [
    "Verif.Props.C35_pattern",
    "Verif.Props.C35_cstr"
   ],
   "note": ""
  },
  {
   "property": "C36",
   "status": "partial",
   "theorems": [
    "Verif.Props.C36_violation",
    "Verif.Props.C36_partial",
    "Verif.Props.C36_all_positions_partial",
    "Verif.Props.C40_total_partial"
   ],
   "note": "Fails for a STRUCTURE ending in = and for a missing STRUCTURE (witnesses proved); proved for all other structures, words and options."
  },
  {
   "property": "C37",
   "status": "proved",
   "theorems": [
    "Verif.Props.C37_intersection",
    "Verif.Props.C37_unsplit"
   ],
   "note": ""
  },
  {
   "property": "C38",
   "status": "partial",
   "theorems": [
    "Verif.Props.C38_short_word",
    "Verif.Props.C38_violation",
    "Verif.Props.C38_parts_partial"
   ],
   "note": "Fails after two consecutive hyphens (witness proved), where the second hyphen counts as a character of the part; otherwise proved."
  },
  {
   "property": "C39",
   "status": "partial",
   "theorems": [
    "Verif.Props.C39_violation",
    "Verif.Props.C39_violation_dot",
    "Verif.Props.C39_partial"
   ],
   "note": "Fails for words with an apostrophe and for unknown non-words ending in a dot with IGNORE_DOT (witnesses proved); proved for all other words."
  },
  {
   "property": "C40",
   "status": "proved",
   "theorems": [
    "Verif.Props.C40_insert",
    "Verif.Props.C40_context",
    "Verif.Props.C40_total_partial"
   ],
   "note": "Results are described for all analysers; that a result exists needs usable STRUCTURE strings (see C36)."
  },
  {
   "property": "C61",
   "status": "proved",
   "theorems": [
    "Verif.Props.C61_borders"
   ],
   "note": ""
  },
  {
   "property": "C41",
   "status": "proved",
   "theorems": [
    "Verif.Props.C41_readings",
    "Verif.Props.C41_complete",
    "Verif.Props.C41_unknown"
   ],
   "note": "Unweighted transducer; the limits (buffer sizes, 100000 loop iterations) are stated as conditions on the paths of the word."
  },
  {
   "property": "C42",
   "status": "partial",
   "theorems": [
    "Verif.Props.C42_violation",
    "Verif.Props.C42_partial",
    "Verif.Props.C42_no_flags",
    "Verif.Props.C42_weighted"
   ],
   "note": "Fails for abandoned searches in unweighted transducers with flag diacritics (witness proved); there proved if earlier searches ran to exhaustion, and always without flag diacritics. Proved for every history of weighted transducers."
  },
  {
   "property": "C43",
   "status": "partial",
   "theorems": [
    "Verif.Props.C43_byte_order",
    "Verif.Props.C43_content",
    "Verif.Props.C43_compiler",
    "Verif.Props.C43_weighted_violation",
    "Verif.Props.C43_weighted_partial",
    "Verif.Props.C43_weighted_exact"
   ],
   "note": "Proved for unweighted files. For weighted files proved exactly for which weights it holds; fails e.g. for weight 200, read as -56 in the other byte order (witness proved)."
  },
  {
   "property": "C44",
   "status": "proved",
   "theorems": [
    "Verif.Props.C44_loads",
    "Verif.Props.C44_read_back",
    "Verif.Props.C44_well_formed",
    "Verif.Props.C44_look_up",
    "Verif.Props.C44_weighted_loads",
    "Verif.Props.C44_weighted_read_back",
    "Verif.Props.C44_weighted_well_formed"
   ],
   "note": "From the automaton through the bytes of the file to the look-up; weighted files in the byte order of the host."
  },
  {
   "property": "C45",
   "status": "partial",
   "theorems": [
    "Verif.Props.C45_violation",
    "Verif.Props.C45_partial",
    "Verif.Props.C45_complete_partial",
    "Verif.Props.C45_no_flags",
    "Verif.Props.C45_single_flag",
    "Verif.Props.C45_unknown",
    "Verif.Props.C45_unknown_no_readings"
   ],
   "note": "Fails when at the end of the word a failing flag transition precedes an allowed one (witness proved); otherwise proved, with weights."
  },
  {
   "property": "C47",
   "status": "partial",
   "theorems": [
    "Verif.Props.C47_idempotent",
    "Verif.Props.C47_printed_stable",
    "Verif.Props.C47_components",
    "Verif.Props.C47_language_case",
    "Verif.Props.C47_private_case",
    "Verif.Props.C47_area_partial",
    "Verif.Props.C47_violation",
    "Verif.Props.C47_same_dictionary"
   ],
   "note": "Fails when an area or script is separated by an underscore ('sr_Cyrl') or a hyphenated area precedes the script (witnesses proved); proved for the other spellings."
  },
  {
   "property": "C48",
   "status": "proved",
   "theorems": [
    "Verif.Props.C48_loader",
    "Verif.Props.C48_first_location",
    "Verif.Props.C48_no_duplicates",
    "Verif.Props.C48_one_default",
    "Verif.Props.C48_default",
    "Verif.Props.C48_locations",
    "Verif.Props.C48_load_sound",
    "Verif.Props.C48_load_complete",
    "Verif.Props.C48_load_default"
   ],
   "note": "Directory contents and what the loaders find are arbitrary inputs."
  },
  {
   "property": "C49",
   "status": "partial",
   "theorems": [
    "Verif.Props.C49_exact",
    "Verif.Props.C49_partial",
    "Verif.Props.C49_load_standard_partial",
    "Verif.Props.C49_violation"
   ],
   "note": "Fails exactly for tags of ten characters (witness proved); proved for all other tags."
  },
  {
   "property": "C50",
   "status": "partial",
   "theorems": [
    "Verif.Props.C50_variant",
    "Verif.Props.C50_init",
    "Verif.Props.C50_terminate_live",
    "Verif.Props.C50_terminate_other_partial",
    "Verif.Props.C50_violation",
    "Verif.Props.C50_history",
    "Verif.Props.C50_no_ub_partial"
   ],
   "note": "Fails when no handle is live: voikko_terminate(1..4) dereferences null (witness proved). Everything else proved for all histories."
  },
  {
   "property": "C51",
   "status": "proved",
   "theorems": [
    "Verif.Props.C51_text_order"
   ],
   "note": ""
  },
  {
   "property": "C52",
   "status": "partial",
   "theorems": [
    "Verif.Props.C52_cached",
    "Verif.Props.C52_iterate_utf8",
    "Verif.Props.C52_iterate_partial",
    "Verif.Props.C52_startpos_partial",
    "Verif.Props.C52_violation_continued"
   ],
   "note": "Proved for the UTF-8 function and for wide character texts terminated at textlen, after every history; fails for wide character texts that continue after textlen: nothing is reported (witness proved). Analyser, speller and autocorrection transducer are parameters."
  },
  {
   "property": "C53",
   "status": "partial",
   "theorems": [
    "Verif.Props.C53_invisible_partial",
    "Verif.Props.C53_invisible_utf8_partial",
    "Verif.Props.C53_violation_extra_hyphens",
    "Verif.Props.C53_violation_continued",
    "Verif.Props.C53_violation_unterminated"
   ],
   "note": "Fails when ACCEPT_EXTRA_HYPHENS changes and for wide character texts that are not terminated at textlen (witnesses proved); proved for all other histories, with an autocorrection transducer whose look-ups do not depend on earlier ones."
  },
  {
   "property": "C54",
   "status": "proved",
   "theorems": [
    "Verif.Props.C54_analysis",
    "Verif.Props.C54_token_text",
    "Verif.Props.C54_violation_null_structure"
   ],
   "note": "For analysers that give every analysis a STRUCTURE; without it a null pointer is read (witness proved)."
  },
  {
   "property": "C55",
   "status": "partial",
   "theorems": [
    "Verif.Props.C55_inside_utf8",
    "Verif.Props.C55_inside_partial",
    "Verif.Props.C55_violation_empty_prefix"
   ],
   "note": "Proved for the UTF-8 function and for terminated wide character texts, for autocorrection transducers without an entry for the empty string; fails for texts that continue after textlen (C53_violation_continued)."
  },
  {
   "property": "C56",
   "status": "proved",
   "theorems": [
    "Verif.Props.C56_capitalisation"
   ],
   "note": ""
  },
  {
   "property": "C57",
   "status": "proved",
   "theorems": [
    "Verif.Props.C57_analysis",
    "Verif.Props.C57_names_distinct",
    "Verif.Props.C57_replace"
   ],
   "note": "All histories of attribute additions and removals; keys and values as seen through the C API."
  },
  {
   "property": "C58",
   "status": "partial",
   "theorems": [
    "Verif.Props.C58_listed_partial",
    "Verif.Props.C58_no_duplicates",
    "Verif.Props.C58_violation"
   ],
   "note": "Every value set by the Finnish analyser is listed except COMPARISON 'positive', which C58_violation shows missing; the lists have no duplicates."
  },
  {
   "property": "C60",
   "status": "partial",
   "theorems": [
    "Verif.Props.C60_validity",
    "Verif.Props.C60_baseform",
    "Verif.Props.C60_attributes_partial",
    "Verif.Props.C60_analysis_partial",
    "Verif.Props.C60_empty_violation",
    "Verif.Props.C60_structure_violation"
   ],
   "note": "Validity check and base form are safe for every output, attributes for every non-empty output. Violated by the empty output and, in the parsing of the structure, by unterminated sections."
  },
  {
   "property": "C59",
   "status": "partial",
   "theorems": [
    "Verif.Props.C59_structure_partial",
    "Verif.Props.C59_analysis_partial",
    "Verif.Props.C59_pattern_colon_violation",
    "Verif.Props.C59_colon_order_violation",
    "Verif.Props.C59_lost_border_violation",
    "Verif.Props.C59_initial_border_violation",
    "Verif.Props.C59_overflow_violation"
   ],
   "note": "For every well-formed output (a separate grammar of items, Verif.Spec.Structure) the structure is parsed inside its buffer, has one character per character of the word besides the marks, hyphens where the word has them, and marks exactly at the borders, never doubled or at the end; carried through to the STRUCTURE of every analysis of finnishAnalyze. Well-formedness excludes patterns with a colon, a colon after undescribed letters, a boundary before the last character of the output and one after a single initial character: each of these is proved to give a wrong string."
  },
  {
   "property": "C62",
   "status": "partial",
   "theorems": [
    "Verif.Props.C62_partial",
    "Verif.Props.C62_deterministic"
   ],
   "note": "For every transducer from a well-formed file and every history, for words whose search stays within the fixed limits and meets no masked flag; without any condition on the word for deterministic acceptors without epsilon and flag transitions."
  },
  {
   "property": "C63",
   "status": "partial",
   "theorems": [
    "Verif.Props.C63_partial",
    "Verif.Props.C63_accepted",
    "Verif.Props.C63_violation"
   ],
   "note": "Fails for error models with flag diacritics (witness proved). Proved for error models without flags, for searches within the fixed limits and non-negative total weights, after every history."
  },
  {
   "property": "C64",
   "status": "partial",
   "theorems": [
    "Verif.Props.C64_partial",
    "Verif.Props.C64_violation"
   ],
   "note": "Same conditions as C63; fails for error models with flag diacritics (witness proved)."
  },
  {
   "property": "C65",
   "status": "proved",
   "theorems": [
    "Verif.Props.C65_exact"
   ],
   "note": "Exact characterisation by a separate predicate (AcceptedWord), for every dictionary component, option record and cache satisfying the invariant kept by all calls."
  },
  {
   "property": "C66",
   "status": "proved",
   "theorems": [
    "Verif.Props.C66_accepted",
    "Verif.Props.C66_verdict"
   ],
   "note": "Exact acceptance by an inductive predicate with the four reasons, and the source of the verdict, for every word without NUL and soft hyphens, analyser with structures and hyphenator of the right shape. Soft hyphens are C27."
  },
  {
   "property": "C67",
   "status": "proved",
   "theorems": [
    "Verif.Props.C67_syllables",
    "Verif.Props.C67_exact_pretty",
    "Verif.Props.C67_complete_ugly",
    "Verif.Props.C67_exact_ugly"
   ],
   "note": "Places and vowels in both syllables for every word of letters, analyser and option; exact results for words of one part without the undivided consonant groups."
  },
  {
   "property": "C68",
   "status": "proved",
   "theorems": [
    "Verif.Props.C68_presentation",
    "Verif.Props.C68_all_upper",
    "Verif.Props.C68_capitalised",
    "Verif.Props.C68_dot",
    "Verif.Props.C68_prefix_kept",
    "Verif.Props.C68_violation_dot"
   ],
   "note": "Exact presentation for every generator; C68_violation_dot records that typographic characters at the end are not put back when an ignored full stop follows."
  },
  {
   "property": "C69",
   "status": "proved",
   "theorems": [
    "Verif.Props.C69_marks",
    "Verif.Props.C69_unknown_hyphens",
    "Verif.Props.C69_insert_loses_nothing",
    "Verif.Props.C69_misfit_loses_letter"
   ],
   "note": "For structures whose border hyphens are hyphens of the word (C69_misfit_loses_letter shows that this is needed)."
  },
  {
   "property": "C70",
   "status": "proved",
   "theorems": [
    "Verif.Props.C70_analyser",
    "Verif.Props.C70_lookup",
    "Verif.Props.C70_lookup_capital",
    "Verif.Props.C70_spell",
    "Verif.Props.C70_hyphenate"
   ],
   "note": "The soundness of the transducer outputs (GoodOutput) is a hypothesis on the dictionary, which is not part of the repository."
  },
  {
   "property": "C71",
   "status": "partial",
   "theorems": [
    "Verif.Props.C71_format",
    "Verif.Props.C71_fields",
    "Verif.Props.C71_language",
    "Verif.Props.C71_last_line",
    "Verif.Props.C71_explicit_default_partial",
    "Verif.Props.C71_getlines",
    "Verif.Props.C71_environment",
    "Verif.Props.C71_grammar_violation",
    "Verif.Props.C71_language_violation"
   ],
   "note": "Fails in two places, shown with witnesses: an explicit Grammar-Backend loses the directory, and with two Language lines parts of the first remain."
  },
  {
   "property": "C72",
   "status": "partial",
   "theorems": [
    "Verif.Props.C72_init",
    "Verif.Props.C72_failure_partial",
    "Verif.Props.C72_release",
    "Verif.Props.C72_failure_violation",
    "Verif.Props.C72_unmappable_violation",
    "Verif.Props.C72_grammar_line_violation",
    "Verif.Props.C72_ocr_violation"
   ],
   "note": "Fails, shown with witnesses, for some failures of voikkoInit (memory is left behind), for a transducer file that cannot be mapped (undefined behaviour), and for OCR_SUGGESTIONS with the weighted suggestion generator (memory is left behind)."
  },
  {
   "property": "C73",
   "status": "partial",
   "theorems": [
    "Verif.Props.C73_list",
    "Verif.Props.C73_usable",
    "Verif.Props.C73_variant",
    "Verif.Props.C73_parsed",
    "Verif.Props.C73_capability_violation",
    "Verif.Props.C73_variant_violation"
   ],
   "note": "Language lists are exact with respect to what dictionaries advertise; a dictionary may advertise a capability that it does not have (witness). C73_usable and C73_variant need index files with at most one Language line; C73_variant needs a script without hyphen (witness for the necessity)."
  },
  {
   "property": "C74",
   "status": "partial",
   "theorems": [
    "Verif.Props.C74_punctuation",
    "Verif.Props.C74_quotations",
    "Verif.Props.C74_repeated_partial",
    "Verif.Props.C74_verbs",
    "Verif.Props.C74_negative_verb",
    "Verif.Props.C74_compound_verb",
    "Verif.Props.C74_conjunction",
    "Verif.Props.C74_end",
    "Verif.Props.C74_applies",
    "Verif.Props.C74_reported_partial",
    "Verif.Props.C74_violation_touching"
   ],
   "note": "Exact for every rule and, by C74_reported_partial, for whole texts; repeated words only if no two words touch (witness C74_violation_touching). Attributes of words (main verb, conjunction, ...) are those set by the analysis; letter case is C56."
  },
  {
   "property": "C75",
   "status": "partial",
   "theorems": [
    "Verif.Props.C75_attributes",
    "Verif.Props.C75_other",
    "Verif.Props.C75_paragraph",
    "Verif.Props.C75_order",
    "Verif.Props.C75_violation_order",
    "Verif.Props.C75_violation_order_reported"
   ],
   "note": "Exact for every attribute, for words and for whole paragraphs. The order of the analyses does not matter unless one of them is an agent participle in the abessive (C75_order); with such an analysis it matters (C75_violation_order), and the caller sees it as a reported or missing error 14 (C75_violation_order_reported)."
  },
  {
   "property": "C76",
   "status": "partial",
   "theorems": [
    "Verif.Props.C76_reported",
    "Verif.Props.C76_plain",
    "Verif.Props.C76_inside",
    "Verif.Props.C76_brackets",
    "Verif.Props.C76_violation_last",
    "Verif.Props.C76_violation_memory",
    "Verif.Props.C76_violation_foreign",
    "Verif.Props.C76_violation_kinds"
   ],
   "note": "C76_reported gives exactly the errors 6, 7 and 12 of every checked text through a declarative specification (Spec/LetterCase); C76_plain, C76_inside and C76_brackets derive the stated rules from it. Not true in general: the last word is not judged if nothing follows it (C76_violation_last), a sentence that ended earlier hides a wrong capital letter after a later bracket (C76_violation_memory), a foreign quotation mark after a word in small letters does not exempt the sentence (C76_violation_foreign), and a bracket closes one of another kind (C76_violation_kinds)."
  },
  {
   "property": "C77",
   "status": "proved",
   "theorems": [
    "Verif.Props.C77_valid",
    "Verif.Props.C77_analyses",
    "Verif.Props.C77_joined",
    "Verif.Props.C77_hyphenated",
    "Verif.Props.C77_violation_end"
   ],
   "note": "C77_valid: the check of any plain output decides exactly the positional rules of Spec/Validity; C77_analyses lifts it to the analyses of a word; C77_joined and C77_hyphenated spell it out for two words. C77_violation_end shows why an output that ends in a hyphen with a boundary is left out: it is read as a place without a hyphen."
  },
  {
   "property": "C78",
   "status": "proved",
   "theorems": [
    "Verif.Props.C78_start",
    "Verif.Props.C78_none",
    "Verif.Props.C78_simple",
    "Verif.Props.C78_witness_dotword"
   ],
   "note": "C78_start and C78_none give the answer for every text from its tokens; C78_simple spells it out for texts without quotation marks. C78_witness_dotword shows the effect that an abbreviation inside a quotation has on a later sentence end."
  },
  {
   "property": "C79",
   "status": "proved",
   "theorems": [
    "Verif.Props.C79_reading",
    "Verif.Props.C79_analyses",
    "Verif.Props.C79_plain",
    "Verif.Props.C79_consistent",
    "Verif.Props.C79_noun",
    "Verif.Props.C79_violation_unknown_class"
   ],
   "note": "C79_reading: the analyses of one valid reading have exactly the attributes that Spec/Grammatical reads from its tags; C79_analyses and C79_plain lift it to the analyses of a word (C79_plain with validity as in C77); C79_consistent and C79_noun draw conclusions for the user. C79_violation_unknown_class: a class tag that is not in the table hides an earlier one, so that the analysis has no CLASS."
  },
  {
   "property": "C80",
   "status": "proved",
   "theorems": [
    "Verif.Props.C80_baseform",
    "Verif.Props.C80_unique",
    "Verif.Props.C80_short",
    "Verif.Props.C80_last_word",
    "Verif.Props.C80_itself",
    "Verif.Props.C80_simple",
    "Verif.Props.C80_analyses",
    "Verif.Props.C80_noun",
    "Verif.Props.C80_violation_section",
    "Verif.Props.C80_violation_numeral_mark",
    "Verif.Props.C80_violation_numeral_id",
    "Verif.Props.C80_violation_short"
   ],
   "note": "C80_baseform: BASEFORM of every analysis is the base form of Spec/Baseform (a relation, shown to be a function by C80_unique); C80_last_word, C80_itself, C80_simple and C80_noun give closed forms; C80_analyses lifts it to the analyses of a word. Readings are regular: only sections of known kinds, a numeral is not the beginning of a marked place name, and the parts of a numeral are long enough and have no identifiers. C80_violation_section, C80_violation_numeral_mark and C80_violation_numeral_id show what happens otherwise; C80_violation_short shows that an added analysis has a BASEFORM although the full morphology was not asked for."
  },
  {
   "property": "C81",
   "status": "proved",
   "theorems": [
    "Verif.Props.C81_typing",
    "Verif.Props.C81_ocr",
    "Verif.Props.C81_unique",
    "Verif.Props.C81_suggestions",
    "Verif.Props.C81_suggestions_ocr",
    "Verif.Props.C81_case_only",
    "Verif.Props.C81_tried",
    "Verif.Props.C81_found_tried",
    "Verif.Props.C81_earlier",
    "Verif.Props.C81_parts"
   ],
   "note": "C81_typing, C81_ocr: the strategies run exactly the search of Spec/SuggestSearch, whose outcome is determined (C81_unique). C81_suggestions and C81_suggestions_ocr: the same for the API function, with the presentation of C68. The others are consequences for users. Words for which the code leaves its buffers are excluded as in C33. That a capital letter of an earlier split is kept for later ones (C32_split_capital_leak) is part of the search as specified."
  },
  {
   "property": "C82",
   "status": "partial",
   "theorems": [
    "Verif.Props.C82_look_up_partial",
    "Verif.Props.C82_symbol_order",
    "Verif.Props.C82_transition_order",
    "Verif.Props.C82_total",
    "Verif.Props.C82_empty_line",
    "Verif.Props.C82_long_symbol",
    "Verif.Props.C82_no_letters",
    "Verif.Props.C82_empty_text"
   ],
   "note": "C82_look_up_partial holds for the proper automata of Spec/FstText; the conditions on symbols and the missing empty lines are necessary: C82_empty_line, C82_long_symbol, C82_no_letters, C82_empty_text are witnesses of texts that the compiler accepts and whose file means something else. C82_total is for all texts. Not covered: the option -w, and symbols in the order of more than 65535 (the codes wrap)."
  },
  {
   "property": "C83",
   "status": "partial",
   "theorems": [
    "Verif.Autocorrect.C83_reports_partial",
    "Verif.Autocorrect.C83_soft_hyphens_partial",
    "Verif.Autocorrect.C83_compiled_partial",
    "Verif.Autocorrect.C83_listed",
    "Verif.Autocorrect.C83_text_partial",
    "Verif.Autocorrect.C83_violation_hidden",
    "Verif.Autocorrect.C83_violation_missed",
    "Verif.Autocorrect.C83_violation_false",
    "Verif.Autocorrect.C83_violation_end",
    "Verif.Autocorrect.C83_violation_later"
   ],
   "note": "The conditions on the sentence are necessary. C83_violation_hidden: a phrase that begins another one hides it. C83_violation_missed and C83_violation_false: soft hyphens in earlier words make the check miss phrases and report wrong ones. C83_violation_end and C83_violation_later: wrong lengths of phrases with soft hyphens at the end of a sentence and in later sentences. Lists with flag diacritics are excluded because a look-up then depends on earlier ones (C42). Sentences of 20000 characters and more are not covered."
  },
  {
   "property": "C84",
   "status": "partial",
   "theorems": [
    "Verif.Props.C84_described",
    "Verif.Props.C84_described_ucs4_partial",
    "Verif.Props.C84_distinct",
    "Verif.Props.C84_unknown",
    "Verif.Props.C84_violation_language"
   ],
   "note": "C84_described is for the UTF-8 function, without restrictions; the wide character function needs texts that end at textlen, as in C55. C84_violation_language: a language code like fil gives Finnish descriptions, and a null pointer is read."
  },
  {
   "property": "C85",
   "status": "partial",
   "theorems": [
    "Verif.Props.C85_reading_partial",
    "Verif.Props.C85_lookup_partial",
    "Verif.Props.C85_lookup_capital_partial",
    "Verif.Props.C85_noun",
    "Verif.Props.C85_name",
    "Verif.Props.C85_violation_base_hyphen",
    "Verif.Props.C85_violation_late_class",
    "Verif.Props.C85_violation_two_hyphens"
   ],
   "note": "For well-formed readings whose classes come before the letters of their word part, with hyphens only among the characters of the word and no two of them together. What the restrictions exclude fails or is not specified: see the violations. C85_noun and C85_name follow for words with one reading without hyphens and colons."
  },
  {
   "property": "C86",
   "status": "partial",
   "theorems": [
    "Verif.Props.C86_same_output",
    "Verif.Props.C86_defined_partial",
    "Verif.Props.C86_progress",
    "Verif.Props.C86_finite",
    "Verif.Props.C86_all_executions_partial",
    "Verif.Props.C86_library_partial",
    "Verif.Props.C86_library_steady",
    "Verif.Props.C86_complete_execution",
    "Verif.Props.C86_violation_few_words"
   ],
   "note": "Output, progress and termination hold for all inputs; definedness holds if there are no words or at least as many blocks as threads, otherwise every complete execution has undefined behaviour (C86_violation_few_words). C86_library_partial instantiates the checking of a word with voikkoSpellUcs4 and a cache per handle; suggestions and analyses are parameters that do not change a handle."
  },
  {
   "property": "C87",
   "status": "partial",
   "theorems": [
    "Verif.Props.C87_total_partial",
    "Verif.Props.C87_separator",
    "Verif.Props.C87_reversible",
    "Verif.Props.C87_insert",
    "Verif.Props.C87_hyphen",
    "Verif.Props.C87_lines"
   ],
   "note": "The program has no undefined behaviour if the structures of the analyses are usable (StructuresOk, as in C36); the theorems about the lines hold whenever the library call returns a pattern."
  },
  {
   "property": "C88",
   "status": "proved",
   "theorems": [
    "Verif.Props.C88_readback",
    "Verif.Props.C88_readback_threads",
    "Verif.Props.C88_only_incorrect",
    "Verif.Props.C88_only_letters",
    "Verif.Props.C88_one_line",
    "Verif.Props.C88_library"
   ],
   "note": "Words, suggestions and attributes are single lines (words are lines of the input, so it is true of them), keys contain no '='. C88_library shows that the library meets the assumptions about verdicts, whatever its cache contains."
  },
  {
   "property": "C89",
   "status": "partial",
   "theorems": [
    "Verif.Props.C89_tokens",
    "Verif.Props.C89_sentences",
    "Verif.Props.C89_grammar_partial",
    "Verif.Props.C89_violation_quotation_mark",
    "Verif.Props.C89_violation_line_numbers"
   ],
   "note": "Reading back needs suggestions without quotation marks and newlines; otherwise the output is ambiguous (C89_violation_quotation_mark). With -n each number is 0 (C89_violation_line_numbers, for all inputs)."
  },
  {
   "property": "C90",
   "status": "partial",
   "theorems": [
    "Verif.Props.C90_wordbases_partial",
    "Verif.Props.C90_analyses",
    "Verif.Props.C90_short",
    "Verif.Props.C90_notes",
    "Verif.Props.C90_letters",
    "Verif.Props.C90_baseform",
    "Verif.Props.C90_compound",
    "Verif.Props.C90_violation_suffix",
    "Verif.Props.C90_violation_no_letters"
   ],
   "note": "Exact values for readings with known sections without brackets and without + among the letters, whose last part has letters if it has a base form (Usual). The + before each part fails for suffixes without a class (C90_violation_suffix); the last condition is needed (C90_violation_no_letters)."
  },
  {
   "property": "C91",
   "status": "partial",
   "theorems": [
    "Verif.Props.C91_partial",
    "Verif.Props.C91_limits",
    "Verif.Props.C91_long",
    "Verif.Props.C91_case",
    "Verif.Props.C91_history",
    "Verif.Props.C91_deterministic"
   ],
   "note": "Exact list of analyses for words whose search stays within the fixed limits and meets no masked flag (Within, see C45_violation). Beyond the limits the analyses are some of the readings, without repetitions (C91_limits). C91_deterministic needs no condition on the word. The text of the probability is a parameter."
  },
  {
   "property": "C92",
   "status": "partial",
   "theorems": [
    "Verif.Props.C92_ucs4",
    "Verif.Props.C92_utf8_partial",
    "Verif.Props.C92_null",
    "Verif.Props.C92_violation"
   ],
   "note": "Complete decision for every byte string (C92_null). The agreement fails between 255 bytes and 255 characters (C92_violation)."
  },
  {
   "property": "C93",
   "status": "proved",
   "theorems": [
    "Verif.Props.C93_token",
    "Verif.Props.C93_unique",
    "Verif.Props.C93_stream",
    "Verif.Props.C93_mail",
    "Verif.Props.C93_url",
    "Verif.Props.C93_no_dot"
   ],
   "note": "C93_token is an equivalence with Spec/Token, which describes positions by the characters around them and has no loops. NUL inside a text counts as a hyphen, a quotation mark and a character of an e-mail address, because wcschr finds the terminator; the specification says so."
  },
  {
   "property": "C94",
   "status": "partial",
   "theorems": [
    "Verif.Props.C94_parts_partial",
    "Verif.Props.C94_exact_pretty",
    "Verif.Props.C94_exact_ugly",
    "Verif.Props.C94_unknown",
    "Verif.Props.C94_off_partial",
    "Verif.Props.C94_violation",
    "Verif.Props.C94_violation_unknown"
   ],
   "note": "One analysis per word (C37 reduces words with several analyses to this case). The claim fails for a part after a border without hyphen whose first letter is marked j or q: the border overwrites the mark (C94_violation). It fails for parts after two hyphens: with HYPHENATE_UNKNOWN_WORDS off such a part of an unknown word is divided by the rules (C94_violation_unknown; see also C38_violation)."
  },
  {
   "property": "C95",
   "status": "partial",
   "theorems": [
    "Verif.Props.C95_look_up_partial",
    "Verif.Props.C95_masked_flag",
    "Verif.Props.C95_byte_order",
    "Verif.Props.C95_trailing_space",
    "Verif.Props.C95_unchecked_final_weight"
   ],
   "note": "Floating point numbers (reading a double and its conversion to 16 bits) are a parameter. The claim fails for words with a masked flag diacritic (C95_masked_flag, as C45_violation) and for most weights in the opposite byte order (C95_byte_order, as C43_weighted_violation): both are hypotheses of C95_look_up_partial. A final state followed by white space gets a weight that was never set (C95_trailing_space). The automaton must be proper as in C82 (symbols are letters, tags or flag diacritics, at least one letter, states in order)."
  },
  {
   "property": "C96",
   "status": "partial",
   "theorems": [
    "Verif.Props.C96_spell_partial",
    "Verif.Props.C96_words",
    "Verif.Props.C96_accepted"
   ],
   "note": "For graphs of words (each transition reads a letter, deterministic) C96_words holds for all words without conditions. In general (C96_spell_partial) words whose search meets a fixed limit or a masked flag diacritic are excluded, as in C62 and C95, and most weights in the opposite byte order. C96_accepted gives the answer of voikkoSpellUcs4 for normalised words in lower case or with one capital; it takes the verdict of the speller object as a function of the word, which C96_words justifies."
  },
  {
   "property": "C97",
   "status": "partial",
   "theorems": [
    "Verif.Props.C97_suggestions_partial"
   ],
   "note": "Missing: error models with flag diacritics (false there, see C63_violation and C64_violation), dictionaries with more than one run for a word (only the weight of the first counts), negative weights, words whose searches meet a fixed limit or a masked flag diacritic, most weights in the opposite byte order."
  },
  {
   "property": "C98",
   "status": "partial",
   "theorems": [
    "Verif.Props.C98_analyses_partial",
    "Verif.Props.C98_no_flags",
    "Verif.Props.C98_known",
    "Verif.Props.C98_violation"
   ],
   "note": "Proved after every history of words that leave no trace (too long, or with an unknown letter, or within the limits of the search and with at most 98 runs), and after every history at all if the text has no flag diacritics. The exception is real: C98_violation. Words whose search exceeds the limits (2000 transitions, 2000 characters of output, 100000 steps) are excluded."
  },
  {
   "property": "C99",
   "status": "proved",
   "theorems": [
    "Verif.Props.C99_dictionary",
    "Verif.Props.C99_accepted"
   ],
   "note": "The form of the text is the hypothesis FinnishText: searches for words of at most 255 letters stay within the limits of the search, the outputs are readings to which C70, C77 and C85 apply, and there are no flag diacritics or every word leaves no trace (C98). C99_accepted is for all words without soft hyphens and without hyphens inside of them, with any options; C110 settles the words with hyphens inside of them."
  },
  {
   "property": "C100",
   "status": "proved",
   "theorems": [
    "Verif.Props.C100_division",
    "Verif.Props.C100_text"
   ],
   "note": "For readings without a hyphen at the beginning, without two hyphens in a row and without letters marked as not to be divided (hypothesis Divisible); the parts consist of Finnish letters without the groups of consonants that are kept together, and with ugly hyphenation have no three vowels in a row (SimplePart). C100_text is the same for the runs of a dictionary text, with the analyser of C99."
  },
  {
   "property": "C101",
   "status": "proved",
   "theorems": [
    "Verif.Props.C101_reads",
    "Verif.Props.C101_stops",
    "Verif.Props.C101_missing",
    "Verif.Props.C101_outcome",
    "Verif.Props.C101_threads",
    "Verif.Props.C101_last",
    "Verif.Props.C101_number",
    "Verif.Props.C101_undefined",
    "Verif.Props.C101_cache_undefined"
   ],
   "note": "C101_outcome, C101_stops, C101_missing and C101_undefined together cover every command line with a cache size up to 18. Findings: numbers that are no int (C101_undefined) and cache sizes from 19 on (C101_cache_undefined) are undefined behaviour. An option -p or -d at the end without a value is accepted and ignored."
  },
  {
   "property": "C102",
   "status": "partial",
   "theorems": [
    "Verif.Props.C102_hyph_stops",
    "Verif.Props.C102_hyph",
    "Verif.Props.C102_gc_stops",
    "Verif.Props.C102_gc",
    "Verif.Props.C102_ignore_numbers"
   ],
   "note": "The meaning of all command lines is proved. The last sentence is false: ignore_numbers is documented for voikkohyphenate, which rejects every command line that contains it (C102_ignore_numbers). A number after min_hyphenated_word_length= that is no int is undefined behaviour (last part of C102_hyph). Languages of explanations other than Finnish mean English."
  },
  {
   "property": "C103",
   "status": "partial",
   "theorems": [
    "Verif.ApiHeap.C103_session_partial",
    "Verif.ApiHeap.C103_stays_partial",
    "Verif.ApiHeap.C103_all_released_partial",
    "Verif.ApiHeap.C103_new_interface",
    "Verif.ApiHeap.C103_suggest_out_of_memory",
    "Verif.ApiHeap.C103_hyphenate_out_of_memory",
    "Verif.ApiHeap.C103_copied_strings_leak",
    "Verif.ApiHeap.C103_error_out_of_memory"
   ],
   "note": "Proved for the new interface whether or not malloc fails, and for the old interface when it does not fail. False when malloc fails in the old interface (C103_suggest_out_of_memory, C103_hyphenate_out_of_memory, C103_copied_strings_leak, C103_error_out_of_memory). Failing new, allocations inside one call, analyses and sentence results are not modelled."
  },
  {
   "property": "C104",
   "status": "partial",
   "theorems": [
    "Verif.SpellProgram.C104_program_partial"
   ],
   "note": "The conjunction of C99 (dictionary text to spelling), C101 (command line), C86 (threads) and C88 (output), with the handles made by the command line as the state of the threads. Missing: fewer blocks of 500 words than threads (false, C86_violation_few_words), cache sizes over 18 (undefined, C101_cache_undefined), the option -x (C116_one_line_partial has it), and more than 99 readings of a word. Words with hyphens inside of them are the subject of C110, words with soft hyphens that of C118."
  },
  {
   "property": "C105",
   "status": "proved",
   "theorems": [
    "Verif.HyphProgram.C105_program"
   ],
   "note": "The conjunction of C99 (dictionary text to analyses), C100 (readings to points), C67 and C94 (unknown words), C102 (command line) and C87 (output). The decoder of the locale is a parameter that gives valid characters; the places are exact for the words described in the statement (parts of Finnish letters without the groups of consonants, without three vowels in a row if ugly points are allowed), for all others the line is the word with separators at some places."
  },
  {
   "property": "C106",
   "status": "partial",
   "theorems": [
    "Verif.AnalysisProgram.C106_reading",
    "Verif.AnalysisProgram.C106_analyses",
    "Verif.AnalysisProgram.C106_program_partial",
    "Verif.AnalysisProgram.C106_hyphens_partial"
   ],
   "note": "C106_reading and C106_analyses settle the library's part for dictionaries whose readings are of the usual form (known sections, no + among the letters, no line break). The program's part is missing what C104 is missing: fewer blocks of 500 words than threads (false, C86_violation_few_words), cache sizes over 18 (undefined, C101_cache_undefined). C106_program_partial is for words without hyphens inside of them, C106_hyphens_partial for all words without soft hyphens, with the verdicts of C110."
  },
  {
   "property": "C107",
   "status": "partial",
   "theorems": [
    "Verif.VfstcProgram.C107_not_asked",
    "Verif.VfstcProgram.C107_asks_unique",
    "Verif.VfstcProgram.C107_plain",
    "Verif.VfstcProgram.C107_weighted",
    "Verif.VfstcProgram.C107_machine",
    "Verif.VfstcProgram.C107_text",
    "Verif.VfstcProgram.C107_dictionary",
    "Verif.VfstcProgram.C107_weighted_dictionary",
    "Verif.VfstcProgram.C107_total",
    "Verif.VfstcProgram.C107_other_files",
    "Verif.VfstcProgram.C107_lost_violation"
   ],
   "note": "All of the claim is proved except that a text that cannot be compiled leaves the output file alone, which is false: C107_lost_violation proves for every readable text in which a target state has no line that the file has been opened, and emptied, before the error is found. C107_text says exactly which texts without weights end in which way. For weighted texts the exact condition is not given (only that proper texts are written, C107_weighted_dictionary); big-endian weights must survive the byte order (see C43)."
  },
  {
   "property": "C108",
   "status": "partial",
   "theorems": [
    "Verif.Zhfst.C108_format3_partial",
    "Verif.Zhfst.C108_format4_partial",
    "Verif.Zhfst.C108_own_grammar_partial",
    "Verif.Zhfst.C108_loader",
    "Verif.Zhfst.C108_parsed",
    "Verif.Zhfst.C108_newest_first",
    "Verif.Zhfst.C108_names_violation",
    "Verif.Zhfst.C108_leak_violation",
    "Verif.Zhfst.C108_order_violation",
    "Verif.Zhfst.C108_exception_violation"
   ],
   "note": "The exact behaviour is proved; the claim is false in four respects, each with a witness: names of five letters are taken for dictionaries of format 3 and names with the ending twice are not, a dictionary of format 4 gets the grammar checker of an earlier directory, it loses its own if that is listed later, and an exception of the reader other than that for archives ends the whole search. What the HFST library says about a file is a parameter."
  },
  {
   "property": "C109",
   "status": "partial",
   "theorems": [
    "Verif.GcProgram.C109_program_partial",
    "Verif.GcProgram.C109_phrases_partial",
    "Verif.GcProgram.C109_sentences"
   ],
   "note": "Missing, because the claim fails there (witnesses in C74, C83 and C89): line numbers (option -n), repeated words where two words touch, fixed expressions in sentences with soft hyphens or several spaces, and reading back suggestions with quotation marks. In C109_program_partial the corrections of fixed expressions are an input whose answers do not depend on earlier ones; in C109_phrases_partial they are compiled from a text without flag diacritics and without an entry for the empty string. The boundaries of the sentences are those of C54 and C78, where C109_sentences ties the answers of the speller to the text for all words without soft hyphens."
  },
  {
   "property": "C110",
   "status": "partial",
   "theorems": [
    "Verif.HyphenText.C110_unique",
    "Verif.HyphenText.C110_accepted",
    "Verif.HyphenText.C110_program_partial"
   ],
   "note": "The verdicts, their uniqueness and the accepted words are proved in full. Missing for the output of voikkospell, because the claim fails there: fewer blocks of words than threads (C86_violation_few_words) and cache sizes over 18 (C101_cache_undefined)."
  },
  {
   "property": "C111",
   "status": "proved",
   "theorems": [
    "Verif.Legacy.C111_isolated",
    "Verif.Legacy.C111_session",
    "Verif.Legacy.C111_defined",
    "Verif.Legacy.C111_grammar",
    "Verif.Legacy.C111_grammar_none",
    "Verif.Legacy.C111_options",
    "Verif.Legacy.C111_spelling",
    "Verif.Legacy.C111_current",
    "Verif.Legacy.C111_violation",
    "Verif.Legacy.C111_violation_cache_size"
   ],
   "note": "Proved for the functions named in the statement. The two theorems called violation show the undefined calls: numbers that are not live handles, and voikko_init with a cache size of 19. voikko_suggest_cstr, voikko_next_sentence_start_cstr and voikko_analyze_word_* are not among the modelled functions; the isolation is proved for any functions that work on the object behind the handle."
  },
  {
   "property": "C112",
   "status": "partial",
   "theorems": [
    "Verif.Hfst.C112_verdict",
    "Verif.Hfst.C112_known_partial",
    "Verif.Hfst.C112_sound",
    "Verif.Hfst.C112_missing",
    "Verif.Hfst.C112_suggestions",
    "Verif.Hfst.C112_firsts",
    "Verif.Hfst.C112_violation",
    "Verif.Hfst.C112_violation_encoding",
    "Verif.Hfst.C112_violation_options"
   ],
   "note": "The acceptance of known words fails for words in capitals that do not begin with a capital letter (C112_violation: \"3D\"), and words with U+018F are excluded. With ACCEPT_MISSING_HYPHENS the words that lack hyphens at their ends are accepted too (C112_sound, C112_missing). The other parts hold for all words whose characters can be encoded in UTF-8; for the others the library passes a null pointer to HFST (C112_violation_encoding)."
  },
  {
   "property": "C113",
   "status": "partial",
   "theorems": [
    "Verif.Hfst.C113_analyses_partial",
    "Verif.Hfst.C113_utf8_partial",
    "Verif.Hfst.C113_violation_bytes",
    "Verif.Hfst.C113_violation_plus",
    "Verif.Hfst.C113_violation_first",
    "Verif.Hfst.C113_violation_word",
    "Verif.Hfst.C113_violation_zhfst",
    "Verif.Hfst.C113_violation_hyphenation"
   ],
   "note": "The analyses are as claimed for words of at most 255 bytes in UTF-8 and outputs with a plus sign that is not their first character. The claim fails for longer words (no analyses), outputs without a plus sign (an exception leaves the library), outputs that begin with one (the last character is lost), words that cannot be encoded and dictionaries with .zhfst in their path (undefined), and altogether for hyphenation (memory that was never written is returned)."
  },
  {
   "property": "C114",
   "status": "proved",
   "theorems": [
    "Verif.NullBackends.C114_session",
    "Verif.NullBackends.C114_allOk_default",
    "Verif.NullBackends.C114_allOk_rejects",
    "Verif.NullBackends.C114_capital_example",
    "Verif.NullBackends.C114_allError"
   ],
   "note": "For cache sizes of at most 18 (larger ones overflow, C23). The speller called AllOk rejects capitalised words when ACCEPT_FIRST_UPPERCASE is off and words of more than 255 characters."
  },
  {
   "property": "C115",
   "status": "proved",
   "theorems": [
    "Verif.SuggestText.C115_correct",
    "Verif.SuggestText.C115_complete",
    "Verif.SuggestText.C115_case",
    "Verif.SuggestText.C115_dictionary"
   ],
   "note": "The limits on the word in the statement are needed: C33_violation_short, C33_violation_ligature and C33_violation_vowels give undefined behaviour beyond them."
  },
  {
   "property": "C116",
   "status": "partial",
   "theorems": [
    "Verif.SuggestProgram.C116_program_partial",
    "Verif.SuggestProgram.suggestions_follow",
    "Verif.SuggestOneLine.C116_one_line_partial"
   ],
   "note": "The format of -x is in C116_one_line_partial (without -m and -M, with an ASCII separator that does not occur in the words). Missing: fewer blocks of words than threads (C86_violation_few_words), cache sizes over 18 (C101_cache_undefined), words with soft hyphens (see C118_suggestions_partial and C118_one_line_partial), and words beyond the limits of C33 (undefined behaviour)."
  },
  {
   "property": "C117",
   "status": "proved",
   "theorems": [
    "Verif.SoftText.C117_points",
    "Verif.SoftText.C117_verdict",
    "Verif.SoftText.C117_accepted"
   ],
   "note": "The restriction (readings with simple parts) is that of the statement. Analysers that follow the text are those of C99."
  },
  {
   "property": "C118",
   "status": "partial",
   "theorems": [
    "Verif.SoftProgram.C118_unique",
    "Verif.SoftProgram.C118_accepted",
    "Verif.SoftProgram.C118_program_partial",
    "Verif.SuggestSoft.C118_suggestions_partial",
    "Verif.SuggestSoft.C118_one_line_partial"
   ],
   "note": "Missing: soft hyphens in words that are not suitable in the sense of C117 (readings with parts that are not simple); and as in C110, because the claim fails there, fewer blocks of words than threads (C86_violation_few_words) and cache sizes over 18 (C101_cache_undefined). For suggestions also words beyond the limits of C33, and for -x the restrictions of C116_one_line_partial."
  },
  {
   "property": "C119",
   "status": "partial",
   "theorems": [
    "Verif.SoftHyphenation.C119_verdict_partial",
    "Verif.SoftHyphenation.C119_accepted_partial",
    "Verif.SoftHyphenation.C119_violation"
   ],
   "note": "The claim fails with the default options: parts of two letters are divided by the hyphenator and not by the speller, whose minimum is three (C119_violation). Proved for options that exclude ugly points or have a minimum of at least three. Missing: words of two characters, words that are not suitable in the sense of C117, soft hyphens before a hyphen; through voikkoSpellUcs4 also words with capital letters and ACCEPT_MISSING_HYPHENS."
  }
 ]
}