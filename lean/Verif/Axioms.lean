import Verif.Props.Analysis
import Verif.Props.AnalysisHyphens
import Verif.Props.AnalysisProgram
import Verif.Props.ApiHeap
import Verif.Props.Autocorrect
import Verif.Props.Case
import Verif.Props.DictIndex
import Verif.Props.Dictionary
import Verif.Props.FinnishAttributes
import Verif.Props.FinnishBase
import Verif.Props.FinnishDict
import Verif.Props.FinnishDivision
import Verif.Props.FinnishFst
import Verif.Props.FinnishGrammatical
import Verif.Props.FinnishLetters
import Verif.Props.FinnishSpell
import Verif.Props.FinnishStructure
import Verif.Props.FinnishText
import Verif.Props.FinnishValidity
import Verif.Props.Fst
import Verif.Props.FstFile
import Verif.Props.FstText
import Verif.Props.FstTextUse
import Verif.Props.FstTextW
import Verif.Props.FstWeighted
import Verif.Props.FstWeightedFile
import Verif.Props.GcHyphens
import Verif.Props.GcOutput
import Verif.Props.GcPhrases
import Verif.Props.GcProgram
import Verif.Props.GrammarAnalysis
import Verif.Props.GrammarCache
import Verif.Props.GrammarError
import Verif.Props.GrammarRules
import Verif.Props.Handles
import Verif.Props.HfstAnalyzer
import Verif.Props.HfstSpell
import Verif.Props.HyphCompound
import Verif.Props.HyphInsert
import Verif.Props.HyphMarks
import Verif.Props.HyphProgram
import Verif.Props.HyphRules
import Verif.Props.HyphenText
import Verif.Props.Hyphenator
import Verif.Props.LanguageTag
import Verif.Props.Languages
import Verif.Props.Legacy
import Verif.Props.LetterCase
import Verif.Props.Lifecycle
import Verif.Props.Nonword
import Verif.Props.Normalise
import Verif.Props.NullBackends
import Verif.Props.Sentence
import Verif.Props.SentenceEnds
import Verif.Props.Setup
import Verif.Props.SoftHyphenation
import Verif.Props.SoftProgram
import Verif.Props.SoftText
import Verif.Props.Spell
import Verif.Props.SpellExact
import Verif.Props.SpellHistory
import Verif.Props.SpellOutput
import Verif.Props.SpellProgram
import Verif.Props.SpellUtils
import Verif.Props.SpellerCache
import Verif.Props.Suggest
import Verif.Props.SuggestCase
import Verif.Props.SuggestEdits
import Verif.Props.SuggestOneLine
import Verif.Props.SuggestProgram
import Verif.Props.SuggestSearch
import Verif.Props.SuggestSoft
import Verif.Props.SuggestText
import Verif.Props.Threads
import Verif.Props.Token
import Verif.Props.TokenAttributes
import Verif.Props.Tokenizer
import Verif.Props.TokenizerCstr
import Verif.Props.ToolArgs
import Verif.Props.ToolArgsCommon
import Verif.Props.Tweaks
import Verif.Props.TweaksHyphens
import Verif.Props.Utf8
import Verif.Props.VfstAnalyzer
import Verif.Props.VfstSpell
import Verif.Props.VfstcMain
import Verif.Props.VoikkoHyphenate
import Verif.Props.WordBases
import Verif.Props.ZhfstLoaders
/-! Axioms used by every theorem named in MANIFEST.json (printed during the build). -/

#print axioms Verif.Props.C01_progress
#print axioms Verif.Props.C01_empty
#print axioms Verif.Props.C01_tiling
#print axioms Verif.Props.C02_in_bounds
#print axioms Verif.Props.C03_shapes
#print axioms Verif.Props.C03_no_adjacent_whitespace
#print axioms Verif.Props.charType_whitespace_iff
#print axioms Verif.Props.charType_digit_iff
#print axioms Verif.Props.C04_ignore_dot
#print axioms Verif.Props.C06_usable_length
#print axioms Verif.Props.C06_tiling
#print axioms Verif.Props.C07_boundary
#print axioms Verif.Props.C08_ignore_dot
#print axioms Verif.Props.C09_case_laws
#print axioms Verif.Props.C09_lower_injective
#print axioms Verif.Props.C09_upper_injective
#print axioms Verif.Props.C09_ascii
#print axioms Verif.Props.C10_violation
#print axioms Verif.Props.C10_class_case_insensitive_partial
#print axioms Verif.Props.C10_cased_is_letter_partial
#print axioms Verif.Props.C11_caseType
#print axioms Verif.Props.C11_setCase
#print axioms Verif.Props.C11_setCase_same_letters
#print axioms Verif.Props.C12_bounded
#print axioms Verif.Props.C12_unchanged
#print axioms Verif.Props.C12_canonical_equivalents
#print axioms Verif.Props.C12_typographic_equivalents
#print axioms Verif.Props.C13_violation
#print axioms Verif.Props.C13_idempotent_partial
#print axioms Verif.Props.C29_exact
#print axioms Verif.Props.C29_sound_violation
#print axioms Verif.Props.C29_complete_violation
#print axioms Verif.Props.C29_sound_partial
#print axioms Verif.Props.C29_complete_partial
#print axioms Verif.Props.C05_violation
#print axioms Verif.Props.C05_agree_partial
#print axioms Verif.Props.C14_round_trip
#print axioms Verif.Props.C14_no_nul
#print axioms Verif.Props.C14_invalid_refused
#print axioms Verif.Props.C15_decoder_exact
#print axioms Verif.Props.C15_in_bounds
#print axioms Verif.Props.C15_nonchar_rejected
#print axioms Verif.Props.C16_violation
#print axioms Verif.Props.C16_agree_partial
#print axioms Verif.Props.C16_invalid
#print axioms Verif.Props.C17_total
#print axioms Verif.Props.C18_ignore_monotone
#print axioms Verif.Props.C19_ignore_dot
#print axioms Verif.Props.C19_no_dot
#print axioms Verif.Props.C20_first_uppercase
#print axioms Verif.Props.C20_all_uppercase
#print axioms Verif.Props.C20_nonword_violation
#print axioms Verif.Props.C21_violation
#print axioms Verif.Props.C21_first_uppercase_partial
#print axioms Verif.Props.C22_violation
#print axioms Verif.Props.C22_cache_transparent_partial
#print axioms Verif.Props.C22_new_handle_partial
#print axioms Verif.Props.C23_in_bounds
#print axioms Verif.Props.C23_slots_disjoint
#print axioms Verif.Props.C23_set_get
#print axioms Verif.Props.C23_size_overflow
#print axioms Verif.Props.C24_exact
#print axioms Verif.Props.C24_monotone
#print axioms Verif.Props.C24_lower_words
#print axioms Verif.Props.C46_boolean_options
#print axioms Verif.Props.C46_integer_options
#print axioms Verif.Props.C46_unknown_boolean
#print axioms Verif.Props.C46_unknown_integer
#print axioms Verif.Props.C46_ignore_dot_in_sync
#print axioms Verif.Props.C25_best
#print axioms Verif.Props.C25_order_independent
#print axioms Verif.Props.C25_priority
#print axioms Verif.Props.C25_null_structure
#print axioms Verif.Props.C26_verdict
#print axioms Verif.Props.C27_soft_hyphens
#print axioms Verif.Props.C27_only_restricts
#print axioms Verif.Props.C27_finnish
#print axioms Verif.Props.C28_total
#print axioms Verif.Props.C28_finnish_total
#print axioms Verif.Props.C28_verdict
#print axioms Verif.Props.C28_finnish_verdict
#print axioms Verif.Props.C28_api_partial
#print axioms Verif.Props.C28_violation
#print axioms Verif.Props.C30_sort
#print axioms Verif.Props.C30_at_most_five
#print axioms Verif.Props.C30_capacity
#print axioms Verif.Props.C31_typing
#print axioms Verif.Props.C31_ocr
#print axioms Verif.Props.C33_typing_partial
#print axioms Verif.Props.C33_ocr_partial
#print axioms Verif.Props.C32_submits
#print axioms Verif.Props.C32_deletions
#print axioms Verif.Props.C32_insertions
#print axioms Verif.Props.C32_replacements
#print axioms Verif.Props.C32_swaps
#print axioms Verif.Props.C32_vowelChanges
#print axioms Verif.Props.C32_hyphens
#print axioms Verif.Props.C32_split
#print axioms Verif.Props.C32_split_places
#print axioms Verif.Props.C32_split_capital_leak
#print axioms Verif.Props.C33_violation_short
#print axioms Verif.Props.C33_violation_ligature
#print axioms Verif.Props.C33_violation_vowels
#print axioms Verif.Props.C33_violation_vowels_api
#print axioms Verif.Props.C34_typing
#print axioms Verif.Props.C34_ocr
#print axioms Verif.Props.C35_pattern
#print axioms Verif.Props.C35_cstr
#print axioms Verif.Props.C36_violation
#print axioms Verif.Props.C36_partial
#print axioms Verif.Props.C36_all_positions_partial
#print axioms Verif.Props.C40_total_partial
#print axioms Verif.Props.C37_intersection
#print axioms Verif.Props.C37_unsplit
#print axioms Verif.Props.C38_short_word
#print axioms Verif.Props.C38_violation
#print axioms Verif.Props.C38_parts_partial
#print axioms Verif.Props.C39_violation
#print axioms Verif.Props.C39_violation_dot
#print axioms Verif.Props.C39_partial
#print axioms Verif.Props.C40_insert
#print axioms Verif.Props.C40_context
#print axioms Verif.Props.C61_borders
#print axioms Verif.Props.C41_readings
#print axioms Verif.Props.C41_complete
#print axioms Verif.Props.C41_unknown
#print axioms Verif.Props.C42_violation
#print axioms Verif.Props.C42_partial
#print axioms Verif.Props.C42_no_flags
#print axioms Verif.Props.C42_weighted
#print axioms Verif.Props.C43_byte_order
#print axioms Verif.Props.C43_content
#print axioms Verif.Props.C43_compiler
#print axioms Verif.Props.C43_weighted_violation
#print axioms Verif.Props.C43_weighted_partial
#print axioms Verif.Props.C43_weighted_exact
#print axioms Verif.Props.C44_loads
#print axioms Verif.Props.C44_read_back
#print axioms Verif.Props.C44_well_formed
#print axioms Verif.Props.C44_look_up
#print axioms Verif.Props.C44_weighted_loads
#print axioms Verif.Props.C44_weighted_read_back
#print axioms Verif.Props.C44_weighted_well_formed
#print axioms Verif.Props.C45_violation
#print axioms Verif.Props.C45_partial
#print axioms Verif.Props.C45_complete_partial
#print axioms Verif.Props.C45_no_flags
#print axioms Verif.Props.C45_single_flag
#print axioms Verif.Props.C45_unknown
#print axioms Verif.Props.C45_unknown_no_readings
#print axioms Verif.Props.C47_idempotent
#print axioms Verif.Props.C47_printed_stable
#print axioms Verif.Props.C47_components
#print axioms Verif.Props.C47_language_case
#print axioms Verif.Props.C47_private_case
#print axioms Verif.Props.C47_area_partial
#print axioms Verif.Props.C47_violation
#print axioms Verif.Props.C47_same_dictionary
#print axioms Verif.Props.C48_loader
#print axioms Verif.Props.C48_first_location
#print axioms Verif.Props.C48_no_duplicates
#print axioms Verif.Props.C48_one_default
#print axioms Verif.Props.C48_default
#print axioms Verif.Props.C48_locations
#print axioms Verif.Props.C48_load_sound
#print axioms Verif.Props.C48_load_complete
#print axioms Verif.Props.C48_load_default
#print axioms Verif.Props.C49_exact
#print axioms Verif.Props.C49_partial
#print axioms Verif.Props.C49_load_standard_partial
#print axioms Verif.Props.C49_violation
#print axioms Verif.Props.C50_variant
#print axioms Verif.Props.C50_init
#print axioms Verif.Props.C50_terminate_live
#print axioms Verif.Props.C50_terminate_other_partial
#print axioms Verif.Props.C50_violation
#print axioms Verif.Props.C50_history
#print axioms Verif.Props.C50_no_ub_partial
#print axioms Verif.Props.C51_text_order
#print axioms Verif.Props.C52_cached
#print axioms Verif.Props.C52_iterate_utf8
#print axioms Verif.Props.C52_iterate_partial
#print axioms Verif.Props.C52_startpos_partial
#print axioms Verif.Props.C52_violation_continued
#print axioms Verif.Props.C53_invisible_partial
#print axioms Verif.Props.C53_invisible_utf8_partial
#print axioms Verif.Props.C53_violation_extra_hyphens
#print axioms Verif.Props.C53_violation_continued
#print axioms Verif.Props.C53_violation_unterminated
#print axioms Verif.Props.C54_analysis
#print axioms Verif.Props.C54_token_text
#print axioms Verif.Props.C54_violation_null_structure
#print axioms Verif.Props.C55_inside_utf8
#print axioms Verif.Props.C55_inside_partial
#print axioms Verif.Props.C55_violation_empty_prefix
#print axioms Verif.Props.C56_capitalisation
#print axioms Verif.Props.C57_analysis
#print axioms Verif.Props.C57_names_distinct
#print axioms Verif.Props.C57_replace
#print axioms Verif.Props.C58_listed_partial
#print axioms Verif.Props.C58_no_duplicates
#print axioms Verif.Props.C58_violation
#print axioms Verif.Props.C60_validity
#print axioms Verif.Props.C60_baseform
#print axioms Verif.Props.C60_attributes_partial
#print axioms Verif.Props.C60_analysis_partial
#print axioms Verif.Props.C60_empty_violation
#print axioms Verif.Props.C60_structure_violation
#print axioms Verif.Props.C59_structure_partial
#print axioms Verif.Props.C59_analysis_partial
#print axioms Verif.Props.C59_pattern_colon_violation
#print axioms Verif.Props.C59_colon_order_violation
#print axioms Verif.Props.C59_lost_border_violation
#print axioms Verif.Props.C59_initial_border_violation
#print axioms Verif.Props.C59_overflow_violation
#print axioms Verif.Props.C62_partial
#print axioms Verif.Props.C62_deterministic
#print axioms Verif.Props.C63_partial
#print axioms Verif.Props.C63_accepted
#print axioms Verif.Props.C63_violation
#print axioms Verif.Props.C64_partial
#print axioms Verif.Props.C64_violation
#print axioms Verif.Props.C65_exact
#print axioms Verif.Props.C66_accepted
#print axioms Verif.Props.C66_verdict
#print axioms Verif.Props.C67_syllables
#print axioms Verif.Props.C67_exact_pretty
#print axioms Verif.Props.C67_complete_ugly
#print axioms Verif.Props.C67_exact_ugly
#print axioms Verif.Props.C68_presentation
#print axioms Verif.Props.C68_all_upper
#print axioms Verif.Props.C68_capitalised
#print axioms Verif.Props.C68_dot
#print axioms Verif.Props.C68_prefix_kept
#print axioms Verif.Props.C68_violation_dot
#print axioms Verif.Props.C69_marks
#print axioms Verif.Props.C69_unknown_hyphens
#print axioms Verif.Props.C69_insert_loses_nothing
#print axioms Verif.Props.C69_misfit_loses_letter
#print axioms Verif.Props.C70_analyser
#print axioms Verif.Props.C70_lookup
#print axioms Verif.Props.C70_lookup_capital
#print axioms Verif.Props.C70_spell
#print axioms Verif.Props.C70_hyphenate
#print axioms Verif.Props.C71_format
#print axioms Verif.Props.C71_fields
#print axioms Verif.Props.C71_language
#print axioms Verif.Props.C71_last_line
#print axioms Verif.Props.C71_explicit_default_partial
#print axioms Verif.Props.C71_getlines
#print axioms Verif.Props.C71_environment
#print axioms Verif.Props.C71_grammar_violation
#print axioms Verif.Props.C71_language_violation
#print axioms Verif.Props.C72_init
#print axioms Verif.Props.C72_failure_partial
#print axioms Verif.Props.C72_release
#print axioms Verif.Props.C72_failure_violation
#print axioms Verif.Props.C72_unmappable_violation
#print axioms Verif.Props.C72_grammar_line_violation
#print axioms Verif.Props.C72_ocr_violation
#print axioms Verif.Props.C73_list
#print axioms Verif.Props.C73_usable
#print axioms Verif.Props.C73_variant
#print axioms Verif.Props.C73_parsed
#print axioms Verif.Props.C73_capability_violation
#print axioms Verif.Props.C73_variant_violation
#print axioms Verif.Props.C74_punctuation
#print axioms Verif.Props.C74_quotations
#print axioms Verif.Props.C74_repeated_partial
#print axioms Verif.Props.C74_verbs
#print axioms Verif.Props.C74_negative_verb
#print axioms Verif.Props.C74_compound_verb
#print axioms Verif.Props.C74_conjunction
#print axioms Verif.Props.C74_end
#print axioms Verif.Props.C74_applies
#print axioms Verif.Props.C74_reported_partial
#print axioms Verif.Props.C74_violation_touching
#print axioms Verif.Props.C75_attributes
#print axioms Verif.Props.C75_other
#print axioms Verif.Props.C75_paragraph
#print axioms Verif.Props.C75_order
#print axioms Verif.Props.C75_violation_order
#print axioms Verif.Props.C75_violation_order_reported
#print axioms Verif.Props.C76_reported
#print axioms Verif.Props.C76_plain
#print axioms Verif.Props.C76_inside
#print axioms Verif.Props.C76_brackets
#print axioms Verif.Props.C76_violation_last
#print axioms Verif.Props.C76_violation_memory
#print axioms Verif.Props.C76_violation_foreign
#print axioms Verif.Props.C76_violation_kinds
#print axioms Verif.Props.C77_valid
#print axioms Verif.Props.C77_analyses
#print axioms Verif.Props.C77_joined
#print axioms Verif.Props.C77_hyphenated
#print axioms Verif.Props.C77_violation_end
#print axioms Verif.Props.C78_start
#print axioms Verif.Props.C78_none
#print axioms Verif.Props.C78_simple
#print axioms Verif.Props.C78_witness_dotword
#print axioms Verif.Props.C79_reading
#print axioms Verif.Props.C79_analyses
#print axioms Verif.Props.C79_plain
#print axioms Verif.Props.C79_consistent
#print axioms Verif.Props.C79_noun
#print axioms Verif.Props.C79_violation_unknown_class
#print axioms Verif.Props.C80_baseform
#print axioms Verif.Props.C80_unique
#print axioms Verif.Props.C80_short
#print axioms Verif.Props.C80_last_word
#print axioms Verif.Props.C80_itself
#print axioms Verif.Props.C80_simple
#print axioms Verif.Props.C80_analyses
#print axioms Verif.Props.C80_noun
#print axioms Verif.Props.C80_violation_section
#print axioms Verif.Props.C80_violation_numeral_mark
#print axioms Verif.Props.C80_violation_numeral_id
#print axioms Verif.Props.C80_violation_short
#print axioms Verif.Props.C81_typing
#print axioms Verif.Props.C81_ocr
#print axioms Verif.Props.C81_unique
#print axioms Verif.Props.C81_suggestions
#print axioms Verif.Props.C81_suggestions_ocr
#print axioms Verif.Props.C81_case_only
#print axioms Verif.Props.C81_tried
#print axioms Verif.Props.C81_found_tried
#print axioms Verif.Props.C81_earlier
#print axioms Verif.Props.C81_parts
#print axioms Verif.Props.C82_look_up_partial
#print axioms Verif.Props.C82_symbol_order
#print axioms Verif.Props.C82_transition_order
#print axioms Verif.Props.C82_total
#print axioms Verif.Props.C82_empty_line
#print axioms Verif.Props.C82_long_symbol
#print axioms Verif.Props.C82_no_letters
#print axioms Verif.Props.C82_empty_text
#print axioms Verif.Autocorrect.C83_reports_partial
#print axioms Verif.Autocorrect.C83_soft_hyphens_partial
#print axioms Verif.Autocorrect.C83_compiled_partial
#print axioms Verif.Autocorrect.C83_listed
#print axioms Verif.Autocorrect.C83_text_partial
#print axioms Verif.Autocorrect.C83_violation_hidden
#print axioms Verif.Autocorrect.C83_violation_missed
#print axioms Verif.Autocorrect.C83_violation_false
#print axioms Verif.Autocorrect.C83_violation_end
#print axioms Verif.Autocorrect.C83_violation_later
#print axioms Verif.Props.C84_described
#print axioms Verif.Props.C84_described_ucs4_partial
#print axioms Verif.Props.C84_distinct
#print axioms Verif.Props.C84_unknown
#print axioms Verif.Props.C84_violation_language
#print axioms Verif.Props.C85_reading_partial
#print axioms Verif.Props.C85_lookup_partial
#print axioms Verif.Props.C85_lookup_capital_partial
#print axioms Verif.Props.C85_noun
#print axioms Verif.Props.C85_name
#print axioms Verif.Props.C85_violation_base_hyphen
#print axioms Verif.Props.C85_violation_late_class
#print axioms Verif.Props.C85_violation_two_hyphens
#print axioms Verif.Props.C86_same_output
#print axioms Verif.Props.C86_defined_partial
#print axioms Verif.Props.C86_progress
#print axioms Verif.Props.C86_finite
#print axioms Verif.Props.C86_all_executions_partial
#print axioms Verif.Props.C86_library_partial
#print axioms Verif.Props.C86_library_steady
#print axioms Verif.Props.C86_complete_execution
#print axioms Verif.Props.C86_violation_few_words
#print axioms Verif.Props.C87_total_partial
#print axioms Verif.Props.C87_separator
#print axioms Verif.Props.C87_reversible
#print axioms Verif.Props.C87_insert
#print axioms Verif.Props.C87_hyphen
#print axioms Verif.Props.C87_lines
#print axioms Verif.Props.C88_readback
#print axioms Verif.Props.C88_readback_threads
#print axioms Verif.Props.C88_only_incorrect
#print axioms Verif.Props.C88_only_letters
#print axioms Verif.Props.C88_one_line
#print axioms Verif.Props.C88_library
#print axioms Verif.Props.C89_tokens
#print axioms Verif.Props.C89_sentences
#print axioms Verif.Props.C89_grammar_partial
#print axioms Verif.Props.C89_violation_quotation_mark
#print axioms Verif.Props.C89_violation_line_numbers
#print axioms Verif.Props.C90_wordbases_partial
#print axioms Verif.Props.C90_analyses
#print axioms Verif.Props.C90_short
#print axioms Verif.Props.C90_notes
#print axioms Verif.Props.C90_letters
#print axioms Verif.Props.C90_baseform
#print axioms Verif.Props.C90_compound
#print axioms Verif.Props.C90_violation_suffix
#print axioms Verif.Props.C90_violation_no_letters
#print axioms Verif.Props.C91_partial
#print axioms Verif.Props.C91_limits
#print axioms Verif.Props.C91_long
#print axioms Verif.Props.C91_case
#print axioms Verif.Props.C91_history
#print axioms Verif.Props.C91_deterministic
#print axioms Verif.Props.C92_ucs4
#print axioms Verif.Props.C92_utf8_partial
#print axioms Verif.Props.C92_null
#print axioms Verif.Props.C92_violation
#print axioms Verif.Props.C93_token
#print axioms Verif.Props.C93_unique
#print axioms Verif.Props.C93_stream
#print axioms Verif.Props.C93_mail
#print axioms Verif.Props.C93_url
#print axioms Verif.Props.C93_no_dot
#print axioms Verif.Props.C94_parts_partial
#print axioms Verif.Props.C94_exact_pretty
#print axioms Verif.Props.C94_exact_ugly
#print axioms Verif.Props.C94_unknown
#print axioms Verif.Props.C94_off_partial
#print axioms Verif.Props.C94_violation
#print axioms Verif.Props.C94_violation_unknown
#print axioms Verif.Props.C95_look_up_partial
#print axioms Verif.Props.C95_masked_flag
#print axioms Verif.Props.C95_byte_order
#print axioms Verif.Props.C95_trailing_space
#print axioms Verif.Props.C95_unchecked_final_weight
#print axioms Verif.Props.C96_spell_partial
#print axioms Verif.Props.C96_words
#print axioms Verif.Props.C96_accepted
#print axioms Verif.Props.C97_suggestions_partial
#print axioms Verif.Props.C98_analyses_partial
#print axioms Verif.Props.C98_no_flags
#print axioms Verif.Props.C98_known
#print axioms Verif.Props.C98_violation
#print axioms Verif.Props.C99_dictionary
#print axioms Verif.Props.C99_accepted
#print axioms Verif.Props.C100_division
#print axioms Verif.Props.C100_text
#print axioms Verif.Props.C101_reads
#print axioms Verif.Props.C101_stops
#print axioms Verif.Props.C101_missing
#print axioms Verif.Props.C101_outcome
#print axioms Verif.Props.C101_threads
#print axioms Verif.Props.C101_last
#print axioms Verif.Props.C101_number
#print axioms Verif.Props.C101_undefined
#print axioms Verif.Props.C101_cache_undefined
#print axioms Verif.Props.C102_hyph_stops
#print axioms Verif.Props.C102_hyph
#print axioms Verif.Props.C102_gc_stops
#print axioms Verif.Props.C102_gc
#print axioms Verif.Props.C102_ignore_numbers
#print axioms Verif.ApiHeap.C103_session_partial
#print axioms Verif.ApiHeap.C103_stays_partial
#print axioms Verif.ApiHeap.C103_all_released_partial
#print axioms Verif.ApiHeap.C103_new_interface
#print axioms Verif.ApiHeap.C103_suggest_out_of_memory
#print axioms Verif.ApiHeap.C103_hyphenate_out_of_memory
#print axioms Verif.ApiHeap.C103_copied_strings_leak
#print axioms Verif.ApiHeap.C103_error_out_of_memory
#print axioms Verif.SpellProgram.C104_program_partial
#print axioms Verif.HyphProgram.C105_program
#print axioms Verif.AnalysisProgram.C106_reading
#print axioms Verif.AnalysisProgram.C106_analyses
#print axioms Verif.AnalysisProgram.C106_program_partial
#print axioms Verif.AnalysisProgram.C106_hyphens_partial
#print axioms Verif.VfstcProgram.C107_not_asked
#print axioms Verif.VfstcProgram.C107_asks_unique
#print axioms Verif.VfstcProgram.C107_plain
#print axioms Verif.VfstcProgram.C107_weighted
#print axioms Verif.VfstcProgram.C107_machine
#print axioms Verif.VfstcProgram.C107_text
#print axioms Verif.VfstcProgram.C107_dictionary
#print axioms Verif.VfstcProgram.C107_weighted_dictionary
#print axioms Verif.VfstcProgram.C107_total
#print axioms Verif.VfstcProgram.C107_other_files
#print axioms Verif.VfstcProgram.C107_lost_violation
#print axioms Verif.Zhfst.C108_format3_partial
#print axioms Verif.Zhfst.C108_format4_partial
#print axioms Verif.Zhfst.C108_own_grammar_partial
#print axioms Verif.Zhfst.C108_loader
#print axioms Verif.Zhfst.C108_parsed
#print axioms Verif.Zhfst.C108_newest_first
#print axioms Verif.Zhfst.C108_names_violation
#print axioms Verif.Zhfst.C108_leak_violation
#print axioms Verif.Zhfst.C108_order_violation
#print axioms Verif.Zhfst.C108_exception_violation
#print axioms Verif.GcProgram.C109_program_partial
#print axioms Verif.GcProgram.C109_phrases_partial
#print axioms Verif.GcProgram.C109_sentences
#print axioms Verif.HyphenText.C110_unique
#print axioms Verif.HyphenText.C110_accepted
#print axioms Verif.HyphenText.C110_program_partial
#print axioms Verif.Legacy.C111_isolated
#print axioms Verif.Legacy.C111_session
#print axioms Verif.Legacy.C111_defined
#print axioms Verif.Legacy.C111_grammar
#print axioms Verif.Legacy.C111_grammar_none
#print axioms Verif.Legacy.C111_options
#print axioms Verif.Legacy.C111_spelling
#print axioms Verif.Legacy.C111_current
#print axioms Verif.Legacy.C111_violation
#print axioms Verif.Legacy.C111_violation_cache_size
#print axioms Verif.Hfst.C112_verdict
#print axioms Verif.Hfst.C112_known_partial
#print axioms Verif.Hfst.C112_sound
#print axioms Verif.Hfst.C112_missing
#print axioms Verif.Hfst.C112_suggestions
#print axioms Verif.Hfst.C112_firsts
#print axioms Verif.Hfst.C112_violation
#print axioms Verif.Hfst.C112_violation_encoding
#print axioms Verif.Hfst.C112_violation_options
#print axioms Verif.Hfst.C113_analyses_partial
#print axioms Verif.Hfst.C113_utf8_partial
#print axioms Verif.Hfst.C113_violation_bytes
#print axioms Verif.Hfst.C113_violation_plus
#print axioms Verif.Hfst.C113_violation_first
#print axioms Verif.Hfst.C113_violation_word
#print axioms Verif.Hfst.C113_violation_zhfst
#print axioms Verif.Hfst.C113_violation_hyphenation
#print axioms Verif.NullBackends.C114_session
#print axioms Verif.NullBackends.C114_allOk_default
#print axioms Verif.NullBackends.C114_allOk_rejects
#print axioms Verif.NullBackends.C114_capital_example
#print axioms Verif.NullBackends.C114_allError
#print axioms Verif.SuggestText.C115_correct
#print axioms Verif.SuggestText.C115_complete
#print axioms Verif.SuggestText.C115_case
#print axioms Verif.SuggestText.C115_dictionary
#print axioms Verif.SuggestProgram.C116_program_partial
#print axioms Verif.SuggestProgram.suggestions_follow
#print axioms Verif.SuggestOneLine.C116_one_line_partial
#print axioms Verif.SoftText.C117_points
#print axioms Verif.SoftText.C117_verdict
#print axioms Verif.SoftText.C117_accepted
#print axioms Verif.SoftProgram.C118_unique
#print axioms Verif.SoftProgram.C118_accepted
#print axioms Verif.SoftProgram.C118_program_partial
#print axioms Verif.SuggestSoft.C118_suggestions_partial
#print axioms Verif.SuggestSoft.C118_one_line_partial
#print axioms Verif.SoftHyphenation.C119_verdict_partial
#print axioms Verif.SoftHyphenation.C119_accepted_partial
#print axioms Verif.SoftHyphenation.C119_violation
