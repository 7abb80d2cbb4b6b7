import Verif.Axioms
import Verif.Props.Analysis
import Verif.Props.AnalysisHyphens
import Verif.Props.AnalysisProgram
import Verif.Props.ApiHeap
import Verif.Props.Autocorrect
import Verif.Props.Case
import Verif.Props.DictIndex
import Verif.Props.Dictionary
import Verif.Props.FinnishAttributes
import Verif.Props.FinnishBase
import Verif.Props.FinnishDict
import Verif.Props.FinnishDivision
import Verif.Props.FinnishFst
import Verif.Props.FinnishGrammatical
import Verif.Props.FinnishLetters
import Verif.Props.FinnishSpell
import Verif.Props.FinnishStructure
import Verif.Props.FinnishText
import Verif.Props.FinnishValidity
import Verif.Props.Fst
import Verif.Props.FstFile
import Verif.Props.FstText
import Verif.Props.FstTextUse
import Verif.Props.FstTextW
import Verif.Props.FstWeighted
import Verif.Props.FstWeightedFile
import Verif.Props.GcHyphens
import Verif.Props.GcOutput
import Verif.Props.GcPhrases
import Verif.Props.GcProgram
import Verif.Props.GrammarAnalysis
import Verif.Props.GrammarCache
import Verif.Props.GrammarError
import Verif.Props.GrammarRules
import Verif.Props.Handles
import Verif.Props.HfstAnalyzer
import Verif.Props.HfstSpell
import Verif.Props.HyphCompound
import Verif.Props.HyphInsert
import Verif.Props.HyphMarks
import Verif.Props.HyphProgram
import Verif.Props.HyphRules
import Verif.Props.HyphenText
import Verif.Props.Hyphenator
import Verif.Props.LanguageTag
import Verif.Props.Languages
import Verif.Props.Legacy
import Verif.Props.LetterCase
import Verif.Props.Lifecycle
import Verif.Props.Nonword
import Verif.Props.Normalise
import Verif.Props.NullBackends
import Verif.Props.Sentence
import Verif.Props.SentenceEnds
import Verif.Props.Setup
import Verif.Props.SoftHyphenation
import Verif.Props.SoftProgram
import Verif.Props.SoftText
import Verif.Props.Spell
import Verif.Props.SpellExact
import Verif.Props.SpellHistory
import Verif.Props.SpellOutput
import Verif.Props.SpellProgram
import Verif.Props.SpellUtils
import Verif.Props.SpellerCache
import Verif.Props.Suggest
import Verif.Props.SuggestCase
import Verif.Props.SuggestEdits
import Verif.Props.SuggestOneLine
import Verif.Props.SuggestProgram
import Verif.Props.SuggestSearch
import Verif.Props.SuggestSoft
import Verif.Props.SuggestText
import Verif.Props.Threads
import Verif.Props.Token
import Verif.Props.TokenAttributes
import Verif.Props.Tokenizer
import Verif.Props.TokenizerCstr
import Verif.Props.ToolArgs
import Verif.Props.ToolArgsCommon
import Verif.Props.Tweaks
import Verif.Props.TweaksHyphens
import Verif.Props.Utf8
import Verif.Props.VfstAnalyzer
import Verif.Props.VfstSpell
import Verif.Props.VfstcMain
import Verif.Props.VoikkoHyphenate
import Verif.Props.WordBases
import Verif.Props.ZhfstLoaders
