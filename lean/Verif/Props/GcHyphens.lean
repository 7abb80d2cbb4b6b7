import Verif.Props.HyphenText
/-!
# C109: the sentences of a text with hyphens

The sentences of a paragraph depend on the answers of the speller. `SpellsText` in `Props/GcProgram` ties these to the text of the dictionary for words without hyphens inside
of them. Here are the answers on all words without soft hyphens.
-/

set_option linter.unusedVariables false

namespace Verif.GcProgram
open Verif Verif.Att Verif.Args Verif.Props Verif.HyphenText
open Verif.HyphProgram (Reads reads_exist)

/-- **C109** (sentences): the answers of the speller that the grammar checker uses for finding the ends of sentences are, for each word without soft hyphens, whether the
verdict of the rules of C110 (there is only one, `C110_unique`) is not "unknown". The analyser `an` is the one of `C109_program_partial`: both are what the file gives in any state. -/
theorem C109_sentences {text : List Nat} {ls : List Att.Line} (hd : Att.Describes text ls) (hp : Proper ls) (hf : FinnishText ls)
    {srtS : List (Nat × List Nat) → List (Nat × List Nat)} {srtT : List CTrans → List CTrans}
    (hS : SortsBy (fun a b => attSymLt a.2 b.2) srtS) (hT : SortsBy fileOrderLt srtT) (sw : Bool)
    {file : List Nat} {f : Fst} (hfile : attCompile srtS srtT sw text = some (some file)) (hload : loadFile file = some (some f))
    {an : List Wc → List GramAn} (han : ∀ c, AnalysedBefore f (fun _ => True) c → ∀ w, ∃ l c', finnishAnalyzeFst f c w false = some (l, c') ∧ an w = l.map asGramAn) :
    ∃ runsOf : List Wc → List (List Nat), (∀ v : List Wc, v.length ≤ 255 → AllRuns ls v (runsOf v)) ∧
      (∃ read, Reads ls runsOf read) ∧ ∀ read, Reads ls runsOf read →
      ∀ extra, ∃ V, RulesOf extra (wordViews runsOf read) V ∧ ∀ w : List Wc, 0 ∉ w → 0xAD ∉ w → (dictSpellOk an extra w = true ↔ V w ≠ .failed) := by
  obtain ⟨file', f', g1, g2, runsOf, an', dict, g3, g4, g5, main⟩ := C110_program_partial hd hp hf hS hT sw
  rw [hfile, Option.some.injEq, Option.some.injEq] at g1
  subst g1
  rw [hload, Option.some.injEq, Option.some.injEq] at g2
  subst g2
  have hmor : (fun w => (an w).map (·.toMorAn)) = an' := by
    funext w
    obtain ⟨l, c', e1, e2⟩ := han _ AnalysedBefore.new w
    obtain ⟨l', c'', e3, e4⟩ := g4 _ AnalysedBefore.new w
    rw [e1] at e3
    cases e3
    rw [e2, e4, List.map_map]
    rfl
  refine ⟨runsOf, g3, reads_exist hf g3, fun read hread extra => ⟨_, (main read hread).1 extra, fun w h0 hs => ?_⟩⟩
  unfold dictSpellOk
  rw [hmor, g5 extra w h0]
  simp only [bne_iff_ne, ne_eq, Option.some.injEq]

/-- Non-vacuity: with the dictionary that knows the words `a`, `ab`, `abb`, ... the word `ab-b` is known to the sentence splitter with ACCEPT_EXTRA_HYPHENS only. -/
example (sw : Bool) : ∃ an : List Wc → List GramAn, dictSpellOk an true (lit "ab-b") = true ∧ dictSpellOk an false (lit "ab-b") = false := by
  obtain ⟨file, f, h1, h2, _, an, _, h4, _⟩ := C109_program_partial haha_describes haha_proper haha_finnish sortSymbols_sorts sortTransitions_sorts sw
  obtain ⟨runsOf, hr, _, key⟩ := C109_sentences haha_describes haha_proper haha_finnish sortSymbols_sorts sortTransitions_sorts sw h1 h2 h4
  have key := key (fun v _ => hahaReading v) (by
    intro v hv run hm
    obtain ⟨m, rfl, rfl⟩ := haha_runs (((hr v hv).mem run).1 hm)
    exact ⟨haha_output m, haha_good⟩)
  obtain ⟨V1, a1, b1⟩ := key true
  obtain ⟨V2, a2, b2⟩ := key false
  obtain ⟨c1, c2⟩ := haha_hyphen hr (fun e => if e then V1 else V2) (fun e => by cases e <;> assumption)
  refine ⟨an, (b1 _ (by decide) (by decide)).2 ?_, Bool.eq_false_iff.2 fun h => (b2 _ (by decide) (by decide)).1 h ?_⟩
  · simp only [if_true] at c1; rw [c1]; simp
  · simpa using c2

end Verif.GcProgram
