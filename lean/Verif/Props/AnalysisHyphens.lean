import Verif.Props.AnalysisProgram
import Verif.Props.HyphenText
/-!
# C106 for words with hyphens: what `voikkospell -m` prints for them

`Props/AnalysisProgram` is about words without hyphens inside of them, and `Props/HyphenText` gives the verdicts on the others. Here both are put together.
-/

set_option linter.unusedSimpArgs false
set_option linter.unusedVariables false

namespace Verif.AnalysisProgram

open Verif Verif.Props Verif.Threads Verif.SpellOutput Verif.Args Verif.Att Verif.SpellProgram Verif.HyphenText
open Verif.HyphProgram (reads_exist)
open Verif.GcProgram (View viewsOf wordViews)

open Classical in
/-- **C106** (the program, all words without soft hyphens): `voikkospell` with the compiled dictionary and a command line of known options without `-l`, `-L`, `-x` and one of
the modes prints for each word whether it is correct by the rules of C110, and with `-m` or `-M` after each correct word the numbered analyses that the text says of the word
itself. A word that is correct only by the rules for hyphens has no analyses. Each word is analysed in whatever state the analyser has come to. The readings `read` exist for
every such text. Missing for the full claim: fewer blocks of words than threads (`C86_violation_few_words`), cache sizes over 18 (`C101_cache_undefined`) and words with soft
hyphens. -/
theorem C106_hyphens_partial {text : List Nat} {ls : List Line} (hd : Att.Describes text ls) (hp : Proper ls) (hf : FullText ls)
    {srtS : List (Nat × List Nat) → List (Nat × List Nat)} {srtT : List CTrans → List CTrans}
    (hS : SortsBy (fun a b => attSymLt a.2 b.2) srtS) (hT : SortsBy fileOrderLt srtT) (sw : Bool) :
    ∃ file f, attCompile srtS srtT sw text = some (some file) ∧ loadFile file = some (some f) ∧
      ∃ (runsOf : List Wc → List (List Nat)) (an : Analyzer) (dict : Bool → List Wc → SpellRes) (ana : List Wc → List (List (List Wc × List Wc))),
        (∀ v : List Wc, v.length ≤ 255 → AllRuns ls v (runsOf v)) ∧
        (∀ c, AnalysedBefore f (fun _ => True) c → ∀ w, ∃ l c', finnishAnalyzeFst f c w false = some (l, c') ∧ an w = l.map asMorAn) ∧
        (∀ extra w, 0 ∉ w → finnishSpell extra an w = some (dict extra w)) ∧ ShowsText ls runsOf f ana ∧
        (∃ read : List Wc → List Nat → List SItem, HyphProgram.Reads ls runsOf read) ∧
        ∀ read : List Wc → List Nat → List SItem, HyphProgram.Reads ls runsOf read →
        (∀ extra, RulesOf extra (wordViews runsOf read) (dict extra)) ∧
        ∀ {G : Type} (init : Arg → Option Arg → Option (Handle G)) (args : List Arg) (items : List Item) (rest : Option Arg) (h : Args.Reads spellKeys args items rest)
          (hr : rest ≠ some (lit "-j")) (hitems : ∀ x ∈ items, NumbersOk x ∧ stopOf (α := SpellTool G) x = none)
          (hl : .word (lit "-l") ∉ items) (hL : .word (lit "-L") ∉ items) (hk : ∀ w, .word w ∈ items → SpellKnown w) (hc : wantedCache items ≤ 18)
          (hinit : ∃ h0, initHandle G = some h0 ∧ init ((lastOf (valueOf "-d") items).getD (lit "fi")) (lastOf (valueOf "-p") items) = some h0)
          (hx : ¬ ∃ w, .word w ∈ items ∧ lit "-x" <+: w)
          (hmode : lastOf modeOf items = none)
          (words : List (List Wc)) (hw : ∀ w ∈ words, TypedWord w) (hb : (wantedThreads items).toNat ≤ blockCount words ∨ words = [])
          (suggest : List Wc → UB (Option (List (List Wc)))) (sugg : List Wc → List (List Wc)) (hs : ∀ w ∈ words, ∃ l, suggest w = some l ∧ l.getD [] = sugg w)
          (hlw : ∀ w ∈ words, 0x0A ∉ w) (hls : ∀ w ∈ words, ∀ s ∈ sugg w, 0x0A ∉ s)
          (analyze : List Wc → UB (List (List (List Wc × List Wc))))
          (ha : ∀ w ∈ words, ∃ c, AnalysedBefore f (fun _ => True) c ∧ analyze w = (toolAnalyses f c w).map (·.1)),
          ∃ t, spellToolArgs init args = some (.run t) ∧
            ∀ (n : Nat) (tool : Tool (Handle G)), ToolRun (checkWord (SpellProgram.handleApi dict suggest analyze) t.opts) n (startTool t.handles words) tool →
              ¬ CanStep (checkWord (SpellProgram.handleApi dict suggest analyze) t.opts) tool →
              let Right := CorrectBy (wordViews runsOf read) (handleAfter {} items : Handle G).acceptExtraHyphens (handleAfter {} items : Handle G).spell
              tool.pc = .terminated ∧ entries tool.out = words.map fun w =>
                { word := w, correct := decide (Right w),
                  attributes := if (.word (lit "-m") ∈ items ∨ .word (lit "-M") ∈ items) ∧ Right w then (SpellOutput.numbered 1 (ana w)).map some else [],
                  suggestions := if .word (lit "-s") ∈ items ∧ ¬ Right w then sugg w else [] } := by
  obtain ⟨file, f, h1, h2, runsOf, an, next, h3, h4, h5, h6, h7⟩ := dictionary_outputs hd hp hf.toFinnishText hS hT sw
  obtain ⟨ana, hshow⟩ := shows_text hf h3 h6 h7
  have hdict : ∀ extra w, 0 ∉ w → finnishSpell extra an w = some ((fun extra w => (finnishSpell extra an w).getD .failed) extra w) := by
    intro extra w h0
    obtain ⟨r, e⟩ := h5.total extra w h0
    simp only [e, Option.getD_some]
  generalize (fun extra w => (finnishSpell extra an w).getD .failed) = dict at hdict
  refine ⟨file, f, h1, h2, runsOf, an, dict, ana, h3, h4, hdict, hshow, reads_exist hf.toFinnishText h3, ?_⟩
  intro read hread
  obtain ⟨next', _, n2, n3⟩ := h5.outputs
  have hrules : ∀ extra, RulesOf extra (wordViews runsOf read) (dict extra) :=
    fun extra w h0 hs => ruled_of (word_fits hf.toFinnishText h3 n3 hread n2) extra (hdict extra) w h0 hs
  refine ⟨hrules, ?_⟩
  intro G init args items rest h hr hitems hl hL hk hc hinit hx hmode words hw hb suggest sugg hs hlw hls analyze ha
  have ha' : ∀ w ∈ words, analyze w = some (ana w) := by
    intro w hm
    obtain ⟨c, hc, e⟩ := ha w hm
    obtain ⟨c', e', _⟩ := hshow.total c hc w
    rw [e, e']
    rfl
  obtain ⟨t, ht, hrun⟩ := SpellProgram.program_judged (W := TypedWord) (C := CorrectBy (wordViews runsOf read))
    ⟨fun _ h => h.ok, fun extra o cache hc w p => C110_accepted (hrules extra) o cache hc w p.ok p.soft⟩
    init args items rest h hr hitems hl hL hk hc hinit hx words hw hb suggest analyze sugg hs ana ha'
    ⟨hlw, hls, fun w hm a hma kv hkv => hshow.lines w a hma kv hkv⟩
  exact ⟨t, ht, fun n tool a b => (hrun n tool a b).2.2 hmode⟩

/-! ### A command line to which this applies -/

def hyphenArgs : List Arg := [lit "-m", lit "accept_extra_hyphens=1"]
def hyphenItems : List Item := [.word (lit "-m"), .word (lit "accept_extra_hyphens=1")]

/-- Non-vacuity: with the dictionary that knows the words `a`, `ab`, `abb`, ... and ACCEPT_EXTRA_HYPHENS the program prints that `ab-b` is correct. The text gives it no
reading, and no analysis is printed. -/
example (sw : Bool) (h0 : Handle Nat) (hh : initHandle Nat = some h0) : ∃ (dict : Bool → List Wc → SpellRes) (f : Fst) (t : SpellTool Nat),
    spellToolArgs (fun _ _ => some h0) hyphenArgs = some (.run t) ∧
    ∀ analyze, analyze = (fun w => (toolAnalyses f (finnishInit f) w).map (·.1)) →
    (∃ n tool, ToolRun (checkWord (handleApi dict (fun _ => some none) analyze) t.opts) n (startTool t.handles [lit "ab-b"]) tool ∧
      ¬ CanStep (checkWord (handleApi dict (fun _ => some none) analyze) t.opts) tool) ∧
    ∀ n tool, ToolRun (checkWord (handleApi dict (fun _ => some none) analyze) t.opts) n (startTool t.handles [lit "ab-b"]) tool →
      ¬ CanStep (checkWord (handleApi dict (fun _ => some none) analyze) t.opts) tool →
      entries tool.out = [{ word := lit "ab-b", correct := true, attributes := [], suggestions := [] }] := by
  obtain ⟨file, f, _, _, runsOf, an, dict, ana, hr, _, _, hshow, _, main⟩ :=
    C106_hyphens_partial haha_describes haha_proper haha_fullText sortSymbols_sorts sortTransitions_sorts sw
  have hread : HyphProgram.Reads hahaLines runsOf (fun v _ => hahaReading v) := by
    intro v hv run hm
    obtain ⟨m, rfl, rfl⟩ := haha_runs (((hr v hv).mem run).1 hm)
    exact ⟨haha_output m, haha_good⟩
  replace main := main (fun v _ => hahaReading v) hread
  have l4 : setCase .allLower (lit "ab-b") = lit "ab-b" := by decide +kernel
  have hana : ana (lit "ab-b") = [] := by
    obtain ⟨ps, e1, e2⟩ := hshow.said (lit "ab-b") (by decide)
    have : runsOf (lit "ab-b") = [] := by
      refine List.eq_nil_iff_forall_not_mem.2 fun run hm => ?_
      obtain ⟨m, e, _⟩ := haha_runs (((hr (lit "ab-b") (by decide)).mem run).1 hm)
      have : (0x2D : Wc) ∈ (97 :: List.replicate m 98 : List Wc) := e ▸ (by decide)
      rcases List.mem_cons.1 this with h | h
      · cases h
      · have := List.eq_of_mem_replicate h; cases this
    rw [l4, this] at e2
    cases e2
    exact e1
  have hit : ∀ x ∈ hyphenItems, x = .word (lit "-m") ∨ x = .word (lit "accept_extra_hyphens=1") := fun x hx => by
    simpa only [hyphenItems, List.mem_cons, List.not_mem_nil, or_false] using hx
  have hwd : ∀ w, Item.word w ∈ hyphenItems → w = lit "-m" ∨ w = lit "accept_extra_hyphens=1" := fun w hw => by
    rcases hit _ hw with h | h <;> injection h with h
    · exact .inl h
    · exact .inr h
  have hpl : ∀ w ∈ [lit "ab-b"], TypedWord w := by
    intro w hm
    rw [List.mem_singleton.1 hm]
    exact ⟨by unfold WordOk; decide, by decide +kernel⟩
  have all := fun (analyze) (ha) => main.2 (fun _ _ => some h0) hyphenArgs hyphenItems none
    ⟨rfl, by simp [hyphenItems], fun w hw => by rcases hwd w hw with rfl | rfl <;> decide +kernel, by simp⟩ (by simp)
    (fun x hx => by rcases hit x hx with rfl | rfl <;> exact ⟨by unfold NumbersOk; decide +kernel, rfl⟩) (by decide +kernel) (by decide +kernel)
    (fun w hw => by rcases hwd w hw with rfl | rfl <;> (unfold SpellKnown; decide +kernel)) (by decide +kernel) ⟨h0, hh, rfl⟩
    (by rintro ⟨w, hm, hx⟩; rcases hwd w hm with rfl | rfl <;> exact absurd hx (by decide +kernel)) (by decide +kernel)
    [lit "ab-b"] hpl (.inl (by decide +kernel)) (fun _ => some none) (fun _ => []) (fun _ _ => ⟨none, rfl, rfl⟩) (by decide +kernel) (by simp) analyze ha
  obtain ⟨t, ht, -⟩ := all (fun w => (toolAnalyses f (finnishInit f) w).map (·.1)) (fun _ _ => ⟨_, .new, rfl⟩)
  refine ⟨dict, f, t, ht, ?_⟩
  intro analyze han
  obtain ⟨t', ht', hrun⟩ := all analyze (fun _ _ => ⟨_, .new, by rw [han]⟩)
  rw [ht] at ht'
  cases ht'
  refine ⟨C86_complete_execution, fun n tool a b => ?_⟩
  rw [(hrun n tool a b).2]
  have hs : Item.word (lit "-s") ∉ hyphenItems := by decide +kernel
  have hx : (handleAfter ({} : Handle Nat) hyphenItems).acceptExtraHyphens = true := by decide +kernel
  have hmiss : (handleAfter ({} : Handle Nat) hyphenItems).spell.acceptMissingHyphens = false := by decide +kernel
  have right : CorrectBy (wordViews runsOf fun v _ => hahaReading v) (handleAfter ({} : Handle Nat) hyphenItems).acceptExtraHyphens
      (handleAfter ({} : Handle Nat) hyphenItems).spell (lit "ab-b") := by
    have l1 : (lit "ab-b").map lower = lit "ab-b" := by decide +kernel
    have n1 : normSpec (lit "ab-b") = lit "ab-b" := by decide +kernel
    refine ⟨dict true, hx ▸ main.1 true, ?_⟩
    rw [n1, hmiss]
    refine .dictionary (lit "ab-b") (by decide) .word (.lower ((isLowerWord_iff _).2 (by decide +kernel)) ?_)
    rw [l1, withEnds, dif_neg (by simp)]
    exact (haha_hyphen hr dict main.1).1
  simp only [List.map_cons, List.map_nil, right, hana, hs, SpellOutput.numbered, decide_true, not_true_eq_false, and_false, if_false, List.map_nil, ite_self]

end Verif.AnalysisProgram
