import Verif.Props.SuggestOneLine
import Verif.Props.SoftProgram
/-!
# Suggestions and analyses for words with soft hyphens (C118)

C116 with C118: what `voikkospell` prints with `-s`, `-m` and `-x` for lists of words of which some have soft hyphens.
-/

set_option linter.unusedVariables false

namespace Verif.SuggestSoft
open Verif Verif.Att Verif.Args Verif.Props Verif.Spec Verif.Search Verif.Threads Verif.SpellOutput Verif.SpellProgram Verif.SuggestText Verif.AnalysisProgram Verif.HyphenText
open Verif.SuggestProgram Verif.SuggestOneLine Verif.SoftText Verif.SoftProgram
open Verif.HyphProgram (reads_exist)
open Verif.GcProgram (wordViews)

/-- Words without soft hyphens are among those for which the text decides. -/
theorem typed_soft {runsOf : List Wc → List (List Nat)} {read : List Wc → List Nat → List SItem} {w : List Wc} (h : TypedWord w) : SoftWord runsOf read w := by
  have asked : ∀ y, Asked (normSpec w) y → 0xAD ∉ y := by
    rintro y ⟨v, hv, hy⟩
    have hv0 : 0xAD ∉ v := by
      rcases hv with rfl | e
      · exact h.soft
      · exact fun k => h.soft (by rw [e]; exact List.mem_append_left _ k)
    rcases hy with rfl | ⟨rfl, rfl⟩ | ⟨c, rest, rfl, rfl⟩
    · intro hm
      obtain ⟨c, hc, e⟩ := List.mem_map.1 hm
      exact hv0 (lower_fixed (by decide) e ▸ hc)
    · exact hv0
    · intro hm
      rcases List.mem_cons.1 hm with hm | hm
      · exact hv0 (lower_fixed (by decide) hm.symm ▸ List.mem_cons_self)
      · exact hv0 (List.mem_cons_of_mem _ hm)
  exact ⟨h.ok, fun y hy hm => absurd hm (asked y hy), fun y x hy hx hm => absurd hm (edged_mem hx (by decide) (asked y hy))⟩

open Classical in
/-- **C118** (suggestions and analyses): as C116, for lists of words of which some have soft hyphens. The suggestions for such a word follow the text as those for other words.
Missing for the full claim: fewer blocks of words than threads (`C86_violation_few_words`), cache sizes over 18 (`C101_cache_undefined`), soft hyphens in words that are not
suitable, and words beyond the limits of C33. -/
theorem C118_suggestions_partial {text : List Nat} {ls : List Line} (hd : Att.Describes text ls) (hp : Proper ls) (hf : FullText ls) (hu : UsualWords ls) (hone : OneLine ls)
    {srtS : List (Nat × List Nat) → List (Nat × List Nat)} {srtT : List CTrans → List CTrans}
    (hS : SortsBy (fun a b => attSymLt a.2 b.2) srtS) (hT : SortsBy fileOrderLt srtT) (sw : Bool) :
    ∃ file f, attCompile srtS srtT sw text = some (some file) ∧ loadFile file = some (some f) ∧
      ∃ (runsOf : List Wc → List (List Nat)) (an : Analyzer) (dict : Bool → List Wc → SpellRes) (ana : List Wc → List (List (List Wc × List Wc))),
        (∀ v : List Wc, v.length ≤ 255 → AllRuns ls v (runsOf v)) ∧
        (∀ c, AnalysedBefore f (fun _ => True) c → ∀ w, ∃ l c', finnishAnalyzeFst f c w false = some (l, c') ∧ an w = l.map asMorAn) ∧
        (∀ extra w, 0 ∉ w → finnishSpell extra an w = some (dict extra w)) ∧ ShowsText ls runsOf f ana ∧
        (∃ read : List Wc → List Nat → List SItem, HyphProgram.Reads ls runsOf read) ∧
        ∀ read : List Wc → List Nat → List SItem, HyphProgram.Reads ls runsOf read →
        ∀ {G : Type} (init : Arg → Option Arg → Option (Handle G)) (args : List Arg) (items : List Item) (rest : Option Arg) (h : Args.Reads spellKeys args items rest)
          (hr : rest ≠ some (lit "-j")) (hitems : ∀ x ∈ items, NumbersOk x ∧ stopOf (α := SpellTool G) x = none)
          (hl : .word (lit "-l") ∉ items) (hL : .word (lit "-L") ∉ items) (hk : ∀ w, .word w ∈ items → SpellKnown w) (hc : wantedCache items ≤ 18)
          (hinit : ∃ h0, initHandle G = some h0 ∧ init ((lastOf (valueOf "-d") items).getD (lit "fi")) (lastOf (valueOf "-p") items) = some h0)
          (hx : ¬ ∃ w, .word w ∈ items ∧ lit "-x" <+: w)
          (hmode : lastOf modeOf items = none)
          (words : List (List Wc)) (hw : ∀ w ∈ words, SoftWord runsOf read w ∧ Searchable w ∧ 0x0A ∉ w) (hb : (wantedThreads items).toNat ≤ blockCount words ∨ words = [])
          (junk : Nat → Wc) (analyze : List Wc → UB (List (List (List Wc × List Wc))))
          (ha : ∀ w ∈ words, ∃ c, AnalysedBefore f (fun _ => True) c ∧ analyze w = (toolAnalyses f c w).map (·.1)),
          ∃ t, spellToolArgs init args = some (.run t) ∧
            (∀ x ∈ t.handles, x.ocr = (handleAfter {} items : Handle G).ocr ∧ x.spell = (handleAfter {} items : Handle G).spell) ∧
            ∃ sugg : List Wc → List (List Wc),
              (∀ w ∈ words, FollowTheText ls runsOf (handleAfter {} items : Handle G).ocr (handleAfter {} items : Handle G).spell.ignoreDot
                (handleAfter {} items : Handle G).spell.acceptAllUppercase w (sugg w)) ∧
              let api := SpellProgram.handleApi dict (handleSuggest an junk (handleAfter {} items : Handle G)) analyze
              ∀ (n : Nat) (tool : Tool (Handle G)), ToolRun (checkWord api t.opts) n (startTool t.handles words) tool → ¬ CanStep (checkWord api t.opts) tool →
                let Right := CorrectSoft runsOf read (handleAfter {} items : Handle G).acceptExtraHyphens (handleAfter {} items : Handle G).spell
                tool.pc = .terminated ∧ entries tool.out = words.map fun w =>
                  { word := w, correct := decide (Right w),
                    attributes := if (.word (lit "-m") ∈ items ∨ .word (lit "-M") ∈ items) ∧ Right w then (SpellOutput.numbered 1 (ana w)).map some else [],
                    suggestions := if .word (lit "-s") ∈ items ∧ ¬ Right w then sugg w else [] } := by
  obtain ⟨file, f, h1, h2, runsOf, an, next, h3, h4, h5, h6, h7⟩ := dictionary_outputs hd hp hf.toFinnishText hS hT sw
  obtain ⟨ana, hshow⟩ := shows_text hf h3 h6 h7
  have hdict : ∀ extra w, 0 ∉ w → finnishSpell extra an w = some ((fun extra w => (finnishSpell extra an w).getD .failed) extra w) := by
    intro extra w h0
    obtain ⟨r, e⟩ := h5.total extra w h0
    simp only [e, Option.getD_some]
  generalize (fun extra w => (finnishSpell extra an w).getD .failed) = dict at hdict
  refine ⟨file, f, h1, h2, runsOf, an, dict, ana, h3, h4, hdict, hshow, reads_exist hf.toFinnishText h3, ?_⟩
  intro read hread
  obtain ⟨next', _, n2, n3⟩ := h5.outputs
  have hrules : ∀ extra, SoftRules runsOf read extra (dict extra) :=
    fun extra => softRules_of h5 hread (hdict extra) fun w h0 hs => ruled_of (word_fits hf.toFinnishText h3 n3 hread n2) extra (hdict extra) w h0 hs
  intro G init args items rest h hr hitems hl hL hk hc hinit hx hmode words hw hb junk analyze ha
  have ha' : ∀ w ∈ words, analyze w = some (ana w) := by
    intro w hm
    obtain ⟨c, hc, e⟩ := ha w hm
    obtain ⟨c', e', _⟩ := hshow.total c hc w
    rw [e, e']
    rfl
  have hsug : ∀ w, SoftWord runsOf read w → Searchable w → _ := fun w a b =>
    suggestions_follow h3 h5 hu junk (handleAfter {} items : Handle G) w a.ok b
  let sugg : List Wc → List (List Wc) := fun w => ((handleSuggest an junk (handleAfter {} items : Handle G) w).getD none).getD []
  have hs : ∀ w ∈ words, (∃ l, handleSuggest an junk (handleAfter {} items : Handle G) w = some l ∧ l.getD [] = sugg w) ∧
      FollowTheText ls runsOf (handleAfter {} items : Handle G).ocr (handleAfter {} items : Handle G).spell.ignoreDot
        (handleAfter {} items : Handle G).spell.acceptAllUppercase w (sugg w) := by
    intro w hm
    obtain ⟨l, e1, e2⟩ := hsug w (hw w hm).1 (hw w hm).2.1
    have : sugg w = l.getD [] := by simp only [sugg, e1, Option.getD_some]
    exact ⟨⟨l, e1, this.symm⟩, this ▸ e2⟩
  obtain ⟨t, ht, hrun⟩ := SpellProgram.program_judged (W := SoftWord runsOf read) (C := CorrectSoft runsOf read)
    ⟨fun _ h => h.ok, fun extra o cache hc w p => C118_accepted (hrules extra) o cache hc w p⟩
    init args items rest h hr hitems hl hL hk hc hinit hx words (fun w hm => (hw w hm).1) hb (handleSuggest an junk (handleAfter {} items : Handle G)) analyze sugg
    (fun w hm => (hs w hm).1) ana ha'
    ⟨fun w hm => (hw w hm).2.2, fun w hm o ho => by
      obtain ⟨x, q1, q2⟩ := (hs w hm).2.correct o ho
      exact correct_line h3 hone q1 q2, fun w hm a hma kv hkv => hshow.lines w a hma kv hkv⟩
  refine ⟨t, ht, ?_, sugg, fun w hm => (hs w hm).2, fun n tool a b => (hrun n tool a b).2.2 hmode⟩
  obtain ⟨h0, e0, hi⟩ := hinit
  obtain ⟨t', c, ht', hm, _⟩ := (((C101_outcome init args items rest h hr hitems).2.2 hl hL).2 h0 hi hc).2 hk
  rw [ht] at ht'
  cases ht'
  intro x hx
  rw [hm.handles] at hx
  rw [List.eq_of_mem_replicate hx]
  obtain ⟨c0, hc0⟩ : ∃ c0, newCache 0 = some c0 := by
    obtain ⟨c0, e, _⟩ := newCache_ok (fun _ => .ok) 0 (by omega)
    exact ⟨c0, e⟩
  have eh : h0 = { spellerCache := some c0 } := by
    unfold initHandle at e0
    rw [hc0] at e0
    exact (Option.some.inj e0).symm
  rw [eh]
  exact ⟨rfl, rfl⟩

open Classical in
/-- **C118** (one line): as C116 with the option `-x`, for lists of words of which some have soft hyphens. Missing for the full claim: the same as above, and `-m` and `-M` with
`-x`, separators that are not ASCII and those that occur in the words. -/
theorem C118_one_line_partial {text : List Nat} {ls : List Line} (hd : Att.Describes text ls) (hp : Proper ls) (hf : FullText ls) (hu : UsualWords ls) (hone : OneLine ls)
    {srtS : List (Nat × List Nat) → List (Nat × List Nat)} {srtT : List CTrans → List CTrans}
    (hS : SortsBy (fun a b => attSymLt a.2 b.2) srtS) (hT : SortsBy fileOrderLt srtT) (sw : Bool) :
    ∃ file f, attCompile srtS srtT sw text = some (some file) ∧ loadFile file = some (some f) ∧
      ∃ (runsOf : List Wc → List (List Nat)) (an : Analyzer) (dict : Bool → List Wc → SpellRes),
        (∀ v : List Wc, v.length ≤ 255 → AllRuns ls v (runsOf v)) ∧
        (∀ c, AnalysedBefore f (fun _ => True) c → ∀ w, ∃ l c', finnishAnalyzeFst f c w false = some (l, c') ∧ an w = l.map asMorAn) ∧
        (∀ extra w, 0 ∉ w → finnishSpell extra an w = some (dict extra w)) ∧
        (∃ read : List Wc → List Nat → List SItem, HyphProgram.Reads ls runsOf read) ∧
        ∀ read : List Wc → List Nat → List SItem, HyphProgram.Reads ls runsOf read →
        ∀ {G : Type} (init : Arg → Option Arg → Option (Handle G)) (args : List Arg) (items : List Item) (rest : Option Arg) (h : Args.Reads spellKeys args items rest)
          (hr : rest ≠ some (lit "-j")) (hitems : ∀ x ∈ items, NumbersOk x ∧ stopOf (α := SpellTool G) x = none)
          (hl : .word (lit "-l") ∉ items) (hL : .word (lit "-L") ∉ items) (hk : ∀ w, .word w ∈ items → SpellKnown w) (hc : wantedCache items ≤ 18)
          (hinit : ∃ h0, initHandle G = some h0 ∧ init ((lastOf (valueOf "-d") items).getD (lit "fi")) (lastOf (valueOf "-p") items) = some h0)
          (hx : ∃ w, .word w ∈ items ∧ lit "-x" <+: w) (hmor : .word (lit "-m") ∉ items ∧ .word (lit "-M") ∉ items) (sep : Wc)
          (hsep : (lastOf separatorOf items).getD 0x20 = sep) (hn : sep ≠ 0x0A) (hascii : sep < 0x80) (hfree : sep ≠ 0x20 → Separates ls sep)
          (words : List (List Wc)) (hw : ∀ w ∈ words, SoftWord runsOf read w ∧ Searchable w ∧ 0x0A ∉ w ∧ sep ∉ w)
          (hb : (wantedThreads items).toNat ≤ blockCount words ∨ words = [])
          (junk : Nat → Wc) (analyze : List Wc → UB (List (List (List Wc × List Wc))))
          (ha : ∀ w ∈ words, ∃ c, AnalysedBefore f (fun _ => True) c ∧ analyze w = (toolAnalyses f c w).map (·.1)),
          ∃ t, spellToolArgs init args = some (.run t) ∧
            ∃ sugg : List Wc → List (List Wc),
              (∀ w ∈ words, FollowTheText ls runsOf (handleAfter {} items : Handle G).ocr (handleAfter {} items : Handle G).spell.ignoreDot
                (handleAfter {} items : Handle G).spell.acceptAllUppercase w (sugg w)) ∧
              let api := SpellProgram.handleApi dict (handleSuggest an junk (handleAfter {} items : Handle G)) analyze
              ∀ (n : Nat) (tool : Tool (Handle G)), ToolRun (checkWord api t.opts) n (startTool t.handles words) tool → ¬ CanStep (checkWord api t.opts) tool →
                let Right := CorrectSoft runsOf read (handleAfter {} items : Handle G).acceptExtraHyphens (handleAfter {} items : Handle G).spell
                tool.pc = .terminated ∧ (linesOf tool.out).map (fields sep) = words.map fun w => w :: fieldsFor sep (Right w) (sugg w) := by
  obtain ⟨file, f, h1, h2, runsOf, an, next, h3, h4, h5, h6, h7⟩ := dictionary_outputs hd hp hf.toFinnishText hS hT sw
  obtain ⟨ana, hshow⟩ := shows_text hf h3 h6 h7
  have hdict : ∀ extra w, 0 ∉ w → finnishSpell extra an w = some ((fun extra w => (finnishSpell extra an w).getD .failed) extra w) := by
    intro extra w h0
    obtain ⟨r, e⟩ := h5.total extra w h0
    simp only [e, Option.getD_some]
  generalize (fun extra w => (finnishSpell extra an w).getD .failed) = dict at hdict
  refine ⟨file, f, h1, h2, runsOf, an, dict, h3, h4, hdict, reads_exist hf.toFinnishText h3, ?_⟩
  intro read hread
  obtain ⟨next', _, n2, n3⟩ := h5.outputs
  have hrules : ∀ extra, SoftRules runsOf read extra (dict extra) :=
    fun extra => softRules_of h5 hread (hdict extra) fun w h0 hs => ruled_of (word_fits hf.toFinnishText h3 n3 hread n2) extra (hdict extra) w h0 hs
  intro G init args items rest h hr hitems hl hL hk hc hinit hx hmor sep hsep hn hascii hfree words hw hb junk analyze ha
  have ha' : ∀ w ∈ words, analyze w = some (ana w) := by
    intro w hm
    obtain ⟨c, hc, e⟩ := ha w hm
    obtain ⟨c', e', _⟩ := hshow.total c hc w
    rw [e, e']
    rfl
  let sugg : List Wc → List (List Wc) := fun w => ((handleSuggest an junk (handleAfter {} items : Handle G) w).getD none).getD []
  have hs : ∀ w ∈ words, (∃ l, handleSuggest an junk (handleAfter {} items : Handle G) w = some l ∧ l.getD [] = sugg w) ∧
      FollowTheText ls runsOf (handleAfter {} items : Handle G).ocr (handleAfter {} items : Handle G).spell.ignoreDot
        (handleAfter {} items : Handle G).spell.acceptAllUppercase w (sugg w) := by
    intro w hm
    obtain ⟨l, e1, e2⟩ := suggestions_follow h3 h5 hu junk (handleAfter {} items : Handle G) w (hw w hm).1.ok (hw w hm).2.1
    have : sugg w = l.getD [] := by simp only [sugg, e1, Option.getD_some]
    exact ⟨⟨l, e1, this.symm⟩, this ▸ e2⟩
  obtain ⟨t, ht, hrun⟩ := program_one_line (W := SoftWord runsOf read) (C := CorrectSoft runsOf read)
    ⟨fun _ h => h.ok, fun extra o cache hc w p => C118_accepted (hrules extra) o cache hc w p⟩
    init args items rest h hr hitems hl hL hk hc hinit hx hmor hsep hn words (fun w hm => ⟨(hw w hm).1, (hw w hm).2.2.2⟩) hb
    (handleSuggest an junk (handleAfter {} items : Handle G)) analyze sugg (fun w hm => (hs w hm).1)
    (fun w hm s hsm hne => by
      obtain ⟨x, q1, q2⟩ := (hs w hm).2.correct s hsm
      exact correct_free h3 (hfree hne) q1 q2) ana ha'
    ⟨fun w hm => (hw w hm).2.2.1, fun w hm o ho => by
      obtain ⟨x, q1, q2⟩ := (hs w hm).2.correct o ho
      exact correct_line h3 hone q1 q2, fun w hm a hma kv hkv => hshow.lines w a hma kv hkv⟩
  exact ⟨t, ht, sugg, fun w hm => (hs w hm).2, hrun⟩

/-! ### A dictionary and a command line to which this applies -/

/-- Non-vacuity: with the dictionary that knows the words `a`, `ab`, `abb`, ... the program can be started with `-s` and the words `abx` and `abb` with a soft hyphen before its
last letter. It ends, and prints both words, with the suggestions for those that are not correct. -/
example (sw : Bool) (h0 : Handle Nat) (hh : initHandle Nat = some h0) (junk : Nat → Wc) :
    ∃ (api : ToolApi (Handle Nat)) (t : SpellTool Nat) (sugg : List Wc → List (List Wc)),
      spellToolArgs (fun _ _ => some h0) suggestArgs = some (.run t) ∧
      (∃ n tool, ToolRun (checkWord api t.opts) n (startTool t.handles [lit "abx", softAbb]) tool ∧ ¬ CanStep (checkWord api t.opts) tool) ∧
      ∀ n tool, ToolRun (checkWord api t.opts) n (startTool t.handles [lit "abx", softAbb]) tool → ¬ CanStep (checkWord api t.opts) tool →
        (entries tool.out).map (·.word) = [lit "abx", softAbb] ∧ ∀ e ∈ entries tool.out, e.correct = false → e.suggestions = sugg e.word := by
  obtain ⟨file, f, _, _, runsOf, an, dict, ana, hr, _, _, hshow, _, main⟩ :=
    C118_suggestions_partial haha_describes haha_proper haha_fullText haha_usual haha_oneLine sortSymbols_sorts sortTransitions_sorts sw
  have hit : ∀ x ∈ suggestItems, x = .word (lit "-s") ∨ x = .word (lit "ignore_dot=1") := fun x hx => by
    simpa only [suggestItems, List.mem_cons, List.not_mem_nil, or_false] using hx
  have hwd : ∀ w, Item.word w ∈ suggestItems → w = lit "-s" ∨ w = lit "ignore_dot=1" := fun w hw => by
    rcases hit _ hw with h | h <;> injection h with h
    · exact .inl h
    · exact .inr h
  have n1 : normSpec softAbb = softAbb := by decide +kernel
  have n2 : normSpec (lit "abx") = lit "abx" := by decide +kernel
  obtain ⟨t, ht, _, sugg, hfollow, hrun⟩ := main (fun v _ => hahaReading v)
    (by
      intro v hv run hm
      obtain ⟨m, rfl, rfl⟩ := haha_runs (((hr v hv).mem run).1 hm)
      exact ⟨haha_output m, haha_good⟩) (fun _ _ => some h0) suggestArgs suggestItems none
    ⟨rfl, by simp [suggestItems], fun w hw => by rcases hwd w hw with rfl | rfl <;> decide +kernel, by simp⟩ (by simp)
    (fun x hx => by rcases hit x hx with rfl | rfl <;> exact ⟨by unfold NumbersOk; decide +kernel, rfl⟩) (by decide +kernel) (by decide +kernel)
    (fun w hw => by rcases hwd w hw with rfl | rfl <;> (unfold SpellKnown; decide +kernel)) (by decide +kernel) ⟨h0, hh, rfl⟩
    (by rintro ⟨w, hm, hx⟩; rcases hwd w hm with rfl | rfl <;> exact absurd hx (by decide +kernel)) (by decide +kernel)
    [lit "abx", softAbb]
    (by
      intro w hm
      simp only [List.mem_cons, List.not_mem_nil, or_false] at hm
      rcases hm with rfl | rfl
      · exact ⟨typed_soft ⟨by unfold WordOk; decide, by decide +kernel⟩, ⟨.inr (by decide +kernel), by rw [n2], by decide +kernel⟩, by decide⟩
      · exact ⟨haha_softWord hr, ⟨.inr (by decide +kernel), by rw [n1], by decide +kernel⟩, by decide⟩)
    (.inl (by decide +kernel)) junk (fun w => (toolAnalyses f (finnishInit f) w).map (·.1)) (fun _ _ => ⟨_, .new, rfl⟩)
  refine ⟨SpellProgram.handleApi dict (handleSuggest an junk (handleAfter ({} : Handle Nat) suggestItems)) (fun w => (toolAnalyses f (finnishInit f) w).map (·.1)), t, sugg, ht, C86_complete_execution, fun n tool a b => ?_⟩
  rw [(hrun n tool a b).2]
  have hs : Item.word (lit "-s") ∈ suggestItems := by decide +kernel
  refine ⟨by simp, fun e he hc => ?_⟩
  rw [List.mem_map] at he
  obtain ⟨w, hw, rfl⟩ := he
  simp only [decide_eq_false_iff_not] at hc
  simp only [hs, hc, not_false_eq_true, and_self, if_true]

/-- Non-vacuity (one line): the program can be started with `-x;` and these words; it ends, and prints a line for each of them. -/
example (sw : Bool) (h0 : Handle Nat) (hh : initHandle Nat = some h0) (junk : Nat → Wc) :
    ∃ (api : ToolApi (Handle Nat)) (t : SpellTool Nat) (sugg : List Wc → List (List Wc)),
      spellToolArgs (fun _ _ => some h0) lineArgs = some (.run t) ∧
      (∃ n tool, ToolRun (checkWord api t.opts) n (startTool t.handles [softAbb, lit "abx"]) tool ∧ ¬ CanStep (checkWord api t.opts) tool) ∧
      ∀ n tool, ToolRun (checkWord api t.opts) n (startTool t.handles [softAbb, lit "abx"]) tool → ¬ CanStep (checkWord api t.opts) tool →
        ∃ a b, (linesOf tool.out).map (fields 0x3B) = [softAbb :: a, lit "abx" :: b] ∧ (b = [] ∨ b = sugg (lit "abx")) := by
  obtain ⟨file, f, _, _, runsOf, an, dict, hr, _, _, _, main⟩ :=
    C118_one_line_partial haha_describes haha_proper haha_fullText haha_usual haha_oneLine sortSymbols_sorts sortTransitions_sorts sw
  have hit : ∀ x ∈ lineItems, x = .word (lit "-x;") ∨ x = .word (lit "ignore_dot=1") := fun x hx => by
    simpa only [lineItems, List.mem_cons, List.not_mem_nil, or_false] using hx
  have hwd : ∀ w, Item.word w ∈ lineItems → w = lit "-x;" ∨ w = lit "ignore_dot=1" := fun w hw => by
    rcases hit _ hw with h | h <;> injection h with h
    · exact .inl h
    · exact .inr h
  have n1 : normSpec softAbb = softAbb := by decide +kernel
  have n2 : normSpec (lit "abx") = lit "abx" := by decide +kernel
  obtain ⟨t, ht, sugg, hfollow, hrun⟩ := main (fun v _ => hahaReading v)
    (by
      intro v hv run hm
      obtain ⟨m, rfl, rfl⟩ := haha_runs (((hr v hv).mem run).1 hm)
      exact ⟨haha_output m, haha_good⟩) (fun _ _ => some h0) lineArgs lineItems none
    ⟨rfl, by simp [lineItems], fun w hw => by rcases hwd w hw with rfl | rfl <;> decide +kernel, by simp⟩ (by simp)
    (fun x hx => by rcases hit x hx with rfl | rfl <;> exact ⟨by unfold NumbersOk; decide +kernel, rfl⟩) (by decide +kernel) (by decide +kernel)
    (fun w hw => by
      rcases hwd w hw with rfl | rfl
      · exact .inr (.inr (.inl (by decide +kernel)))
      · unfold SpellKnown; decide +kernel)
    (by decide +kernel) ⟨h0, hh, rfl⟩
    ⟨lit "-x;", by decide +kernel, by decide +kernel⟩ ⟨by decide +kernel, by decide +kernel⟩ 0x3B (by decide +kernel) (by decide) (by decide) (fun _ => haha_separates)
    [softAbb, lit "abx"]
    (by
      intro w hm
      simp only [List.mem_cons, List.not_mem_nil, or_false] at hm
      rcases hm with rfl | rfl
      · exact ⟨haha_softWord hr, ⟨.inr (by decide +kernel), by rw [n1], by decide +kernel⟩, by decide, by decide⟩
      · exact ⟨typed_soft ⟨by unfold WordOk; decide, by decide +kernel⟩, ⟨.inr (by decide +kernel), by rw [n2], by decide +kernel⟩, by decide, by decide⟩)
    (.inl (by decide +kernel)) junk (fun w => (toolAnalyses f (finnishInit f) w).map (·.1)) (fun _ _ => ⟨_, .new, rfl⟩)
  refine ⟨SpellProgram.handleApi dict (handleSuggest an junk (handleAfter ({} : Handle Nat) lineItems)) (fun w => (toolAnalyses f (finnishInit f) w).map (·.1)), t, sugg, ht, C86_complete_execution, fun n tool a b => ?_⟩
  · refine ⟨_, _, (hrun n tool a b).2, ?_⟩
    unfold fieldsFor
    rw [if_neg (show ¬ (0x3B : Wc) = 0x20 by decide)]
    split
    · exact .inl rfl
    · exact .inr rfl

end Verif.SuggestSoft
