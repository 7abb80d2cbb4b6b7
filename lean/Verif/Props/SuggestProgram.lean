import Verif.Props.SuggestText
import Verif.Props.AnalysisHyphens
import Verif.Model.FinnishSuggest
/-!
# The suggestions that the spelling program prints (C116)

C104 with C115: what `voikkospell -s` prints follows from the text of the dictionary and the command line.
-/

set_option linter.unusedVariables false

namespace Verif.SuggestProgram
open Verif Verif.Att Verif.Args Verif.Props Verif.Spec Verif.Search Verif.Threads Verif.SpellOutput Verif.SpellProgram Verif.SuggestText Verif.AnalysisProgram Verif.HyphenText
open Verif.HyphProgram (reads_exist)
open Verif.GcProgram (wordViews)

/-! ### Specification -/

/-- The list `out` of suggestions for the word follows from the text of the dictionary. -/
structure FollowTheText (ls : List Line) (runsOf : List Wc → List (List Nat)) (ocr ignoreDot aup : Bool) (word : List Wc) (out : List (List Wc)) : Prop where
  correct : ∀ o ∈ out, ∃ x, CorrectSuggestion ls runsOf x ∧ Rendered x o
  few : out.length ≤ 5
  limits : word.length ≤ 1 ∨ 255 < word.length ∨ (ignoreDot = true ∧ (normSpec word).length = 2) → out = []
  complete : ocr = false → 2 ≤ word.length → word.length ≤ 255 → (ignoreDot = true → (normSpec word).length ≠ 2) → ∀ n dot, SearchWord ignoreDot (normSpec word) n dot →
    (∀ c, .word c ∈ typingFirst n → ¬ LettersInText ls runsOf c) → out.length < 5 → ∀ c A B, InText ls runsOf c → typingOthers n = A ++ .word c :: B → A.length < 260 →
    ∃ o ∈ out, Presents word n dot aup c o
  case : ocr = false → 2 ≤ word.length → word.length ≤ 255 → (ignoreDot = true → (normSpec word).length ≠ 2) → ∀ n dot, SearchWord ignoreDot (normSpec word) n dot →
    LettersInText ls runsOf n → 0xAD ∉ n → ∃ o x, out = [o] ∧ x.map lower = n.map lower ∧ InText ls runsOf x ∧ Presents word n dot aup x o

/-- A word for which the search for suggestions is defined (see `C33_violation_short`, `C33_violation_ligature`, `C33_violation_vowels`). -/
structure Searchable (w : List Wc) : Prop where
  short : w.length ≤ 1 ∨ 2 ≤ (normSpec w).length
  same : (normSpec w).length ≤ w.length
  vowels : vowelCount (normSpec w) ≤ 32

/-- No word of the text has a line break in it. -/
def OneLine (ls : List Line) : Prop := ∀ (v : List Wc) (run : List Nat), Att.Accepts ls v false run v.length → 0x0A ∉ v

/-! ### Lemmas -/

theorem inText_line {ls : List Line} {runsOf : List Wc → List (List Nat)} (hr : ∀ v : List Wc, v.length ≤ 255 → AllRuns ls v (runsOf v)) (h1 : OneLine ls)
    {x : List Wc} (h : InText ls runsOf x) : 0x0A ∉ x.map lower := by
  obtain ⟨hl, run, hm, _⟩ := h
  rw [SuggestText.setCase_lower] at hm
  have hl' : (x.map lower).length ≤ 255 := by rw [List.length_map]; exact hl
  exact h1 _ _ (((hr _ hl').mem run).1 (List.mem_of_mem_take hm))

theorem inTextCap_line {ls : List Line} {runsOf : List Wc → List (List Nat)} (hr : ∀ v : List Wc, v.length ≤ 255 → AllRuns ls v (runsOf v)) (h1 : OneLine ls)
    {x : List Wc} (h : InTextCap ls runsOf x) : 0x0A ∉ x.map lower := by
  rcases h with h | ⟨w, hw, h⟩
  · exact inText_line hr h1 h
  · have := inText_line hr h1 h
    rcases hw with ⟨rfl, rfl⟩ | ⟨c, rest, rfl, rfl⟩
    · exact this
    · rw [List.map_cons, (C09_case_laws c).1] at this
      exact this

theorem correct_line {ls : List Line} {runsOf : List Wc → List (List Nat)} (hr : ∀ v : List Wc, v.length ≤ 255 → AllRuns ls v (runsOf v)) (h1 : OneLine ls)
    {x o : List Wc} (h : CorrectSuggestion ls runsOf x) (ho : Rendered x o) : 0x0A ∉ o := by
  have hx : 0x0A ∉ x.map lower := by
    rcases h with h | ⟨a, b, rfl, hb, ha⟩
    · exact inText_line hr h1 h
    · have hb := inTextCap_line hr h1 hb
      have ha : 0x0A ∉ a.map lower := by
        rcases ha with ha | ⟨a', rfl, ha⟩
        · exact inTextCap_line hr h1 ha
        · have := inTextCap_line hr h1 ha
          rw [List.map_append, List.mem_append, not_or]
          exact ⟨this, by decide⟩
      rw [List.map_append, List.map_cons, List.mem_append, List.mem_cons, not_or, not_or]
      exact ⟨ha, by decide, hb⟩
  obtain ⟨d, r, hd, hl, hv⟩ := ho
  have hrl : 0x0A ∉ r.map lower := by
    rw [hl, List.map_append, List.mem_append, not_or]
    refine ⟨hx, ?_⟩
    rcases hd with rfl | rfl <;> decide
  clear hl hx
  induction hv with
  | nil => simp
  | @cons p q ps qs h2 _ ih =>
    rw [List.map_cons, List.mem_cons, not_or] at hrl
    rw [List.mem_cons, not_or]
    refine ⟨?_, ih hrl.2⟩
    rintro rfl
    rcases h2 with rfl | h2
    · exact hrl.1 (by decide)
    · exact absurd h2 (by
        have t : ∀ e ∈ conv1to1, e.1 ≠ 0x0A := by decide +kernel
        exact fun h => t _ h rfl)

theorem short_none (gen : Gen) (d a : Bool) (w : List Wc) (h : w.length ≤ 1 ∨ w.length > 255) : suggestUcs4 gen d a w = some [] := by
  unfold suggestUcs4
  rw [if_pos (show w.length ≤ 1 ∨ w.length > maxWordChars from h)]
  rfl

theorem dot_two {gen : Gen} {d a : Bool} {w : List Wc} (h1 : ¬ (w.length ≤ 1 ∨ 255 < w.length)) (hw : WordOk w) (hd : d = true) (hl : (normSpec w).length = 2) :
    suggestUcs4 gen d a w = some [] := by
  subst hd
  unfold suggestUcs4
  rw [if_neg (by simpa [maxWordChars] using h1), normalise_eq]
  simp only [Option.bind_eq_bind, Option.bind_some]
  rw [cstr_eq _ (zero_notMem (wordOk_normSpec hw))]
  simp only [cutSuggestDot, if_true, if_pos hl, Option.bind_some, Option.pure_def]

/-- The suggestions of a handle. -/
theorem suggestions_follow {G : Type} {ls : List Line} {runsOf : List Wc → List (List Nat)} {an : Analyzer} (hr : ∀ v : List Wc, v.length ≤ 255 → AllRuns ls v (runsOf v))
    (hf : FollowsText ls runsOf an) (hu : UsualWords ls) (junk : Nat → Wc) (h : Handle G) (w : List Wc) (hw : WordOk w) (hs : Searchable w) :
    ∃ l, handleSuggest an junk h w = some l ∧ FollowTheText ls runsOf h.ocr h.spell.ignoreDot h.spell.acceptAllUppercase w (l.getD []) := by
  have shape : ∀ out, suggestUcs4 (finnishGenerator an junk h.ocr) h.spell.ignoreDot h.spell.acceptAllUppercase w = some out →
      FollowTheText ls runsOf h.ocr h.spell.ignoreDot h.spell.acceptAllUppercase w out →
      ∃ l, handleSuggest an junk h w = some l ∧ FollowTheText ls runsOf h.ocr h.spell.ignoreDot h.spell.acceptAllUppercase w (l.getD []) := by
    intro out e1 e2
    refine ⟨if out = [] then none else some out, by unfold handleSuggest; rw [e1]; rfl, ?_⟩
    by_cases e : out = []
    · rw [if_pos e, Option.getD_none]
      rw [e] at e2
      exact e2
    · rw [if_neg e, Option.getD_some]
      exact e2
  by_cases hone : w.length ≤ 1 ∨ 255 < w.length
  · refine shape [] (short_none _ _ _ _ hone) ⟨by simp, by simp, fun _ => rfl, ?_, ?_⟩ <;> intro _ a b <;> omega
  have h2 : 2 ≤ (normSpec w).length := by
    rcases hs.short with e | e
    · omega
    · exact e
  have five : ∀ {found : List (List Wc × Nat)} {best out : List (List Wc)} {R : List Wc → List Wc → Prop}, BestFive (valued found) best → List.Forall₂ R best out → out.length ≤ 5 := by
    intro found best out R a b
    rw [← b.length_eq, bestFive_length a]
    omega
  unfold finnishGenerator at shape
  by_cases hocr : h.ocr = true
  · rw [hocr] at shape ⊢
    rw [if_pos rfl] at shape
    obtain ⟨out, e1, e2⟩ := (C115_correct hr hf hu junk h.spell.ignoreDot h.spell.acceptAllUppercase w hw hs.same).2
    obtain ⟨out', e3, e4⟩ := C81_suggestions_ocr an (analyzerOk hf) (an_nil hr hf hu) junk h.spell.ignoreDot h.spell.acceptAllUppercase w hw hs.same
    rw [e1] at e3
    cases e3
    refine shape out e1 ⟨e2, ?_, ?_, fun e => (by cases e), fun e => (by cases e)⟩
    · rcases e4 with ⟨rfl, _⟩ | ⟨n, dot, found, best, _, _, a, b, _⟩
      · simp
      · exact five a b
    · rintro (e | e | ⟨e, e'⟩)
      · omega
      · omega
      · rw [dot_two (by omega) hw e e'] at e1
        cases e1
        rfl
  · rw [Bool.not_eq_true] at hocr
    rw [hocr] at shape ⊢
    rw [if_neg (by simp)] at shape
    obtain ⟨out, e1, e2⟩ := (C115_correct hr hf hu junk h.spell.ignoreDot h.spell.acceptAllUppercase w hw hs.same).1 h2 hs.vowels
    obtain ⟨out', e3, e4⟩ := C81_suggestions an (analyzerOk hf) (an_nil hr hf hu) junk h.spell.ignoreDot h.spell.acceptAllUppercase w hw h2 hs.same hs.vowels
    rw [e1] at e3
    cases e3
    refine shape out e1 ⟨e2, ?_, ?_, fun _ _ a b n dot hn hfirst => ?_, fun _ _ a b n dot hn hk hsoft => ?_⟩
    · rcases e4 with ⟨rfl, _⟩ | ⟨n, dot, found, best, _, _, a, b, _⟩
      · simp
      · exact five a b
    · rintro (e | e | ⟨e, e'⟩)
      · omega
      · omega
      · rw [dot_two (by omega) hw e e'] at e1
        cases e1
        rfl
    · obtain ⟨out', e5, e6⟩ := C115_complete hr hf hu junk _ _ w hw hs.same h2 hs.vowels a b hn hfirst
      rw [e1] at e5
      cases e5
      exact e6
    · obtain ⟨o, x, e5, e6⟩ := C115_case hr hf hu junk _ _ w hw hs.same h2 hs.vowels a b hn hk hsoft
      rw [e1] at e5
      cases e5
      exact ⟨o, x, rfl, e6⟩

/-! ### C116 -/

open Classical in
/-- **C116**: the text of a dictionary compiles to a file that loads. `voikkospell`, started with this dictionary and any command line of known options for the usual mode,
runs, and every execution that cannot be continued has ended and has printed for each word, in order: whether it is correct by the text and the rules of the language, with
`-m` the analyses of the correct words, and with `-s` suggestions for the others that follow the text. Missing for the full claim: fewer blocks of words than threads
(`C86_violation_few_words`), cache sizes over 18 (`C101_cache_undefined`), words with soft hyphens (C27), and words beyond the limits of C33. -/
theorem C116_program_partial {text : List Nat} {ls : List Line} (hd : Att.Describes text ls) (hp : Proper ls) (hf : FullText ls) (hu : UsualWords ls) (hone : OneLine ls)
    {srtS : List (Nat × List Nat) → List (Nat × List Nat)} {srtT : List CTrans → List CTrans}
    (hS : SortsBy (fun a b => attSymLt a.2 b.2) srtS) (hT : SortsBy fileOrderLt srtT) (sw : Bool) :
    ∃ file f, attCompile srtS srtT sw text = some (some file) ∧ loadFile file = some (some f) ∧
      ∃ (runsOf : List Wc → List (List Nat)) (an : Analyzer) (dict : Bool → List Wc → SpellRes) (ana : List Wc → List (List (List Wc × List Wc))),
        (∀ v : List Wc, v.length ≤ 255 → AllRuns ls v (runsOf v)) ∧
        (∀ c, AnalysedBefore f (fun _ => True) c → ∀ w, ∃ l c', finnishAnalyzeFst f c w false = some (l, c') ∧ an w = l.map asMorAn) ∧
        (∀ extra w, 0 ∉ w → finnishSpell extra an w = some (dict extra w)) ∧ ShowsText ls runsOf f ana ∧
        (∃ read : List Wc → List Nat → List SItem, HyphProgram.Reads ls runsOf read) ∧
        ∀ read : List Wc → List Nat → List SItem, HyphProgram.Reads ls runsOf read →
        ∀ {G : Type} (init : Arg → Option Arg → Option (Handle G)) (args : List Arg) (items : List Item) (rest : Option Arg) (h : Args.Reads spellKeys args items rest)
          (hr : rest ≠ some (lit "-j")) (hitems : ∀ x ∈ items, NumbersOk x ∧ stopOf (α := SpellTool G) x = none)
          (hl : .word (lit "-l") ∉ items) (hL : .word (lit "-L") ∉ items) (hk : ∀ w, .word w ∈ items → SpellKnown w) (hc : wantedCache items ≤ 18)
          (hinit : ∃ h0, initHandle G = some h0 ∧ init ((lastOf (valueOf "-d") items).getD (lit "fi")) (lastOf (valueOf "-p") items) = some h0)
          (hx : ¬ ∃ w, .word w ∈ items ∧ lit "-x" <+: w)
          (hmode : lastOf modeOf items = none)
          (words : List (List Wc)) (hw : ∀ w ∈ words, TypedWord w ∧ Searchable w ∧ 0x0A ∉ w) (hb : (wantedThreads items).toNat ≤ blockCount words ∨ words = [])
          (junk : Nat → Wc) (analyze : List Wc → UB (List (List (List Wc × List Wc))))
          (ha : ∀ w ∈ words, ∃ c, AnalysedBefore f (fun _ => True) c ∧ analyze w = (toolAnalyses f c w).map (·.1)),
          ∃ t, spellToolArgs init args = some (.run t) ∧
            (∀ x ∈ t.handles, x.ocr = (handleAfter {} items : Handle G).ocr ∧ x.spell = (handleAfter {} items : Handle G).spell) ∧
            ∃ sugg : List Wc → List (List Wc),
              (∀ w ∈ words, FollowTheText ls runsOf (handleAfter {} items : Handle G).ocr (handleAfter {} items : Handle G).spell.ignoreDot
                (handleAfter {} items : Handle G).spell.acceptAllUppercase w (sugg w)) ∧
              let api := SpellProgram.handleApi dict (handleSuggest an junk (handleAfter {} items : Handle G)) analyze
              ∀ (n : Nat) (tool : Tool (Handle G)), ToolRun (checkWord api t.opts) n (startTool t.handles words) tool → ¬ CanStep (checkWord api t.opts) tool →
                let Right := CorrectBy (wordViews runsOf read) (handleAfter {} items : Handle G).acceptExtraHyphens (handleAfter {} items : Handle G).spell
                tool.pc = .terminated ∧ entries tool.out = words.map fun w =>
                  { word := w, correct := decide (Right w),
                    attributes := if (.word (lit "-m") ∈ items ∨ .word (lit "-M") ∈ items) ∧ Right w then (SpellOutput.numbered 1 (ana w)).map some else [],
                    suggestions := if .word (lit "-s") ∈ items ∧ ¬ Right w then sugg w else [] } := by
  obtain ⟨file, f, h1, h2, runsOf, an, next, h3, h4, h5, h6, h7⟩ := dictionary_outputs hd hp hf.toFinnishText hS hT sw
  obtain ⟨ana, hshow⟩ := shows_text hf h3 h6 h7
  have hdict : ∀ extra w, 0 ∉ w → finnishSpell extra an w = some ((fun extra w => (finnishSpell extra an w).getD .failed) extra w) := by
    intro extra w h0
    obtain ⟨r, e⟩ := h5.total extra w h0
    simp only [e, Option.getD_some]
  generalize (fun extra w => (finnishSpell extra an w).getD .failed) = dict at hdict
  refine ⟨file, f, h1, h2, runsOf, an, dict, ana, h3, h4, hdict, hshow, reads_exist hf.toFinnishText h3, ?_⟩
  intro read hread
  obtain ⟨next', _, n2, n3⟩ := h5.outputs
  have hrules : ∀ extra, RulesOf extra (wordViews runsOf read) (dict extra) :=
    fun extra w h0 hs => ruled_of (word_fits hf.toFinnishText h3 n3 hread n2) extra (hdict extra) w h0 hs
  intro G init args items rest h hr hitems hl hL hk hc hinit hx hmode words hw hb junk analyze ha
  have ha' : ∀ w ∈ words, analyze w = some (ana w) := by
    intro w hm
    obtain ⟨c, hc, e⟩ := ha w hm
    obtain ⟨c', e', _⟩ := hshow.total c hc w
    rw [e, e']
    rfl
  have hsug : ∀ w, TypedWord w → Searchable w → _ := fun w a b =>
    suggestions_follow h3 h5 hu junk (handleAfter {} items : Handle G) w a.ok b
  let sugg : List Wc → List (List Wc) := fun w => ((handleSuggest an junk (handleAfter {} items : Handle G) w).getD none).getD []
  have hs : ∀ w ∈ words, (∃ l, handleSuggest an junk (handleAfter {} items : Handle G) w = some l ∧ l.getD [] = sugg w) ∧
      FollowTheText ls runsOf (handleAfter {} items : Handle G).ocr (handleAfter {} items : Handle G).spell.ignoreDot
        (handleAfter {} items : Handle G).spell.acceptAllUppercase w (sugg w) := by
    intro w hm
    obtain ⟨l, e1, e2⟩ := hsug w (hw w hm).1 (hw w hm).2.1
    have : sugg w = l.getD [] := by simp only [sugg, e1, Option.getD_some]
    exact ⟨⟨l, e1, this.symm⟩, this ▸ e2⟩
  obtain ⟨t, ht, hrun⟩ := SpellProgram.program_judged (W := TypedWord) (C := CorrectBy (wordViews runsOf read))
    ⟨fun _ h => h.ok, fun extra o cache hc w p => C110_accepted (hrules extra) o cache hc w p.ok p.soft⟩
    init args items rest h hr hitems hl hL hk hc hinit hx words (fun w hm => (hw w hm).1) hb (handleSuggest an junk (handleAfter {} items : Handle G)) analyze sugg
    (fun w hm => (hs w hm).1) ana ha'
    ⟨fun w hm => (hw w hm).2.2, fun w hm o ho => by
      obtain ⟨x, q1, q2⟩ := (hs w hm).2.correct o ho
      exact correct_line h3 hone q1 q2, fun w hm a hma kv hkv => hshow.lines w a hma kv hkv⟩
  refine ⟨t, ht, ?_, sugg, fun w hm => (hs w hm).2, fun n tool a b => (hrun n tool a b).2.2 hmode⟩
  obtain ⟨h0, e0, hi⟩ := hinit
  obtain ⟨t', c, ht', hm, _⟩ := (((C101_outcome init args items rest h hr hitems).2.2 hl hL).2 h0 hi hc).2 hk
  rw [ht] at ht'
  cases ht'
  intro x hx
  rw [hm.handles] at hx
  rw [List.eq_of_mem_replicate hx]
  obtain ⟨c0, hc0⟩ : ∃ c0, newCache 0 = some c0 := by
    obtain ⟨c0, e, _⟩ := newCache_ok (fun _ => .ok) 0 (by omega)
    exact ⟨c0, e⟩
  have eh : h0 = { spellerCache := some c0 } := by
    unfold initHandle at e0
    rw [hc0] at e0
    exact (Option.some.inj e0).symm
  rw [eh]
  exact ⟨rfl, rfl⟩

/-! ### A dictionary and a command line to which this applies -/

theorem haha_oneLine : OneLine hahaLines := by
  intro v run h
  obtain ⟨m, rfl, _⟩ := haha_runs h
  simp [List.mem_replicate]

def suggestArgs : List Arg := [lit "-s", lit "ignore_dot=1"]
def suggestItems : List Item := [.word (lit "-s"), .word (lit "ignore_dot=1")]

/-- Non-vacuity: with the dictionary that knows the words `a`, `ab`, `abb`, ... the program can be started with `-s`; it ends, and prints the words `ab` and `abx` with
suggestions, among which there is `ab` for `abx` unless there are five others. -/
example (sw : Bool) (h0 : Handle Nat) (hh : initHandle Nat = some h0) (junk : Nat → Wc) :
    ∃ (api : ToolApi (Handle Nat)) (t : SpellTool Nat) (sugg : List Wc → List (List Wc)),
      spellToolArgs (fun _ _ => some h0) suggestArgs = some (.run t) ∧
      ((sugg (lit "abx")).length < 5 → ∃ o ∈ sugg (lit "abx"), Presents (lit "abx") (lit "abx") false true (lit "ab") o) ∧
      (∃ n tool, ToolRun (checkWord api t.opts) n (startTool t.handles [lit "ab", lit "abx"]) tool ∧ ¬ CanStep (checkWord api t.opts) tool) ∧
      ∀ n tool, ToolRun (checkWord api t.opts) n (startTool t.handles [lit "ab", lit "abx"]) tool → ¬ CanStep (checkWord api t.opts) tool →
        (entries tool.out).map (·.word) = [lit "ab", lit "abx"] ∧ ∀ e ∈ entries tool.out, e.correct = false → e.suggestions = sugg e.word := by
  obtain ⟨file, f, _, _, runsOf, an, dict, ana, hr, _, _, hshow, ⟨read, hread⟩, main⟩ :=
    C116_program_partial haha_describes haha_proper haha_fullText haha_usual haha_oneLine sortSymbols_sorts sortTransitions_sorts sw
  have hit : ∀ x ∈ suggestItems, x = .word (lit "-s") ∨ x = .word (lit "ignore_dot=1") := fun x hx => by
    simpa only [suggestItems, List.mem_cons, List.not_mem_nil, or_false] using hx
  have hwd : ∀ w, Item.word w ∈ suggestItems → w = lit "-s" ∨ w = lit "ignore_dot=1" := fun w hw => by
    rcases hit _ hw with h | h <;> injection h with h
    · exact .inl h
    · exact .inr h
  have n1 : normSpec (lit "ab") = lit "ab" := by decide +kernel
  have n2 : normSpec (lit "abx") = lit "abx" := by decide +kernel
  obtain ⟨t, ht, _, sugg, hfollow, hrun⟩ := main read hread (fun _ _ => some h0) suggestArgs suggestItems none
    ⟨rfl, by simp [suggestItems], fun w hw => by rcases hwd w hw with rfl | rfl <;> decide +kernel, by simp⟩ (by simp)
    (fun x hx => by rcases hit x hx with rfl | rfl <;> exact ⟨by unfold NumbersOk; decide +kernel, rfl⟩) (by decide +kernel) (by decide +kernel)
    (fun w hw => by rcases hwd w hw with rfl | rfl <;> (unfold SpellKnown; decide +kernel)) (by decide +kernel) ⟨h0, hh, rfl⟩
    (by rintro ⟨w, hm, hx⟩; rcases hwd w hm with rfl | rfl <;> exact absurd hx (by decide +kernel)) (by decide +kernel)
    [lit "ab", lit "abx"]
    (by
      intro w hm
      simp only [List.mem_cons, List.not_mem_nil, or_false] at hm
      rcases hm with rfl | rfl
      · exact ⟨⟨by unfold WordOk; decide, by decide +kernel⟩, ⟨.inr (by decide +kernel), by rw [n1], by decide +kernel⟩, by decide⟩
      · exact ⟨⟨by unfold WordOk; decide, by decide +kernel⟩, ⟨.inr (by decide +kernel), by rw [n2], by decide +kernel⟩, by decide⟩)
    (.inl (by decide +kernel)) junk (fun w => (toolAnalyses f (finnishInit f) w).map (·.1)) (fun _ _ => ⟨_, .new, rfl⟩)
  refine ⟨SpellProgram.handleApi dict (handleSuggest an junk (handleAfter ({} : Handle Nat) suggestItems)) (fun w => (toolAnalyses f (finnishInit f) w).map (·.1)), t, sugg, ht, fun hl => ?_, C86_complete_execution, fun n tool a b => ?_⟩
  · have o1 : (handleAfter ({} : Handle Nat) suggestItems).ocr = false := by decide +kernel
    have o2 : (handleAfter ({} : Handle Nat) suggestItems).spell.ignoreDot = true := by decide +kernel
    have o3 : (handleAfter ({} : Handle Nat) suggestItems).spell.acceptAllUppercase = true := by decide +kernel
    have hx := (hfollow (lit "abx") (by simp)).complete o1 (by decide) (by decide) (fun _ => by rw [n2]; decide) (lit "abx") false
      (.inr ⟨rfl, n2.symm, fun _ => by rw [n2]; decide⟩)
      (by
        intro c hc h
        have : c = lit "abx" := by
          simp only [typingFirst, show softHyphenRemoval (lit "abx") = [] by decide +kernel, List.map_cons, List.map_nil, List.mem_singleton, Try.word.injEq] at hc
          exact hc
        subst this
        exact haha_abx hr h) hl
    rw [o3] at hx
    obtain ⟨A, B, e1, e2⟩ := abx_tried
    exact hx (lit "ab") A B (SuggestText.haha_ab hr) e1 e2
  · rw [(hrun n tool a b).2]
    have hs : Item.word (lit "-s") ∈ suggestItems := by decide +kernel
    refine ⟨by simp, fun e he hc => ?_⟩
    rw [List.mem_map] at he
    obtain ⟨w, hw, rfl⟩ := he
    simp only [decide_eq_false_iff_not] at hc
    simp only [hs, hc, not_false_eq_true, and_self, if_true]

end Verif.SuggestProgram
