import Verif.Props.SuggestProgram
/-!
# The suggestions that the spelling program prints with `-x` (C116)

C116 for the format with one line for every word.
-/

set_option linter.unusedVariables false

namespace Verif.SuggestOneLine
open Verif Verif.Att Verif.Args Verif.Props Verif.Spec Verif.Search Verif.Threads Verif.SpellOutput Verif.SpellProgram Verif.SuggestText Verif.SuggestProgram Verif.AnalysisProgram Verif.HyphenText
open Verif.HyphProgram (reads_exist)
open Verif.GcProgram (wordViews)

/-! ### Specification -/

/-- The character `s` separates the suggestions from each other: it is not a letter of the words of the text, and none of the other characters in suggestions. -/
structure Separates (ls : List Line) (s : Wc) : Prop where
  text : ∀ (v : List Wc) (run : List Nat), Att.Accepts ls v false run v.length → lower s ∉ v
  space : lower s ≠ 0x20
  dot : lower s ≠ 0x2E
  variant : ∀ e ∈ conv1to1, e.1 ≠ s

/-- The fields after the word on a line: nothing for a correct word. If the separator is the space then the suggestions with spaces are left out. -/
def fieldsFor (sep : Wc) (right : Prop) [Decidable right] (l : List (List Wc)) : List (List Wc) :=
  if right then [] else if sep = 0x20 then l.filter (fun s => !s.contains 0x20) else l

/-! ### Lemmas -/

section
variable {ls : List Line} {runsOf : List Wc → List (List Nat)}

theorem inText_free (hr : ∀ v : List Wc, v.length ≤ 255 → AllRuns ls v (runsOf v)) {s : Wc} (h1 : Separates ls s) {x : List Wc} (h : InText ls runsOf x) :
    lower s ∉ x.map lower := by
  obtain ⟨hl, run, hm, _⟩ := h
  rw [SuggestText.setCase_lower] at hm
  have hl' : (x.map lower).length ≤ 255 := by rw [List.length_map]; exact hl
  exact h1.text _ _ (((hr _ hl').mem run).1 (List.mem_of_mem_take hm))

theorem inTextCap_free (hr : ∀ v : List Wc, v.length ≤ 255 → AllRuns ls v (runsOf v)) {s : Wc} (h1 : Separates ls s) {x : List Wc} (h : InTextCap ls runsOf x) :
    lower s ∉ x.map lower := by
  rcases h with h | ⟨w, hw, h⟩
  · exact inText_free hr h1 h
  · have := inText_free hr h1 h
    rcases hw with ⟨rfl, rfl⟩ | ⟨c, rest, rfl, rfl⟩
    · exact this
    · rw [List.map_cons, (C09_case_laws c).1] at this
      exact this

theorem correct_free (hr : ∀ v : List Wc, v.length ≤ 255 → AllRuns ls v (runsOf v)) {s : Wc} (h1 : Separates ls s) {x o : List Wc}
    (h : CorrectSuggestion ls runsOf x) (ho : Rendered x o) : s ∉ o := by
  have l1 : lower 0x20 = 0x20 := by decide
  have l2 : lower 0x2E = 0x2E := by decide
  have hx : lower s ∉ x.map lower := by
    rcases h with h | ⟨a, b, rfl, hb, ha⟩
    · exact inText_free hr h1 h
    · have hb := inTextCap_free hr h1 hb
      have ha : lower s ∉ a.map lower := by
        rcases ha with ha | ⟨a', rfl, ha⟩
        · exact inTextCap_free hr h1 ha
        · have := inTextCap_free hr h1 ha
          rw [List.map_append, List.mem_append, not_or]
          refine ⟨this, ?_⟩
          simp only [List.map_cons, List.map_nil, List.mem_singleton, l2]
          exact h1.dot
      rw [List.map_append, List.map_cons, List.mem_append, List.mem_cons, not_or, not_or]
      exact ⟨ha, by rw [l1]; exact h1.space, hb⟩
  obtain ⟨d, r, hd, hl, hv⟩ := ho
  have hrl : lower s ∉ r.map lower := by
    rw [hl, List.map_append, List.mem_append, not_or]
    refine ⟨hx, ?_⟩
    rcases hd with rfl | rfl
    · simp
    · simp only [List.map_cons, List.map_nil, List.mem_singleton, l2]
      exact h1.dot
  clear hl hx
  induction hv with
  | nil => simp
  | @cons p q ps qs h2 _ ih =>
    rw [List.map_cons, List.mem_cons, not_or] at hrl
    rw [List.mem_cons, not_or]
    refine ⟨?_, ih hrl.2⟩
    rintro rfl
    rcases h2 with rfl | h2
    · exact hrl.1 rfl
    · exact h1.variant _ h2 rfl

end

section
variable {σ : Type} {api : ToolApi σ} {P : σ → Prop} {verdict : List Wc → Bool} {sugg : List Wc → List (List Wc)} {an : List Wc → List (List (List Wc × List Wc))}
  {words : List (List Wc)}

theorem one_line_steady (ha : Answers api P verdict sugg an words) (o : ToolOpts) (hm : o.mode ≠ .none) (ho : o.oneLine = true) (hmo : o.morphology = false) :
    Threads.Steady (checkWord api o) P (fun w => textOf [w ++ if verdict w then [] else inlineSuggestions o (sugg w)]) words := by
  intro h w hp hw
  obtain ⟨h', e1, e2⟩ := ha.spell h w hp hw
  obtain ⟨l, e3, e4⟩ := ha.suggest w hw
  refine ⟨h', ?_, e2⟩
  cases l <;> cases hv : verdict w <;>
    simp [checkWord, hm, ho, hmo, e1, e3, hv, bind, pure, Option.bind, textOf, ← e4, inlineSuggestions]

end

open Classical in
/-- What the program prints with `-x`, for a speller that accepts the correct words. -/
theorem program_one_line {dict : Bool → List Wc → SpellRes} {W : List Wc → Prop} {C : Bool → SpellOpts → List Wc → Prop} (h5 : Judges dict W C) {G : Type}
    (init : Arg → Option Arg → Option (Handle G)) (args : List Arg) (items : List Item) (rest : Option Arg) (h : Reads spellKeys args items rest)
    (hr : rest ≠ some (lit "-j")) (hitems : ∀ x ∈ items, NumbersOk x ∧ stopOf (α := SpellTool G) x = none)
    (hl : .word (lit "-l") ∉ items) (hL : .word (lit "-L") ∉ items) (hk : ∀ w, .word w ∈ items → SpellKnown w) (hc : wantedCache items ≤ 18)
    (hinit : ∃ h0, initHandle G = some h0 ∧ init ((lastOf (valueOf "-d") items).getD (lit "fi")) (lastOf (valueOf "-p") items) = some h0)
    (hx : ∃ w, .word w ∈ items ∧ lit "-x" <+: w) (hmor : .word (lit "-m") ∉ items ∧ .word (lit "-M") ∉ items) {sep : Wc}
    (hsep : (lastOf separatorOf items).getD 0x20 = sep) (hn : sep ≠ 0x0A)
    (words : List (List Wc)) (hw : ∀ w ∈ words, W w ∧ sep ∉ w) (hb : (wantedThreads items).toNat ≤ blockCount words ∨ words = [])
    (suggest : List Wc → UB (Option (List (List Wc)))) (analyze : List Wc → UB (List (List (List Wc × List Wc))))
    (sugg : List Wc → List (List Wc)) (hs : ∀ w ∈ words, ∃ l, suggest w = some l ∧ l.getD [] = sugg w) (hfree : ∀ w ∈ words, ∀ s ∈ sugg w, sep ≠ 0x20 → sep ∉ s)
    (ana : List Wc → List (List (List Wc × List Wc))) (ha : ∀ w ∈ words, analyze w = some (ana w)) (hsl : SingleLines sugg ana words) :
    ∃ t, spellToolArgs init args = some (.run t) ∧
      ∀ (n : Nat) (tool : Tool (Handle G)), ToolRun (checkWord (handleApi dict suggest analyze) t.opts) n (startTool t.handles words) tool →
        ¬ CanStep (checkWord (handleApi dict suggest analyze) t.opts) tool →
        tool.pc = .terminated ∧ (linesOf tool.out).map (fields sep) = words.map fun w =>
          w :: fieldsFor sep (C (handleAfter {} items : Handle G).acceptExtraHyphens (handleAfter {} items : Handle G).spell w) (sugg w) := by
  obtain ⟨h0, e0, hi⟩ := hinit
  obtain ⟨t, c, ht, hm, _, _, hinv⟩ := (((C101_outcome init args items rest h hr hitems).2.2 hl hL).2 h0 hi hc).2 hk
  refine ⟨t, ht, ?_⟩
  obtain ⟨c0, hc0⟩ : ∃ c0, newCache 0 = some c0 := by
    obtain ⟨c0, e, _⟩ := newCache_ok (fun _ => .ok) 0 (by omega)
    exact ⟨c0, e⟩
  have eh : h0 = { spellerCache := some c0 } := by
    unfold initHandle at e0
    rw [hc0] at e0
    exact (Option.some.inj e0).symm
  have hthreads := (C101_threads items hitems).1
  have hlen : 0 < t.handles.length := by rw [hm.handles, List.length_replicate]; omega
  generalize hO : (handleAfter { h0 with spellerCache := c } items).spell = o
  generalize hE : (handleAfter { h0 with spellerCache := c } items).acceptExtraHyphens = extra
  have hO' : (handleAfter ({} : Handle G) items).spell = o := by rw [← hO, eh]; rfl
  have hE' : (handleAfter ({} : Handle G) items).acceptExtraHyphens = extra := by rw [← hE, eh]; rfl
  rw [hO', hE']
  have hP : ∀ x ∈ t.handles, Mine dict o extra x := by
    intro x hx
    rw [hm.handles] at hx
    have := List.eq_of_mem_replicate hx
    subst this
    refine ⟨hO, hE, ?_⟩
    show CacheInv (effDict (dict extra) o.acceptMissingHyphens) c
    apply hinv
    rw [eh]
    obtain ⟨c1, e1, _, hok⟩ := newCache_ok (effDict (dict extra) o.acceptMissingHyphens) 0 (by omega)
    rw [hc0] at e1
    cases e1
    exact hok
  have hans := handle_answers (G := G) h5 o extra suggest analyze words (fun w m => (hw w m).1) sugg hs ana ha
  have hone : t.opts.oneLine = true := hm.oneLine.2 hx
  have hmo : t.opts.morphology = false := by
    cases e : t.opts.morphology with
    | false => rfl
    | true => exact ((hm.morphology.1 e).elim hmor.1 hmor.2).elim
  have hmode : t.opts.mode ≠ .none := by
    rw [hm.mode]
    unfold lastOf
    cases e : (items.filterMap modeOf).getLast? with
    | none => simp
    | some m =>
      rw [Option.getD_some]
      rintro rfl
      obtain ⟨x, hx, hxm⟩ := List.mem_filterMap.1 (List.mem_of_getLast? e)
      cases x with
      | valued k v => simp [modeOf] at hxm
      | word w =>
        simp only [modeOf] at hxm
        split at hxm
        · cases hxm
        · split at hxm
          · cases hxm
          · split at hxm
            · rename_i ew
              subst ew
              exact hmor.2 hx
            · cases hxm
  have hsep' : t.opts.separator = sep := by rw [hm.separator, hsep]
  have hspace : t.opts.space = (t.opts.separator != 0x20) := by
    cases e : t.opts.space with
    | true => exact (bne_iff_ne.2 (hm.space.1 e)).symm
    | false =>
      by_cases e' : t.opts.separator = 0x20
      · rw [e']; rfl
      · rw [hm.space.2 e'] at e; cases e
  have hb' : t.handles.length ≤ blockCount words ∨ words = [] := by rw [hm.handles, List.length_replicate]; exact hb
  have hp0 := hP _ (List.getElem_mem hlen)
  intro n tool hrun hend
  obtain ⟨q1, q2⟩ := C86_all_executions_partial hlen hP (one_line_steady hans t.opts hmode hone hmo) hb' hrun hend _ hp0
  obtain ⟨out, r1, r2⟩ := C88_one_line hans hsl t.opts hmode hone hmo (by rw [hsep']; exact hn) hspace (fun w m => by rw [hsep']; exact (hw w m).2)
    (fun w m s hs => by rw [hsep']; exact hfree w m s hs) _ hp0
  rw [r1] at q2
  cases q2
  rw [hsep'] at r2
  refine ⟨q1, ?_⟩
  rw [r2]
  refine List.map_congr_left fun w _ => ?_
  unfold fieldsFor
  by_cases hcor : C extra o w <;> simp [hcor]

/-! ### C116 -/

open Classical in
/-- **C116** with `-x`: as `C116_program_partial`, but the program has printed one line for each word, in order. The fields of the line, between the separators, are the word
and, if it is wrong, suggestions that follow the text: with the space as the separator, those without spaces. Missing for the full claim: as in `C116_program_partial`; `-m`
and `-M`; separators that occur in the words or are not ASCII characters (there `wordSeparator` is a negative `char`). -/
theorem C116_one_line_partial {text : List Nat} {ls : List Line} (hd : Att.Describes text ls) (hp : Proper ls) (hf : FullText ls) (hu : UsualWords ls) (hone : OneLine ls)
    {srtS : List (Nat × List Nat) → List (Nat × List Nat)} {srtT : List CTrans → List CTrans}
    (hS : SortsBy (fun a b => attSymLt a.2 b.2) srtS) (hT : SortsBy fileOrderLt srtT) (sw : Bool) :
    ∃ file f, attCompile srtS srtT sw text = some (some file) ∧ loadFile file = some (some f) ∧
      ∃ (runsOf : List Wc → List (List Nat)) (an : Analyzer) (dict : Bool → List Wc → SpellRes),
        (∀ v : List Wc, v.length ≤ 255 → AllRuns ls v (runsOf v)) ∧
        (∀ c, AnalysedBefore f (fun _ => True) c → ∀ w, ∃ l c', finnishAnalyzeFst f c w false = some (l, c') ∧ an w = l.map asMorAn) ∧
        (∀ extra w, 0 ∉ w → finnishSpell extra an w = some (dict extra w)) ∧
        (∃ read : List Wc → List Nat → List SItem, HyphProgram.Reads ls runsOf read) ∧
        ∀ read : List Wc → List Nat → List SItem, HyphProgram.Reads ls runsOf read →
        ∀ {G : Type} (init : Arg → Option Arg → Option (Handle G)) (args : List Arg) (items : List Item) (rest : Option Arg) (h : Args.Reads spellKeys args items rest)
          (hr : rest ≠ some (lit "-j")) (hitems : ∀ x ∈ items, NumbersOk x ∧ stopOf (α := SpellTool G) x = none)
          (hl : .word (lit "-l") ∉ items) (hL : .word (lit "-L") ∉ items) (hk : ∀ w, .word w ∈ items → SpellKnown w) (hc : wantedCache items ≤ 18)
          (hinit : ∃ h0, initHandle G = some h0 ∧ init ((lastOf (valueOf "-d") items).getD (lit "fi")) (lastOf (valueOf "-p") items) = some h0)
          (hx : ∃ w, .word w ∈ items ∧ lit "-x" <+: w) (hmor : .word (lit "-m") ∉ items ∧ .word (lit "-M") ∉ items) (sep : Wc)
          (hsep : (lastOf separatorOf items).getD 0x20 = sep) (hn : sep ≠ 0x0A) (hascii : sep < 0x80) (hfree : sep ≠ 0x20 → Separates ls sep)
          (words : List (List Wc)) (hw : ∀ w ∈ words, TypedWord w ∧ Searchable w ∧ 0x0A ∉ w ∧ sep ∉ w)
          (hb : (wantedThreads items).toNat ≤ blockCount words ∨ words = [])
          (junk : Nat → Wc) (analyze : List Wc → UB (List (List (List Wc × List Wc))))
          (ha : ∀ w ∈ words, ∃ c, AnalysedBefore f (fun _ => True) c ∧ analyze w = (toolAnalyses f c w).map (·.1)),
          ∃ t, spellToolArgs init args = some (.run t) ∧
            ∃ sugg : List Wc → List (List Wc),
              (∀ w ∈ words, FollowTheText ls runsOf (handleAfter {} items : Handle G).ocr (handleAfter {} items : Handle G).spell.ignoreDot
                (handleAfter {} items : Handle G).spell.acceptAllUppercase w (sugg w)) ∧
              let api := SpellProgram.handleApi dict (handleSuggest an junk (handleAfter {} items : Handle G)) analyze
              ∀ (n : Nat) (tool : Tool (Handle G)), ToolRun (checkWord api t.opts) n (startTool t.handles words) tool → ¬ CanStep (checkWord api t.opts) tool →
                let Right := CorrectBy (wordViews runsOf read) (handleAfter {} items : Handle G).acceptExtraHyphens (handleAfter {} items : Handle G).spell
                tool.pc = .terminated ∧ (linesOf tool.out).map (fields sep) = words.map fun w => w :: fieldsFor sep (Right w) (sugg w) := by
  obtain ⟨file, f, h1, h2, runsOf, an, next, h3, h4, h5, h6, h7⟩ := dictionary_outputs hd hp hf.toFinnishText hS hT sw
  obtain ⟨ana, hshow⟩ := shows_text hf h3 h6 h7
  have hdict : ∀ extra w, 0 ∉ w → finnishSpell extra an w = some ((fun extra w => (finnishSpell extra an w).getD .failed) extra w) := by
    intro extra w h0
    obtain ⟨r, e⟩ := h5.total extra w h0
    simp only [e, Option.getD_some]
  generalize (fun extra w => (finnishSpell extra an w).getD .failed) = dict at hdict
  refine ⟨file, f, h1, h2, runsOf, an, dict, h3, h4, hdict, reads_exist hf.toFinnishText h3, ?_⟩
  intro read hread
  obtain ⟨next', _, n2, n3⟩ := h5.outputs
  have hrules : ∀ extra, RulesOf extra (wordViews runsOf read) (dict extra) :=
    fun extra w h0 hs => ruled_of (word_fits hf.toFinnishText h3 n3 hread n2) extra (hdict extra) w h0 hs
  intro G init args items rest h hr hitems hl hL hk hc hinit hx hmor sep hsep hn hascii hfree words hw hb junk analyze ha
  have ha' : ∀ w ∈ words, analyze w = some (ana w) := by
    intro w hm
    obtain ⟨c, hc, e⟩ := ha w hm
    obtain ⟨c', e', _⟩ := hshow.total c hc w
    rw [e, e']
    rfl
  let sugg : List Wc → List (List Wc) := fun w => ((handleSuggest an junk (handleAfter {} items : Handle G) w).getD none).getD []
  have hs : ∀ w ∈ words, (∃ l, handleSuggest an junk (handleAfter {} items : Handle G) w = some l ∧ l.getD [] = sugg w) ∧
      FollowTheText ls runsOf (handleAfter {} items : Handle G).ocr (handleAfter {} items : Handle G).spell.ignoreDot
        (handleAfter {} items : Handle G).spell.acceptAllUppercase w (sugg w) := by
    intro w hm
    obtain ⟨l, e1, e2⟩ := suggestions_follow h3 h5 hu junk (handleAfter {} items : Handle G) w (hw w hm).1.ok (hw w hm).2.1
    have : sugg w = l.getD [] := by simp only [sugg, e1, Option.getD_some]
    exact ⟨⟨l, e1, this.symm⟩, this ▸ e2⟩
  obtain ⟨t, ht, hrun⟩ := program_one_line (W := TypedWord) (C := CorrectBy (wordViews runsOf read))
    ⟨fun _ h => h.ok, fun extra o cache hc w p => C110_accepted (hrules extra) o cache hc w p.ok p.soft⟩
    init args items rest h hr hitems hl hL hk hc hinit hx hmor hsep hn words (fun w hm => ⟨(hw w hm).1, (hw w hm).2.2.2⟩) hb
    (handleSuggest an junk (handleAfter {} items : Handle G)) analyze sugg (fun w hm => (hs w hm).1)
    (fun w hm s hsm hne => by
      obtain ⟨x, q1, q2⟩ := (hs w hm).2.correct s hsm
      exact correct_free h3 (hfree hne) q1 q2) ana ha'
    ⟨fun w hm => (hw w hm).2.2.1, fun w hm o ho => by
      obtain ⟨x, q1, q2⟩ := (hs w hm).2.correct o ho
      exact correct_line h3 hone q1 q2, fun w hm a hma kv hkv => hshow.lines w a hma kv hkv⟩
  exact ⟨t, ht, sugg, fun w hm => (hs w hm).2, hrun⟩

/-! ### A dictionary and a command line to which this applies -/

def lineArgs : List Arg := [lit "-x;", lit "ignore_dot=1"]
def lineItems : List Item := [.word (lit "-x;"), .word (lit "ignore_dot=1")]

theorem haha_separates : Separates hahaLines 0x3B := by
  refine ⟨fun v run h => ?_, by decide, by decide, by decide +kernel⟩
  obtain ⟨m, rfl, _⟩ := haha_runs h
  rw [show lower 0x3B = 0x3B by decide]
  simp [List.mem_replicate]

/-- Non-vacuity: with the dictionary that knows the words `a`, `ab`, `abb`, ... the program can be started with `-x;`; it ends, and prints a line for each of the words `ab` and
`abx`, with a suggestion for the second unless there are five others. -/
example (sw : Bool) (h0 : Handle Nat) (hh : initHandle Nat = some h0) (junk : Nat → Wc) :
    ∃ (api : ToolApi (Handle Nat)) (t : SpellTool Nat) (sugg : List Wc → List (List Wc)),
      spellToolArgs (fun _ _ => some h0) lineArgs = some (.run t) ∧
      ((sugg (lit "abx")).length < 5 → ∃ o ∈ sugg (lit "abx"), Presents (lit "abx") (lit "abx") false true (lit "ab") o) ∧
      (∃ n tool, ToolRun (checkWord api t.opts) n (startTool t.handles [lit "ab", lit "abx"]) tool ∧ ¬ CanStep (checkWord api t.opts) tool) ∧
      ∀ n tool, ToolRun (checkWord api t.opts) n (startTool t.handles [lit "ab", lit "abx"]) tool → ¬ CanStep (checkWord api t.opts) tool →
        ∃ a b, (linesOf tool.out).map (fields 0x3B) = [lit "ab" :: a, lit "abx" :: b] ∧ (b = [] ∨ b = sugg (lit "abx")) := by
  obtain ⟨file, f, _, _, runsOf, an, dict, hr, _, _, ⟨read, hread⟩, main⟩ :=
    C116_one_line_partial haha_describes haha_proper haha_fullText haha_usual haha_oneLine sortSymbols_sorts sortTransitions_sorts sw
  have hit : ∀ x ∈ lineItems, x = .word (lit "-x;") ∨ x = .word (lit "ignore_dot=1") := fun x hx => by
    simpa only [lineItems, List.mem_cons, List.not_mem_nil, or_false] using hx
  have hwd : ∀ w, Item.word w ∈ lineItems → w = lit "-x;" ∨ w = lit "ignore_dot=1" := fun w hw => by
    rcases hit _ hw with h | h <;> injection h with h
    · exact .inl h
    · exact .inr h
  have n1 : normSpec (lit "ab") = lit "ab" := by decide +kernel
  have n2 : normSpec (lit "abx") = lit "abx" := by decide +kernel
  obtain ⟨t, ht, sugg, hfollow, hrun⟩ := main read hread (fun _ _ => some h0) lineArgs lineItems none
    ⟨rfl, by simp [lineItems], fun w hw => by rcases hwd w hw with rfl | rfl <;> decide +kernel, by simp⟩ (by simp)
    (fun x hx => by rcases hit x hx with rfl | rfl <;> exact ⟨by unfold NumbersOk; decide +kernel, rfl⟩) (by decide +kernel) (by decide +kernel)
    (fun w hw => by
      rcases hwd w hw with rfl | rfl
      · exact .inr (.inr (.inl (by decide +kernel)))
      · unfold SpellKnown; decide +kernel)
    (by decide +kernel) ⟨h0, hh, rfl⟩
    ⟨lit "-x;", by decide +kernel, by decide +kernel⟩ ⟨by decide +kernel, by decide +kernel⟩ 0x3B (by decide +kernel) (by decide) (by decide) (fun _ => haha_separates)
    [lit "ab", lit "abx"]
    (by
      intro w hm
      simp only [List.mem_cons, List.not_mem_nil, or_false] at hm
      rcases hm with rfl | rfl
      · exact ⟨⟨by unfold WordOk; decide, by decide +kernel⟩, ⟨.inr (by decide +kernel), by rw [n1], by decide +kernel⟩, by decide, by decide⟩
      · exact ⟨⟨by unfold WordOk; decide, by decide +kernel⟩, ⟨.inr (by decide +kernel), by rw [n2], by decide +kernel⟩, by decide, by decide⟩)
    (.inl (by decide +kernel)) junk (fun w => (toolAnalyses f (finnishInit f) w).map (·.1)) (fun _ _ => ⟨_, .new, rfl⟩)
  refine ⟨SpellProgram.handleApi dict (handleSuggest an junk (handleAfter ({} : Handle Nat) lineItems)) (fun w => (toolAnalyses f (finnishInit f) w).map (·.1)), t, sugg, ht, fun hl => ?_, C86_complete_execution, fun n tool a b => ?_⟩
  · have o1 : (handleAfter ({} : Handle Nat) lineItems).ocr = false := by decide +kernel
    have o2 : (handleAfter ({} : Handle Nat) lineItems).spell.ignoreDot = true := by decide +kernel
    have o3 : (handleAfter ({} : Handle Nat) lineItems).spell.acceptAllUppercase = true := by decide +kernel
    have hx := (hfollow (lit "abx") (by simp)).complete o1 (by decide) (by decide) (fun _ => by rw [n2]; decide) (lit "abx") false
      (.inr ⟨rfl, n2.symm, fun _ => by rw [n2]; decide⟩)
      (by
        intro c hc h
        have : c = lit "abx" := by
          simp only [typingFirst, show softHyphenRemoval (lit "abx") = [] by decide +kernel, List.map_cons, List.map_nil, List.mem_singleton, Try.word.injEq] at hc
          exact hc
        subst this
        exact haha_abx hr h) hl
    rw [o3] at hx
    obtain ⟨A, B, e1, e2⟩ := abx_tried
    exact hx (lit "ab") A B (SuggestText.haha_ab hr) e1 e2
  · refine ⟨_, _, (hrun n tool a b).2, ?_⟩
    unfold fieldsFor
    rw [if_neg (show ¬ (0x3B : Wc) = 0x20 by decide)]
    split
    · exact .inl rfl
    · exact .inr rfl

end Verif.SuggestOneLine
