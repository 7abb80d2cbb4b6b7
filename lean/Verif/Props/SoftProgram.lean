import Verif.Props.SoftText
/-!
# Words with soft hyphens, from the text of a Finnish dictionary to the output of voikkospell (C118)

C110 gives the verdicts on words without soft hyphens, C117 those on words with them. Here are both, with any options and capital letters, and the output of the program.
-/

set_option linter.unusedVariables false

namespace Verif.SoftProgram
open Verif Verif.Att Verif.Args Verif.Props Verif.Threads Verif.SpellOutput Verif.HyphenText Verif.SoftText
open Verif.HyphProgram (Reads reads_exist)
open Verif.GcProgram (wordViews)

/-! ### Specification -/

/-- The word without its soft hyphens. -/
def hard (w : List Wc) : List Wc := w.filter (· ≠ 0xAD)

/-- Soft hyphens are only between other characters, each where the text allows it. -/
structure WellPlaced (runsOf : List Wc → List (List Nat)) (read : List Wc → List Nat → List SItem) (w : List Wc) : Prop where
  start : w.head? ≠ some 0xAD
  fin : w.getLast? ≠ some 0xAD
  double : ∀ i : Nat, ¬ (w[i]? = some 0xAD ∧ w[i + 1]? = some 0xAD)
  allowed : ∀ i : Nat, w[i]? = some 0xAD → AllowedAt runsOf read (hard w) (charsBefore w i)

open Classical in
/-- Verdicts by the rules for hyphens (C110), and for words with soft hyphens by those for soft hyphens. -/
structure SoftRules (runsOf : List Wc → List (List Nat)) (read : List Wc → List Nat → List SItem) (extra : Bool) (V : List Wc → SpellRes) : Prop where
  rules : RulesOf extra (wordViews runsOf read) V
  soft : ∀ w, 0 ∉ w → 0xAD ∈ w → (ShyPlaced w → SoftSuitable runsOf read (hard w)) → V w = if WellPlaced runsOf read w then V (hard w) else .failed

/-- The word is correct by these rules and the options (`extra` is ACCEPT_EXTRA_HYPHENS). -/
def CorrectSoft (runsOf : List Wc → List (List Nat)) (read : List Wc → List Nat → List SItem) (extra : Bool) (o : SpellOpts) (word : List Wc) : Prop :=
  ∃ V, SoftRules runsOf read extra V ∧ AcceptedWord (withEnds o.acceptMissingHyphens V) o word (normSpec word)

/-- The texts for which a dictionary may be asked when the normalised word `n` is checked: the word or the word without a final dot, in lower case or with its first letter
in lower case. -/
def Asked (n y : List Wc) : Prop := ∃ v, (v = n ∨ n = v ++ [0x2E]) ∧ (y = v.map lower ∨ FirstLowered v y)

/-- Words for which the text decides: those of the texts for which the dictionary may be asked that have soft hyphens, only between other characters, are suitable. -/
structure SoftWord (runsOf : List Wc → List (List Nat)) (read : List Wc → List Nat → List SItem) (w : List Wc) : Prop where
  ok : WordOk w
  asked : ∀ y, Asked (normSpec w) y → 0xAD ∈ y → ShyPlaced y → SoftSuitable runsOf read (hard y)
  edged : ∀ y x, Asked (normSpec w) y → Edged y x → 0xAD ∈ x → ShyPlaced x → SoftSuitable runsOf read (hard x)

/-! ### Lemmas -/

theorem hard_plain {w : List Wc} (h0 : 0 ∉ w) : 0 ∉ hard w ∧ 0xAD ∉ hard w := by
  unfold hard
  exact ⟨fun h => h0 (List.mem_filter.1 h).1, by simp⟩

/-- The rules give one verdict to each suitable word. -/
theorem C118_unique {runsOf : List Wc → List (List Nat)} {read : List Wc → List Nat → List SItem} {extra : Bool} {V V' : List Wc → SpellRes}
    (h : SoftRules runsOf read extra V) (h' : SoftRules runsOf read extra V') (w : List Wc) (h0 : 0 ∉ w) (hs : 0xAD ∈ w → ShyPlaced w → SoftSuitable runsOf read (hard w)) :
    V w = V' w := by
  by_cases hm : 0xAD ∈ w
  · rw [h.soft w h0 hm (hs hm), h'.soft w h0 hm (hs hm), C110_unique h.rules h'.rules _ (hard_plain h0).1 (hard_plain h0).2]
  · exact C110_unique h.rules h'.rules w h0 hm

theorem withEnds_on {V V' : List Wc → SpellRes} (missing : Bool) (w : List Wc) (hw : V w = V' w) (he : ∀ x, Edged w x → V x = V' x) :
    withEnds missing V w = effDict V' missing w := by
  unfold withEnds effDict
  cases missing with
  | false => simp [hw]
  | true =>
    simp only [if_true, withEdges, true_and]
    by_cases hf : V w = .failed
    · rw [if_pos (hw ▸ hf)]
      cases e : edgeHyphens w with
      | none =>
        have : ¬ (true = true ∧ V w = .failed ∧ ∃ w', Edged w w') := fun ⟨_, _, w', h⟩ => by rw [(edged_iff w w').2 h] at e; cases e
        rw [dif_neg this]
        exact hf
      | some w' =>
        have hc : true = true ∧ V w = .failed ∧ ∃ w', Edged w w' := ⟨rfl, hf, w', (edged_iff w w').1 e⟩
        rw [dif_pos hc]
        have e' := (edged_iff _ _).2 hc.2.2.choose_spec
        rw [e] at e'
        rw [← Option.some.inj e']
        exact he w' ((edged_iff w w').1 e)
    · rw [dif_neg fun h => hf h.2.1, if_neg (hw ▸ hf), hw]

theorem accepted_on {d d' : List Wc → SpellRes} {o : SpellOpts} {word n : List Wc} (h : ∀ y, Asked n y → d y = d' y) (ha : AcceptedWord d o word n) :
    AcceptedWord d' o word n := by
  rcases ha with h' | ⟨c, hl, h', hm, hl1, hl2⟩ | ⟨hl, h', hu⟩ | ⟨hl, h', hnw⟩ | ⟨v, hl, hv, hd⟩
  · exact .empty h'
  · exact .number c hl h' hm hl1 hl2
  · exact .capitals hl h' hu
  · exact .nonword hl h' hnw
  · have hv' : v = n ∨ n = v ++ [0x2E] := by
      cases hv with
      | word => exact .inl rfl
      | noDot _ _ he => exact .inr he
    have e1 := h (v.map lower) ⟨v, hv', .inl rfl⟩
    have e2 : ∀ w, FirstLowered v w → d w = d' w := fun w hw => h w ⟨v, hv', .inr hw⟩
    refine .dictionary v hl hv ?_
    cases hd with
    | lower a b => exact .lower a (e1 ▸ b)
    | properNoun a b => exact .properNoun a (e1 ▸ b)
    | capitalised a b c => exact .capitalised a b (e1 ▸ c)
    | capitals a b c => exact .capitals a b (e1 ▸ c)
    | exact w a b c => exact .exact w a b (e2 w b ▸ c)
    | exactNoun w c rest a b d e f g => exact .exactNoun w c rest a b d e f (e2 w b ▸ g)

theorem asked_noNul {n y : List Wc} (h0 : 0 ∉ n) (h : Asked n y) : 0 ∉ y := by
  obtain ⟨v, hv, hy⟩ := h
  have hv0 : 0 ∉ v := by
    rcases hv with rfl | e
    · exact h0
    · exact fun h => h0 (by rw [e]; exact List.mem_append_left _ h)
  rcases hy with rfl | ⟨rfl, rfl⟩ | ⟨c, rest, rfl, rfl⟩
  · intro hm
    obtain ⟨c, hc, e⟩ := List.mem_map.1 hm
    exact hv0 (lower_fixed (by decide) e ▸ hc)
  · exact hv0
  · intro hm
    rcases List.mem_cons.1 hm with hm | hm
    · exact hv0 (lower_fixed (by decide) hm.symm ▸ List.mem_cons_self)
    · exact hv0 (List.mem_cons_of_mem _ hm)

/-- A speller that follows the text follows the rules. -/
theorem softRules_of {ls : List Att.Line} {runsOf : List Wc → List (List Nat)} {an : Analyzer} (hf : FollowsText ls runsOf an)
    {read : List Wc → List Nat → List SItem} (hread : Reads ls runsOf read) {extra : Bool} {dict : List Wc → SpellRes}
    (hdict : ∀ w, 0 ∉ w → finnishSpell extra an w = some (dict w)) (hr : RulesOf extra (wordViews runsOf read) dict) : SoftRules runsOf read extra dict := by
  refine ⟨hr, fun w h0 hm hs => ?_⟩
  have key : ∀ r, r ≠ .failed → (dict w = r ↔ WellPlaced runsOf read w ∧ dict (hard w) = r) := by
    intro r hr
    have := C117_verdict hf hread extra w h0 hm hs r hr
    rw [hdict w h0, show finnishSpell extra an (w.filter (· ≠ 0xAD)) = _ from hdict _ (hard_plain h0).1, Option.some.injEq, Option.some.injEq] at this
    rw [this]
    constructor
    · rintro ⟨⟨a, b, c⟩, d, e⟩; exact ⟨⟨a, b, c, e⟩, d⟩
    · rintro ⟨⟨a, b, c, e⟩, d⟩; exact ⟨⟨a, b, c⟩, d, e⟩
  split
  · rename_i hp
    by_cases hh : dict (hard w) = .failed
    · refine Classical.byContradiction fun hn => ?_
      have := ((key (dict w) fun e => hn (e.trans hh.symm)).1 rfl).2
      exact hn this.symm
    · exact (key _ hh).2 ⟨hp, rfl⟩
  · rename_i hp
    exact Classical.byContradiction fun hn => hp ((key (dict w) hn).1 rfl).1

/-- **C118** (spelling): the library accepts a word, with soft hyphens or without, exactly if it is correct by the rules. -/
theorem C118_accepted {runsOf : List Wc → List (List Nat)} {read : List Wc → List Nat → List SItem} {extra : Bool} {dict : List Wc → SpellRes}
    (hV : SoftRules runsOf read extra dict) (o : SpellOpts) (cache : Option SpellerCache) (hc : CacheInv (effDict dict o.acceptMissingHyphens) cache)
    (word : List Wc) (hw : SoftWord runsOf read word) :
    ∃ r cache', spellUcs4 dict o cache word = some (r, cache') ∧ (r = .ok ∨ r = .failed) ∧ (r = .ok ↔ CorrectSoft runsOf read extra o word) := by
  obtain ⟨r, cache', g1, g2, g3⟩ := C65_exact dict o cache hc word hw.ok
  have h0 : 0 ∉ normSpec word := fun h => (wordOk_normSpec hw.ok 0 h).1 rfl
  have same : ∀ V, SoftRules runsOf read extra V → ∀ y, Asked (normSpec word) y → withEnds o.acceptMissingHyphens V y = effDict dict o.acceptMissingHyphens y := by
    intro V h y hy
    have hy0 := asked_noNul h0 hy
    exact withEnds_on _ y (C118_unique h hV y hy0 (hw.asked y hy)) fun x hx => C118_unique h hV x (edged_mem hx (by decide) hy0) (hw.edged y x hy hx)
  refine ⟨r, cache', g1, g2, g3.trans ⟨fun h => ⟨dict, hV, ?_⟩, fun ⟨V, h1, h2⟩ => ?_⟩⟩
  · exact accepted_on (fun y hy => (same dict hV y hy).symm) h
  · exact accepted_on (same V h1) h2

open Classical in
/-- **C118**: the text of a dictionary compiles to a file that loads. The verdicts of the speller on words with suitable soft hyphens are those of the rules. What `voikkospell`
prints for a list of such words follows: with `-tt` the words that are not correct by the rules, and in the usual mode for each word whether it is correct. Missing for the
full claim, as in C104: fewer blocks of words than threads (`C86_violation_few_words`) and cache sizes over 18 (`C101_cache_undefined`); and soft hyphens in words that are
not suitable. -/
theorem C118_program_partial {text : List Nat} {ls : List Line} (hd : Att.Describes text ls) (hp : Proper ls) (hf : FinnishText ls)
    {srtS : List (Nat × List Nat) → List (Nat × List Nat)} {srtT : List CTrans → List CTrans}
    (hS : SortsBy (fun a b => attSymLt a.2 b.2) srtS) (hT : SortsBy fileOrderLt srtT) (sw : Bool) :
    ∃ file f, attCompile srtS srtT sw text = some (some file) ∧ loadFile file = some (some f) ∧
      ∃ (runsOf : List Wc → List (List Nat)) (an : Analyzer) (dict : Bool → List Wc → SpellRes), (∀ v : List Wc, v.length ≤ 255 → AllRuns ls v (runsOf v)) ∧
        (∀ c, AnalysedBefore f (fun _ => True) c → ∀ w, ∃ l c', finnishAnalyzeFst f c w false = some (l, c') ∧ an w = l.map asMorAn) ∧
        (∀ extra w, 0 ∉ w → finnishSpell extra an w = some (dict extra w)) ∧
        ∀ read : List Wc → List Nat → List SItem, Reads ls runsOf read →
        (∀ extra, SoftRules runsOf read extra (dict extra)) ∧
        ∀ {G : Type} (init : Arg → Option Arg → Option (Handle G)) (args : List Arg) (items : List Item) (rest : Option Arg) (h : Args.Reads spellKeys args items rest)
          (hr : rest ≠ some (lit "-j")) (hitems : ∀ x ∈ items, NumbersOk x ∧ stopOf (α := SpellTool G) x = none)
          (hl : .word (lit "-l") ∉ items) (hL : .word (lit "-L") ∉ items) (hk : ∀ w, .word w ∈ items → SpellKnown w) (hc : wantedCache items ≤ 18)
          (hinit : ∃ h0, initHandle G = some h0 ∧ init ((lastOf (valueOf "-d") items).getD (lit "fi")) (lastOf (valueOf "-p") items) = some h0)
          (hx : ¬ ∃ w, .word w ∈ items ∧ lit "-x" <+: w)
          (words : List (List Wc)) (hw : ∀ w ∈ words, SoftWord runsOf read w) (hb : (wantedThreads items).toNat ≤ blockCount words ∨ words = [])
          (suggest : List Wc → UB (Option (List (List Wc)))) (analyze : List Wc → UB (List (List (List Wc × List Wc))))
          (sugg : List Wc → List (List Wc)) (hs : ∀ w ∈ words, ∃ l, suggest w = some l ∧ l.getD [] = sugg w)
          (ana : List Wc → List (List (List Wc × List Wc))) (ha : ∀ w ∈ words, analyze w = some (ana w)) (hsl : SingleLines sugg ana words),
          ∃ t, spellToolArgs init args = some (.run t) ∧
            ∀ (n : Nat) (tool : Tool (Handle G)), ToolRun (checkWord (SpellProgram.handleApi dict suggest analyze) t.opts) n (startTool t.handles words) tool →
              ¬ CanStep (checkWord (SpellProgram.handleApi dict suggest analyze) t.opts) tool →
              let Right := CorrectSoft runsOf read (handleAfter {} items : Handle G).acceptExtraHyphens (handleAfter {} items : Handle G).spell
              (lastOf modeOf items = some .onlyIncorrect → .word (lit "-s") ∉ items → .word (lit "-m") ∉ items → .word (lit "-M") ∉ items →
                tool.pc = .terminated ∧ linesOf tool.out = words.filter fun w => decide (¬ Right w)) ∧
              (lastOf modeOf items = some .onlyCW → .word (lit "-s") ∉ items → .word (lit "-m") ∉ items → .word (lit "-M") ∉ items →
                tool.pc = .terminated ∧ linesOf tool.out = words.map fun w => if Right w then [0x43] else [0x57]) ∧
              (lastOf modeOf items = none →
                tool.pc = .terminated ∧ entries tool.out = words.map fun w =>
                  { word := w, correct := decide (Right w),
                    attributes := if (.word (lit "-m") ∈ items ∨ .word (lit "-M") ∈ items) ∧ Right w then (SpellOutput.numbered 1 (ana w)).map some else [],
                    suggestions := if .word (lit "-s") ∈ items ∧ ¬ Right w then sugg w else [] }) := by
  obtain ⟨file, f, h1, h2, runsOf, an, h3, h4, h5⟩ := C99_dictionary hd hp hf hS hT sw
  have hdict : ∀ extra w, 0 ∉ w → finnishSpell extra an w = some ((fun extra w => (finnishSpell extra an w).getD .failed) extra w) := by
    intro extra w h0
    obtain ⟨r, e⟩ := h5.total extra w h0
    simp only [e, Option.getD_some]
  generalize (fun extra w => (finnishSpell extra an w).getD .failed) = dict at hdict
  refine ⟨file, f, h1, h2, runsOf, an, dict, h3, h4, hdict, ?_⟩
  intro read hread
  obtain ⟨next, _, n2, n3⟩ := h5.outputs
  have hrules : ∀ extra, SoftRules runsOf read extra (dict extra) :=
    fun extra => softRules_of h5 hread (hdict extra) fun w h0 hs => ruled_of (word_fits hf h3 n3 hread n2) extra (hdict extra) w h0 hs
  refine ⟨hrules, ?_⟩
  exact SpellProgram.program_judged (W := SoftWord runsOf read) (C := CorrectSoft runsOf read)
    ⟨fun _ h => h.ok, fun extra o cache hc w p => C118_accepted (hrules extra) o cache hc w p⟩

/-! ### A dictionary to which this applies -/

theorem softAbb_asked (y : List Wc) (h : Asked (normSpec softAbb) y) : y = softAbb := by
  have n : normSpec softAbb = softAbb := by decide +kernel
  rw [n] at h
  obtain ⟨v, hv, hy⟩ := h
  have e : v = softAbb := by
    rcases hv with rfl | e
    · rfl
    · have := congrArg List.getLast? e
      rw [show softAbb.getLast? = some 98 by decide] at this
      simp at this
  subst e
  rcases hy with rfl | ⟨h, _⟩ | ⟨c, rest, h, rfl⟩
  · decide +kernel
  · cases h
  · have h1 : c = 97 := by cases h; rfl
    have h2 : rest = [98, 0xAD, 98] := by cases h; rfl
    subst h1 h2
    decide +kernel

theorem softAbb_edged (x : List Wc) (h : Edged softAbb x) : x = [0x2D, 97, 98, 0xAD, 98, 0x2D] := by
  obtain ⟨a, b, rfl, ⟨rfl, _⟩ | ⟨_, h1⟩, ⟨rfl, _⟩ | ⟨_, h2⟩, _⟩ := h
  · rfl
  · cases h2
  · cases h1
  · cases h1

theorem haha_softWord {runsOf : List Wc → List (List Nat)} (hr : ∀ v : List Wc, v.length ≤ 255 → AllRuns hahaLines v (runsOf v)) :
    SoftWord runsOf (fun v _ => hahaReading v) softAbb := by
  refine ⟨by unfold WordOk; decide, fun y hy _ _ => ?_, fun y x hy hx _ _ => ?_⟩
  · rw [softAbb_asked y hy]
    exact (haha_soft hr).1
  · rw [softAbb_asked y hy] at hx
    rw [softAbb_edged x hx]
    have e : hard [0x2D, 97, 98, 0xAD, 98, 0x2D] = lit "-abb-" := by decide
    have low : setCase .allLower (lit "-abb-") = lit "-abb-" := by decide +kernel
    have none' : ∀ its, ¬ HyphProgram.ValidOf runsOf (fun v _ => hahaReading v) (lit "-abb-") its := by
      rintro its ⟨run, hm, _⟩
      rw [low] at hm
      obtain ⟨m, h, _⟩ := haha_runs (((hr (lit "-abb-") (by decide)).mem run).1 hm)
      cases h
    rw [e]
    refine ⟨by unfold ValidCp; decide, by decide, ?_, .inr ?_, fun its h => (none' its h).elim⟩
    · have := HyphProgram.haha_one hr (setCase .allLower (lit "-abb-")) (by decide +kernel); omega
    · intro i hi
      match i, hi with
      | 0, _ => exact .inl rfl
      | 1, hi => cases hi
      | 2, hi => cases hi
      | 3, hi => cases hi
      | 4, _ => exact .inr rfl
      | i + 5, hi => simp [lit] at hi

/-- Non-vacuity: with the compiled dictionary that knows the words `a`, `ab`, `abb`, ... the word `abb` is correct, and unknown with a soft hyphen before its last letter,
for which there is no place; and the program can be given this word. -/
example (sw : Bool) : ∃ (an : Analyzer) (dict : Bool → List Wc → SpellRes) (runsOf : List Wc → List (List Nat)),
    SoftWord runsOf (fun v _ => hahaReading v) softAbb ∧ (∀ extra, SoftRules runsOf (fun v _ => hahaReading v) extra (dict extra)) ∧
    finnishSpell true an (lit "abb") = some .ok ∧ finnishSpell true an softAbb = some .failed := by
  obtain ⟨file, f, _, _, runsOf, an, dict, hr, _, hdict, main⟩ := C118_program_partial haha_describes haha_proper haha_finnish sortSymbols_sorts sortTransitions_sorts sw
  obtain ⟨hV, _⟩ := main (fun v _ => hahaReading v) (by
    intro v hv run hm
    obtain ⟨m, rfl, rfl⟩ := haha_runs (((hr v hv).mem run).1 hm)
    exact ⟨haha_output m, haha_good⟩)
  refine ⟨an, dict, runsOf, haha_softWord hr, hV, ?_, ?_⟩
  · rw [hdict _ _ (by decide)]
    have good := (haha_abb hr).2
    have := (hV true).rules (lit "abb") (by decide) (by decide)
    generalize dict true (lit "abb") = r at this
    cases this with
    | plain _ => rw [good]
    | superfluous _ _ h => exact absurd good h
    | pair _ _ h => exact absurd good h
    | appended _ _ _ _ h => exact absurd good h
    | ambiguous _ _ _ _ h => exact absurd good h
    | unchanged _ _ _ _ h => exact absurd good h
  · rw [hdict _ _ (by decide), (hV true).soft softAbb (by decide) (by decide) (fun _ => (haha_soft hr).1), if_neg fun h => (haha_soft hr).2 (h.allowed 2 rfl)]

end Verif.SoftProgram
