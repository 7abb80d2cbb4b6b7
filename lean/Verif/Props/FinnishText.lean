import Verif.Props.FinnishFst
import Verif.Props.FinnishLetters
import Verif.Props.FinnishDict
import Verif.Props.SpellExact
import Verif.Lemmas.SuggestSplit
/-!
# C99: what the text of a Finnish dictionary says is correct Finnish

From the text of the dictionary to the verdict of the library: the compiler and the loader (C82), the analyser (C98), the letter case (C85), the
speller with its special cases (C70) and the options (C65).
-/

set_option linter.unusedSimpArgs false
set_option linter.unusedVariables false

namespace Verif.Props
open Verif Verif.Att

/-- A reading of the word `v` of the usual form: a sequence of items to which C59, C77 and C85 apply, with as many letters as the word and hyphens where the word has
them. -/
structure GoodReading (v : List Wc) (its : List SItem) : Prop where
  regulated : Regulated its
  plain : Validity.Plain its
  noNul : 0 ∉ render its
  length : (content its).length = v.length
  hyphens : ∀ i : Nat, (content its)[i]? = some 0x2D ↔ v[i]? = some 0x2D

/-- The text of a Finnish dictionary: the search for every word is within the limits, what is found for a word are good readings of it, and there are no flag
diacritics or every word leaves no trace. -/
structure FinnishText (ls : List Line) : Prop where
  small : ∀ v : List Wc, v.length ≤ 255 → Small ls v
  readings : ∀ (v : List Wc) (run : List Nat), v.length ≤ 255 → Att.Accepts ls v false run v.length → ∃ its, runOutput ls run = render its ∧ GoodReading v its
  harmless : (∀ l ∈ ls, ∀ s ∈ l.symbols, s.head? ≠ some 64) ∨ ∀ word, Traceless ls word

/-- The run gives a valid reading. -/
def ValidRun (ls : List Line) (v : List Wc) (run : List Nat) : Prop :=
  ∃ its, runOutput ls run = render its ∧ GoodReading v its ∧ Validity.Valid (Validity.events its)

/-- The run gives a valid reading that allows the capital letters of `w`. -/
def AllowingRun (ls : List Line) (v w : List Wc) (run : List Nat) : Prop :=
  ∃ its, runOutput ls run = render its ∧ GoodReading v its ∧ Validity.Valid (Validity.events its) ∧ Allows its w

/-- The run gives a valid reading that allows the capital letters of `w`, except that the first letter of `w` may be a small one. -/
def CapitalRun (ls : List Line) (v w : List Wc) (run : List Nat) : Prop :=
  ∃ its, runOutput ls run = render its ∧ GoodReading v its ∧ Validity.Valid (Validity.events its) ∧ AllowsCapital its w

/-- No hyphens except at the ends of the word. -/
def InnerFree (w : List Wc) : Prop := ∀ i : Nat, w[i]? = some 0x2D → i = 0 ∨ i + 1 = w.length

theorem innerFree_of {w : List Wc} (h : 0x2D ∉ w) : InnerFree w := fun _ hi => absurd (List.mem_of_getElem? hi) h

/-- The verdicts of a speller for the words, as the runs of the text require them. -/
structure FollowsText (ls : List Line) (runsOf : List Wc → List (List Nat)) (an : Analyzer) : Prop where
  long : ∀ w, 255 < w.length → adapterSpell an w = some .failed
  verdict : ∀ w : List Wc, w.length ≤ 255 → ∃ r, adapterSpell an w = some r ∧
    (r ≠ .failed ↔ ∃ run ∈ (runsOf (setCase .allLower w)).take 99, ValidRun ls (setCase .allLower w) run) ∧
    (r = .ok ↔ ∃ run ∈ (runsOf (setCase .allLower w)).take 99, AllowingRun ls (setCase .allLower w) w run) ∧
    (r = .ok ∨ r = .capFirst ↔ ∃ run ∈ (runsOf (setCase .allLower w)).take 99, CapitalRun ls (setCase .allLower w) w run)
  simple : ∀ (extra : Bool) w, InnerFree w → 0xAD ∉ w → finnishSpell extra an w = adapterSpell an w
  total : ∀ (extra : Bool) w, 0 ∉ w → ∃ r, finnishSpell extra an w = some r
  hyphenation : ∀ (o : HyphOpts) (w : List Wc), 0 ∉ w → (∀ c ∈ w, ValidCp c) →
    ∃ p, hyphenateUcs4 o an w = some (some p) ∧ p.length = w.length ∧ (∀ c ∈ p, c = 0x20 ∨ c = 0x2D ∨ c = 0x3D) ∧
      ∀ i : Nat, p[i]? = some 0x3D → Removable w i
  outputs : ∃ next, GoodDictionary next ∧ IsFinnishAnalyzer next an ∧ ∀ v : List Wc, v.length ≤ 255 → next v = (runsOf v).map (runOutput ls)

theorem noInnerHyphen {w : List Wc} (h : InnerFree w) : firstInnerHyphen w = none := by
  unfold firstInnerHyphen
  rw [Option.map_eq_none_iff, List.findIdx?_eq_none_iff]
  intro x hx
  obtain ⟨i, hi⟩ := List.getElem?_of_mem hx
  simp only [beq_eq_false_iff_ne, ne_eq]
  rintro rfl
  rw [List.getElem?_take] at hi
  split at hi
  · rw [List.getElem?_drop] at hi
    have := h _ hi
    omega
  · cases hi

theorem finnishSpell_simple (extra : Bool) (an : Analyzer) {w : List Wc} (h1 : InnerFree w) (h2 : 0xAD ∉ w) :
    finnishSpell extra an w = adapterSpell an w := by
  rw [finnishSpell, spellTweaked_eq, if_neg h2, spellNoShy_eq]
  unfold noShyBody
  cases adapterSpell an w with
  | none => rfl
  | some r =>
    simp only [Option.bind_eq_bind, Option.bind_some, noInnerHyphen h1]
    split <;> rfl

/-- The dictionary, with the outputs from which all analyses are made. -/
theorem dictionary_outputs {text : List Nat} {ls : List Line} (hd : Att.Describes text ls) (hp : Proper ls) (hf : FinnishText ls)
    {srtS : List (Nat × List Nat) → List (Nat × List Nat)} {srtT : List CTrans → List CTrans}
    (hS : SortsBy (fun a b => attSymLt a.2 b.2) srtS) (hT : SortsBy fileOrderLt srtT) (sw : Bool) :
    ∃ file f, attCompile srtS srtT sw text = some (some file) ∧ loadFile file = some (some f) ∧
      ∃ (runsOf : List Wc → List (List Nat)) (an : Analyzer) (next : List Wc → List (List Wc)), (∀ v : List Wc, v.length ≤ 255 → AllRuns ls v (runsOf v)) ∧
        (∀ c, AnalysedBefore f (fun _ => True) c → ∀ w, ∃ l c', finnishAnalyzeFst f c w false = some (l, c') ∧ an w = l.map asMorAn) ∧
        FollowsText ls runsOf an ∧ (∀ v : List Wc, v.length ≤ 255 → next v = (runsOf v).map (runOutput ls)) ∧
        ∀ c, AnalysedBefore f (fun _ => True) c → ∀ w full, (finnishAnalyzeFst f c w full).map (·.1) = finnishAnalyze next w full := by
  obtain ⟨file, f, h1, h2, st⟩ := plain_of hd hp hS hT sw
  refine ⟨file, f, h1, h2, ?_⟩
  have htr : ∀ {c}, AnalysedBefore f (fun _ => True) c → NoTrace f c := by
    intro c hc
    rcases hf.harmless with h | h
    · exact noFlags_noTrace st (st.noFlags h) hc
    · refine traceless_noTrace hp st ?_
      clear h1 h2
      induction hc with
      | new => exact .new
      | analyse c c' word full l _ _ he ih => exact .analyse c c' word full l ih (h word) he
  obtain ⟨next, h3, h4, h5⟩ := analyser_long hp st htr
  have hruns : ∀ v : List Wc, ∃ runs, v.length ≤ 255 → AllRuns ls v runs ∧ next v = runs.map (runOutput ls) := by
    intro v
    by_cases hv : v.length ≤ 255
    · obtain ⟨runs, h⟩ := h3 v hv (hf.small v hv)
      exact ⟨runs, fun _ => h⟩
    · exact ⟨[], fun h => absurd h hv⟩
  have hgood : GoodDictionary next := by
    intro v o ho
    by_cases hv : v.length ≤ 255
    · obtain ⟨runs, h⟩ := hruns v
      obtain ⟨ha, hn⟩ := h hv
      rw [hn] at ho
      obtain ⟨run, hr, rfl⟩ := List.mem_map.1 ho
      have hacc := (ha.mem run).1 hr
      obtain ⟨its, e, g⟩ := hf.readings v run hv hacc
      have hsz := (hf.small v hv).out run _ hacc
      exact ⟨by omega, by rw [e]; exact g.noNul, its, e, g.regulated.wf, g.length, g.hyphens⟩
    · rw [h4 v (by omega)] at ho
      cases ho
  obtain ⟨⟨an, han⟩, _⟩ := C70_analyser next hgood
  have hsm : ∀ w : List Wc, 255 < w.length ∨ ¬ InAlphabet ls (setCase .allLower w) ∨ Small ls (setCase .allLower w) := by
    intro w
    by_cases hw : w.length ≤ 255
    · exact .inr (.inr (hf.small _ (by rw [lower_len]; exact hw)))
    · exact .inl (by omega)
  refine ⟨fun v => (hruns v).choose, an, next, fun v hv => ((hruns v).choose_spec hv).1, ?_, ?_, fun v hv => ((hruns v).choose_spec hv).2,
    fun c hc w full => h5 c hc w full (hsm w)⟩
  · intro c hc w
    have e := h5 c hc w false (hsm w)
    obtain ⟨l, e1, e2⟩ := han w
    rw [e1] at e
    obtain ⟨⟨l', c'⟩, e3, rfl⟩ := Option.map_eq_some_iff.1 e
    exact ⟨l', c', e3, e2⟩
  refine ⟨?_, ?_, fun extra w g1 g2 => finnishSpell_simple extra an g1 g2, fun extra w h0 => C70_spell next hgood an han extra w h0,
    fun o w h0 hv => C70_hyphenate next hgood an han o w h0 hv, next, hgood, han, fun v hv => ((hruns v).choose_spec hv).2⟩
  · intro w hw
    obtain ⟨r, e1, e2, _⟩ := C70_lookup next hgood an han w
    rw [e1, e2.2 (.inl hw)]
  · intro w hw
    have hlen : (setCase .allLower w).length = w.length := lower_len w
    obtain ⟨ha, hn⟩ := (hruns (setCase .allLower w)).choose_spec (by omega)
    generalize (hruns (setCase .allLower w)).choose = runs at ha hn
    have hread : ∀ run ∈ runs, ∃ its, runOutput ls run = render its ∧ GoodReading (setCase .allLower w) its := fun run hr =>
      hf.readings _ run (by omega) ((ha.mem run).1 hr)
    have hval : ∀ its, GoodReading (setCase .allLower w) its →
        (isValidAnalysis (render its) = some true ↔ Validity.Valid (Validity.events its)) := by
      intro its g
      obtain ⟨b, hb, hv⟩ := C77_valid its g.plain
      rw [hb, ← hv]
      simp
    obtain ⟨r, e1, e2, _⟩ := C70_lookup next hgood an han w
    refine ⟨r, e1, ?_, ?_, ?_⟩
    · rw [ne_eq, e2, hn, ← List.map_take]
      constructor
      · intro h
        refine Classical.byContradiction fun hno => h (.inr fun o ho => ?_)
        obtain ⟨run, hr, rfl⟩ := List.mem_map.1 ho
        obtain ⟨its, g1, g2⟩ := hread run (List.mem_of_mem_take hr)
        rw [g1]
        obtain ⟨b, hb, hv⟩ := C77_valid its g2.plain
        cases b with
        | false => exact hb
        | true => exact absurd ⟨run, hr, its, g1, g2, hv.1 rfl⟩ hno
      · rintro ⟨run, hr, its, g1, g2, g3⟩ (h | h)
        · omega
        · have := h _ (List.mem_map.2 ⟨run, hr, rfl⟩)
          rw [g1, (hval its g2).2 g3] at this
          cases this
    · -- the readings, with a given one for one of the runs
      have key : ∀ read : List Nat → List SItem, (∀ run ∈ runs, runOutput ls run = render (read run) ∧ GoodReading (setCase .allLower w) (read run)) →
          (r = .ok ↔ ∃ run ∈ runs.take 99, Validity.Valid (Validity.events (read run)) ∧ Allows (read run) w) := by
        intro read hr
        obtain ⟨r', k1, k2⟩ := C85_lookup_partial next hgood an han w hw (runs.map read)
          (by
            rw [hn, List.map_map]
            exact List.map_congr_left fun run h => (hr run h).1)
          (by
            intro its h
            obtain ⟨run, hm, rfl⟩ := List.mem_map.1 h
            have hsz := (hf.small _ (by omega : (setCase .allLower w).length ≤ 255)).out run _ ((ha.mem run).1 hm)
            rw [(hr run hm).1] at hsz
            exact ⟨(hr run hm).2.regulated, (hr run hm).2.length.trans hlen, by omega⟩)
        rw [e1] at k1
        cases k1
        rw [k2, ← List.map_take]
        constructor
        · rintro ⟨its, hm', g1, g2⟩
          obtain ⟨run, hm, rfl⟩ := List.mem_map.1 hm'
          exact ⟨run, hm, (hval _ (hr run (List.mem_of_mem_take hm)).2).1 g1, g2⟩
        · rintro ⟨run, hm, g1, g2⟩
          exact ⟨_, List.mem_map.2 ⟨run, hm, rfl⟩, (hval _ (hr run (List.mem_of_mem_take hm)).2).2 g1, g2⟩
      have hch : ∃ read : List Nat → List SItem, ∀ run ∈ runs, runOutput ls run = render (read run) ∧ GoodReading (setCase .allLower w) (read run) := by
        classical
        refine ⟨fun run => if h : run ∈ runs then (hread run h).choose else [], fun run h => ?_⟩
        simp only [dif_pos h]
        exact (hread run h).choose_spec
      obtain ⟨read, hread'⟩ := hch
      constructor
      · intro h
        obtain ⟨run, hm, g1, g2⟩ := (key read hread').1 h
        obtain ⟨g3, g4⟩ := hread' run (List.mem_of_mem_take hm)
        exact ⟨run, hm, _, g3, g4, g1, g2⟩
      · rintro ⟨run, hm, its, g1, g2, g3, g4⟩
        refine (key (fun x => if x = run then its else read x) ?_).2 ⟨run, hm, by simpa using g3, by simpa using g4⟩
        intro x hx
        by_cases hxr : x = run
        · simp only [if_pos hxr]
          rw [hxr]
          exact ⟨g1, g2⟩
        · simp only [if_neg hxr]
          exact hread' x hx
    · -- the same for words with a capital at their beginning
      have key : ∀ read : List Nat → List SItem, (∀ run ∈ runs, runOutput ls run = render (read run) ∧ GoodReading (setCase .allLower w) (read run)) →
          (r = .ok ∨ r = .capFirst ↔ ∃ run ∈ runs.take 99, Validity.Valid (Validity.events (read run)) ∧ AllowsCapital (read run) w) := by
        intro read hr
        obtain ⟨r', k1, k2⟩ := C85_lookup_capital_partial next hgood an han w hw (runs.map read)
          (by
            rw [hn, List.map_map]
            exact List.map_congr_left fun run h => (hr run h).1)
          (by
            intro its h
            obtain ⟨run, hm, rfl⟩ := List.mem_map.1 h
            have hsz := (hf.small _ (by omega : (setCase .allLower w).length ≤ 255)).out run _ ((ha.mem run).1 hm)
            rw [(hr run hm).1] at hsz
            exact ⟨(hr run hm).2.regulated, (hr run hm).2.length.trans hlen, by omega⟩)
        rw [e1] at k1
        cases k1
        rw [k2, ← List.map_take]
        constructor
        · rintro ⟨its, hm', g1, g2⟩
          obtain ⟨run, hm, rfl⟩ := List.mem_map.1 hm'
          exact ⟨run, hm, (hval _ (hr run (List.mem_of_mem_take hm)).2).1 g1, g2⟩
        · rintro ⟨run, hm, g1, g2⟩
          exact ⟨_, List.mem_map.2 ⟨run, hm, rfl⟩, (hval _ (hr run (List.mem_of_mem_take hm)).2).2 g1, g2⟩
      have hch : ∃ read : List Nat → List SItem, ∀ run ∈ runs, runOutput ls run = render (read run) ∧ GoodReading (setCase .allLower w) (read run) := by
        classical
        refine ⟨fun run => if h : run ∈ runs then (hread run h).choose else [], fun run h => ?_⟩
        simp only [dif_pos h]
        exact (hread run h).choose_spec
      obtain ⟨read, hread'⟩ := hch
      constructor
      · intro h
        obtain ⟨run, hm, g1, g2⟩ := (key read hread').1 h
        obtain ⟨g3, g4⟩ := hread' run (List.mem_of_mem_take hm)
        exact ⟨run, hm, _, g3, g4, g1, g2⟩
      · rintro ⟨run, hm, its, g1, g2, g3, g4⟩
        refine (key (fun x => if x = run then its else read x) ?_).2 ⟨run, hm, by simpa using g3, by simpa using g4⟩
        intro x hx
        by_cases hxr : x = run
        · simp only [if_pos hxr]
          rw [hxr]
          exact ⟨g1, g2⟩
        · simp only [if_neg hxr]
          exact hread' x hx

/-- **C99** (the dictionary): the text compiles to a file that loads; the analyser is a function of the word, whatever it analysed before; and with this function the speller
and the hyphenator follow the text. -/
theorem C99_dictionary {text : List Nat} {ls : List Line} (hd : Att.Describes text ls) (hp : Proper ls) (hf : FinnishText ls)
    {srtS : List (Nat × List Nat) → List (Nat × List Nat)} {srtT : List CTrans → List CTrans}
    (hS : SortsBy (fun a b => attSymLt a.2 b.2) srtS) (hT : SortsBy fileOrderLt srtT) (sw : Bool) :
    ∃ file f, attCompile srtS srtT sw text = some (some file) ∧ loadFile file = some (some f) ∧
      ∃ (runsOf : List Wc → List (List Nat)) (an : Analyzer), (∀ v : List Wc, v.length ≤ 255 → AllRuns ls v (runsOf v)) ∧
        (∀ c, AnalysedBefore f (fun _ => True) c → ∀ w, ∃ l c', finnishAnalyzeFst f c w false = some (l, c') ∧ an w = l.map asMorAn) ∧
        FollowsText ls runsOf an := by
  obtain ⟨file, f, h1, h2, runsOf, an, _, h3, h4, h5, _⟩ := dictionary_outputs hd hp hf hS hT sw
  exact ⟨file, f, h1, h2, runsOf, an, h3, h4, h5⟩

theorem lower_fixed {c x : Wc} (hx : upper x = x) (h : lower c = x) : c = x := by
  cases hu : isUpper c with
  | false => rw [← h, lower_of_not_upper c hu]
  | true =>
    obtain ⟨_, _, _, a4, _, a6, _⟩ := C09_case_laws c
    rw [← a6 hu, ← a4, h, hx]

/-- One of the first 99 runs for the text `w` is of the kind `R`. -/
def Given (ls : List Line) (runsOf : List Wc → List (List Nat)) (R : List Line → List Wc → List Wc → List Nat → Prop) (w : List Wc) : Prop :=
  ∃ run ∈ (runsOf (setCase .allLower w)).take 99, R ls (setCase .allLower w) w run

/-- `w'` is the word `w` of at least two characters with the hyphens that it lacks at its ends, where it lacks at least one. -/
def Edged (w w' : List Wc) : Prop :=
  ∃ a b, w' = a ++ w ++ b ∧ ((a = [0x2D] ∧ w.head? ≠ some 0x2D) ∨ (a = [] ∧ w.head? = some 0x2D)) ∧
    ((b = [0x2D] ∧ w.getLast? ≠ some 0x2D) ∨ (b = [] ∧ w.getLast? = some 0x2D)) ∧ w' ≠ w ∧ 2 ≤ w.length

/-- The text of the dictionary gives `w` with a run of the kind `R`; or, with ACCEPT_MISSING_HYPHENS, it does not give `w` at all but gives it with hyphens at its ends. -/
def GivenText (ls : List Line) (runsOf : List Wc → List (List Nat)) (o : SpellOpts) (R : List Line → List Wc → List Wc → List Nat → Prop) (w : List Wc) : Prop :=
  Given ls runsOf R w ∨ (o.acceptMissingHyphens = true ∧ ¬ Given ls runsOf (fun ls v _ run => ValidRun ls v run) w ∧
    ∃ w', Edged w w' ∧ w'.length ≤ 255 ∧ Given ls runsOf R w')

/-- What the text of the dictionary has to say about `v`, looked up for the word `n`: a word in lower case has to be given without capital letters; a word in capital letters (with
ACCEPT_ALL_UPPERCASE) has to be given with any letters; with a capital at its beginning it has to be given with or (with ACCEPT_FIRST_UPPERCASE) without it; and any other word has to
be given with its capital letters, where the capital at its beginning may be additional with ACCEPT_FIRST_UPPERCASE. -/
inductive CorrectText (ls : List Line) (runsOf : List Wc → List (List Nat)) (o : SpellOpts) (n v : List Wc) : Prop
  | lower : IsLowerWord n → GivenText ls runsOf o AllowingRun (v.map lower) → CorrectText ls runsOf o n v
  | capitals : IsUpperWord n → o.acceptAllUppercase = true → GivenText ls runsOf o (fun ls v _ run => ValidRun ls v run) (v.map lower) → CorrectText ls runsOf o n v
  | capitalised : IsCapitalised n → o.acceptFirstUppercase = true → GivenText ls runsOf o CapitalRun (v.map lower) → CorrectText ls runsOf o n v
  | properNoun : IsCapitalised n → GivenText ls runsOf o CapitalRun (v.map lower) → ¬ GivenText ls runsOf o AllowingRun (v.map lower) → CorrectText ls runsOf o n v
  | exact (w : List Wc) : IsOther n ∨ (IsUpperWord n ∧ o.acceptAllUppercase = false) → FirstLowered v w → GivenText ls runsOf o AllowingRun w → CorrectText ls runsOf o n v
  | exactNoun (w : List Wc) (c : Wc) (rest : List Wc) : IsOther n ∨ (IsUpperWord n ∧ o.acceptAllUppercase = false) → FirstLowered v w → n = c :: rest →
      isUpper c = true → o.acceptFirstUppercase = true → GivenText ls runsOf o CapitalRun w → CorrectText ls runsOf o n v

/-- The words that are accepted: `n` is the normalised word. The options may accept words with digits, words in capital letters and addresses as they are, and a full stop
at the end of a word; for the others the dictionary has to give the word. -/
inductive AcceptedText (ls : List Line) (runsOf : List Wc → List (List Nat)) (o : SpellOpts) (word n : List Wc) : Prop
  | empty : word = [] → AcceptedText ls runsOf o word n
  | number (c : Wc) : word.length ≤ 255 → o.ignoreNumbers = true → c ∈ n → 0x30 ≤ c → c ≤ 0x39 → AcceptedText ls runsOf o word n
  | capitals : word.length ≤ 255 → o.ignoreUppercase = true → IsUpperWord n → AcceptedText ls runsOf o word n
  | nonword : word.length ≤ 255 → o.ignoreNonwords = true → NonwordCode n → AcceptedText ls runsOf o word n
  | dictionary (v : List Wc) : word.length ≤ 255 → v.length ≤ 255 → LookedUp o n v → CorrectText ls runsOf o n v → AcceptedText ls runsOf o word n

theorem edged_iff (w w' : List Wc) : edgeHyphens w = some w' ↔ Edged w w' := by
  unfold edgeHyphens Edged
  by_cases h2 : w.length < 2
  · rw [if_pos h2]
    exact ⟨fun h => (by cases h), fun ⟨_, _, _, _, _, _, h⟩ => by omega⟩
  rw [if_neg h2]
  have h2 : 2 ≤ w.length := by omega
  by_cases ha : w.head? = some 0x2D <;> by_cases hb : w.getLast? = some 0x2D
  · rw [if_pos ha, if_pos hb]
    refine ⟨fun h => (by cases h), ?_⟩
    rintro ⟨a, b, e, h3 | h3, h4 | h4, h5, _⟩
    · exact absurd ha h3.2
    · exact absurd ha h3.2
    · exact absurd hb h4.2
    · exact absurd (by rw [e, h3.1, h4.1]; simp) h5
  · rw [if_pos ha, if_neg hb]
    constructor
    · intro h
      cases h
      exact ⟨[], [0x2D], rfl, .inr ⟨rfl, ha⟩, .inl ⟨rfl, hb⟩, by simp, h2⟩
    · rintro ⟨a, b, e, h3 | h3, h4 | h4, h5, _⟩
      · exact absurd ha h3.2
      · exact absurd ha h3.2
      · rw [e, h3.1, h4.1]; rfl
      · exact absurd h4.2 hb
  · rw [if_neg ha, if_pos hb]
    constructor
    · intro h
      cases h
      exact ⟨[0x2D], [], by simp, .inl ⟨rfl, ha⟩, .inr ⟨rfl, hb⟩, by simp, h2⟩
    · rintro ⟨a, b, e, h3 | h3, h4 | h4, h5, _⟩
      · exact absurd hb h4.2
      · rw [e, h3.1, h4.1]; simp
      · exact absurd h3.2 ha
      · exact absurd h3.2 ha
  · rw [if_neg ha, if_neg hb]
    constructor
    · intro h
      cases h
      exact ⟨[0x2D], [0x2D], rfl, .inl ⟨rfl, ha⟩, .inl ⟨rfl, hb⟩, fun e => by have := congrArg List.length e; simp at this; omega, h2⟩
    · rintro ⟨a, b, e, h3 | h3, h4 | h4, h5, _⟩
      · rw [e, h3.1, h4.1]; rfl
      · exact absurd h4.2 hb
      · exact absurd h3.2 ha
      · exact absurd h3.2 ha

theorem edged_innerFree {w w' : List Wc} (h : Edged w w') (hi : InnerFree w) : InnerFree w' := by
  obtain ⟨a, b, rfl, ha, hb, _, h2⟩ := h
  intro i h
  rw [List.append_assoc] at h
  simp only [List.length_append]
  by_cases h1 : i < a.length
  · rcases ha with ⟨rfl, _⟩ | ⟨rfl, _⟩ <;> simp at h1 <;> omega
  rw [List.getElem?_append_right (by omega)] at h
  by_cases h3 : i - a.length < w.length
  · rw [List.getElem?_append_left h3] at h
    rcases hi _ h with h4 | h4
    · rcases ha with ⟨rfl, ha⟩ | ⟨rfl, _⟩
      · rw [List.head?_eq_getElem?, ← h4] at ha
        exact absurd h ha
      · simp at h4 h1 ⊢; omega
    · rcases hb with ⟨rfl, hb⟩ | ⟨rfl, _⟩
      · rw [List.getLast?_eq_getElem?, ← h4, Nat.add_sub_cancel] at hb
        exact absurd h hb
      · simp; omega
  · rw [List.getElem?_append_right (by omega)] at h
    rcases hb with ⟨rfl, _⟩ | ⟨rfl, _⟩
    · have := (List.getElem?_eq_some_iff.1 h).1
      simp at this ⊢
      omega
    · cases h

theorem edged_mem {w w' : List Wc} (h : Edged w w') {x : Wc} (hx : x ≠ 0x2D) (hw : x ∉ w) : x ∉ w' := by
  obtain ⟨a, b, rfl, ha, hb, _, _⟩ := h
  simp only [List.mem_append, not_or]
  exact ⟨⟨by rcases ha with ⟨rfl, _⟩ | ⟨rfl, _⟩ <;> simp [hx], hw⟩, by rcases hb with ⟨rfl, _⟩ | ⟨rfl, _⟩ <;> simp [hx]⟩

theorem edged_length {w w' : List Wc} (h : Edged w w') : w.length ≤ w'.length := by
  obtain ⟨a, b, rfl, _⟩ := h
  simp only [List.length_append]
  omega

/-- **C99** (spelling): the library accepts a word without hyphens inside of it exactly if one of the options accepts it as it is, or the text of the dictionary gives it. -/
theorem C99_accepted {ls : List Line} {runsOf : List Wc → List (List Nat)} {an : Analyzer} (hf : FollowsText ls runsOf an) (extra : Bool)
    (dict : List Wc → SpellRes) (hdict : ∀ w, 0 ∉ w → finnishSpell extra an w = some (dict w))
    (o : SpellOpts) (cache : Option SpellerCache) (hc : CacheInv (effDict dict o.acceptMissingHyphens) cache) (word : List Wc)
    (hw : WordOk word) (hy : InnerFree (normSpec word)) (hs : 0xAD ∉ normSpec word) :
    ∃ r cache', spellUcs4 dict o cache word = some (r, cache') ∧ (r = .ok ∨ r = .failed) ∧
      (r = .ok ↔ AcceptedText ls runsOf o word (normSpec word)) := by
  obtain ⟨r, cache', g1, g2, g3⟩ := C65_exact dict o cache hc word hw
  have hw' := wordOk_normSpec hw
  generalize normSpec word = n at *
  have h0 : 0 ∉ n := fun h => (hw' 0 h).1 rfl
  -- the verdicts of the dictionary for the texts that are looked up
  have along : ∀ w : List Wc, 255 < w.length → InnerFree w → 0xAD ∉ w → 0 ∉ w → dict w = .failed := by
    intro w a b c d
    have hd := hdict w d
    rw [hf.simple extra w b c, hf.long w a] at hd
    exact (Option.some.inj hd).symm
  have act : ∀ w : List Wc, w.length ≤ 255 → InnerFree w → 0xAD ∉ w → 0 ∉ w →
      (dict w ≠ .failed ↔ Given ls runsOf (fun ls v _ run => ValidRun ls v run) w) ∧ (dict w = .ok ↔ Given ls runsOf AllowingRun w) ∧
      (dict w = .ok ∨ dict w = .capFirst ↔ Given ls runsOf CapitalRun w) := by
    intro w a b c d
    obtain ⟨r', e1, e2, e3, e4⟩ := hf.verdict w a
    have hd := hdict w d
    rw [hf.simple extra w b c, e1] at hd
    have hd : r' = dict w := Option.some.inj hd
    rw [hd] at e2 e3 e4
    exact ⟨e2, e3, e4⟩
  have dlong : ∀ w : List Wc, 255 < w.length → InnerFree w → 0xAD ∉ w → 0 ∉ w → effDict dict o.acceptMissingHyphens w = .failed := by
    intro w a b c d
    cases o.acceptMissingHyphens with
    | false => exact along w a b c d
    | true =>
      show withEdges dict w = .failed
      unfold withEdges
      rw [if_pos (along w a b c d)]
      cases e : edgeHyphens w with
      | none => rfl
      | some w' =>
        have ed := (edged_iff w w').1 e
        exact along w' (by have := edged_length ed; omega) (edged_innerFree ed b) (edged_mem ed (by decide) c) (edged_mem ed (by decide) d)
  have dct : ∀ w : List Wc, w.length ≤ 255 → InnerFree w → 0xAD ∉ w → 0 ∉ w →
      (effDict dict o.acceptMissingHyphens w ≠ .failed ↔ GivenText ls runsOf o (fun ls v _ run => ValidRun ls v run) w) ∧
      (effDict dict o.acceptMissingHyphens w = .ok ↔ GivenText ls runsOf o AllowingRun w) ∧
      (effDict dict o.acceptMissingHyphens w = .ok ∨ effDict dict o.acceptMissingHyphens w = .capFirst ↔ GivenText ls runsOf o CapitalRun w) := by
    intro w a b c d
    have h1 := act w a b c d
    cases hm : o.acceptMissingHyphens with
    | false =>
      have : ∀ R, GivenText ls runsOf o R w ↔ Given ls runsOf R w := fun R => ⟨fun h => h.elim id fun h => (by rw [hm] at h; cases h.1), .inl⟩
      rw [this, this, this]
      exact h1
    | true =>
      show (withEdges dict w ≠ .failed ↔ _) ∧ (withEdges dict w = .ok ↔ _) ∧ (withEdges dict w = .ok ∨ withEdges dict w = .capFirst ↔ _)
      unfold withEdges
      by_cases hfail : dict w = .failed
      · rw [if_pos hfail]
        have hno : ¬ Given ls runsOf (fun ls v _ run => ValidRun ls v run) w := fun h => h1.1.2 h hfail
        have hno1 : ¬ Given ls runsOf AllowingRun w := fun h => by have := h1.2.1.2 h; rw [hfail] at this; cases this
        have hno2 : ¬ Given ls runsOf CapitalRun w := fun h => by have := h1.2.2.2 h; rw [hfail] at this; rcases this with h | h <;> cases h
        have use : ∀ R, ¬ Given ls runsOf R w → (GivenText ls runsOf o R w ↔ ∃ w', Edged w w' ∧ w'.length ≤ 255 ∧ Given ls runsOf R w') := fun R hR =>
          ⟨fun h => (h.resolve_left hR).2.2, fun h => .inr ⟨hm, hno, h⟩⟩
        rw [use _ hno, use _ hno1, use _ hno2]
        cases e : edgeHyphens w with
        | none =>
          have none' : ∀ w', ¬ Edged w w' := fun w' h => by rw [(edged_iff w w').2 h] at e; cases e
          simp [none']
        | some w' =>
          have ed := (edged_iff w w').1 e
          have one : ∀ R, (∃ u, Edged w u ∧ u.length ≤ 255 ∧ Given ls runsOf R u) ↔ w'.length ≤ 255 ∧ Given ls runsOf R w' := by
            intro R
            constructor
            · rintro ⟨u, k1, k2, k3⟩
              have := (edged_iff w u).2 k1
              rw [e] at this
              cases this
              exact ⟨k2, k3⟩
            · rintro ⟨k2, k3⟩
              exact ⟨w', ed, k2, k3⟩
          rw [one, one, one]
          simp only
          by_cases hl : w'.length ≤ 255
          · have h2 := act w' hl (edged_innerFree ed b) (edged_mem ed (by decide) c) (edged_mem ed (by decide) d)
            simp only [hl, true_and]
            exact h2
          · have h2 := along w' (by omega) (edged_innerFree ed b) (edged_mem ed (by decide) c) (edged_mem ed (by decide) d)
            simp [hl, h2]
      · rw [if_neg hfail]
        have : ∀ R, GivenText ls runsOf o R w ↔ Given ls runsOf R w := fun R => ⟨fun h => h.elim id fun h => absurd (h1.1.1 hfail) h.2.1, .inl⟩
        rw [this, this, this]
        exact h1
  generalize effDict dict o.acceptMissingHyphens = dict at *
  have looked : ∀ v, LookedUp o n v → ∀ x, x ∉ n → x ∉ v := by
    intro v hv x hx
    cases hv with
    | word => exact hx
    | noDot _ hd he => exact fun h => hx (by rw [he]; exact List.mem_append_left _ h)
  have inner : ∀ v, LookedUp o n v → InnerFree v := by
    intro v hv
    cases hv with
    | word => exact hy
    | noDot _ hd he =>
      intro i hi
      have hl := (List.getElem?_eq_some_iff.1 hi).1
      rcases hy i (by rw [he, List.getElem?_append_left hl]; exact hi) with h | h
      · exact .inl h
      · rw [he, List.length_append, List.length_singleton] at h
        omega
  have mapped : ∀ (v : List Wc) (x : Wc), upper x = x → x ∉ v → x ∉ v.map lower := by
    intro v x hx h hm
    obtain ⟨c, hc, e⟩ := List.mem_map.1 hm
    exact h (lower_fixed hx e ▸ hc)
  have mapped' : ∀ v : List Wc, InnerFree v → InnerFree (v.map lower) := by
    intro v h i hi
    rw [List.getElem?_map] at hi
    obtain ⟨c, hc, e⟩ := Option.map_eq_some_iff.1 hi
    rw [List.length_map]
    exact h i (by rw [hc, lower_fixed (by decide) e])
  have out : ∀ v w : List Wc, FirstLowered v w → w.length = v.length ∧ (InnerFree v → InnerFree w) ∧ ∀ x, upper x = x → x ∉ v → x ∉ w := by
    rintro v w (⟨rfl, rfl⟩ | ⟨c, rest, rfl, rfl⟩)
    · exact ⟨rfl, id, fun _ _ h => h⟩
    · refine ⟨rfl, fun h i hi => ?_, fun x hx h hm => ?_⟩
      · cases i with
        | zero => exact .inl rfl
        | succ i => exact h (i + 1) hi
      · rcases List.mem_cons.1 hm with hm | hm
        · exact h (lower_fixed hx hm.symm ▸ List.mem_cons_self)
        · exact h (List.mem_cons_of_mem _ hm)
  have dlow := fun (v : List Wc) (hv : LookedUp o n v) (hl : v.length ≤ 255) => dct (v.map lower) (by rw [List.length_map]; exact hl)
    (mapped' v (inner v hv)) (mapped v _ (by decide) (looked v hv _ hs)) (mapped v _ (by decide) (looked v hv _ h0))
  have dfirst : ∀ v, LookedUp o n v → v.length ≤ 255 → ∀ w, FirstLowered v w →
      (dict w = .ok ↔ GivenText ls runsOf o AllowingRun w) ∧ (dict w = .ok ∨ dict w = .capFirst ↔ GivenText ls runsOf o CapitalRun w) := by
    intro v hv hl w hvw
    obtain ⟨k1, k2, k3⟩ := out v w hvw
    exact (dct w (by omega) (k2 (inner v hv)) (k3 _ (by decide) (looked v hv _ hs)) (k3 _ (by decide) (looked v hv _ h0))).2
  have short : ∀ v, LookedUp o n v → DictionaryAccepts dict o n v → v.length ≤ 255 := by
    intro v hv hd
    refine Classical.byContradiction fun hl => ?_
    have a : dict (v.map lower) = .failed := dlong _ (by rw [List.length_map]; omega)
      (mapped' v (inner v hv)) (mapped v _ (by decide) (looked v hv _ hs)) (mapped v _ (by decide) (looked v hv _ h0))
    have b : ∀ w, FirstLowered v w → dict w = .failed := by
      intro w hvw
      obtain ⟨k1, k2, k3⟩ := out v w hvw
      exact dlong w (by omega) (k2 (inner v hv)) (k3 _ (by decide) (looked v hv _ hs)) (k3 _ (by decide) (looked v hv _ h0))
    cases hd with
    | lower _ e => rw [a] at e; cases e
    | properNoun _ e => rw [a] at e; cases e
    | capitalised _ _ e => rw [a] at e; cases e
    | capitals _ _ e => exact e a
    | exact w _ hvw e => rw [b w hvw] at e; cases e
    | exactNoun w _ _ _ hvw _ _ _ e => rw [b w hvw] at e; cases e
  refine ⟨r, cache', g1, g2, ?_⟩
  rw [g3]
  constructor
  · rintro (h | ⟨c, hl, h, hm, hl1, hl2⟩ | ⟨hl, h, hu⟩ | ⟨hl, h, hnw⟩ | ⟨v, hl, hv, hd⟩)
    · exact .empty h
    · exact .number c hl h hm hl1 hl2
    · exact .capitals hl h hu
    · exact .nonword hl h hnw
    · have hle := short v hv hd
      have dlow := dlow v hv hle
      have dfirst := dfirst v hv hle
      refine .dictionary v hl hle hv ?_
      cases hd with
      | lower a b => exact .lower a (dlow.2.1.1 b)
      | properNoun a b => exact .properNoun a (dlow.2.2.1 (.inr b)) fun x => by rw [dlow.2.1.2 x] at b; cases b
      | capitalised a b c => exact .capitalised a b (dlow.2.2.1 (.inl c))
      | capitals a b c => exact .capitals a b (dlow.1.1 c)
      | exact w a b c => exact .exact w a b ((dfirst w b).1.1 c)
      | exactNoun w c rest a b d e f g => exact .exactNoun w c rest a b d e f ((dfirst w b).2.1 (.inr g))
  · rintro (h | ⟨c, hl, h, hm, hl1, hl2⟩ | ⟨hl, h, hu⟩ | ⟨hl, h, hnw⟩ | ⟨v, hl, hle, hv, h⟩)
    · exact .empty h
    · exact .number c hl h hm hl1 hl2
    · exact .capitals hl h hu
    · exact .nonword hl h hnw
    · have dlow := dlow v hv hle
      have dfirst := dfirst v hv hle
      refine .dictionary v hl hv ?_
      cases h with
      | lower a b => exact .lower a (dlow.2.1.2 b)
      | capitals a b c => exact .capitals a b (dlow.1.2 c)
      | capitalised a b c =>
        rcases dlow.2.2.2 c with x | x
        · exact .capitalised a b x
        · exact .properNoun a x
      | properNoun a b c =>
        rcases dlow.2.2.2 b with x | x
        · exact (c (dlow.2.1.1 x)).elim
        · exact .properNoun a x
      | exact w a b c => exact .exact w a b ((dfirst w b).1.2 c)
      | exactNoun w c rest a b d e f g =>
        rcases (dfirst w b).2.2 g with x | x
        · exact .exact w a b x
        · exact .exactNoun w c rest a b d e f x

/-! ### A dictionary to which this applies -/

/-- The readings of the dictionary of C98: a word of one class. -/
def hahaReading (w : List Wc) : List SItem := .cls 0x68 :: (w.map .chr ++ [])

theorem haha_good {m : Nat} : GoodReading (97 :: List.replicate m 98) (hahaReading (97 :: List.replicate m 98)) := by
  have hm : ∀ c ∈ (97 :: List.replicate m 98 : List Wc), c = 97 ∨ c = 98 := by
    intro c hc
    rcases List.mem_cons.1 hc with h | h
    · exact .inl h
    · exact .inr (List.eq_of_mem_replicate h)
  generalize hw : (97 :: List.replicate m 98 : List Wc) = w at hm
  have hne : w ≠ [] := by rw [← hw]; simp
  have no : ∀ x : Wc, x ≠ 97 → x ≠ 98 → x ∉ w := fun x h1 h2 h => (hm x h).elim h1 h2
  have hcont : content (hahaReading w) = w := by
    show content (w.map .chr ++ []) = w
    rw [content_chars]
    show w ++ [] = w
    rw [List.append_nil]
  refine ⟨⟨⟨?_, trivial, by rw [hcont]; exact hne⟩, ?_, ?_, ?_⟩, ⟨?_, ?_⟩, ?_, by rw [hcont], by rw [hcont]; exact fun _ => Iff.rfl⟩
  · unfold hahaReading
    rw [WfItems]
    exact ⟨by decide, wf_chars w _ _ (no _ (by decide) (by decide)) fun p => by simp [WfItems]⟩
  · intro y hy
    simp only [hahaReading, List.mem_cons, List.append_nil, List.mem_map] at hy
    rcases hy with rfl | ⟨c, hc, rfl⟩
    · exact ⟨by decide, by decide⟩
    · rcases hm c hc with rfl | rfl <;> exact ⟨by decide, by decide⟩
  · unfold hahaReading
    rw [Letters.Orderly]
    · exact ⟨by simp, orderly_chars w _ _ _ rfl (no _ (by decide) (by decide)) (no _ (by decide) (by decide)) fun c p => by simp [Letters.Orderly]⟩
    all_goals simp
  · unfold hahaReading
    rw [Letters.Plain]
    · exact ⟨by decide, plain_chars w _ (no _ (by decide) (by decide)) trivial⟩
    all_goals simp
  · intro y hy
    simp only [hahaReading, List.mem_cons, List.append_nil, List.mem_map] at hy
    rcases hy with rfl | ⟨c, hc, rfl⟩
    · show (0x68 : Wc) ≠ 0x5D
      decide
    · rcases hm c hc with rfl | rfl <;> exact ⟨by decide, by decide, by decide⟩
  · intro pre e
    have h1 : SItem.tag (lit "Bh") ∈ hahaReading w := by rw [e]; simp
    simp only [hahaReading, List.mem_cons, List.append_nil, List.mem_map] at h1
    rcases h1 with h | ⟨c, _, h⟩ <;> cases h
  · intro h
    unfold hahaReading at h
    rw [List.append_nil] at h
    have : ∀ l : List Wc, 0 ∉ l → 0 ∉ render (l.map SItem.chr) := by
      intro l
      induction l with
      | nil => intro _ h; cases h
      | cons c l ih =>
        intro h0 h
        rw [List.map_cons, render] at h
        rcases List.mem_append.1 h with h | h
        · rw [SItem.render, List.mem_singleton] at h
          exact h0 (h ▸ List.mem_cons_self ..)
        · exact ih (fun h => h0 (List.mem_cons_of_mem _ h)) h
    rw [render] at h
    rcases List.mem_append.1 h with h | h
    · exact absurd h (by decide)
    · exact this w (no _ (by decide) (by decide)) h

theorem haha_ones {v : List Wc} {p q : Place} {ks : List Nat} (h : TakesAll hahaLines v p ks q) (hp : p.state = 1) :
    q.state = 1 ∧ ∃ m, ks = List.replicate m 1 ∧ q.pos = p.pos + m ∧ v.drop p.pos = List.replicate m 98 ++ v.drop q.pos := by
  induction h with
  | nil => exact ⟨hp, 0, rfl, rfl, rfl⟩
  | cons hk _ ih =>
    obtain ⟨a, c, h1, h2, h3, h4, rfl⟩ := graph_takes haha_graph hk
    rcases haha_arcs h1 with ⟨rfl, rfl⟩ | ⟨rfl, rfl⟩
    · rw [hp] at h2; cases h2
    · obtain ⟨g1, m, g2, g3, g4⟩ := ih rfl
      cases h3
      refine ⟨g1, m + 1, by rw [g2]; rfl, by rw [g3]; simp only; omega, ?_⟩
      simp only at g4
      obtain ⟨hl, e⟩ := List.getElem?_eq_some_iff.1 h4
      rw [List.drop_eq_getElem_cons hl, g4, e]
      rfl

theorem haha_runs {v : List Wc} {run : List Nat} (h : Att.Accepts hahaLines v false run v.length) :
    ∃ m, v = 97 :: List.replicate m 98 ∧ run = 0 :: (List.replicate m 1 ++ [2]) := by
  obtain ⟨ks, k, p, rfl, h1, h2, h3, _⟩ := h
  have hk : k = 2 ∧ p.state = 1 := by
    match k, h2 with
    | 0, h => cases h
    | 1, h => cases h
    | 2, h =>
      injection h with h
      injection h with h
      exact ⟨rfl, h.symm⟩
    | k + 3, h => simp [hahaLines] at h
  obtain ⟨rfl, hp⟩ := hk
  cases h1 with
  | nil => cases hp
  | cons hk ht =>
    obtain ⟨a, c, g1, g2, g3, g4, rfl⟩ := graph_takes haha_graph hk
    rcases haha_arcs g1 with ⟨rfl, rfl⟩ | ⟨rfl, rfl⟩
    · obtain ⟨_, m, e1, e2, e3⟩ := haha_ones ht rfl
      cases g3
      refine ⟨m, ?_, by rw [e1]; rfl⟩
      simp only at g4 e3
      obtain ⟨hl, e⟩ := List.getElem?_eq_some_iff.1 g4
      have := List.drop_eq_getElem_cons hl
      rw [e3, e, h3, List.drop_length, List.append_nil] at this
      exact this
    · cases g2

theorem haha_output (m : Nat) : runOutput hahaLines (0 :: (List.replicate m 1 ++ [2])) = render (hahaReading (97 :: List.replicate m 98)) := by
  have h : ∀ m, runOutput hahaLines (List.replicate m 1 ++ [2]) = render ((List.replicate m 98).map SItem.chr) := by
    intro m
    induction m with
    | zero => decide
    | succ m ih =>
      show runOutput hahaLines (1 :: (List.replicate m 1 ++ [2])) = render (SItem.chr 98 :: (List.replicate m 98).map SItem.chr)
      unfold runOutput at ih ⊢
      rw [List.flatMap_cons, ih, render]
      rfl
  unfold hahaReading
  rw [List.append_nil, List.map_cons, render, render, ← h m]
  unfold runOutput
  rw [List.flatMap_cons]
  rfl

/-- The dictionary of C98, with infinitely many words: `a`, `ab`, `abb`, ... -/
theorem haha_finnish : FinnishText hahaLines := by
  refine ⟨fun v hv => (graph_fits haha_graph (by omega)).toSmall, ?_, .inl (by decide)⟩
  intro v run _ h
  obtain ⟨m, rfl, rfl⟩ := haha_runs h
  exact ⟨_, haha_output m, haha_good⟩

example (sw : Bool) := C99_dictionary haha_describes haha_proper haha_finnish sortSymbols_sorts sortTransitions_sorts sw

/-- With this dictionary `ab` is correct, and `b` is not. -/
example {runsOf : List Wc → List (List Nat)} {an : Analyzer} (hr : ∀ v : List Wc, v.length ≤ 255 → AllRuns hahaLines v (runsOf v))
    (hf : FollowsText hahaLines runsOf an) : adapterSpell an (lit "ab") = some .ok ∧ adapterSpell an (lit "b") = some .failed := by
  constructor
  · obtain ⟨r, e1, _, e2, _⟩ := hf.verdict (lit "ab") (by decide)
    rw [e1]
    have hv : Validity.Valid (Validity.events (hahaReading (97 :: List.replicate 1 98))) := by
      obtain ⟨b, hb, hv⟩ := C77_valid _ (haha_good (m := 1)).plain
      rw [show isValidAnalysis (render (hahaReading (97 :: List.replicate 1 98))) = some true by decide +kernel] at hb
      cases hb
      exact hv.1 rfl
    have ha := hr (lit "ab") (by decide)
    have hm : [0, 1, 2] ∈ runsOf (lit "ab") := (ha.mem _).2 haha_run
    have h1 : (runsOf (lit "ab")).length ≤ 1 := by
      match h : runsOf (lit "ab"), ha with
      | [], _ => simp
      | [_], _ => simp
      | r :: r' :: t, ha =>
        have a := graph_unique haha_graph ((ha.mem r).1 (by simp)) ((ha.mem r').1 (by simp))
        have b := ha.nodup
        simp [a] at b
    rw [e2.2 ⟨[0, 1, 2], ?_, hahaReading (97 :: List.replicate 1 98), by decide, ?_, hv, .inl ?_⟩]
    · rw [show setCase .allLower (lit "ab") = lit "ab" by decide, List.take_of_length_le (by omega)]
      exact hm
    · rw [show setCase .allLower (lit "ab") = 97 :: List.replicate 1 98 by decide]
      exact haha_good
    · intro i c k h1 h2
      rw [show required (hahaReading (97 :: List.replicate 1 98)) = lit "pp" by decide +kernel] at h2
      match i, h1, h2 with
      | 0, h1, h2 => cases h1; cases h2; simp [TooLow, TooHigh]; decide
      | 1, h1, h2 => cases h1; cases h2; simp [TooLow, TooHigh]; decide
      | i + 2, h1, _ => simp [lit] at h1
  · obtain ⟨r, e1, e2, _⟩ := hf.verdict (lit "b") (by decide)
    rw [e1]
    refine congrArg some (Classical.byContradiction fun h => ?_)
    obtain ⟨run, hm, _⟩ := e2.1 h
    obtain ⟨m, h, _⟩ := haha_runs (((hr (setCase .allLower (lit "b")) (by decide)).mem run).1 (List.mem_of_mem_take hm))
    cases h

end Verif.Props
