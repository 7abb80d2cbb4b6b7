import Verif.Props.SpellProgram
import Verif.Props.SuggestSearch
/-!
# Suggestions from the text of a dictionary (C115)

C33 and C81 together with C99: the suggestions for a misspelled word follow from the text from which the Finnish dictionary was compiled.
-/

set_option linter.unusedVariables false

namespace Verif.SuggestText
open Verif Verif.Att Verif.Props Verif.Spec Verif.Search

/-! ### Specification -/

/-- The text of the dictionary gives the word `x` with its capital letters. -/
def InText (ls : List Line) (runsOf : List Wc → List (List Nat)) (x : List Wc) : Prop := x.length ≤ 255 ∧ Given ls runsOf AllowingRun x

/-- The text gives the letters of `x`, with some capital letters. -/
def LettersInText (ls : List Line) (runsOf : List Wc → List (List Nat)) (x : List Wc) : Prop :=
  x.length ≤ 255 ∧ Given ls runsOf (fun ls v _ run => ValidRun ls v run) x

/-- The same, where `x` may begin with a capital letter that the text does not have. -/
def InTextCap (ls : List Line) (runsOf : List Wc → List (List Nat)) (x : List Wc) : Prop :=
  InText ls runsOf x ∨ ∃ w, FirstLowered x w ∧ InText ls runsOf w

/-- A correct suggestion: a word of the text, or two of them with a space between them, the first one possibly with a full stop. -/
def CorrectSuggestion (ls : List Line) (runsOf : List Wc → List (List Nat)) (x : List Wc) : Prop :=
  InText ls runsOf x ∨ ∃ a b, x = a ++ 0x20 :: b ∧ InTextCap ls runsOf b ∧ (InTextCap ls runsOf a ∨ ∃ a', a = a' ++ [0x2E] ∧ InTextCap ls runsOf a')

/-- The text gives no empty word, and no word with the letter U+018F, of which the library knows no lower case form. -/
structure UsualWords (ls : List Line) : Prop where
  empty : ∀ run, ¬ Att.Accepts ls [] false run 0
  schwa : ∀ (v : List Wc) (run : List Nat), Att.Accepts ls v false run v.length → 0x18F ∉ v

/-! ### Lemmas -/

theorem setCase_lower (w : List Wc) : setCase .allLower w = w.map lower := by cases w <;> rfl

theorem analyzerOk {ls : List Line} {runsOf : List Wc → List (List Nat)} {an : Analyzer} (hf : FollowsText ls runsOf an) : AnalyzerOk an := by
  obtain ⟨next, h1, h2, _⟩ := hf.outputs
  intro w a ha
  obtain ⟨st, h3, _⟩ := C70_structures next h1 an h2 w a ha
  exact ⟨st, h3⟩

theorem an_congr {ls : List Line} {runsOf : List Wc → List (List Nat)} {an : Analyzer} (hf : FollowsText ls runsOf an) {x y : List Wc}
    (h : x.map lower = y.map lower) : an x = an y := by
  obtain ⟨next, h1, h2, _⟩ := hf.outputs
  obtain ⟨l, e1, e2⟩ := h2 x
  obtain ⟨l', e3, e4⟩ := h2 y
  have hl : x.length = y.length := by simpa using congrArg List.length h
  unfold finnishAnalyze at e1 e3
  rw [setCase_lower, h, hl] at e1
  rw [setCase_lower, e1] at e3
  cases e3
  rw [e2, e4]

/-- The analyser knows exactly the letters of the words in the text. -/
theorem known_iff {ls : List Line} {runsOf : List Wc → List (List Nat)} {an : Analyzer} (hf : FollowsText ls runsOf an) (x : List Wc) :
    an x ≠ [] ↔ LettersInText ls runsOf x := by
  obtain ⟨r, e1, e2, _⟩ := C25_best an x (analyzerOk hf x)
  by_cases hl : x.length ≤ 255
  · obtain ⟨r', e3, e4, _⟩ := hf.verdict x hl
    rw [e1] at e3
    cases e3
    rw [Ne, ← e2, ← Ne, e4]
    exact ⟨fun h => ⟨hl, h⟩, fun h => h.2⟩
  · have := hf.long x (by omega)
    rw [e1] at this
    cases this
    exact ⟨fun h => absurd (e2.1 rfl) h, fun h => absurd h.1 hl⟩

/-- A word is in the text if the letters are right in one of its analyses. -/
theorem inText_iff {ls : List Line} {runsOf : List Wc → List (List Nat)} {an : Analyzer} (hf : FollowsText ls runsOf an) (x : List Wc) :
    InText ls runsOf x ↔ ∃ a ∈ an x, ∃ s, a.struct = some s ∧ ∀ i, ¬ WrongAt x s i := by
  obtain ⟨r, e1, e2, e3⟩ := C25_best an x (analyzerOk hf x)
  have hr : r = .ok ↔ ∃ a ∈ an x, ∃ s, a.struct = some s ∧ ∀ i, ¬ WrongAt x s i := by
    constructor
    · rintro rfl
      obtain ⟨⟨a, ha, hg⟩, _⟩ := e3 fun h => by cases e2.2 h
      exact ⟨a, ha, gives_ok hg⟩
    · rintro ⟨a, ha, s, hs, hi⟩
      obtain ⟨_, hb⟩ := e3 (List.ne_nil_of_mem ha)
      obtain ⟨r', g1, g2, _⟩ := C26_verdict x s
      rw [g2.2 hi] at g1
      have := hb a ha .ok ⟨s, hs, g1⟩
      cases r
      · exact absurd this (by simp [Better])
      · rfl
      · exact absurd this (by simp [Better])
      · exact absurd this (by simp [Better])
  rw [← hr]
  by_cases hl : x.length ≤ 255
  · obtain ⟨r', e4, _, e5, _⟩ := hf.verdict x hl
    rw [e1] at e4
    cases e4
    rw [e5]
    exact ⟨fun h => h.2, fun h => ⟨hl, h⟩⟩
  · have := hf.long x (by omega)
    rw [e1] at this
    cases this
    exact ⟨fun h => absurd h.1 hl, fun h => by cases h⟩

theorem lower_schwa : lower 0x18F = 0x18F := by decide

theorem no_schwa {ls : List Line} {runsOf : List Wc → List (List Nat)} {an : Analyzer} (hr : ∀ v : List Wc, v.length ≤ 255 → AllRuns ls v (runsOf v))
    (hf : FollowsText ls runsOf an) (hu : UsualWords ls) {x : List Wc}
    (h : an x ≠ []) : 0x18F ∉ x.map lower := by
  obtain ⟨hl, run, hm, _⟩ := (known_iff hf x).1 h
  rw [setCase_lower] at hm
  have hl' : (x.map lower).length ≤ 255 := by rw [List.length_map]; exact hl
  exact hu.schwa _ _ (((hr _ hl').mem run).1 (List.mem_of_mem_take hm))

theorem accepted_inText {ls : List Line} {runsOf : List Wc → List (List Nat)} {an : Analyzer} (hr : ∀ v : List Wc, v.length ≤ 255 → AllRuns ls v (runsOf v))
    (hf : FollowsText ls runsOf an) (hu : UsualWords ls) {x : List Wc}
    (h : Accepted an x) : InText ls runsOf x := by
  obtain ⟨y, hy, a, ha, s, hs, hfit⟩ := h
  rw [← an_congr hf hy] at ha
  refine (inText_iff hf x).2 ⟨a, ha, s, hs, fun i hw => no_schwa hr hf hu (List.ne_nil_of_mem ha) ?_⟩
  exact List.mem_map.2 ⟨_, List.mem_of_getElem? (hfit i hw), lower_schwa⟩

theorem acceptedCap_inText {ls : List Line} {runsOf : List Wc → List (List Nat)} {an : Analyzer} (hr : ∀ v : List Wc, v.length ≤ 255 → AllRuns ls v (runsOf v))
    (hf : FollowsText ls runsOf an) (hu : UsualWords ls) {x : List Wc}
    (h : AcceptedCap an x) : InTextCap ls runsOf x := by
  obtain ⟨y, hy, a, ha, s, hs, hrest, hlow⟩ := h
  rw [← an_congr hf hy] at ha
  by_cases hh : At TooHigh x s 0
  · obtain ⟨c, k, h1, h2, h3⟩ := hh
    cases x with
    | nil => simp at h1
    | cons d cs =>
      have hl : (lower d :: cs).map lower = (d :: cs).map lower := by
        rw [List.map_cons, List.map_cons, (C09_case_laws d).1]
      refine .inr ⟨lower d :: cs, .inr ⟨d, cs, rfl, rfl⟩, (inText_iff hf _).2 ⟨a, an_congr hf hl ▸ ha, s, hs, fun i hw => ?_⟩⟩
      rcases Nat.eq_zero_or_pos i with rfl | hi
      · rcases hw with ⟨c', k', g1, g2, g3⟩ | ⟨c', k', g1, g2, g3⟩
        · rw [h2] at g2
          cases g2
          obtain ⟨_, e | e⟩ := h3 <;> obtain ⟨_, e' | e'⟩ := g3 <;> omega
        · simp only [List.getElem?_cons_zero, Option.some.injEq] at g1
          subst g1
          refine no_schwa hr hf hu (List.ne_nil_of_mem ha) ?_
          rw [List.map_cons, isUpper_lower d g3.1]
          exact List.mem_cons_self
      · exact hrest i hi (wrongAt_tail _ _ _ _ i hi hw)
  · refine .inl ((inText_iff hf x).2 ⟨a, ha, s, hs, fun i hw => ?_⟩)
    rcases Nat.eq_zero_or_pos i with rfl | hi
    · rcases hw with e | e
      · exact hlow e
      · exact hh e
    · exact hrest i hi hw

theorem goodSug_correct {ls : List Line} {runsOf : List Wc → List (List Nat)} {an : Analyzer} (hr : ∀ v : List Wc, v.length ≤ 255 → AllRuns ls v (runsOf v))
    (hf : FollowsText ls runsOf an) (hu : UsualWords ls) {x : List Wc}
    (h : GoodSug an x) : CorrectSuggestion ls runsOf x := by
  rcases h with h | ⟨a, b, rfl, hb, ha⟩
  · exact .inl (accepted_inText hr hf hu h)
  · refine .inr ⟨a, b, rfl, acceptedCap_inText hr hf hu hb, ?_⟩
    rcases ha with ha | ⟨a', e, ha⟩
    · exact .inl (acceptedCap_inText hr hf hu ha)
    · exact .inr ⟨a', e, acceptedCap_inText hr hf hu ha⟩

theorem an_nil {ls : List Line} {runsOf : List Wc → List (List Nat)} {an : Analyzer} (hr : ∀ v : List Wc, v.length ≤ 255 → AllRuns ls v (runsOf v))
    (hf : FollowsText ls runsOf an) (hu : UsualWords ls) : an [] = [] := by
  refine Classical.byContradiction fun h => ?_
  obtain ⟨_, run, hm, _⟩ := (known_iff hf []).1 h
  exact hu.empty run (((hr [] (by simp)).mem run).1 (List.mem_of_mem_take hm))

theorem formWeight_exists (a : MorAn) : ∃ n, FormWeight a n := by
  by_cases h : ∃ e ∈ caseWeights, InCase a e.1
  · obtain ⟨e, h1, h2⟩ := h
    exact ⟨e.2, .inl ⟨e, h1, h2, rfl⟩⟩
  · exact ⟨4, .inr ⟨fun e h1 h2 => h ⟨e, h1, h2⟩, rfl⟩⟩

/-- A word of the text is offered as it is. -/
theorem ranked_ok {ls : List Line} {runsOf : List Wc → List (List Nat)} {an : Analyzer} (hf : FollowsText ls runsOf an) {c : List Wc} (hc : InText ls runsOf c)
    {r : SpellRes} {p : Nat} (hr : Ranked an c r p) : r = .ok := by
  obtain ⟨a, ha, s, hs, hi⟩ := (inText_iff hf c).1 hc
  obtain ⟨n, hn⟩ := formWeight_exists a
  rcases hr.2 a ha .ok _ ⟨s, n, hs, .inl ⟨rfl, hi⟩, hn, rfl⟩ with h | h
  · cases r <;> simp [verdictWeight] at h
  · exact h.1

/-- What is offered for a candidate has the same letters and is a word of the text. -/
theorem offered_inText {ls : List Line} {runsOf : List Wc → List (List Nat)} {an : Analyzer} (hr : ∀ v : List Wc, v.length ≤ 255 → AllRuns ls v (runsOf v))
    (hf : FollowsText ls runsOf an) (hu : UsualWords ls) {c x : List Wc}
    {r : SpellRes} {p : Nat} (hk : Ranked an c r p) (ho : Offered an c r x) : x.map lower = c.map lower ∧ InText ls runsOf x := by
  obtain ⟨⟨a, ha, s, n, hs, hv, _⟩, _⟩ := hk
  rcases ho with ⟨rfl, rfl⟩ | ⟨rfl, rfl⟩ | ⟨rfl, a', l, s', h1, h2, h3, h4⟩
  · rcases hv with ⟨_, hi⟩ | ⟨e, _⟩ | ⟨e, _⟩
    · exact ⟨rfl, (inText_iff hf _).2 ⟨a, ha, s, hs, hi⟩⟩
    · cases e
    · cases e
  · rcases hv with ⟨e, _⟩ | ⟨_, hl, hi⟩ | ⟨e, _⟩
    · cases e
    · cases c with
      | nil => obtain ⟨_, _, h, _⟩ := hl; simp at h
      | cons d cs =>
        have hm : (capIf true (d :: cs)).map lower = (d :: cs).map lower := by
          simp [capIf, (C09_case_laws d).2.2.1]
        refine ⟨hm, (inText_iff hf _).2 ⟨a, an_congr hf hm ▸ ha, s, hs, fun i hw => ?_⟩⟩
        rcases Nat.eq_zero_or_pos i with rfl | h0
        · rcases hw with e | ⟨c', k', g1, g2, g3⟩
          · exact not_tooLow_upper d cs s e
          · obtain ⟨c'', k'', f1, f2, f3⟩ := hl
            rw [f2] at g2
            cases g2
            obtain ⟨_, e | e⟩ := f3 <;> obtain ⟨_, e' | e'⟩ := g3 <;> omega
        · exact hi i h0 (wrongAt_tail _ _ _ _ i h0 hw)
    · cases e
  · have hm : x.map lower = c.map lower := by
      apply List.ext_getElem?
      intro i
      rw [List.getElem?_map, List.getElem?_map]
      cases hc : c[i]? with
      | none =>
        rw [List.getElem?_eq_none_iff] at hc
        rw [List.getElem?_eq_none_iff.2 (by omega)]
      | some d =>
        rw [h4 i d hc]
        obtain ⟨l1, l2, l3, _⟩ := C09_case_laws d
        cases (caseRequirements s')[i]? with
        | none => rfl
        | some k =>
          simp only [demanded, Option.map_some]
          split
          · rw [l3]
          · split
            · rw [l1]
            · rfl
    have ha' : a' ∈ an c := by rw [h1]; exact List.mem_cons_self
    refine ⟨hm, accepted_inText hr hf hu ⟨c, hm, a', ha', s', h2, fun i hw => ?_⟩⟩
    have key : ∃ c' k', x[i]? = some c' ∧ (caseRequirements s')[i]? = some k' ∧ (TooLow c' k' ∨ TooHigh c' k') := by
      rcases hw with ⟨c', k', g1, g2, g3⟩ | ⟨c', k', g1, g2, g3⟩
      · exact ⟨c', k', g1, g2, .inl g3⟩
      · exact ⟨c', k', g1, g2, .inr g3⟩
    obtain ⟨c', k', g1, g2, g3⟩ := key
    obtain ⟨d, hd⟩ : ∃ d, c[i]? = some d := by
      obtain ⟨hi, _⟩ := List.getElem?_eq_some_iff.1 g1
      exact ⟨_, List.getElem?_eq_getElem (by omega)⟩
    have e := h4 i d hd
    rw [g1, g2] at e
    simp only [demanded, Option.some.injEq] at e
    rw [g1]
    by_cases k1 : k' = 0x69 ∨ k' = 0x6A
    · rw [if_pos k1] at e
      rcases g3 with ⟨g, _⟩ | ⟨_, g⟩
      · rw [e, isLower_upper] at g; cases g
      · omega
    · rw [if_neg k1] at e
      rcases g3 with ⟨_, g⟩ | ⟨g, k2⟩
      · exact absurd g k1
      · rw [if_pos k2] at e
        rw [e] at g ⊢
        rw [isUpper_lower d g]

theorem bestFive_length {l : List (List Wc × Nat)} {best : List (List Wc)} (h : BestFive l best) : best.length = min 5 l.length := by
  obtain ⟨s, h1, _, _, rfl⟩ := h
  rw [List.length_take, List.length_map, h1.length_eq]

theorem valued_length (found : List (List Wc × Nat)) : (valued found).length = found.length := by simp [valued]

theorem valued_mem {found : List (List Wc × Nat)} {x : List Wc} {p : Nat} (h : (x, p) ∈ found) : ∃ q, (x, q) ∈ valued found := by
  obtain ⟨i, hi, he⟩ := List.getElem_of_mem h
  refine ⟨p * (i + 5), List.mem_iff_getElem.2 ⟨i, by rw [valued_length]; exact hi, ?_⟩⟩
  simp [valued, he]

theorem forall2_mem {α β : Type} {R : α → β → Prop} {l : List α} {m : List β} (h : List.Forall₂ R l m) {a : α} (ha : a ∈ l) : ∃ b ∈ m, R a b := by
  induction h with
  | nil => cases ha
  | cons h1 _ ih =>
    rcases List.mem_cons.1 ha with rfl | ha
    · exact ⟨_, List.mem_cons_self, h1⟩
    · obtain ⟨b, hb, hr⟩ := ih ha
      exact ⟨b, List.mem_cons_of_mem _ hb, hr⟩

theorem bestFive_mem {found : List (List Wc × Nat)} {best : List (List Wc)} (h : BestFive (valued found) best) (hl : found.length < 5) {x : List Wc} {p : Nat}
    (hx : (x, p) ∈ found) : x ∈ best := by
  obtain ⟨s, h1, _, _, rfl⟩ := h
  obtain ⟨q, hq⟩ := valued_mem hx
  rw [List.take_of_length_le (by rw [List.length_map, h1.length_eq, valued_length]; omega)]
  exact List.mem_map.2 ⟨_, h1.mem_iff.2 hq, rfl⟩

/-! ### C115 -/

/-- **C115** (soundness): every suggestion is, up to its capital letters and typographic variants of characters and with the full stop of the input, a word of the text
of the dictionary or two of them. -/
theorem C115_correct {ls : List Line} {runsOf : List Wc → List (List Nat)} {an : Analyzer} (hr : ∀ v : List Wc, v.length ≤ 255 → AllRuns ls v (runsOf v))
    (hf : FollowsText ls runsOf an) (hu : UsualWords ls)
    (junk : Nat → Wc) (ignoreDot aup : Bool) (word : List Wc) (hw : WordOk word) (hlen : (normSpec word).length ≤ word.length) :
    (2 ≤ (normSpec word).length → vowelCount (normSpec word) ≤ 32 →
      ∃ out, suggestUcs4 (typingStrategy an junk) ignoreDot aup word = some out ∧ ∀ o ∈ out, ∃ x, CorrectSuggestion ls runsOf x ∧ Rendered x o) ∧
    ∃ out, suggestUcs4 (ocrStrategy an junk) ignoreDot aup word = some out ∧ ∀ o ∈ out, ∃ x, CorrectSuggestion ls runsOf x ∧ Rendered x o := by
  constructor
  · intro h2 hv
    obtain ⟨out, e1, e2⟩ := C33_typing_partial an (analyzerOk hf) (an_nil hr hf hu) junk ignoreDot aup word hw h2 hlen hv
    refine ⟨out, e1, fun o ho => ?_⟩
    obtain ⟨x, g1, g2⟩ := e2 o ho
    exact ⟨x, goodSug_correct hr hf hu g1, g2⟩
  · obtain ⟨out, e1, e2⟩ := C33_ocr_partial an (analyzerOk hf) (an_nil hr hf hu) junk ignoreDot aup word hw hlen
    refine ⟨out, e1, fun o ho => ?_⟩
    obtain ⟨x, g1, g2⟩ := e2 o ho
    exact ⟨x, goodSug_correct hr hf hu g1, g2⟩

theorem searchWord_unique {d : Bool} {N n n' : List Wc} {b b' : Bool} (h : SearchWord d N n b) (h' : SearchWord d N n' b') : n = n' ∧ b = b' := by
  rcases h with ⟨h1, h2, h3⟩ | ⟨h1, h2, h3⟩ <;> rcases h' with ⟨g1, g2, g3⟩ | ⟨g1, g2, g3⟩
  · rw [h3] at g3
    exact ⟨List.append_cancel_right g3, by rw [h2, g2]⟩
  · exact absurd (by rw [h3]; simp) (g3 h1)
  · exact absurd (by rw [g3]; simp) (h3 g1)
  · exact ⟨by rw [h2, g2], by rw [h1, g1]⟩

/-- **C115** (completeness): if fewer than five suggestions are given, and the text gives neither the letters of the word nor those without soft hyphens, then every
word of the text among the first 260 candidates is suggested. -/
theorem C115_complete {ls : List Line} {runsOf : List Wc → List (List Nat)} {an : Analyzer} (hr : ∀ v : List Wc, v.length ≤ 255 → AllRuns ls v (runsOf v))
    (hf : FollowsText ls runsOf an) (hu : UsualWords ls)
    (junk : Nat → Wc) (ignoreDot aup : Bool) (word : List Wc) (hw : WordOk word) (hlen : (normSpec word).length ≤ word.length)
    (h2 : 2 ≤ (normSpec word).length) (hv : vowelCount (normSpec word) ≤ 32) (h255 : word.length ≤ 255) (hdot : ignoreDot = true → (normSpec word).length ≠ 2)
    {n : List Wc} {dot : Bool} (hn : SearchWord ignoreDot (normSpec word) n dot) (hfirst : ∀ c, .word c ∈ typingFirst n → ¬ LettersInText ls runsOf c) :
    ∃ out, suggestUcs4 (typingStrategy an junk) ignoreDot aup word = some out ∧
      (out.length < 5 → ∀ c A B, InText ls runsOf c → typingOthers n = A ++ .word c :: B → A.length < 260 → ∃ o ∈ out, Presents word n dot aup c o) := by
  obtain ⟨out, e1, ⟨_, e2⟩ | ⟨n', dot', found, best, e2, e3, e4, e5, e6⟩⟩ :=
    C81_suggestions an (analyzerOk hf) (an_nil hr hf hu) junk ignoreDot aup word hw h2 hlen hv
  · rcases e2 with e2 | ⟨e2, e3⟩
    · omega
    · exact absurd e3 (hdot e2)
  obtain ⟨rfl, rfl⟩ := searchWord_unique hn e2
  refine ⟨out, e1, fun hl c A B hc hAB hA => ?_⟩
  have hfound : found.length < 5 := by
    have := bestFive_length e4
    rw [e5.length_eq, valued_length] at this
    omega
  have hk : an c ≠ [] := by
    obtain ⟨a, ha, _⟩ := (inText_iff hf c).1 hc
    exact List.ne_nil_of_mem ha
  obtain ⟨x, r, p, g1, g2, g3⟩ := C81_tried e3 (fun c h => Classical.byContradiction fun h' => hfirst c h ((known_iff hf c).1 h')) hAB hA hk (by omega)
  cases ranked_ok hf hc g1
  have hx : x = c := by
    rcases g2 with ⟨_, h⟩ | ⟨h, _⟩ | ⟨h, _⟩
    · exact h
    · cases h
    · cases h
  subst hx
  exact forall2_mem e5 (bestFive_mem e4 hfound g3)

/-- **C115** (capital letters): if the text gives the letters of the word, there is one suggestion: a word of the text with the same letters. -/
theorem C115_case {ls : List Line} {runsOf : List Wc → List (List Nat)} {an : Analyzer} (hr : ∀ v : List Wc, v.length ≤ 255 → AllRuns ls v (runsOf v))
    (hf : FollowsText ls runsOf an) (hu : UsualWords ls)
    (junk : Nat → Wc) (ignoreDot aup : Bool) (word : List Wc) (hw : WordOk word) (hlen : (normSpec word).length ≤ word.length)
    (h2 : 2 ≤ (normSpec word).length) (hv : vowelCount (normSpec word) ≤ 32) (h255 : word.length ≤ 255) (hdot : ignoreDot = true → (normSpec word).length ≠ 2)
    {n : List Wc} {dot : Bool} (hn : SearchWord ignoreDot (normSpec word) n dot) (hknown : LettersInText ls runsOf n) (hs : 0xAD ∉ n) :
    ∃ o x, suggestUcs4 (typingStrategy an junk) ignoreDot aup word = some [o] ∧ x.map lower = n.map lower ∧ InText ls runsOf x ∧ Presents word n dot aup x o := by
  obtain ⟨out, e1, ⟨_, e2⟩ | ⟨n', dot', found, best, e2, e3, e4, e5, e6⟩⟩ :=
    C81_suggestions an (analyzerOk hf) (an_nil hr hf hu) junk ignoreDot aup word hw h2 hlen hv
  · rcases e2 with e2 | ⟨e2, e3⟩
    · omega
    · exact absurd e3 (hdot e2)
  obtain ⟨rfl, rfl⟩ := searchWord_unique hn e2
  obtain ⟨x, r, p, g1, g2, rfl⟩ := C81_case_only (by decide) (by decide) ((known_iff hf n).2 hknown) hs e3
  obtain ⟨q1, q2⟩ := offered_inText hr hf hu g1 g2
  have hb : best = [x] := by
    have h1 := bestFive_length e4
    have h3 := bestFive_mem e4 (by simp) (List.mem_singleton.2 rfl)
    simp only [valued_length, List.length_singleton] at h1
    match best, h1, h3 with
    | [y], _, h3 => rw [List.mem_singleton.1 h3]
    | [], h1, _ => simp at h1
    | _ :: _ :: _, h1, _ => simp at h1
  subst hb
  cases e5 with
  | cons h1 h3 =>
    cases h3
    exact ⟨_, x, e1, q1, q2, h1⟩

/-- **C115**: the text of a dictionary compiles to a file that loads, and the analyses read from it are such that the suggestions follow the text in the sense of
`C115_correct`, `C115_complete` and `C115_case`. -/
theorem C115_dictionary {text : List Nat} {ls : List Line} (hd : Att.Describes text ls) (hp : Proper ls) (hfin : FinnishText ls) (hu : UsualWords ls)
    {srtS : List (Nat × List Nat) → List (Nat × List Nat)} {srtT : List CTrans → List CTrans}
    (hS : SortsBy (fun a b => attSymLt a.2 b.2) srtS) (hT : SortsBy fileOrderLt srtT) (sw : Bool) :
    ∃ file f, attCompile srtS srtT sw text = some (some file) ∧ loadFile file = some (some f) ∧
      ∃ (runsOf : List Wc → List (List Nat)) (an : Analyzer), (∀ v : List Wc, v.length ≤ 255 → AllRuns ls v (runsOf v)) ∧
        (∀ c, AnalysedBefore f (fun _ => True) c → ∀ w, ∃ l c', finnishAnalyzeFst f c w false = some (l, c') ∧ an w = l.map asMorAn) ∧
        ∀ (junk : Nat → Wc) (ignoreDot aup : Bool) (word : List Wc) (n : List Wc) (dot : Bool), WordOk word → (normSpec word).length ≤ word.length →
          2 ≤ (normSpec word).length → vowelCount (normSpec word) ≤ 32 → word.length ≤ 255 → (ignoreDot = true → (normSpec word).length ≠ 2) →
          SearchWord ignoreDot (normSpec word) n dot →
          ∃ out, suggestUcs4 (typingStrategy an junk) ignoreDot aup word = some out ∧
            (∀ o ∈ out, ∃ x, CorrectSuggestion ls runsOf x ∧ Rendered x o) ∧
            ((∀ c, .word c ∈ typingFirst n → ¬ LettersInText ls runsOf c) → out.length < 5 → ∀ c A B, InText ls runsOf c →
              typingOthers n = A ++ .word c :: B → A.length < 260 → ∃ o ∈ out, Presents word n dot aup c o) ∧
            (LettersInText ls runsOf n → 0xAD ∉ n → ∃ o x, out = [o] ∧ x.map lower = n.map lower ∧ InText ls runsOf x ∧ Presents word n dot aup x o) := by
  obtain ⟨file, f, h1, h2, runsOf, an, h3, h4, h5⟩ := C99_dictionary hd hp hfin hS hT sw
  refine ⟨file, f, h1, h2, runsOf, an, h3, h4, fun junk ignoreDot aup word n dot hw hlen hl2 hv h255 hdot hn => ?_⟩
  obtain ⟨out, e1, e2⟩ := (C115_correct h3 h5 hu junk ignoreDot aup word hw hlen).1 hl2 hv
  refine ⟨out, e1, e2, fun hfirst => ?_, fun hk hs => ?_⟩
  · obtain ⟨out', e3, e4⟩ := C115_complete h3 h5 hu junk ignoreDot aup word hw hlen hl2 hv h255 hdot hn hfirst
    rw [e1] at e3
    cases e3
    exact e4
  · obtain ⟨o, x, e3, e4⟩ := C115_case h3 h5 hu junk ignoreDot aup word hw hlen hl2 hv h255 hdot hn hk hs
    rw [e1] at e3
    cases e3
    exact ⟨o, x, rfl, e4⟩

/-! ### Non-vacuity: the dictionary of C98 with the words `a`, `ab`, `abb`, ... -/

theorem haha_usual : UsualWords hahaLines := by
  constructor
  · intro run h
    obtain ⟨m, h, _⟩ := haha_runs (v := []) h
    cases h
  · intro v run h
    obtain ⟨m, rfl, _⟩ := haha_runs h
    simp [List.mem_replicate]

/-- The word `ab` is in the text. -/
theorem haha_ab {runsOf : List Wc → List (List Nat)} (hr : ∀ v : List Wc, v.length ≤ 255 → AllRuns hahaLines v (runsOf v)) :
    InText hahaLines runsOf (lit "ab") := by
  have hv : Validity.Valid (Validity.events (hahaReading (97 :: List.replicate 1 98))) := by
    obtain ⟨b, hb, hv⟩ := C77_valid _ (haha_good (m := 1)).plain
    rw [show isValidAnalysis (render (hahaReading (97 :: List.replicate 1 98))) = some true by decide +kernel] at hb
    cases hb
    exact hv.1 rfl
  have ha := hr (lit "ab") (by decide)
  have hm : [0, 1, 2] ∈ runsOf (lit "ab") := (ha.mem _).2 haha_run
  have h1 : (runsOf (lit "ab")).length ≤ 1 := by
    match h : runsOf (lit "ab"), ha with
    | [], _ => simp
    | [_], _ => simp
    | r :: r' :: t, ha =>
      have a := graph_unique haha_graph ((ha.mem r).1 (by simp)) ((ha.mem r').1 (by simp))
      have b := ha.nodup
      simp [a] at b
  refine ⟨by decide, [0, 1, 2], ?_, hahaReading (97 :: List.replicate 1 98), by decide, ?_, hv, .inl ?_⟩
  · rw [show setCase .allLower (lit "ab") = lit "ab" by decide, List.take_of_length_le (by omega)]
    exact hm
  · rw [show setCase .allLower (lit "ab") = 97 :: List.replicate 1 98 by decide]
    exact haha_good
  · intro i c k h1 h2
    rw [show required (hahaReading (97 :: List.replicate 1 98)) = lit "pp" by decide +kernel] at h2
    match i, h1, h2 with
    | 0, h1, h2 => cases h1; cases h2; simp [TooLow, TooHigh]; decide
    | 1, h1, h2 => cases h1; cases h2; simp [TooLow, TooHigh]; decide
    | i + 2, h1, _ => simp [lit] at h1

theorem haha_letters {runsOf : List Wc → List (List Nat)} (hr : ∀ v : List Wc, v.length ≤ 255 → AllRuns hahaLines v (runsOf v)) {w : List Wc}
    (h : LettersInText hahaLines runsOf w) : ∃ m, w.map lower = 97 :: List.replicate m 98 := by
  obtain ⟨hl, run, hm, _⟩ := h
  rw [setCase_lower] at hm
  obtain ⟨m, e, _⟩ := haha_runs (((hr (w.map lower) (by rw [List.length_map]; exact hl)).mem run).1 (List.mem_of_mem_take hm))
  exact ⟨m, e⟩

deriving instance DecidableEq for Try

theorem haha_abx {runsOf : List Wc → List (List Nat)} (hr : ∀ v : List Wc, v.length ≤ 255 → AllRuns hahaLines v (runsOf v)) : ¬ LettersInText hahaLines runsOf (lit "abx") := by
  intro h
  obtain ⟨m, h⟩ := haha_letters hr h
  rw [show (lit "abx").map lower = [97, 98, 120] by decide] at h
  match m, h with
  | 0, h => cases h
  | 1, h => cases h
  | 2, h => cases h
  | m + 3, h => simp [List.replicate_succ] at h

theorem abx_tried : ∃ A B, typingOthers (lit "abx") = A ++ .word (lit "ab") :: B ∧ A.length < 260 := by
  have hi : ∃ i, i < 260 ∧ (typingOthers (lit "abx"))[i]? = some (.word (lit "ab")) := ⟨8, by decide, by decide +kernel⟩
  obtain ⟨i, hi, hg⟩ := hi
  obtain ⟨hlt, hg⟩ := List.getElem?_eq_some_iff.1 hg
  refine ⟨(typingOthers (lit "abx")).take i, (typingOthers (lit "abx")).drop (i + 1), ?_, by rw [List.length_take]; omega⟩
  rw [← hg, List.getElem_cons_drop, List.take_append_drop]

/-- `abx` is not in the text, `ab` is among the candidates for it; and `aB` has the letters of `ab`. -/
example {runsOf : List Wc → List (List Nat)} {an : Analyzer} (hr : ∀ v : List Wc, v.length ≤ 255 → AllRuns hahaLines v (runsOf v))
    (hf : FollowsText hahaLines runsOf an) (junk : Nat → Wc) :
    (∃ out, suggestUcs4 (typingStrategy an junk) false false (lit "abx") = some out ∧
      (out.length < 5 → ∃ o ∈ out, Presents (lit "abx") (lit "abx") false false (lit "ab") o)) ∧
    ∃ o x, suggestUcs4 (typingStrategy an junk) false false (lit "aB") = some [o] ∧ x.map lower = lit "ab" ∧ InText hahaLines runsOf x ∧
      Presents (lit "aB") (lit "aB") false false x o := by
  constructor
  · have hn : normSpec (lit "abx") = lit "abx" := by decide +kernel
    obtain ⟨out, e1, e2⟩ := C115_complete hr hf haha_usual junk false false (lit "abx") (by unfold WordOk; decide) (by rw [hn]) (by rw [hn]; decide)
      (by rw [hn]; decide) (by decide) (by simp) (n := lit "abx") (dot := false) (.inr ⟨rfl, hn.symm, by simp⟩) (by
        intro c hc h
        have : c = lit "abx" := by
          simp only [typingFirst, show softHyphenRemoval (lit "abx") = [] by decide +kernel, List.map_cons, List.map_nil, List.mem_singleton, Try.word.injEq] at hc
          exact hc
        subst this
        exact haha_abx hr h)
    refine ⟨out, e1, fun hl => ?_⟩
    obtain ⟨A, B, h1, h2⟩ := abx_tried
    exact e2 hl (lit "ab") A B (haha_ab hr) h1 h2
  · have hn : normSpec (lit "aB") = lit "aB" := by decide +kernel
    have hk : LettersInText hahaLines runsOf (lit "aB") := by
      obtain ⟨_, run, hm, its, h1, h2, h3, _⟩ := haha_ab hr
      rw [show setCase .allLower (lit "ab") = setCase .allLower (lit "aB") by decide] at hm h2
      exact ⟨by decide, run, hm, its, h1, h2, h3⟩
    obtain ⟨o, x, e1, e2, e3, e4⟩ := C115_case hr hf haha_usual junk false false (lit "aB") (by unfold WordOk; decide) (by rw [hn]) (by rw [hn]; decide)
      (by rw [hn]; decide) (by decide) (by simp) (n := lit "aB") (dot := false) (.inr ⟨rfl, hn.symm, by simp⟩) hk (by decide)
    exact ⟨o, x, e1, e2, e3, e4⟩

example (sw : Bool) := C115_dictionary haha_describes haha_proper haha_finnish haha_usual sortSymbols_sorts sortTransitions_sorts sw

end Verif.SuggestText
