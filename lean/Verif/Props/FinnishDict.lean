import Verif.Props.FinnishStructure
import Verif.Props.FinnishSpell
import Verif.Props.HyphMarks
/-!
# C70: the Finnish speller and hyphenator with the Finnish analyser

`finnishAnalyze` turns the outputs of the transducer into analyses; the speller and the hyphenator read the STRUCTURE of
these. Here the three are put together, for dictionaries whose outputs are well-formed.
-/
set_option linter.unusedSimpArgs false
set_option linter.unusedVariables false

namespace Verif.Props
open Verif StructTok

/-- An output of the transducer for the word `v`: well-formed, without NUL, with as many characters as the word and hyphens
where the word has them. -/
def GoodOutput (v o : List Wc) : Prop :=
  o.length < 2 ^ 64 ∧ 0 ∉ o ∧ ∃ its, o = Verif.render its ∧ WellFormed its ∧ (content its).length = v.length ∧
    ∀ i : Nat, (content its)[i]? = some 0x2D ↔ v[i]? = some 0x2D

/-- A dictionary, given by the outputs of its transducer for every word, all of whose outputs are good. -/
def GoodDictionary (next : List Wc → List (List Wc)) : Prop := ∀ v, ∀ o ∈ next v, GoodOutput v o

/-- What the speller and the hyphenator read of an analysis (`getValue` of the four attributes). -/
def asMorAn (a : Ana) : MorAn :=
  { struct := a.getValue .structure_, cls := a.getValue .cls, sijamuoto := a.getValue .sijamuoto,
    vapaaJalkiosa := a.getValue .vapaaJalkiosa }

/-- `an` is the Finnish analyser (without full morphology) for the dictionary. -/
def IsFinnishAnalyzer (next : List Wc → List (List Wc)) (an : Analyzer) : Prop :=
  ∀ w, ∃ l, finnishAnalyze next w false = some l ∧ an w = l.map asMorAn

/-! ### Lemmas -/

theorem lower_eq_hyphen (c : Wc) : lower c = 0x2D ↔ c = 0x2D := by
  rcases Nat.lt_or_ge c 0x530 with h1 | h1
  · have t : ∀ c < 0x530, (lower c = 0x2D ↔ c = 0x2D) := by decide +kernel
    exact t c h1
  · rw [lower_of_ge c h1]

theorem lowered_hyphens (w : List Wc) (i : Nat) : (setCase .allLower w)[i]? = some 0x2D ↔ w[i]? = some 0x2D := by
  have e : setCase .allLower w = w.map lower := by
    unfold setCase
    cases w <;> rfl
  rw [e, List.getElem?_map]
  cases w[i]? with
  | none => simp
  | some c => simp [lower_eq_hyphen]

theorem lowered_length (w : List Wc) : (setCase .allLower w).length = w.length := by
  unfold setCase
  cases w <;> simp

/-- A string without `==`, NUL and final `=` consists of elements. -/
theorem elements_exist : ∀ (n : Nat) (s : List Wc), s.length ≤ n → 0 ∉ s → hasDouble s = false → s.getLast? ≠ some 0x3D →
    ∃ ts : List StructTok, StructTok.Ok ts ∧ s = ts.flatMap StructTok.render ∧ ts.length = (strip s).length ∧
      (s.head? ≠ some 0x3D → ∀ d, ts.head? ≠ some (border d)) ∧
      ∀ i : Nat, ts[i]? = some hyphen → (strip s)[i]? = some 0x2D ∧ i + 1 < ts.length := by
  intro n
  induction n with
  | zero =>
    intro s hl _ _ _
    have : s = [] := List.eq_nil_of_length_eq_zero (by omega)
    subst this
    exact ⟨[], trivial, rfl, rfl, by simp, by simp⟩
  | succ n ih =>
    intro s hl h0 hd hlast
    match s, hl, h0, hd, hlast with
    | [], _, _, _, _ => exact ⟨[], trivial, rfl, rfl, by simp, by simp⟩
    | c :: r, hl, h0, hd, hlast =>
      have hc0 : c ≠ 0 := fun e => h0 (by rw [e]; simp)
      have hr0 : 0 ∉ r := fun e => h0 (by simp [e])
      by_cases hc : c = 0x3D
      · subst hc
        match r, hl, hr0, hd, hlast with
        | [], _, _, _, hlast => exact absurd rfl hlast
        | d :: r, hl, hr0, hd, hlast =>
          rw [hasDouble, Bool.or_eq_false_iff] at hd
          have hdn : d ≠ 0x3D := by
            intro e
            have := hd.1
            simp [e] at this
          have hdr : hasDouble r = false := by
            cases r with
            | nil => rfl
            | cons e r =>
              have := hd.2
              rw [hasDouble, Bool.or_eq_false_iff] at this
              exact this.2
          have hlr : r.getLast? ≠ some 0x3D := by
            cases r with
            | nil => simp
            | cons e r => simpa [List.getLast?_cons_cons] using hlast
          obtain ⟨ts, t1, t2, t3, t4, t5⟩ := ih r (by simp at hl; omega) (fun e => hr0 (by simp [e])) hdr hlr
          have es : strip (0x3D :: d :: r) = d :: strip r := by simp [strip, hdn]
          refine ⟨border d :: ts, t1, ?_, by rw [es]; simp [t3], fun h => absurd rfl h, ?_⟩
          · rw [List.flatMap_cons, ← t2]; rfl
          · intro i hi
            cases i with
            | zero => simp at hi
            | succ i =>
              obtain ⟨a, b⟩ := t5 i (by simpa using hi)
              rw [es]
              exact ⟨by simpa using a, by simp; omega⟩
      · have hdr : hasDouble r = false := by
          cases r with
          | nil => rfl
          | cons e r =>
            rw [hasDouble, Bool.or_eq_false_iff] at hd
            exact hd.2
        have hlr : r.getLast? ≠ some 0x3D := by
          cases r with
          | nil => simp
          | cons e r => simpa [List.getLast?_cons_cons] using hlast
        have es : strip (c :: r) = c :: strip r := by simp [strip, hc]
        by_cases hh : c = 0x2D ∧ r.head? = some 0x3D
        · obtain ⟨rfl, hh⟩ := hh
          match r, hl, hr0, hdr, hlr, hh, hlast, es with
          | e :: r, hl, hr0, hdr, hlr, hh, hlast, es =>
            have he : e = 0x3D := by simpa using hh
            subst he
            match r, hl, hr0, hdr, hlr, hlast, es with
            | [], _, _, _, hlr, _, _ => exact absurd rfl hlr
            | d :: r, hl, hr0, hdr, hlr, hlast, es =>
              rw [hasDouble, Bool.or_eq_false_iff] at hdr
              have hdn : d ≠ 0x3D := by
                intro e
                have := hdr.1
                simp [e] at this
              have es2 : strip (0x3D :: d :: r) = strip (d :: r) := by simp [strip]
              rw [es2] at es
              obtain ⟨ts, t1, t2, t3, t4, t5⟩ := ih (d :: r) (by simp at hl ⊢; omega) (fun e => hr0 (List.mem_cons_of_mem _ e)) hdr.2
                (by simpa [List.getLast?_cons_cons] using hlr)
              have hpos : 0 < ts.length := by rw [t3]; simp [strip, hdn]
              refine ⟨hyphen :: ts, t1, ?_, by rw [es]; simp [t3], by simp, ?_⟩
              · rw [List.flatMap_cons, ← t2]; rfl
              · intro i hi
                cases i with
                | zero => rw [es]; exact ⟨rfl, by simpa using hpos⟩
                | succ i =>
                  obtain ⟨a, b⟩ := t5 i (by simpa using hi)
                  rw [es]
                  exact ⟨by simpa using a, by simp; omega⟩
        · obtain ⟨ts, t1, t2, t3, t4, t5⟩ := ih r (by simp at hl; omega) hr0 hdr hlr
          refine ⟨plain c :: ts, ⟨hc0, hc, fun e => t4 fun e2 => hh ⟨e, e2⟩, t1⟩, ?_, by rw [es]; simp [t3], by simp, ?_⟩
          · rw [List.flatMap_cons, ← t2]; rfl
          · intro i hi
            cases i with
            | zero => simp at hi
            | succ i =>
              obtain ⟨a, b⟩ := t5 i (by simpa using hi)
              rw [es]
              exact ⟨by simpa using a, by simp; omega⟩

/-- A STRUCTURE that describes an output with as many characters as the word, and hyphens at the same places, fits the word. -/
theorem fits_of_describes {its : List SItem} {st w : List Wc} (hd : Describes its st) (h0 : 0 ∉ Verif.render its)
    (hl : (content its).length = w.length) (hh : ∀ i : Nat, (content its)[i]? = some 0x2D ↔ w[i]? = some 0x2D) (a : MorAn)
    (ha : a.struct = some st) : StructureFits w a := by
  have hst0 := hd.nul h0
  have hyph : ∀ i : Nat, (strip st)[i]? = some 0x2D → w[i]? = some 0x2D := by
    intro i hi
    rw [← hh]
    rcases Nat.eq_zero_or_pos i with e | e
    · subst e; exact hd.first hi
    · exact (hd.hyphens i e).1 hi
  have hcount := hd.count
  have main : ∀ s : List Wc, strip s = strip st → s.length ≤ st.length → 0 ∉ s → hasDouble s = false → s.getLast? ≠ some 0x3D →
      ∃ ts : List StructTok, StructTok.Ok ts ∧ s = ts.flatMap StructTok.render ∧ (s.head? ≠ some 0x3D → ∀ d, ts.head? ≠ some (border d)) ∧
        ∀ i : Nat, ts[i]? = some hyphen → i < w.length → w[i]? = some 0x2D ∧ i + 1 < w.length := by
    intro s h1 h2 h3 h4 h5
    obtain ⟨ts, t1, t2, t3, t4, t5⟩ := elements_exist s.length s (Nat.le_refl _) h3 h4 h5
    refine ⟨ts, t1, t2, t4, fun i hi _ => ?_⟩
    obtain ⟨a, b⟩ := t5 i hi
    rw [h1] at a t3
    exact ⟨hyph i a, by omega⟩
  match st, ha, hd, hst0, main with
  | [], ha, _, _, _ => exact ⟨[], trivial, Or.inr ⟨ha, by simp⟩, by simp⟩
  | c :: r, ha, hd, hst0, main =>
    by_cases hc : c = 0x3D
    · subst hc
      have hdr : hasDouble r = false ∧ r.head? ≠ some 0x3D := by
        have := hd.single
        cases r with
        | nil => simp [hasDouble]
        | cons e r =>
          rw [hasDouble, Bool.or_eq_false_iff] at this
          refine ⟨this.2, ?_⟩
          have h1 := this.1
          intro e2
          simp at e2
          simp [e2] at h1
      have hlr : r.getLast? ≠ some 0x3D := by
        have := hd.noTrailing
        cases r with
        | nil => simp
        | cons e r => simpa [List.getLast?_cons_cons] using this
      obtain ⟨ts, t1, t2, t3, t4⟩ := main r (by simp [strip]) (by simp) (fun e => hst0 (List.mem_cons_of_mem _ e)) hdr.1 hlr
      exact ⟨ts, t1, Or.inl (by rw [ha, structOf, ← t2]), t4⟩
    · obtain ⟨ts, t1, t2, t3, t4⟩ := main (c :: r) rfl (Nat.le_refl _) hst0 hd.single hd.noTrailing
      exact ⟨ts, t1, Or.inr ⟨by rw [ha, ← t2], t3 (by simpa using hc)⟩, t4⟩

/-! ### C70 -/

/-- C70 (the analyser): with a good dictionary the Finnish analyser gives an answer for every word; the analyses have a
STRUCTURE, each fits the word and has one pattern character per character of the word. The word has analyses exactly if it has
at most 255 characters and one of the first 99 outputs is valid. -/
theorem C70_analyser (next : List Wc → List (List Wc)) (hd : GoodDictionary next) :
    (∃ an, IsFinnishAnalyzer next an) ∧ ∀ an, IsFinnishAnalyzer next an → ∀ w,
      (∀ a ∈ an w, StructureFits w a ∧ ∃ st, a.struct = some st ∧ st.getLast? ≠ some 0x3D ∧ 0 ∉ st ∧ (strip st).length = w.length) ∧
      (an w = [] ↔ 255 < w.length ∨ ∀ o ∈ (next (setCase .allLower w)).take 99, isValidAnalysis o = some false) := by
  have key : ∀ w, ∃ l, finnishAnalyze next w false = some l ∧
      (∀ a ∈ l.map asMorAn, StructureFits w a ∧
        ∃ st, a.struct = some st ∧ st.getLast? ≠ some 0x3D ∧ 0 ∉ st ∧ (strip st).length = w.length) ∧
      (l.map asMorAn = [] ↔ 255 < w.length ∨ ∀ o ∈ (next (setCase .allLower w)).take 99, isValidAnalysis o = some false) := by
    intro w
    obtain ⟨l, h1, h2, h3⟩ := analyses_describe
      (fun its => 0 ∉ Verif.render its ∧ ∀ i : Nat, (content its)[i]? = some 0x2D ↔ w[i]? = some 0x2D) next w false fun o ho => by
        obtain ⟨a, b, its, c, d, e, f⟩ := hd _ o ho
        refine ⟨a, its, c, d, e.trans (lowered_length w), by rw [← c]; exact b, fun i => (f i).trans (lowered_hyphens w i)⟩
    refine ⟨l, h1, ?_, by rw [List.map_eq_nil_iff]; exact h3⟩
    intro a ha
    obtain ⟨x, hx, rfl⟩ := List.mem_map.1 ha
    obtain ⟨its, st, _, _, e1, ⟨e2, e3⟩, e4, e5⟩ := h2 x hx
    have hs : (asMorAn x).struct = some st := e4
    exact ⟨fits_of_describes e5 e2 e1 e3 _ hs, st, hs, e5.noTrailing, e5.nul e2, e5.count.trans e1⟩
  refine ⟨⟨fun w => (key w).choose.map asMorAn, fun w => ⟨_, (key w).choose_spec.1, rfl⟩⟩, fun an hr w => ?_⟩
  obtain ⟨l, h1, h2, h3⟩ := key w
  obtain ⟨l', g1, g2⟩ := hr w
  rw [h1] at g1
  cases g1
  rw [g2]
  exact ⟨h2, h3⟩

theorem C70_structures (next : List Wc → List (List Wc)) (hd : GoodDictionary next) (an : Analyzer) (hr : IsFinnishAnalyzer next an) :
    StructuresOk an := fun w a ha => by
  obtain ⟨_, st, h1, h2, _⟩ := (((C70_analyser next hd).2 an hr w).1 a ha)
  exact ⟨st, h1, h2⟩

/-- The capital letters of the word are those that the STRUCTURE of the analysis asks for. -/
def CaseAgrees (w : List Wc) (a : MorAn) : Prop :=
  ∃ st, a.struct = some st ∧ (strip st).length = w.length ∧
    ∀ (i : Nat) (c k : Wc), w[i]? = some c → (strip st)[i]? = some k → ¬ TooLow c k ∧ ¬ TooHigh c k

theorem requirements_strip (st : List Wc) (h : 0 ∉ st) : caseRequirements st = strip st := by
  unfold caseRequirements strip
  congr 1
  have : ∀ l : List Wc, 0 ∉ l → l.takeWhile (· ≠ 0) = l := by
    intro l
    induction l with
    | nil => simp
    | cons c l ih =>
      intro hl
      simp only [List.mem_cons, not_or] at hl
      rw [List.takeWhile_cons, if_pos (by simpa using fun e => hl.1 e.symm), ih hl.2]
  exact this st h

/-- The capital letters of the word after the first character agree with the analysis, and the first character is not a capital letter that has to be a small one. -/
def RestAgrees (w : List Wc) (a : MorAn) : Prop :=
  ∃ st, a.struct = some st ∧ (strip st).length = w.length ∧
    ∀ (i : Nat) (c k : Wc), w[i]? = some c → (strip st)[i]? = some k → (0 < i → ¬ TooLow c k) ∧ ¬ TooHigh c k

/-- C70 (dictionary lookup): the verdict is "correct" or "correct with a capital at its beginning" exactly if the capital letters agree with an analysis except that the first one
may be missing. -/
theorem C70_lookup_capital (next : List Wc → List (List Wc)) (hd : GoodDictionary next) (an : Analyzer) (hr : IsFinnishAnalyzer next an)
    (w : List Wc) : ∃ r, adapterSpell an w = some r ∧ (r = .ok ∨ r = .capFirst ↔ ∃ a ∈ an w, RestAgrees w a) := by
  obtain ⟨h1, h2⟩ := (C70_analyser next hd).2 an hr w
  have hs : HasStructures (an w) := fun a ha => by
    obtain ⟨_, st, e, _⟩ := h1 a ha
    exact ⟨st, e⟩
  obtain ⟨r, e1, e2, e3⟩ := C25_best an w hs
  refine ⟨r, e1, ?_⟩
  have agree : ∀ a ∈ an w, ∃ v, Gives w a v ∧ v ≠ .failed ∧ (v ≠ .capError ↔ RestAgrees w a) := by
    intro a ha
    obtain ⟨_, st, g1, _, g3, g4⟩ := h1 a ha
    have hreq := requirements_strip st g3
    obtain ⟨v, hv, hok, hcf, hce⟩ := C26_verdict w st
    obtain ⟨v', hv', _, hg⟩ := gives_total w a ⟨st, g1⟩
    have hgv : Gives w a v := ⟨st, g1, hv⟩
    refine ⟨v, hgv, by rw [(hg v).1 hgv]; exact hv', ?_⟩
    rw [ne_eq, hce]
    unfold WrongAt At
    rw [hreq]
    constructor
    · intro h
      refine ⟨st, g1, g4, fun i c k hc hk => ⟨fun hi t => h (.inr ⟨i, hi, .inl ⟨c, k, hc, hk, t⟩⟩), fun t => ?_⟩⟩
      rcases Nat.eq_zero_or_pos i with rfl | hi
      · exact h (.inl ⟨c, k, hc, hk, t⟩)
      · exact h (.inr ⟨i, hi, .inr ⟨c, k, hc, hk, t⟩⟩)
    · rintro ⟨s, es, _, h⟩ hw
      rw [g1] at es; cases es
      rcases hw with ⟨c, k, hc, hk, t⟩ | ⟨i, hi, ⟨c, k, hc, hk, t⟩ | ⟨c, k, hc, hk, t⟩⟩
      · exact (h 0 c k hc hk).2 t
      · exact (h i c k hc hk).1 hi t
      · exact (h i c k hc hk).2 t
  by_cases he : an w = []
  · have : r = .failed := e2.2 he
    rw [this, he]
    simp
  · obtain ⟨⟨a, ha, hg⟩, hb⟩ := e3 he
    constructor
    · intro hrr
      refine ⟨a, ha, ?_⟩
      obtain ⟨v, hv, _, hi⟩ := agree a ha
      obtain ⟨v', _, _, hu⟩ := gives_total w a (hs a ha)
      have : v = r := ((hu v).1 hv).trans ((hu r).1 hg).symm
      rw [← hi, this]
      rcases hrr with h | h <;> rw [h] <;> decide
    · rintro ⟨b, hm, hag⟩
      obtain ⟨v, hv, hf, hi⟩ := agree b hm
      have hve := hi.2 hag
      have := hb b hm v hv
      revert this
      cases r <;> cases v <;> simp_all [Better]

/-- C70 (dictionary lookup): with a good dictionary, looking a word up gives a verdict for every word. It is "unknown" exactly
if the word has more than 255 characters or no valid output, and "correct" exactly if the capital letters agree with an analysis
at every character. -/
theorem C70_lookup (next : List Wc → List (List Wc)) (hd : GoodDictionary next) (an : Analyzer) (hr : IsFinnishAnalyzer next an)
    (w : List Wc) : ∃ r, adapterSpell an w = some r ∧
      (r = .failed ↔ 255 < w.length ∨ ∀ o ∈ (next (setCase .allLower w)).take 99, isValidAnalysis o = some false) ∧
      (r = .ok ↔ ∃ a ∈ an w, CaseAgrees w a) := by
  obtain ⟨h1, h2⟩ := (C70_analyser next hd).2 an hr w
  have hs : HasStructures (an w) := fun a ha => by
    obtain ⟨_, st, e, _⟩ := h1 a ha
    exact ⟨st, e⟩
  obtain ⟨r, e1, e2, e3⟩ := C25_best an w hs
  refine ⟨r, e1, e2.trans h2, ?_⟩
  have agree : ∀ a ∈ an w, Gives w a .ok ↔ CaseAgrees w a := by
    intro a ha
    obtain ⟨_, st, g1, _, g3, g4⟩ := h1 a ha
    have hreq := requirements_strip st g3
    obtain ⟨v, hv, hok, _⟩ := C26_verdict w st
    have hW : (∀ i, ¬ WrongAt w st i) ↔
        ∀ (i : Nat) (c k : Wc), w[i]? = some c → (strip st)[i]? = some k → ¬ TooLow c k ∧ ¬ TooHigh c k := by
      unfold WrongAt At
      rw [hreq]
      constructor
      · intro h i c k hc hk
        exact ⟨fun t => h i (Or.inl ⟨c, k, hc, hk, t⟩), fun t => h i (Or.inr ⟨c, k, hc, hk, t⟩)⟩
      · intro h i hi
        rcases hi with ⟨c, k, hc, hk, t⟩ | ⟨c, k, hc, hk, t⟩
        · exact (h i c k hc hk).1 t
        · exact (h i c k hc hk).2 t
    rw [hW] at hok
    constructor
    · rintro ⟨s, es, em⟩
      rw [g1] at es; cases es
      rw [hv] at em; cases em
      exact ⟨st, g1, g4, hok.1 rfl⟩
    · rintro ⟨s, es, _, h⟩
      rw [g1] at es; cases es
      exact ⟨st, g1, by rw [hv, hok.2 h]⟩
  by_cases he : an w = []
  · have : r = .failed := e2.2 he
    rw [this, he]
    simp
  · obtain ⟨⟨a, ha, hg⟩, hb⟩ := e3 he
    constructor
    · intro hr'
      rw [hr'] at hg
      exact ⟨a, ha, (agree a ha).1 hg⟩
    · rintro ⟨b, hb1, hb2⟩
      have := hb b hb1 .ok ((agree b hb1).2 hb2)
      revert this
      cases r <;> simp [Better]

/-- C70 (speller): with a good dictionary the complete Finnish speller gives a verdict for every word: no read or write
outside of a buffer, and no null pointer. -/
theorem C70_spell (next : List Wc → List (List Wc)) (hd : GoodDictionary next) (an : Analyzer) (hr : IsFinnishAnalyzer next an)
    (extra : Bool) (w : List Wc) (h0 : 0 ∉ w) : ∃ r, finnishSpell extra an w = some r :=
  C28_finnish_total extra an (C70_structures next hd an hr) w h0

/-- C70 (hyphenator): with a good dictionary a hyphenation is found for every word that can be encoded, it has one
character per character of the word, and `=` stands only at hyphens inside the word and at apostrophes before a vowel. -/
theorem C70_hyphenate (next : List Wc → List (List Wc)) (hd : GoodDictionary next) (an : Analyzer) (hr : IsFinnishAnalyzer next an)
    (o : HyphOpts) (w : List Wc) (h0 : 0 ∉ w) (hv : ∀ c ∈ w, ValidCp c) :
    ∃ p, hyphenateUcs4 o an w = some (some p) ∧ p.length = w.length ∧ (∀ c ∈ p, c = 0x20 ∨ c = 0x2D ∨ c = 0x3D) ∧
      ∀ i : Nat, p[i]? = some 0x3D → Removable w i := by
  obtain ⟨out, h1, h2⟩ := C36_partial o an (C70_structures next hd an hr) w h0
  cases out with
  | none => exact absurd hv (h2.1 rfl).2
  | some p =>
    obtain ⟨h3, h4⟩ := C35_pattern o an w p h0 h1
    refine ⟨p, h1, h3, h4, C69_marks o an w p h0 (fun a ha => ?_) h1⟩
    unfold usedAnalyses at ha
    have ha := List.mem_of_mem_take ha
    unfold usedLen
    cases hdc : dotCut o an w with
    | true =>
      rw [hdc, if_pos rfl] at ha
      rw [if_pos rfl, ← List.dropLast_eq_take]
      exact (((C70_analyser next hd).2 an hr _).1 a ha).1
    | false =>
      rw [hdc, if_neg (by simp)] at ha
      rw [if_neg (by simp), Nat.sub_zero, List.take_length]
      exact (((C70_analyser next hd).2 an hr _).1 a ha).1

/-- A dictionary with one compound word. -/
def oneWord : List Wc → List (List Wc) := fun v => if v = lit "abc-defg" then [Verif.render exampleItems] else []

/-- The analysis of the word. -/
def demoAna : Ana :=
  { attributes := [(.cls, ⟨lit "nimisana", false⟩), (.sijamuoto, ⟨lit "nimento", false⟩), (.structure_, ⟨lit "=ipp-i=p=pp", true⟩)]
    consts := [.cls, .sijamuoto] }

/-- What the speller reads of it. -/
def demoMor : MorAn := { struct := some (lit "=ipp-i=p=pp"), cls := some (lit "nimisana"), sijamuoto := some (lit "nimento") }

/-- Non-vacuity: the dictionary is good, and the word is accepted with the capital letters it should have and not without. -/
example : GoodDictionary oneWord ∧ ∃ an, IsFinnishAnalyzer oneWord an ∧
    adapterSpell an (lit "Abc-Defg") = some .ok ∧ adapterSpell an (lit "abc-defg") = some .capError ∧
    hyphenateUcs4 {} an (lit "Abc-Defg") = some (some (lit "     -- ")) := by
  have hg : GoodDictionary oneWord := by
    intro v o ho
    unfold oneWord at ho
    split at ho
    · rename_i e
      subst e
      rw [List.mem_singleton] at ho
      subst ho
      refine ⟨by decide, by decide, exampleItems, rfl, ⟨?_, ?_, by decide⟩, by decide, fun i => ?_⟩
      · simp [exampleItems, lit, WfItems, strip, hasDouble, content, Verif.render, SItem.render]
      · simp [exampleItems, FirstOk, lit]
      · rw [show content exampleItems = lit "abc-defg" by decide]
    · cases ho
  obtain ⟨an, han⟩ := (C70_analyser oneWord hg).1
  have eq : ∀ w l, finnishAnalyze oneWord w false = some l → an w = l.map asMorAn := by
    intro w l h
    obtain ⟨l', h1, h2⟩ := han w
    rw [h] at h1; cases h1; exact h2
  have a1 : an (lit "Abc-Defg") = [demoMor] :=
    eq _ _ (by decide +kernel : finnishAnalyze oneWord (lit "Abc-Defg") false = some [demoAna])
  have a2 : an (lit "abc-defg") = [demoMor] :=
    eq _ _ (by decide +kernel : finnishAnalyze oneWord (lit "abc-defg") false = some [demoAna])
  refine ⟨hg, an, han, ?_, ?_, ?_⟩
  · unfold adapterSpell
    rw [a1]
    decide +kernel
  · unfold adapterSpell
    rw [a2]
    decide +kernel
  · have e1 : hyphenateUcs4 {} an (lit "Abc-Defg") = hyphenateUcs4 {} (fun _ => an (lit "Abc-Defg")) (lit "Abc-Defg") := by
      unfold hyphenateUcs4 hyphenate hyphenateWith
      have hv : ∀ c ∈ lit "Abc-Defg", ValidCp c := by unfold ValidCp; decide
      rw [splitCompounds_eq _ an _ hv, splitCompounds_eq _ (fun _ => an (lit "Abc-Defg")) _ hv]
      have d1 : dotCut {} an (lit "Abc-Defg") = false := by simp [dotCut, a1]
      have d2 : dotCut {} (fun _ => an (lit "Abc-Defg")) (lit "Abc-Defg") = false := by simp [dotCut, a1]
      simp only [usedAnalyses, d1, d2]
      rfl
    rw [e1, a1]
    decide +kernel

end Verif.Props
