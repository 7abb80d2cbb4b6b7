import Verif.Props.FinnishText
import Verif.Lemmas.HyphElements
/-!
# C100: where the words of a Finnish dictionary are divided

The readings of the dictionary decide where a word may be divided: at the borders of its parts, and inside of a part before a consonant and a vowel.
If a word has several readings, only at the places where each of them allows it; a reading without borders excludes those with borders.
-/
set_option linter.unusedSimpArgs false
set_option linter.unusedVariables false

namespace Verif.Props
open Verif Verif.Att StructTok Compound

/-! ### Specification -/

/-- The reading divides the word before its character `i`: a border begins a new part there, unless the hyphen before it does, or there is a hyphen
with a border after it. -/
def Cut (its : List SItem) (i : Nat) : Prop :=
  0 < i ∧ ((Border its i ∧ ((content its)[i - 1]? ≠ some 0x2D ∨ Border its (i - 1))) ∨ ((content its)[i]? = some 0x2D ∧ Border its (i + 1)))

/-- The characters from `s` to `e` are a part of the word. -/
structure Section (its : List SItem) (s e : Nat) : Prop where
  lt : s < e
  le : e ≤ (content its).length
  start : s = 0 ∨ Border its s
  inside : ∀ j, s < j → j < e → ¬ Cut its j
  fin : e = (content its).length ∨ Cut its e

/-- The reading has only one part. -/
def Undivided (its : List SItem) : Prop := ∀ i, ¬ Cut its i

/-- The reading allows dividing the word `w` before its character `i`. -/
def Divides (o : HyphOpts) (its : List SItem) (w : List Wc) (i : Nat) : Prop :=
  Cut its i ∨ ∃ s e, Section its s e ∧ s < i ∧ i < e ∧ o.minLength ≤ e - s ∧ PartPoint o.ugly ((slice w s e).map lower) (i - s)

/-- Readings to which the theorem applies: no hyphen at the beginning and no two hyphens in a row; no letters that prohibit hyphenation; simple parts. -/
structure Divisible (ugly : Bool) (its : List SItem) (w : List Wc) : Prop where
  start : (content its)[0]? ≠ some 0x2D
  double : ∀ i : Nat, (content its)[i]? = some 0x2D → (content its)[i + 1]? ≠ some 0x2D
  letters : ∀ c ∈ required its, c ≠ 0x6A ∧ c ≠ 0x71
  sections : ∀ s e, Section its s e → s + 2 ≤ e → SimplePart ugly (slice w s e)

/-! ### Lemmas -/

/-- An analysis of a reading. -/
def AnalysisOf (its : List SItem) (a : MorAn) : Prop :=
  ∃ st, a.struct = some st ∧ Describes its st ∧ (strip st = required its ∨ strip st = requiredName its)

theorem analyses_of (n : Nat) : ∀ R : List (List SItem), (∀ its ∈ R, Regulated its ∧ (content its).length = n ∧ (render its).length < 2 ^ 64) →
    ∀ l, analyzeOutputs n false (R.map render) = some l → l.length ≤ 2 * R.length ∧
      (∀ a ∈ l.map asMorAn, ∃ its ∈ R, isValidAnalysis (render its) = some true ∧ AnalysisOf its a) ∧
      ∀ its ∈ R, isValidAnalysis (render its) = some true → ∃ a ∈ l.map asMorAn, AnalysisOf its a := by
  intro R
  induction R with
  | nil =>
    intro _ l h
    cases h
    simp
  | cons its R ih =>
    intro hR l h
    obtain ⟨hreg, hc, hlen⟩ := hR its List.mem_cons_self
    have ih := ih fun x hx => hR x (List.mem_cons_of_mem _ hx)
    rw [List.map_cons, analyzeOutputs] at h
    obtain ⟨l1, f1, h⟩ := Option.bind_eq_some_iff.1 h
    obtain ⟨l2, f2, h⟩ := Option.bind_eq_some_iff.1 h
    cases h
    obtain ⟨i1, i2, i3⟩ := ih l2 f2
    have first : l1.length ≤ 2 ∧ (∀ a ∈ l1.map asMorAn, isValidAnalysis (render its) = some true ∧ AnalysisOf its a) ∧
        (isValidAnalysis (render its) = some true → ∃ a ∈ l1.map asMorAn, AnalysisOf its a) := by
      obtain ⟨v, hv⟩ := C60_validity (render its)
      cases v with
      | false =>
        have : analyzeOutput n false (render its) = some [] := by rw [analyzeOutput_eq]; exact bind_invalid _ _ _ hv
        rw [this] at f1
        cases f1
        simp [hv]
      | true =>
        obtain ⟨a, q, st, g1, g2, gd, g3, g4⟩ := C85_reading_partial its false hreg hlen hv
        obtain ⟨l', g5, a', -, g6⟩ := C79_reading its false hreg.wf hreg.tidy hlen hv
        rw [g1] at g5
        cases g5
        rw [hc] at g1
        rw [g1] at f1
        cases f1
        have ha : AnalysisOf its (asMorAn a) := ⟨st, g2, gd, .inl g3⟩
        refine ⟨?_, ?_, fun _ => ⟨asMorAn a, by simp, ha⟩⟩
        · rcases g6 with ⟨_, k⟩ | ⟨_, b, _, k⟩ <;> rw [k] <;> simp
        · intro x hx
          refine ⟨hv, ?_⟩
          rw [List.map_cons] at hx
          rcases List.mem_cons.1 hx with rfl | hx
          · exact ha
          · obtain ⟨b, hb, rfl⟩ := List.mem_map.1 hx
            obtain ⟨st', m1, m2, m3⟩ := g4 b hb
            exact ⟨st', m1, m2, .inr m3⟩
    obtain ⟨k1, k2, k3⟩ := first
    refine ⟨by simp; omega, fun a ha => ?_, fun x hx hv => ?_⟩
    · rw [List.map_append] at ha
      rcases List.mem_append.1 ha with ha | ha
      · exact ⟨its, List.mem_cons_self, k2 a ha⟩
      · obtain ⟨x, hx, hx2⟩ := i2 a ha
        exact ⟨x, List.mem_cons_of_mem _ hx, hx2⟩
    · rw [List.map_append]
      rcases List.mem_cons.1 hx with rfl | hx
      · obtain ⟨a, ha, h⟩ := k3 hv
        exact ⟨a, List.mem_append_left _ ha, h⟩
      · obtain ⟨a, ha, h⟩ := i3 x hx hv
        exact ⟨a, List.mem_append_right _ ha, h⟩

theorem ok_plain_hyphen : ∀ {ts : List StructTok}, StructTok.Ok ts → ∀ {i : Nat}, ts[i]? = some (plain 0x2D) → ∀ c, ts[i + 1]? ≠ some (border c) := by
  intro ts
  induction ts with
  | nil => intro _ i h; simp at h
  | cons t ts ih =>
    intro hok i h c hc
    cases i with
    | zero =>
      simp only [List.getElem?_cons_zero, Option.some.injEq] at h
      subst h
      refine hok.2.2.1 rfl c ?_
      rw [List.head?_eq_getElem?]
      simpa using hc
    | succ i =>
      have hts : StructTok.Ok ts := by
        cases t with
        | plain c => exact hok.2.2.2
        | border c => exact hok
        | hyphen => exact hok
      exact ih hts (by simpa using h) c (by simpa using hc)

/-- The elements of an analysis and the parts of the reading. -/
theorem reading_elements {its : List SItem} {w : List Wc} (h0 : 0 ∉ Verif.render its) (hl : (content its).length = w.length)
    (hy : ∀ i : Nat, (content its)[i]? = some 0x2D ↔ w[i]? = some 0x2D) {ugly : Bool} (hd : Divisible ugly its w) {a : MorAn} (ha : AnalysisOf its a) :
    ∃ ts : List StructTok, StructTok.Ok ts ∧ HasElements a ts ∧ ts.length = w.length ∧
      (∀ c, border c ∈ ts → c ≠ 0 ∧ c ≠ 0x3D ∧ c ≠ 0x6A ∧ c ≠ 0x71) ∧ (∀ c, plain c ∈ ts → c ≠ 0x6A ∧ c ≠ 0x71) ∧
      ts[0]? ≠ some hyphen ∧ (∀ c, ts[0]? ≠ some (border c)) ∧ (∀ i, ts[i]? = some hyphen → ts[i + 1]? ≠ some hyphen) ∧
      (∀ (j : Nat) (c : Wc), (ts[j]? = some (plain c) ∨ ts[j]? = some (border c)) → c = 0x2D → w[j]? = some 0x2D) ∧
      (∀ i, 0 < i → (Cut its i ↔ (∃ c, ts[i]? = some (border c)) ∨ ts[i]? = some hyphen)) ∧
      ∀ s e, CompoundPart ts s e ↔ Section its s e := by
  obtain ⟨st, hst, hdes, hreq⟩ := ha
  obtain ⟨ts, hok, hel, hlet, hnm, hfirst, hnb, hbord⟩ := describes_elements hdes h0 hst
  have hlen : ts.length = (content its).length := by
    rw [← hdes.count, ← hlet, List.length_map]
  have hjq : ∀ t ∈ ts, tokLetter t ≠ 0x6A ∧ tokLetter t ≠ 0x71 := by
    intro t ht
    have hm : tokLetter t ∈ strip st := by rw [← hlet]; exact List.mem_map.2 ⟨t, ht, rfl⟩
    rcases hreq with h | h
    · rw [h] at hm; exact hd.letters _ hm
    · rw [h, requiredName] at hm
      rcases List.mem_cons.1 hm with e | hm
      · rw [e]; decide
      · exact hd.letters _ (List.mem_of_mem_tail hm)
  have hzero : ∀ t ∈ ts, tokLetter t ≠ 0 := by
    intro t ht e
    have hm : tokLetter t ∈ strip st := by rw [← hlet]; exact List.mem_map.2 ⟨t, ht, rfl⟩
    rw [e] at hm
    exact hdes.nul h0 (List.mem_filter.1 hm).1
  have hget : ∀ (i : Nat) t, ts[i]? = some t → (strip st)[i]? = some (tokLetter t) := by
    intro i t h
    rw [← hlet, List.getElem?_map, h]; rfl
  -- the letter of an element is a hyphen where the word has one
  have hyl : ∀ (i : Nat) t, ts[i]? = some t → tokLetter t = 0x2D → (content its)[i]? = some 0x2D := by
    intro i t h e
    have := hget i t h
    rw [e] at this
    rcases Nat.eq_zero_or_pos i with k | k
    · subst k; exact hdes.first this
    · exact (hdes.hyphens i k).1 this
  have hyr : ∀ (i : Nat), 0 < i → (content its)[i]? = some 0x2D → ∃ t, ts[i]? = some t ∧ tokLetter t = 0x2D := by
    intro i k h
    have := (hdes.hyphens i k).2 h
    rw [← hlet, List.getElem?_map, Option.map_eq_some_iff] at this
    exact this
  have h1 : ts[0]? ≠ some hyphen := fun h => hd.start (hyl 0 _ h rfl)
  have h2 : ∀ i, ts[i]? = some hyphen → ts[i + 1]? ≠ some hyphen := fun i h h' => hd.double i (hyl i _ h rfl) (hyl (i + 1) _ h' rfl)
  -- a hyphen before a border that is an element of its own
  have hbb : ∀ i c, 0 < i → ts[i + 1]? = some (border c) → (content its)[i]? = some 0x2D → ts[i]? = some (border 0x2D) := by
    intro i c hi hb hc
    obtain ⟨t, ht, e⟩ := hyr i hi hc
    cases t with
    | border d => rw [ht]; simp only [tokLetter] at e; rw [e]
    | hyphen => exact absurd hb (hnb i c ht)
    | plain d =>
      exfalso
      simp only [tokLetter] at e
      subst e
      exact ok_plain_hyphen hok ht c hb
  have hcut : ∀ i, 0 < i → (Cut its i ↔ (∃ c, ts[i]? = some (border c)) ∨ ts[i]? = some hyphen) := by
    intro i hi
    constructor
    · rintro ⟨_, ⟨hb, hc⟩ | ⟨hc, hb⟩⟩
      · rcases (hbord i hi).1 hb with k | k
        · exact .inl k
        · exfalso
          have hci := hyl (i - 1) _ k rfl
          rcases hc with hc | hc
          · exact hc hci
          · have hi1 : 0 < i - 1 := by
              rcases Nat.eq_zero_or_pos (i - 1) with e | e
              · rw [e] at k; exact absurd k h1
              · exact e
            rcases (hbord (i - 1) hi1).1 hc with ⟨c, k'⟩ | k'
            · rw [k] at k'; cases k'
            · have := h2 _ k'
              rw [show i - 1 - 1 + 1 = i - 1 by omega] at this
              exact this k
      · rcases (hbord (i + 1) (by omega)).1 hb with ⟨c, k⟩ | k
        · exact .inl ⟨_, hbb i c hi k hc⟩
        · exact .inr (by simpa using k)
    · rintro (⟨c, k⟩ | k)
      · refine ⟨hi, .inl ⟨(hbord i hi).2 (.inl ⟨c, k⟩), ?_⟩⟩
        by_cases hc : (content its)[i - 1]? = some 0x2D
        · right
          have hi1 : 0 < i - 1 := by
            rcases Nat.eq_zero_or_pos (i - 1) with e | e
            · rw [e] at hc; exact absurd hc hd.start
            · exact e
          exact (hbord _ hi1).2 (.inl ⟨_, hbb (i - 1) c hi1 (by rw [show i - 1 + 1 = i by omega]; exact k) hc⟩)
        · exact .inl hc
      · exact ⟨hi, .inr ⟨hyl i _ k rfl, (hbord (i + 1) (by omega)).2 (.inr (by simpa using k))⟩⟩
  have hinner : ∀ (i : Nat) t, 0 < i → ts[i]? = some t → (t.inner = true ↔ ¬ Cut its i) := by
    intro i t hi ht
    rw [hcut i hi, ht]
    cases t <;> simp [StructTok.inner]
  have hmark : ∀ c, border c ∈ ts → c ≠ 0 ∧ c ≠ 0x3D ∧ c ≠ 0x6A ∧ c ≠ 0x71 := fun c hc =>
    ⟨hzero _ hc, hnm _ hc, (hjq _ hc).1, (hjq _ hc).2⟩
  refine ⟨ts, hok, hel, hlen.trans hl, hmark, fun c hc => hjq _ hc, h1, hfirst, h2, ?_, hcut, fun s e => ⟨fun h => ?_, fun h => ?_⟩⟩
  · intro j c h e
    rw [← hy]
    rcases h with h | h
    · exact hyl j _ h e
    · exact hyl j _ h e
  · have hlt := h.lt
    have hle := h.le
    refine ⟨hlt, by omega, ?_, fun j k1 k2 => ?_, ?_⟩
    · rcases h.start with k | k | ⟨k, k', _⟩
      · exact .inl k
      · rcases Nat.eq_zero_or_pos s with e | e
        · exact .inl e
        · exact .inr ((hbord s e).2 (.inl k))
      · exact .inr ((hbord s (by omega)).2 (.inr k'))
    · have hj : j < ts.length := by omega
      exact (hinner j _ (by omega) (List.getElem?_eq_getElem hj)).1 (h.inside j k1 k2 _ (List.getElem?_eq_getElem hj))
    · rcases h.fin with k | ⟨t, k, k'⟩
      · exact .inl (by omega)
      · right
        refine Classical.byContradiction fun hn => ?_
        rw [(hinner e t (by omega) k).2 hn] at k'
        cases k'
  · have hlt := h.lt
    have hle := h.le
    refine ⟨hlt, by omega, fun j k1 k2 t ht => (hinner j t (by omega) ht).2 (h.inside j k1 k2), ?_, ?_, fun c hc => hmark c (List.mem_of_getElem? hc)⟩
    · rcases h.fin with k | k
      · exact .inl (by omega)
      · right
        rcases (hcut e (by omega)).1 k with ⟨c, k⟩ | k
        · exact ⟨_, k, rfl⟩
        · exact ⟨_, k, rfl⟩
    · rcases h.start with k | k
      · exact .inl k
      · rcases Nat.eq_zero_or_pos s with e | e
        · exact .inl e
        · rcases (hbord s e).1 k with k | k
          · exact .inr (.inl k)
          · have hs2 : 2 ≤ s := by
              rcases (by omega : s = 1 ∨ 2 ≤ s) with e | e
              · subst e; exact absurd k h1
              · exact e
            refine .inr (.inr ⟨hs2, k, fun hx => ?_⟩)
            have := h2 _ hx
            rw [show s - 2 + 1 = s - 1 by omega] at this
            exact absurd k this

/-- The hyphenation according to one analysis of a reading. -/
theorem analysis_divides {its : List SItem} {w : List Wc} (h0 : 0 ∉ Verif.render its) (hl : (content its).length = w.length)
    (hy : ∀ i : Nat, (content its)[i]? = some 0x2D ↔ w[i]? = some 0x2D) (o : HyphOpts) (hd : Divisible o.ugly its w) {a : MorAn} (ha : AnalysisOf its a)
    (an : Analyzer) (hw0 : 0 ∉ w) (hmin : o.minLength ≤ w.length) (hv : ∀ c ∈ w, ValidCp c) (han : an w = [a]) :
    ∃ q, hyphenateUcs4 o an w = some (some q) ∧ ∀ i < w.length, (q[i]? ≠ some 0x20 ↔ Divides o its w i) := by
  obtain ⟨ts, t1, t2, t3, t4, t5, t6, t7, t8, t9, t10, t11⟩ := reading_elements h0 hl hy hd ha
  have hP : OnePat o an w (tokCells true ts ++ [0]) :=
    ⟨by simp [dotCut, han], .inr ⟨a, han, by rw [← t3]; exact rawPattern_cells a ts t1 t2⟩⟩
  obtain ⟨_, r, _, _, hr, _⟩ := onePat_hyphenate hP hv hw0 hmin
  refine ⟨r, hr, fun i hi => ?_⟩
  rw [alone_exact o an w r hw0 hmin a ts t3 t1 han t2 hr t4 t5 t6 t7 t8 t9 (fun s e hp hse => hd.sections s e ((t11 s e).1 hp) hse) i hi, Divides]
  have hpart : (∃ s e, CompoundPart ts s e ∧ s < i ∧ i < e ∧ o.minLength ≤ e - s ∧ PartPoint o.ugly ((slice w s e).map lower) (i - s)) ↔
      ∃ s e, Section its s e ∧ s < i ∧ i < e ∧ o.minLength ≤ e - s ∧ PartPoint o.ugly ((slice w s e).map lower) (i - s) := by
    constructor
    · rintro ⟨s, e, h, k⟩; exact ⟨s, e, (t11 s e).1 h, k⟩
    · rintro ⟨s, e, h, k⟩; exact ⟨s, e, (t11 s e).2 h, k⟩
  rw [hpart, ← or_assoc]
  have hcut : ((∃ c, ts[i]? = some (border c)) ∨ ts[i]? = some hyphen) ↔ Cut its i := by
    rcases Nat.eq_zero_or_pos i with e | e
    · subst e
      constructor
      · rintro (⟨c, k⟩ | k)
        · exact absurd k (t7 c)
        · exact absurd k t6
      · rintro ⟨h, _⟩; omega
    · exact (t10 i e).symm
  rw [hcut]

/-- An analysis has no borders if its reading has none. -/
theorem analysis_undivided {its : List SItem} {w : List Wc} (h0 : 0 ∉ Verif.render its) (hl : (content its).length = w.length)
    (hy : ∀ i : Nat, (content its)[i]? = some 0x2D ↔ w[i]? = some 0x2D) (o : HyphOpts) (hd : Divisible o.ugly its w) {a : MorAn} (ha : AnalysisOf its a)
    (an : Analyzer) (hne : an w ≠ []) : Unsplit o an w a ↔ Undivided its := by
  obtain ⟨ts, t1, t2, t3, t4, t5, t6, t7, t8, t9, t10, t11⟩ := reading_elements h0 hl hy hd ha
  have hdot : dotCut o an w = false := by
    unfold dotCut
    cases h : an w with
    | nil => exact absurd h hne
    | cons => rfl
  rw [C37_unsplit o an w a ts t1 t2]
  have hul : usedLen o an w = w.length := by unfold usedLen; rw [hdot]; simp
  rw [hul]
  constructor
  · intro h i hc
    have hi : 0 < i := hc.1
    rcases (t10 i hi).1 hc with ⟨c, k⟩ | k
    · have hlt := (List.getElem?_eq_some_iff.1 k).1
      rcases h i (by omega) _ k with k | ⟨k, _⟩ <;> cases k
    · have hlt := (List.getElem?_eq_some_iff.1 k).1
      rcases h i (by omega) _ k with k | ⟨_, k⟩
      · cases k
      · omega
  · intro h i hi t ht
    rcases Nat.eq_zero_or_pos i with e | e
    · subst e
      cases t with
      | plain c => exact .inl rfl
      | border c => exact absurd ht (t7 c)
      | hyphen => exact .inr ⟨rfl, rfl⟩
    · cases t with
      | plain c => exact .inl rfl
      | border c => exact absurd ((t10 i e).2 (.inl ⟨c, ht⟩)) (h i)
      | hyphen => exact absurd ((t10 i e).2 (.inr ht)) (h i)

/-! ### C100 -/

/-- **C100** (readings): a word with at most fifteen good readings, one of them valid, is divided exactly where each of its valid readings allows it, or each of its
valid readings without borders, if there are such. -/
theorem C100_division (next : List Wc → List (List Wc)) (hd : GoodDictionary next) (an : Analyzer) (ha : IsFinnishAnalyzer next an)
    (o : HyphOpts) (w : List Wc) (h0 : 0 ∉ w) (hv : ∀ c ∈ w, ValidCp c) (hlen : w.length ≤ 255) (hmin : o.minLength ≤ w.length)
    (readings : List (List SItem)) (hnext : next (setCase .allLower w) = readings.map render) (hfew : readings.length ≤ 15)
    (hgood : ∀ its ∈ readings, GoodReading (setCase .allLower w) its ∧ (render its).length < 2 ^ 64)
    (hdiv : ∀ its ∈ readings, Validity.Valid (Validity.events its) → Divisible o.ugly its w)
    (hone : ∃ its ∈ readings, Validity.Valid (Validity.events its)) :
    ∃ r, hyphenateUcs4 o an w = some (some r) ∧ r.length = w.length ∧ ∀ i < w.length, (r[i]? ≠ some 0x20 ↔
      ∀ its ∈ readings, Validity.Valid (Validity.events its) →
        ((∃ x ∈ readings, Validity.Valid (Validity.events x) ∧ Undivided x) → Undivided its) → Divides o its w i) := by
  have hll : (setCase .allLower w).length = w.length := lowered_length w
  have hval : ∀ its ∈ readings, (isValidAnalysis (render its) = some true ↔ Validity.Valid (Validity.events its)) := by
    intro its h
    obtain ⟨b, hb, hv⟩ := C77_valid its (hgood its h).1.plain
    rw [hb, ← hv]
    simp
  obtain ⟨l, e1, e2⟩ := ha w
  have htake : readings.take 99 = readings := List.take_of_length_le (by omega)
  rw [finnishAnalyze, if_neg (by omega), hnext, ← List.map_take, htake] at e1
  obtain ⟨k1, k2, k3⟩ := analyses_of w.length readings
    (fun its h => ⟨(hgood its h).1.regulated, (hgood its h).1.length.trans hll, (hgood its h).2⟩) l e1
  rw [← e2] at k2 k3
  have hanl : (an w).length ≤ 31 := by rw [e2, List.length_map]; omega
  have hne : an w ≠ [] := by
    obtain ⟨its, h, hx⟩ := hone
    obtain ⟨a, ha', _⟩ := k3 its h ((hval its h).2 hx)
    exact List.ne_nil_of_mem ha'
  have hdot : dotCut o an w = false := by
    unfold dotCut
    cases h : an w with
    | nil => exact absurd h hne
    | cons => rfl
  have hused : usedAnalyses o an w = an w := by
    unfold usedAnalyses
    rw [hdot, if_neg (by simp), List.take_of_length_le hanl]
  -- what is known of the readings
  have hfit : ∀ its ∈ readings, 0 ∉ Verif.render its ∧ (content its).length = w.length ∧ ∀ i : Nat, (content its)[i]? = some 0x2D ↔ w[i]? = some 0x2D :=
    fun its h => ⟨(hgood its h).1.noNul, (hgood its h).1.length.trans hll, fun i => ((hgood its h).1.hyphens i).trans (lowered_hyphens w i)⟩
  have hsplit : ∀ its ∈ readings, Validity.Valid (Validity.events its) → ∀ a, AnalysisOf its a → (Unsplit o an w a ↔ Undivided its) :=
    fun its h hx a hao => analysis_undivided (hfit its h).1 (hfit its h).2.1 (hfit its h).2.2 o (hdiv its h hx) hao an hne
  have halone : ∀ its ∈ readings, Validity.Valid (Validity.events its) → ∀ a, AnalysisOf its a →
      ∃ q, hyphenateUcs4 o (only an a) w = some (some q) ∧ ∀ i < w.length, (q[i]? ≠ some 0x20 ↔ Divides o its w i) :=
    fun its h hx a hao => analysis_divides (hfit its h).1 (hfit its h).2.1 (hfit its h).2.2 o (hdiv its h hx) hao (only an a) h0 hmin hv
      (by simp [only, hne])
  have hpoint : ∀ (an' : Analyzer) (q : List Wc), hyphenateUcs4 o an' w = some (some q) → ∀ i < w.length,
      ((q[i]? = some 0x2D ∨ q[i]? = some 0x3D) ↔ q[i]? ≠ some 0x20) := by
    intro an' q hq i hi
    obtain ⟨m1, m2⟩ := C35_pattern o an' w q h0 hq
    have hir : i < q.length := by omega
    rw [List.getElem?_eq_getElem hir]
    have := m2 _ (List.getElem_mem hir)
    simp only [Option.some.injEq, ne_eq]
    omega
  obtain ⟨r, hr, _⟩ := C70_hyphenate next hd an ha o w h0 hv
  refine ⟨r, hr, (C35_pattern o an w r h0 hr).1, fun i hi => ?_⟩
  rw [← hpoint an r hr i hi, C37_intersection o an w r h0 hmin (by rw [hused]; exact hne) hr i hi, hused]
  have hex : (∃ b ∈ an w, Unsplit o an w b) ↔ ∃ x ∈ readings, Validity.Valid (Validity.events x) ∧ Undivided x := by
    constructor
    · rintro ⟨b, hb, hu⟩
      obtain ⟨its, hm, hx, hao⟩ := k2 b hb
      have hx := (hval its hm).1 hx
      exact ⟨its, hm, hx, (hsplit its hm hx b hao).1 hu⟩
    · rintro ⟨x, hm, hx, hu⟩
      obtain ⟨b, hb, hao⟩ := k3 x hm ((hval x hm).2 hx)
      exact ⟨b, hb, (hsplit x hm hx b hao).2 hu⟩
  rw [hex]
  constructor
  · intro h its hm hx hcond
    obtain ⟨a, hma, hao⟩ := k3 its hm ((hval its hm).2 hx)
    obtain ⟨q, q1, q2⟩ := h a hma fun hc => (hsplit its hm hx a hao).2 (hcond hc)
    obtain ⟨q', p1, p2⟩ := halone its hm hx a hao
    rw [q1, Option.some.injEq, Option.some.injEq] at p1
    subst p1
    exact (p2 i hi).1 ((hpoint _ _ q1 i hi).1 q2)
  · intro h a hma hcond
    obtain ⟨its, hm, hx, hao⟩ := k2 a hma
    have hx := (hval its hm).1 hx
    obtain ⟨q', p1, p2⟩ := halone its hm hx a hao
    exact ⟨q', p1, (hpoint _ _ p1 i hi).2 ((p2 i hi).2 (h its hm hx fun hc => (hsplit its hm hx a hao).1 (hcond hc)))⟩

/-- **C100** (dictionary text): with the analyser of C99 the runs of the text decide where a word is divided. `read` gives the readings of the runs. -/
theorem C100_text {ls : List Line} {runsOf : List Wc → List (List Nat)} {an : Analyzer} (hf : FollowsText ls runsOf an)
    (o : HyphOpts) (w : List Wc) (h0 : 0 ∉ w) (hv : ∀ c ∈ w, ValidCp c) (hlen : w.length ≤ 255) (hmin : o.minLength ≤ w.length)
    (hfew : (runsOf (setCase .allLower w)).length ≤ 15) (read : List Nat → List SItem)
    (hread : ∀ run ∈ runsOf (setCase .allLower w), runOutput ls run = render (read run) ∧ GoodReading (setCase .allLower w) (read run))
    (hdiv : ∀ run ∈ runsOf (setCase .allLower w), Validity.Valid (Validity.events (read run)) → Divisible o.ugly (read run) w)
    (hone : ∃ run ∈ runsOf (setCase .allLower w), Validity.Valid (Validity.events (read run))) :
    ∃ r, hyphenateUcs4 o an w = some (some r) ∧ r.length = w.length ∧ ∀ i < w.length, (r[i]? ≠ some 0x20 ↔
      ∀ run ∈ runsOf (setCase .allLower w), Validity.Valid (Validity.events (read run)) →
        ((∃ x ∈ runsOf (setCase .allLower w), Validity.Valid (Validity.events (read x)) ∧ Undivided (read x)) → Undivided (read run)) →
        Divides o (read run) w i) := by
  obtain ⟨next, hg, ha, hn⟩ := hf.outputs
  have hn := hn (setCase .allLower w) (by rw [lowered_length]; exact hlen)
  have hnext : next (setCase .allLower w) = ((runsOf (setCase .allLower w)).map read).map render := by
    rw [hn, List.map_map]
    exact List.map_congr_left fun run h => (hread run h).1
  obtain ⟨r, r1, r2, r3⟩ := C100_division next hg an ha o w h0 hv hlen hmin _ hnext (by rw [List.length_map]; exact hfew)
    (by
      intro its h
      obtain ⟨run, hm, rfl⟩ := List.mem_map.1 h
      refine ⟨(hread run hm).2, (hg (setCase .allLower w) _ ?_).1⟩
      rw [hnext]
      exact List.mem_map.2 ⟨_, h, rfl⟩)
    (by
      intro its h
      obtain ⟨run, hm, rfl⟩ := List.mem_map.1 h
      exact hdiv run hm)
    (by
      obtain ⟨run, hm, h⟩ := hone
      exact ⟨_, List.mem_map.2 ⟨run, hm, rfl⟩, h⟩)
  refine ⟨r, r1, r2, fun i hi => (r3 i hi).trans ?_⟩
  simp only [List.mem_map, forall_exists_index, and_imp, forall_apply_eq_imp_iff₂, exists_exists_and_eq_and]

/-! ### A word with two readings -/

/-- A compound of two nouns. -/
def twoNouns (u v : List Wc) : List SItem :=
  .cls 0x6E :: (u.map .chr ++ .bound 0x63 :: .cls 0x6E :: (v.map .chr ++ [.tag (lit "Sn"), .tag (lit "Ny")]))

/-- The opening of a mine, or an otter of a well. -/
def mineReading : List SItem := twoNouns (lit "kaivos") (lit "aukko")
def otterReading : List SItem := twoNouns (lit "kaivo") (lit "saukko")

/-- A dictionary with this word. -/
def mineDict : List Wc → List (List Wc) := fun v => if v = lit "kaivosaukko" then [render mineReading, render otterReading] else []

/-- Words without groups of consonants. -/
theorem sections_plain {w : List Wc} {ugly : Bool} (h : SimplePart ugly w) (s e : Nat) : SimplePart ugly (slice w s e) := by
  obtain ⟨h1, h2, h3⟩ := h
  have hat : ∀ k, VowelAt ((slice w s e).map lower) k → VowelAt (w.map lower) (s + k) := by
    rintro k ⟨c, hc, hv⟩
    refine ⟨c, ?_, hv⟩
    rw [slice, List.map_take, List.map_drop, List.getElem?_take] at hc
    split at hc
    · rwa [List.getElem?_drop] at hc
    · cases hc
  refine ⟨fun c hc => h1 c (List.mem_of_mem_drop (List.mem_of_mem_take hc)), fun k hk => ?_, fun hu k hk =>
    h3 hu (s + k) ⟨hat _ hk.1, hat _ hk.2.1, hat _ hk.2.2⟩⟩
  obtain ⟨g, hg, hp⟩ := hk
  refine h2 (s + k) ⟨g, hg, hp.trans ?_⟩
  rw [slice, List.map_take, List.map_drop, List.drop_take, List.drop_drop]
  exact List.take_prefix _ _

theorem mine_word (ugly : Bool) : SimplePart ugly (lit "kaivosaukko") := by
  refine ⟨by unfold FinnishWord; decide +kernel, ?_, ?_⟩
  rotate_left
  · rintro _ k ⟨⟨c, hc, v1⟩, ⟨d, hd, v2⟩, ⟨e, he, v3⟩⟩
    have hk : k < 11 := (List.getElem?_eq_some_iff.1 hc).1
    have : ∀ k < 11, (((lit "kaivosaukko").map lower)[k]?.any (fun c => decide (c ∈ ruleVowels)) &&
        ((lit "kaivosaukko").map lower)[k + 1]?.any (fun c => decide (c ∈ ruleVowels)) &&
        ((lit "kaivosaukko").map lower)[k + 2]?.any (fun c => decide (c ∈ ruleVowels))) = false := by decide +kernel
    have := this k hk
    rw [hc, hd, he] at this
    simp [v1, v2, v3] at this
  rintro k ⟨g, hg, hp⟩
  have hk : k < 11 ∨ ((lit "kaivosaukko").map lower).drop k = [] := by
    by_cases h : k < 11
    · exact .inl h
    · exact .inr (List.drop_eq_nil_of_le (by simp [lit]; omega))
  have hne : ∀ g ∈ wholeGroups, g ≠ [] := by decide +kernel
  rcases hk with hk | hk
  · have : ∀ k < 11, ∀ g ∈ wholeGroups, ¬ g <+: ((lit "kaivosaukko").map lower).drop k := by decide +kernel
    exact this k hk g hg hp
  · rw [hk, List.prefix_nil] at hp
    exact hne g hg hp

theorem mine_good : GoodReading (lit "kaivosaukko") mineReading ∧ GoodReading (lit "kaivosaukko") otterReading := by
  constructor
  all_goals
    refine ⟨⟨⟨?_, trivial, by decide⟩, ?_, ?_, ?_⟩, ⟨?_, ?_⟩, by decide, by decide, fun i => ?_⟩
    · simp [mineReading, otterReading, twoNouns, lit, WfItems, content, render, SItem.render]
    · intro x hx
      simp only [mineReading, otterReading, twoNouns, lit, List.mem_append, List.mem_cons, List.not_mem_nil, or_false, List.mem_map] at hx
      rcases hx with rfl | ⟨c, hc, rfl⟩ | rfl | rfl | ⟨c, hc, rfl⟩ | rfl | rfl
      · exact ⟨by decide, by decide⟩
      · exact ⟨by rintro rfl; revert hc; decide, by rintro rfl; revert hc; decide⟩
      · exact ⟨by decide, by decide⟩
      · exact ⟨by decide, by decide⟩
      · exact ⟨by rintro rfl; revert hc; decide, by rintro rfl; revert hc; decide⟩
      · exact ⟨by decide, by decide, by decide⟩
      · exact ⟨by decide, by decide, by decide⟩
    · simp [mineReading, otterReading, twoNouns, lit, Letters.Orderly, Letters.Ctx.mark, Letters.Ctx.pass]
    · simp [mineReading, otterReading, twoNouns, lit, Letters.Plain, SItem.render]
    · intro x hx
      simp only [mineReading, otterReading, twoNouns, lit, List.mem_append, List.mem_cons, List.not_mem_nil, or_false, List.mem_map] at hx
      rcases hx with rfl | ⟨c, hc, rfl⟩ | rfl | rfl | ⟨c, hc, rfl⟩ | rfl | rfl
      · show (0x6E : Wc) ≠ 0x5D; decide
      · exact ⟨by rintro rfl; revert hc; decide, by rintro rfl; revert hc; decide, by obtain ⟨a, ha, rfl⟩ := hc; revert a; decide⟩
      · exact ⟨by decide, by decide⟩
      · show (0x6E : Wc) ≠ 0x5D; decide
      · exact ⟨by rintro rfl; revert hc; decide, by rintro rfl; revert hc; decide, by obtain ⟨a, ha, rfl⟩ := hc; revert a; decide⟩
      · exact ⟨by decide, by decide, by decide, by decide⟩
      · exact ⟨by decide, by decide, by decide, by decide⟩
    · intro pre e
      have h1 := congrArg List.getLast? e
      rw [List.getLast?_append, show ([SItem.chr 0x2D, SItem.tag (lit "Bh")] : List SItem).getLast?.or pre.getLast? = some (.tag (lit "Bh")) from rfl] at h1
      revert h1
      decide
    · first
        | rw [show content mineReading = lit "kaivosaukko" by decide]
        | rw [show content otterReading = lit "kaivosaukko" by decide]

theorem mine_divisible (ugly : Bool) : Divisible ugly mineReading (lit "kaivosaukko") ∧ Divisible ugly otterReading (lit "kaivosaukko") := by
  have c1 : content mineReading = lit "kaivosaukko" := by decide
  have c2 : content otterReading = lit "kaivosaukko" := by decide
  have hno : 0x2D ∉ lit "kaivosaukko" := by decide
  have no : ∀ i : Nat, (lit "kaivosaukko")[i]? ≠ some 0x2D := fun i h => hno (List.mem_of_getElem? h)
  refine ⟨⟨by rw [c1]; exact no 0, fun i h => ?_, by decide +kernel, fun s e _ _ => sections_plain (mine_word ugly) s e⟩,
    ⟨by rw [c2]; exact no 0, fun i h => ?_, by decide +kernel, fun s e _ _ => sections_plain (mine_word ugly) s e⟩⟩
  · rw [c1]; exact no _
  · rw [c2]; exact no _

theorem mineDict_good : GoodDictionary mineDict := by
  intro v o ho
  unfold mineDict at ho
  split at ho
  · rename_i e
    subst e
    simp only [List.mem_cons, List.not_mem_nil, or_false] at ho
    rcases ho with rfl | rfl
    · exact ⟨by decide, by decide, _, rfl, mine_good.1.regulated.wf, mine_good.1.length, mine_good.1.hyphens⟩
    · exact ⟨by decide, by decide, _, rfl, mine_good.2.regulated.wf, mine_good.2.length, mine_good.2.hyphens⟩
  · cases ho

theorem mine_valid : Validity.Valid (Validity.events mineReading) ∧ Validity.Valid (Validity.events otterReading) := by
  constructor
  · obtain ⟨b, hb, hv⟩ := C77_valid _ mine_good.1.plain
    rw [show isValidAnalysis (render mineReading) = some true by decide +kernel] at hb
    cases hb
    exact hv.1 rfl
  · obtain ⟨b, hb, hv⟩ := C77_valid _ mine_good.2.plain
    rw [show isValidAnalysis (render otterReading) = some true by decide +kernel] at hb
    cases hb
    exact hv.1 rfl

/-- The cuts of a reading, from the places of its borders. -/
theorem cut_only {its : List SItem} {n : Nat} (hy : ∀ i : Nat, (content its)[i]? ≠ some 0x2D) (hb : ∀ i, 0 < i → (Border its i ↔ i = n)) (i : Nat) :
    Cut its i ↔ 0 < i ∧ i = n := by
  constructor
  · rintro ⟨h, ⟨k, _⟩ | ⟨k, _⟩⟩
    · exact ⟨h, (hb i h).1 k⟩
    · exact absurd k (hy i)
  · rintro ⟨h, k⟩
    exact ⟨h, .inl ⟨(hb i h).2 k, .inl (hy _)⟩⟩

theorem mine_cuts (i : Nat) : (Cut mineReading i ↔ 0 < i ∧ i = 6) ∧ (Cut otterReading i ↔ 0 < i ∧ i = 5) := by
  have hno : 0x2D ∉ lit "kaivosaukko" := by decide
  have no : ∀ i : Nat, (lit "kaivosaukko")[i]? ≠ some 0x2D := fun i h => hno (List.mem_of_getElem? h)
  constructor
  · refine cut_only (by rw [show content mineReading = lit "kaivosaukko" by decide]; exact no) (fun i hi => ?_) i
    simp [Border, mineReading, twoNouns, lit, BorderFrom]
    omega
  · refine cut_only (by rw [show content otterReading = lit "kaivosaukko" by decide]; exact no) (fun i hi => ?_) i
    simp [Border, otterReading, twoNouns, lit, BorderFrom]
    omega

/-- The theorem applies: the word is divided as "kai-vosauk-ko", at neither of the two borders. -/
example : ∃ an, IsFinnishAnalyzer mineDict an ∧ ∃ r, hyphenateUcs4 {} an (lit "kaivosaukko") = some (some r) ∧
    r[3]? ≠ some 0x20 ∧ r[5]? = some 0x20 ∧ r[6]? = some 0x20 ∧ r[9]? ≠ some 0x20 := by
  obtain ⟨an, han⟩ := (C70_analyser mineDict mineDict_good).1
  have hlow : setCase .allLower (lit "kaivosaukko") = lit "kaivosaukko" := by decide
  obtain ⟨r, r1, _, r3⟩ := C100_division mineDict mineDict_good an han {} (lit "kaivosaukko") (by decide) (by unfold ValidCp; decide) (by decide) (by decide)
    [mineReading, otterReading] (by rw [hlow]; decide) (by decide)
    (by
      rw [hlow]
      intro its h
      simp only [List.mem_cons, List.not_mem_nil, or_false] at h
      rcases h with rfl | rfl
      · exact ⟨mine_good.1, by decide⟩
      · exact ⟨mine_good.2, by decide⟩)
    (by
      intro its h _
      simp only [List.mem_cons, List.not_mem_nil, or_false] at h
      rcases h with rfl | rfl
      · exact (mine_divisible _).1
      · exact (mine_divisible _).2)
    ⟨mineReading, by simp, mine_valid.1⟩
  have u1 : ¬ Undivided mineReading := fun h => h 6 ((mine_cuts 6).1.2 ⟨by omega, rfl⟩)
  have u2 : ¬ Undivided otterReading := fun h => h 5 ((mine_cuts 5).2.2 ⟨by omega, rfl⟩)
  have key : ∀ i < 11, (r[i]? ≠ some 0x20 ↔ Divides {} mineReading (lit "kaivosaukko") i ∧ Divides {} otterReading (lit "kaivosaukko") i) := by
    intro i hi
    rw [r3 i hi]
    constructor
    · intro h
      refine ⟨h _ (by simp) mine_valid.1 ?_, h _ (by simp) mine_valid.2 ?_⟩ <;>
      · rintro ⟨x, hx, _, hu⟩
        simp only [List.mem_cons, List.not_mem_nil, or_false] at hx
        rcases hx with rfl | rfl
        · exact absurd hu u1
        · exact absurd hu u2
    · rintro ⟨k1, k2⟩ its h _ _
      simp only [List.mem_cons, List.not_mem_nil, or_false] at h
      rcases h with rfl | rfl
      · exact k1
      · exact k2
  have s1 : ∀ s e, (s, e) = (0, 6) ∨ (s, e) = (6, 11) → Section mineReading s e := by
    rintro s e (h | h) <;> cases h
    · exact ⟨by omega, by decide, .inl rfl, fun j _ _ h => by have := (mine_cuts j).1.1 h; omega, .inr ((mine_cuts 6).1.2 ⟨by omega, rfl⟩)⟩
    · exact ⟨by omega, by decide, .inr (by simp [Border, mineReading, twoNouns, lit, BorderFrom]), fun j _ _ h => by have := (mine_cuts j).1.1 h; omega,
        .inl (by decide)⟩
  have s2 : ∀ s e, (s, e) = (0, 5) ∨ (s, e) = (5, 11) → Section otterReading s e := by
    rintro s e (h | h) <;> cases h
    · exact ⟨by omega, by decide, .inl rfl, fun j _ _ h => by have := (mine_cuts j).2.1 h; omega, .inr ((mine_cuts 5).2.2 ⟨by omega, rfl⟩)⟩
    · exact ⟨by omega, by decide, .inr (by simp [Border, otterReading, twoNouns, lit, BorderFrom]), fun j _ _ h => by have := (mine_cuts j).2.1 h; omega,
        .inl (by decide)⟩
  have point : ∀ (its : List SItem) (s e i : Nat), Section its s e → s + 2 ≤ i → i < e → 2 ≤ e - s →
      (∃ c d v, ((slice (lit "kaivosaukko") s e).map lower)[i - s]? = some c ∧ c ∈ ruleConsonants ∧
        ((slice (lit "kaivosaukko") s e).map lower)[i - s + 1]? = some d ∧ d ∈ ruleVowels ∧
        ((slice (lit "kaivosaukko") s e).map lower)[1]? = some v ∧ v ∈ ruleVowels) →
      Divides {} its (lit "kaivosaukko") i := by
    rintro its s e i h h1 h2 h3 ⟨c, d, v, k1, k2, k3, k4, k5, k6⟩
    exact .inr ⟨s, e, h, by omega, h2, h3, .inl ⟨⟨⟨c, k1, k2⟩, d, k3, k4⟩, 1, by omega, v, k5, k6⟩⟩
  refine ⟨an, han, r, r1, ?_, ?_, ?_, ?_⟩
  · refine (key 3 (by omega)).2 ⟨point _ 0 6 3 (s1 _ _ (.inl rfl)) (by omega) (by omega) (by omega) ?_,
      point _ 0 5 3 (s2 _ _ (.inl rfl)) (by omega) (by omega) (by omega) ?_⟩
    · exact ⟨0x76, 0x6F, 0x61, by decide +kernel⟩
    · exact ⟨0x76, 0x6F, 0x61, by decide +kernel⟩
  · refine Classical.byContradiction fun h => ?_
    rcases ((key 5 (by omega)).1 h).1 with k | ⟨s, e, hs, h1, h2, _, hp⟩
    · have := (mine_cuts 5).1.1 k; omega
    · have h6 : e ≤ 6 := Nat.le_of_not_lt fun hlt => hs.inside 6 (by omega) hlt ((mine_cuts 6).1.2 ⟨by omega, rfl⟩)
      have h7 : s = 0 := by
        rcases hs.start with k | k
        · exact k
        · simp [Border, mineReading, twoNouns, lit, BorderFrom] at k
          omega
      obtain rfl : e = 6 := by omega
      subst h7
      rcases hp with ⟨⟨_, c, k, _⟩, _⟩ | ⟨_, c, d, k1, k2, k3⟩
      · rw [show ((slice (lit "kaivosaukko") 0 6).map lower)[5 - 0 + 1]? = none by decide +kernel] at k
        cases k
      · rw [show ((slice (lit "kaivosaukko") 0 6).map lower)[5 - 0 - 1]? = some 0x6F by decide +kernel] at k1
        rw [show ((slice (lit "kaivosaukko") 0 6).map lower)[5 - 0 - 1 + 1]? = some 0x73 by decide +kernel] at k2
        cases k1; cases k2
        revert k3
        decide
  · refine Classical.byContradiction fun h => ?_
    rcases ((key 6 (by omega)).1 h).2 with k | ⟨s, e, hs, h1, h2, _, hp⟩
    · have := (mine_cuts 6).2.1 k; omega
    · have h5 : ¬ s < 5 := fun hlt => hs.inside 5 hlt (by omega) ((mine_cuts 5).2.2 ⟨by omega, rfl⟩)
      obtain rfl : s = 5 := by omega
      have h7 : e = 11 := by
        rcases hs.fin with k | k
        · exact k
        · have := (mine_cuts e).2.1 k; omega
      subst h7
      rcases hp with ⟨⟨⟨c, k, k'⟩, _⟩, _⟩ | ⟨_, c, d, k1, k2, k3⟩
      · rw [show ((slice (lit "kaivosaukko") 5 11).map lower)[6 - 5]? = some 0x61 by decide +kernel] at k
        cases k
        revert k'
        decide
      · rw [show ((slice (lit "kaivosaukko") 5 11).map lower)[6 - 5 - 1]? = some 0x73 by decide +kernel] at k1
        rw [show ((slice (lit "kaivosaukko") 5 11).map lower)[6 - 5 - 1 + 1]? = some 0x61 by decide +kernel] at k2
        cases k1; cases k2
        revert k3
        decide
  · refine (key 9 (by omega)).2 ⟨point _ 6 11 9 (s1 _ _ (.inr rfl)) (by omega) (by omega) (by omega) ?_,
      point _ 5 11 9 (s2 _ _ (.inr rfl)) (by omega) (by omega) (by omega) ?_⟩
    · exact ⟨0x6B, 0x6F, 0x75, by decide +kernel⟩
    · exact ⟨0x6B, 0x6F, 0x61, by decide +kernel⟩

end Verif.Props
