import Verif.Props.HyphenText
import Verif.Props.FinnishSpell
/-!
# Soft hyphens and the text of the dictionary (C117)

C27 says that the soft hyphens of a word have to stand at hyphenation points that the hyphenator finds when it collects all points. Here these points are those that the text
of the dictionary gives (C100), and the verdict on the word is that of C110.
-/

set_option linter.unusedVariables false

namespace Verif.SoftText
open Verif Verif.Props Verif.HyphenText Verif.HyphProgram
open Verif.Att (Proper AllRuns)
open Verif.GcProgram (wordViews)

/-! ### The union of the hyphenations -/

/-- The hyphenation of the word according to one analysis has a hyphen at `i`. -/
def DashBy (o : HyphOpts) (an : Analyzer) (word : List Wc) (a : MorAn) (i : Nat) : Prop :=
  ∃ p q, rawPattern word.length (dotCut o an word) a = some p ∧
    compoundHyphenation o.ugly o.minLength (word ++ [0]) (usedLen o an word) p = some q ∧ q[i]? = some 0x2D

theorem union_dash {n : Nat} {rs : List (List Wc)} {r : List Wc} (hne : rs ≠ []) (hok : ∀ p ∈ rs, PatOk n p) (h : unionHyph rs = some r) (i : Nat) (hi : i < n) :
    r[i]? = some 0x2D ↔ ∃ p ∈ rs, p[i]? = some 0x2D := by
  obtain ⟨r', e, l, hr⟩ := union_spec n rs hne hok
  rw [h] at e
  cases e
  refine ⟨fun hd => Classical.byContradiction fun hex => ?_, (hr i hi).1⟩
  have hall : ∀ p ∈ rs, p[i]? ≠ some 0x2D := fun p hp hx => hex ⟨p, hp, hx⟩
  rw [(hr i hi).2 hall, Option.map_eq_some_iff] at hd
  obtain ⟨c, hc, e⟩ := hd
  split at e
  · cases e
  · rw [e] at hc
    exact hall _ (List.head_mem hne) hc

theorem union_aux (o : HyphOpts) (an : Analyzer) (word r : List Wc) (h0 : 0 ∉ word) (hmin : o.minLength ≤ word.length)
    (hne : usedAnalyses o an word ≠ []) (h : allPositions o an word = some (some r)) (i : Nat) (hi : i < word.length) :
    r[i]? = some 0x2D ↔ ∃ a ∈ usedAnalyses o an word,
      ((∃ b ∈ usedAnalyses o an word, Unsplit o an word b) → Unsplit o an word a) ∧ DashBy o an word a i := by
  obtain ⟨hv, all, e⟩ := defined_cases unionHyph o an word r hmin h
  obtain ⟨pats, rs, hr, _, e2⟩ := hyphenateWith_of unionHyph o an word hv h0 hmin all e
  rw [show allPositions o an word = _ from e2, Option.map_eq_some_iff] at h
  obtain ⟨r', e3, h4⟩ := h
  rw [Option.some.injEq] at h4
  subst h4
  rw [union_dash hr.ne hr.ok e3 i hi]
  have hall := interpretAll_eq _ _ _ _ e
  have hallne : all ≠ [] := by
    rintro rfl
    cases hu : usedAnalyses o an word with
    | nil => exact hne hu
    | cons a as => rw [hu] at hall; cases hall
  have huns : ∀ a p, rawPattern word.length (dotCut o an word) a = some p →
      (Unsplit o an word a ↔ ∀ i < word.length, blankAt p i = true) := by
    intro a p hp
    constructor
    · intro h; exact h p hp
    · intro h q hq
      have : q = p := Option.some.inj (hq.symm.trans hp)
      subst this; exact h
  have hexiff : (∃ b ∈ usedAnalyses o an word, Unsplit o an word b) ↔ ∃ p ∈ all, ∀ i < word.length, blankAt p i = true := by
    constructor
    · rintro ⟨b, hb, hu⟩
      obtain ⟨p, hp, hbp⟩ := forall₂_mem_left hall b hb
      exact ⟨p, hp, (huns b p hbp).1 hu⟩
    · rintro ⟨p, hp, hu⟩
      obtain ⟨b, hb, hbp⟩ := forall₂_mem_right hall p hp
      exact ⟨b, hb, (huns b p hbp).2 hu⟩
  have hmem : ∀ p, p ∈ pats ↔ p ∈ all ∧ ((∃ p ∈ all, ∀ i < word.length, blankAt p i = true) →
      ∀ i < word.length, blankAt p i = true) := by
    intro p
    by_cases hex : ∃ p ∈ all, ∀ i < word.length, blankAt p i = true
    · rw [(hr.split.unsplit hallne hex).mem_iff, List.mem_filter, decide_eq_true_eq]
      exact ⟨fun h => ⟨h.1, fun _ => h.2⟩, fun h => ⟨h.1, h.2 hex⟩⟩
    · rw [hr.split.split hallne hex]
      exact ⟨fun h => ⟨h, fun h' => absurd h' hex⟩, fun h => h.1⟩
  constructor
  · rintro ⟨q, hq, hd⟩
    obtain ⟨p, hp, hpq⟩ := forall₂_mem_right hr.rules q hq
    obtain ⟨hpa, hps⟩ := (hmem p).1 hp
    obtain ⟨a, ha, hap⟩ := forall₂_mem_right hall p hpa
    exact ⟨a, ha, fun hex => (huns a p hap).2 (hps (hexiff.1 hex)), p, q, hap, hpq, hd⟩
  · rintro ⟨a, ha, hret, p', q', h1, h2, h3⟩
    obtain ⟨p, hp, hap⟩ := forall₂_mem_left hall a ha
    have e5 : p' = p := Option.some.inj (h1.symm.trans hap)
    subst e5
    have hpp : p' ∈ pats := (hmem p').2 ⟨hp, fun hex => (huns a p' hap).1 (hret (hexiff.2 hex))⟩
    obtain ⟨q, hq, hpq⟩ := forall₂_mem_left hr.rules p' hpp
    have e6 : q' = q := Option.some.inj (h2.symm.trans hpq)
    exact ⟨q, hq, e6 ▸ h3⟩

/-- `DashBy` is what the hyphenator does when it is given that single analysis. -/
theorem dashBy_iff (o : HyphOpts) (an : Analyzer) (word q : List Wc) (h0 : 0 ∉ word) (hv : ∀ c ∈ word, ValidCp c)
    (hmin : o.minLength ≤ word.length) (a : MorAn) (hne : usedAnalyses o an word ≠ []) (hq : hyphenateUcs4 o (only an a) word = some (some q)) (i : Nat) (hi : i < word.length) :
    DashBy o an word a i ↔ q[i]? = some 0x2D := by
  have hus := usedAnalyses_only o an a word hne
  have hlen : usedLen o (only an a) word = usedLen o an word := by unfold usedLen; rw [dotCut_only]
  obtain ⟨_, all, e⟩ := defined_cases intersectHyph o (only an a) word q hmin hq
  obtain ⟨pats, rs, hr, _, e2⟩ := hyphenateWith_of intersectHyph o (only an a) word hv h0 hmin all e
  rw [show hyphenateUcs4 o (only an a) word = _ from e2, Option.map_eq_some_iff] at hq
  obtain ⟨r', e3, h4⟩ := hq
  rw [Option.some.injEq] at h4
  subst h4
  have hall := interpretAll_eq _ _ _ _ e
  rw [hus, dotCut_only] at hall
  obtain ⟨p, ha, hnil⟩ := forall₂_mem_left hall a (by simp)
  have hallp : ∀ x ∈ all, x = p := by
    intro x hx
    obtain ⟨b, hb, hbx⟩ := forall₂_mem_right hall x hx
    rw [List.mem_singleton.1 hb] at hbx
    exact Option.some.inj (hbx.symm.trans hnil)
  have hallne : all ≠ [] := List.ne_nil_of_mem ha
  have hrs : ∀ x ∈ rs, compoundHyphenation o.ugly o.minLength (word ++ [0]) (usedLen o an word) p = some x := by
    intro x hx
    obtain ⟨y, hy, hyx⟩ := forall₂_mem_right hr.rules x hx
    rw [hallp y (hr.split.sub hallne y hy), hlen] at hyx
    exact hyx
  obtain ⟨r, e4, l, hcell⟩ := intersect_spec word.length rs hr.ne hr.ok
  rw [e3] at e4
  cases e4
  have hhead := hrs _ (List.head_mem hr.ne)
  obtain ⟨c, hc, _⟩ := patOk_cell (hr.ok _ (List.head_mem hr.ne)) hi
  have hsame : ∀ x ∈ rs, x = rs.head hr.ne := fun x hx => Option.some.inj ((hrs x hx).symm.trans hhead)
  have hiff : r'[i]? = some 0x2D ↔ (rs.head hr.ne)[i]? = some 0x2D := by
    by_cases hb : blankAt (rs.head hr.ne) i = true
    · rw [(hcell i hi).1 ⟨_, List.head_mem hr.ne, hb⟩, hc]
      have := (blankAt_true_iff hc).1 hb
      constructor
      · intro h; cases h
      · intro h
        cases h
        omega
    · rw [Bool.not_eq_true] at hb
      rw [(hcell i hi).2 fun x hx => by rw [hsame x hx]; exact hb]
  rw [hiff]
  constructor
  · rintro ⟨p', q', h1, h2, h3⟩
    have e5 : p' = p := Option.some.inj (h1.symm.trans hnil)
    subst e5
    rw [hhead] at h2
    cases h2
    exact h3
  · intro h
    exact ⟨p, _, hnil, hhead, h⟩

/-! ### The points of the readings -/

theorem positions_exist (an : Analyzer) (ha : StructuresOk an) (o : HyphOpts) (w : List Wc) (h0 : 0 ∉ w) (hv : ∀ c ∈ w, ValidCp c) :
    ∃ p, allPositions o an w = some (some p) := by
  rcases Nat.lt_or_ge w.length o.minLength with hmin | hmin
  · exact ⟨_, short_blank unionHyph o an w hmin⟩
  · obtain ⟨all, e⟩ := usedAnalyses_ok o an ha w
    obtain ⟨pats, rs, hr, _, e2⟩ := hyphenateWith_of unionHyph o an w hv h0 hmin all e
    obtain ⟨r, e3, _⟩ := union_spec w.length rs hr.ne hr.ok
    exact ⟨r, by rw [show allPositions o an w = _ from e2, e3]; rfl⟩

/-- The reading allows a soft hyphen before the character `i` of the word: the word can be divided there, and there is a border before the character if it is a hyphen. -/
def SoftPoint (o : HyphOpts) (its : List SItem) (w : List Wc) (i : Nat) : Prop :=
  (w[i]? ≠ some 0x2D ∧ Divides o its w i) ∨ (w[i]? = some 0x2D ∧ Verif.Border its i)

theorem section_letter {its : List SItem} {w : List Wc} {ugly : Bool} (hl : (content its).length = w.length) (hd : Divisible ugly its w) {s e i : Nat}
    (hs : Section its s e) (h1 : s < i) (h2 : i < e) {c : Wc} (hc : w[i]? = some c) : c ≠ 0x2D ∧ c ≠ 0x27 := by
  have hmem : c ∈ slice w s e := by
    unfold slice
    rw [List.mem_iff_getElem?]
    refine ⟨i - s, ?_⟩
    rw [List.getElem?_take_of_lt (by omega), List.getElem?_drop, show s + (i - s) = i by omega]
    exact hc
  have := (hd.sections s e hs (by omega)).1 _ hmem
  constructor <;>
  · rintro rfl
    revert this
    decide

/-- Where the hyphenation according to one analysis of a reading has `-`. -/
theorem analysis_soft {its : List SItem} {w : List Wc} (h0 : 0 ∉ Verif.render its) (hl : (content its).length = w.length)
    (hy : ∀ i : Nat, (content its)[i]? = some 0x2D ↔ w[i]? = some 0x2D) (o : HyphOpts) (hd : Divisible o.ugly its w) {a : MorAn} (ha : AnalysisOf its a)
    (an : Analyzer) (hw0 : 0 ∉ w) (hmin : o.minLength ≤ w.length) (hv : ∀ c ∈ w, ValidCp c) (han : an w = [a]) (hfit : StructureFits w a) :
    ∃ q, hyphenateUcs4 o an w = some (some q) ∧ ∀ i < w.length, (q[i]? = some 0x2D ↔ SoftPoint o its w i) := by
  obtain ⟨q, q1, q2⟩ := analysis_divides h0 hl hy o hd ha an hw0 hmin hv han
  refine ⟨q, q1, fun i hi => ?_⟩
  obtain ⟨st, hst, hdes, _⟩ := ha
  obtain ⟨ts, hok, hel, hlet, _, _, _, hbord⟩ := describes_elements hdes h0 hst
  have hget : ∀ (i : Nat) t, ts[i]? = some t → (strip st)[i]? = some (tokLetter t) := by
    intro i t h
    rw [← hlet, List.getElem?_map, h]; rfl
  have hyl : ∀ i : Nat, ts[i]? = some .hyphen → (content its)[i]? = some 0x2D := by
    intro i h
    have := hget i _ h
    rcases Nat.eq_zero_or_pos i with k | k
    · subst k; exact hdes.first this
    · exact (hdes.hyphens i k).1 this
  have hb := C61_borders o an w q hw0 hmin a han ts hok hel q1 i hi
  obtain ⟨m1, m2⟩ := C35_pattern o an w q hw0 q1
  have hiq : i < q.length := by omega
  have hcell := m2 _ (List.getElem_mem hiq)
  have hqi := List.getElem?_eq_getElem hiq
  by_cases hc : w[i]? = some 0x2D
  · have hci := (hy i).2 hc
    have hpos : 0 < i := by
      rcases Nat.eq_zero_or_pos i with k | k
      · subst k; exact absurd hci hd.start
      · exact k
    have hprev : ts[i - 1]? ≠ some .hyphen := fun h => hd.double (i - 1) (hyl _ h) (by rw [show i - 1 + 1 = i by omega]; exact hci)
    have hr : SoftPoint o its w i ↔ Verif.Border its i := by
      constructor
      · rintro (⟨k, _⟩ | ⟨_, k⟩)
        · exact absurd hc k
        · exact k
      · intro k; exact .inr ⟨hc, k⟩
    rw [hr]
    constructor
    · intro hq
      obtain ⟨t, ht, e⟩ : ∃ t, ts[i]? = some t ∧ tokLetter t = 0x2D := by
        have := (hdes.hyphens i hpos).2 hci
        rw [← hlet, List.getElem?_map, Option.map_eq_some_iff] at this
        exact this
      cases t with
      | border d => exact (hbord i hpos).2 (.inl ⟨d, ht⟩)
      | hyphen =>
        rw [hb.2 ht hpos] at hq
        cases hq
      | plain d =>
        simp only [tokLetter] at e
        subst e
        rcases (q2 i hi).1 (by rw [hq]; decide) with ⟨_, ⟨k, _⟩ | ⟨_, k⟩⟩ | ⟨s, e, hs, k1, k2, _⟩
        · exact k
        · rcases (hbord (i + 1) (by omega)).1 k with ⟨c, k⟩ | k
          · exact absurd k (ok_plain_hyphen hok ht c)
          · rw [show i + 1 - 1 = i by omega, ht] at k
            cases k
        · exact absurd rfl (section_letter hl hd hs k1 k2 hc).1
    · intro k
      rcases (hbord i hpos).1 k with ⟨d, k⟩ | k
      · exact hb.1 d k
      · exact absurd k hprev
  · have hr : SoftPoint o its w i ↔ Divides o its w i := by
      constructor
      · rintro (⟨_, k⟩ | ⟨k, _⟩)
        · exact k
        · exact absurd k hc
      · intro k; exact .inl ⟨hc, k⟩
    rw [hr, ← q2 i hi]
    have hno : q[i]? ≠ some 0x3D := by
      intro hm
      have hdot : dotCut o an w = false := by simp [dotCut, han]
      have hrem := C69_marks o an w q hw0 (fun b hb => by
        have hul : usedLen o an w = w.length := by unfold usedLen; rw [hdot]; simp
        unfold usedAnalyses at hb
        rw [hdot, if_neg (by simp), han] at hb
        have := List.mem_of_mem_take hb
        rw [List.mem_singleton] at this
        subst this
        rw [hul, List.take_length]
        exact hfit) q1 i hm
      obtain ⟨hpos, _, k | ⟨hap, _⟩⟩ := hrem
      · exact hc k
      · rcases (q2 i hi).1 (by rw [hm]; decide) with ⟨_, ⟨k, k'⟩ | ⟨k, _⟩⟩ | ⟨s, e, hs, k1, k2, _⟩
        · rcases (hbord i hpos).1 k with ⟨d, k⟩ | k
          · rw [hb.1 d k] at hm
            cases hm
          · have hcp := hyl _ k
            rcases k' with k' | k'
            · exact k' hcp
            · have hp1 : 0 < i - 1 := by
                rcases Nat.eq_zero_or_pos (i - 1) with e | e
                · rw [e] at hcp; exact absurd hcp hd.start
                · exact e
              rcases (hbord (i - 1) hp1).1 k' with ⟨d, k''⟩ | k''
              · rw [k] at k''; cases k''
              · exact hd.double _ (hyl _ k'') (by rw [show i - 1 - 1 + 1 = i - 1 by omega]; exact hcp)
        · exact hc ((hy i).1 k)
        · exact (section_letter hl hd hs k1 k2 hap).2 rfl
    rw [hqi] at hno ⊢
    simp only [Option.some.injEq, ne_eq] at hno ⊢
    omega

/-- **C117** (points): the hyphenation points that are collected from all readings of a word. Such a point is one that some valid reading allows, or some valid reading
without borders if there are such. -/
theorem C117_points (next : List Wc → List (List Wc)) (hd : GoodDictionary next) (an : Analyzer) (ha : IsFinnishAnalyzer next an)
    (o : HyphOpts) (w : List Wc) (h0 : 0 ∉ w) (hv : ∀ c ∈ w, ValidCp c) (hlen : w.length ≤ 255) (hmin : o.minLength ≤ w.length)
    (readings : List (List SItem)) (hnext : next (setCase .allLower w) = readings.map render) (hfew : readings.length ≤ 15)
    (hgood : ∀ its ∈ readings, GoodReading (setCase .allLower w) its ∧ (render its).length < 2 ^ 64)
    (hdiv : ∀ its ∈ readings, Validity.Valid (Validity.events its) → Divisible o.ugly its w)
    (hone : ∃ its ∈ readings, Validity.Valid (Validity.events its)) :
    ∃ r, allPositions o an w = some (some r) ∧ ∀ i < w.length, (r[i]? = some 0x2D ↔
      ∃ its ∈ readings, Validity.Valid (Validity.events its) ∧
        ((∃ x ∈ readings, Validity.Valid (Validity.events x) ∧ Undivided x) → Undivided its) ∧ SoftPoint o its w i) := by
  have hll : (setCase .allLower w).length = w.length := lowered_length w
  have hval : ∀ its ∈ readings, (isValidAnalysis (render its) = some true ↔ Validity.Valid (Validity.events its)) := by
    intro its h
    obtain ⟨b, hb, hv⟩ := C77_valid its (hgood its h).1.plain
    rw [hb, ← hv]
    simp
  obtain ⟨l, e1, e2⟩ := ha w
  have htake : readings.take 99 = readings := List.take_of_length_le (by omega)
  rw [finnishAnalyze, if_neg (by omega), hnext, ← List.map_take, htake] at e1
  obtain ⟨k1, k2, k3⟩ := analyses_of w.length readings
    (fun its h => ⟨(hgood its h).1.regulated, (hgood its h).1.length.trans hll, (hgood its h).2⟩) l e1
  rw [← e2] at k2 k3
  have hanl : (an w).length ≤ 31 := by rw [e2, List.length_map]; omega
  have hne : an w ≠ [] := by
    obtain ⟨its, h, hx⟩ := hone
    obtain ⟨a, ha', _⟩ := k3 its h ((hval its h).2 hx)
    exact List.ne_nil_of_mem ha'
  have hdot : ∀ an' : Analyzer, an' w ≠ [] → dotCut o an' w = false := by
    intro an' hne
    unfold dotCut
    cases h : an' w with
    | nil => exact absurd h hne
    | cons => rfl
  have hused : usedAnalyses o an w = an w := by
    unfold usedAnalyses
    rw [hdot an hne, if_neg (by simp), List.take_of_length_le hanl]
  have hfit : ∀ its ∈ readings, 0 ∉ Verif.render its ∧ (content its).length = w.length ∧ ∀ i : Nat, (content its)[i]? = some 0x2D ↔ w[i]? = some 0x2D :=
    fun its h => ⟨(hgood its h).1.noNul, (hgood its h).1.length.trans hll, fun i => ((hgood its h).1.hyphens i).trans (lowered_hyphens w i)⟩
  have hsplit : ∀ its ∈ readings, Validity.Valid (Validity.events its) → ∀ a, AnalysisOf its a → (Unsplit o an w a ↔ Undivided its) :=
    fun its h hx a hao => analysis_undivided (hfit its h).1 (hfit its h).2.1 (hfit its h).2.2 o (hdiv its h hx) hao an hne
  have hdash : ∀ its ∈ readings, Validity.Valid (Validity.events its) → ∀ a ∈ an w, AnalysisOf its a → ∀ i < w.length,
      (DashBy o an w a i ↔ SoftPoint o its w i) := by
    intro its h hx a hma hao i hi
    obtain ⟨q, q1, q2⟩ := analysis_soft (hfit its h).1 (hfit its h).2.1 (hfit its h).2.2 o (hdiv its h hx) hao (only an a) h0 hmin hv
      (by simp [only, hne]) (((C70_analyser next hd).2 an ha w).1 a hma).1
    rw [dashBy_iff o an w q h0 hv hmin a (by rw [hused]; exact hne) q1 i hi, q2 i hi]
  obtain ⟨r, hr⟩ := positions_exist an (C70_structures next hd an ha) o w h0 hv
  refine ⟨r, hr, fun i hi => ?_⟩
  rw [union_aux o an w r h0 hmin (by rw [hused]; exact hne) hr i hi, hused]
  have hex : (∃ b ∈ an w, Unsplit o an w b) ↔ ∃ x ∈ readings, Validity.Valid (Validity.events x) ∧ Undivided x := by
    constructor
    · rintro ⟨b, hb, hu⟩
      obtain ⟨its, hm, hx, hao⟩ := k2 b hb
      have hx := (hval its hm).1 hx
      exact ⟨its, hm, hx, (hsplit its hm hx b hao).1 hu⟩
    · rintro ⟨x, hm, hx, hu⟩
      obtain ⟨b, hb, hao⟩ := k3 x hm ((hval x hm).2 hx)
      exact ⟨b, hb, (hsplit x hm hx b hao).2 hu⟩
  rw [hex]
  constructor
  · rintro ⟨a, hma, hcond, hda⟩
    obtain ⟨its, hm, hx, hao⟩ := k2 a hma
    have hx := (hval its hm).1 hx
    exact ⟨its, hm, hx, fun hc => (hsplit its hm hx a hao).1 (hcond hc), (hdash its hm hx a hma hao i hi).1 hda⟩
  · rintro ⟨its, hm, hx, hcond, hdv⟩
    obtain ⟨a, hma, hao⟩ := k3 its hm ((hval its hm).2 hx)
    exact ⟨a, hma, fun hc => (hsplit its hm hx a hao).2 (hcond hc), (hdash its hm hx a hma hao i hi).2 hdv⟩

/-! ### C117 -/

/-- The options with which the speller looks for the places of soft hyphens: all points of words of at least three characters. -/
def softOpts : HyphOpts := { ugly := true, hyphenateUnknown := true, minLength := 3, ignoreDot := true }

/-- The text allows a soft hyphen before the character `k` of the word: some valid reading of the word allows it, or some valid reading without borders if there are such. -/
def AllowedAt (runsOf : List Wc → List (List Nat)) (read : List Wc → List Nat → List SItem) (u : List Wc) (k : Nat) : Prop :=
  3 ≤ u.length ∧ ∃ its, ValidOf runsOf read u its ∧ ((∃ x, ValidOf runsOf read u x ∧ Undivided x) → Undivided its) ∧ SoftPoint softOpts its u k

/-- The number of characters before the soft hyphen at `i`, soft hyphens not counted. -/
def charsBefore (w : List Wc) (i : Nat) : Nat := ((w.take i).filter (· ≠ 0xAD)).length

/-- Words for which the text decides about soft hyphens: `u` is the word without them. It has a valid reading or no hyphen in its middle. -/
structure SoftSuitable (runsOf : List Wc → List (List Nat)) (read : List Wc → List Nat → List SItem) (u : List Wc) : Prop where
  chars : ∀ c ∈ u, ValidCp c
  length : u.length ≤ 255
  few : (runsOf (setCase .allLower u)).length ≤ 15
  known : (∃ its, ValidOf runsOf read u its) ∨ InnerFree u
  simple : ∀ its, ValidOf runsOf read u its → Divisible true its u

/-- **C117** (verdict): a word with soft hyphens has the verdict `r` (other than "unknown") exactly if its soft hyphens are between other characters, the word without them
has this verdict, and each soft hyphen is where the text allows it. -/
theorem C117_verdict {ls : List Att.Line} {runsOf : List Wc → List (List Nat)} {an : Analyzer} (hf : FollowsText ls runsOf an)
    {read : List Wc → List Nat → List SItem} (hread : Reads ls runsOf read) (extra : Bool) (w : List Wc) (h0 : 0 ∉ w) (hw : 0xAD ∈ w)
    (hs : ShyPlaced w → SoftSuitable runsOf read (w.filter (· ≠ 0xAD))) (r : SpellRes) (hr : r ≠ .failed) :
    finnishSpell extra an w = some r ↔
      (w.head? ≠ some 0xAD ∧ w.getLast? ≠ some 0xAD ∧ ∀ i : Nat, ¬ (w[i]? = some 0xAD ∧ w[i + 1]? = some 0xAD)) ∧
      finnishSpell extra an (w.filter (· ≠ 0xAD)) = some r ∧
      ∀ i : Nat, w[i]? = some 0xAD → AllowedAt runsOf read (w.filter (· ≠ 0xAD)) (charsBefore w i) := by
  obtain ⟨next, hg, ha, hn⟩ := hf.outputs
  have h0' : 0 ∉ Props.stripShy w := by unfold Props.stripShy; exact fun h => h0 (List.mem_filter.1 h).1
  rw [C27_finnish extra an (C70_structures next hg an ha) w h0 hw r hr]
  change ShyPlaced w ∧ finnishSpell extra an (Props.stripShy w) = some r ∧ _ ↔ ShyPlaced w ∧ finnishSpell extra an (Props.stripShy w) = some r ∧ _
  refine and_congr_right fun hpl => and_congr_right fun hu => ?_
  have hs : SoftSuitable runsOf read (Props.stripShy w) := hs hpl
  show _ ↔ ∀ i : Nat, w[i]? = some 0xAD → AllowedAt runsOf read (Props.stripShy w) (charsBefore w i)
  have hknown : ∃ its, ValidOf runsOf read (Props.stripShy w) its := by
    refine Classical.byContradiction fun hn => ?_
    have hfree := hs.known.resolve_left hn
    rw [hf.simple extra _ hfree (by unfold Props.stripShy; simp), adapterSpell, unknown_analyses hf hread hs.length hs.few hn] at hu
    cases hu
    exact hr rfl
  by_cases hmin : 3 ≤ (Props.stripShy w).length
  · have hll : (setCase .allLower (Props.stripShy w)).length = (Props.stripShy w).length := lowered_length _
    have hl := hs.length
    have hrd := hread (setCase .allLower (Props.stripShy w)) (by omega)
    have hnext : next (setCase .allLower (Props.stripShy w)) = ((runsOf (setCase .allLower (Props.stripShy w))).map (read (setCase .allLower (Props.stripShy w)))).map render := by
      rw [hn _ (by omega), List.map_map]
      exact List.map_congr_left fun run h => (hrd run h).1
    have hmem : ∀ its, (its ∈ (runsOf (setCase .allLower (Props.stripShy w))).map (read (setCase .allLower (Props.stripShy w))) ∧ Validity.Valid (Validity.events its)) ↔
        ValidOf runsOf read (Props.stripShy w) its := by
      intro its
      constructor
      · rintro ⟨h, hx⟩
        obtain ⟨run, h1, rfl⟩ := List.mem_map.1 h
        exact ⟨run, h1, rfl, hx⟩
      · rintro ⟨run, h1, rfl, hx⟩
        exact ⟨List.mem_map.2 ⟨run, h1, rfl⟩, hx⟩
    obtain ⟨p, p1, p2⟩ := C117_points next hg an ha softOpts (Props.stripShy w) h0' hs.chars hl hmin _ hnext (by rw [List.length_map]; exact hs.few)
      (fun its h => by
        obtain ⟨run, h1, rfl⟩ := List.mem_map.1 h
        exact ⟨(hrd run h1).2, (hg _ _ (by rw [hnext]; exact List.mem_map.2 ⟨_, h, rfl⟩)).1⟩)
      (fun its h hx => hs.simple its ((hmem its).1 ⟨h, hx⟩))
      (by obtain ⟨its, h⟩ := hknown; exact ⟨its, ((hmem its).2 h).1, ((hmem its).2 h).2⟩)
    have hex : (∃ x ∈ (runsOf (setCase .allLower (Props.stripShy w))).map (read (setCase .allLower (Props.stripShy w))), Validity.Valid (Validity.events x) ∧ Undivided x) ↔
        ∃ x, ValidOf runsOf read (Props.stripShy w) x ∧ Undivided x := by
      constructor
      · rintro ⟨x, a, b, c⟩; exact ⟨x, (hmem x).1 ⟨a, b⟩, c⟩
      · rintro ⟨x, a, c⟩; exact ⟨x, ((hmem x).2 a).1, ((hmem x).2 a).2, c⟩
    have hpos : ∀ i : Nat, w[i]? = some 0xAD → charsBefore w i < (Props.stripShy w).length := by
      intro i hi
      have hlt := (List.getElem?_eq_some_iff.1 hi).1
      have hsplit : Props.stripShy w = Props.stripShy (w.take i) ++ Props.stripShy (w.drop i) := by
        unfold Props.stripShy; rw [← List.filter_append, List.take_append_drop]
      have hlast : w.getLast? ≠ some 0xAD := hpl.2.1
      have hne : Props.stripShy (w.drop i) ≠ [] := by
        intro he
        have hall := List.filter_eq_nil_iff.1 he
        obtain ⟨c, hc⟩ : ∃ c, w.getLast? = some c := by
          cases hq : w.getLast? with
          | none => rw [List.getLast?_eq_none_iff] at hq; rw [hq] at hlt; simp at hlt
          | some c => exact ⟨c, rfl⟩
        have hcm : c ∈ w.drop i := by
          rw [List.getLast?_eq_getElem?] at hc
          have : (w.drop i)[w.length - 1 - i]? = some c := by
            rw [List.getElem?_drop, show i + (w.length - 1 - i) = w.length - 1 by omega]; exact hc
          exact List.mem_of_getElem? this
        have := hall c hcm
        simp only [ne_eq, decide_not, Bool.not_eq_eq_eq_not, Bool.not_true, decide_eq_false_iff_not, Classical.not_not] at this
        rw [this] at hc
        exact hlast hc
      have : 0 < (Props.stripShy (w.drop i)).length := List.length_pos_iff.2 hne
      rw [hsplit, List.length_append]
      show (Props.stripShy (w.take i)).length < _
      omega
    have key : ∀ i : Nat, w[i]? = some 0xAD → (p[charsBefore w i]? = some 0x2D ↔ AllowedAt runsOf read (Props.stripShy w) (charsBefore w i)) := by
      intro i hi
      rw [p2 _ (hpos i hi), hex]
      constructor
      · rintro ⟨its, a, b, c, d⟩; exact ⟨hmin, its, (hmem its).1 ⟨a, b⟩, c, d⟩
      · rintro ⟨_, its, a, c, d⟩; exact ⟨its, ((hmem its).2 a).1, ((hmem its).2 a).2, c, d⟩
    constructor
    · rintro ⟨p', e, hal⟩ i hi
      have : p' = p := by
        rw [show allPositions tweaksHyphOpts an (Props.stripShy w) = _ from p1] at e
        cases e; rfl
      subst this
      exact (key i hi).1 (hal i hi)
    · intro h
      exact ⟨p, p1, fun i hi => (key i hi).2 (h i hi)⟩
  · have hb : allPositions tweaksHyphOpts an (Props.stripShy w) = some (some (List.replicate (Props.stripShy w).length 0x20)) :=
      short_blank unionHyph tweaksHyphOpts an _ (show (Props.stripShy w).length < 3 by omega)
    obtain ⟨i, hi⟩ := List.getElem?_of_mem hw
    constructor
    · rintro ⟨p, e, hal⟩
      rw [hb] at e
      cases e
      have := List.mem_of_getElem? (hal i hi)
      cases List.eq_of_mem_replicate this
    · intro h
      exact (hmin (h i hi).1).elim

/-- A word in lower case of which only the dictionary decides. -/
structure LowerCase (n : List Wc) : Prop where
  ok : WordOk n
  norm : normSpec n = n
  case : IsLowerWord n
  same : n.map lower = n
  digits : ∀ c ∈ n, ¬ (0x30 ≤ c ∧ c ≤ 0x39)
  dot : n.getLast? ≠ some 0x2E
  code : ¬ NonwordCode n
  short : n.length ≤ 255

theorem lower_accepted {d : List Wc → SpellRes} {o : SpellOpts} {n : List Wc} (h : LowerCase n) : AcceptedWord d o n (normSpec n) ↔ d n = .ok := by
  rw [h.norm]
  obtain ⟨c1, c2⟩ := h.case
  have notOther : ¬ (IsOther n ∨ (IsUpperWord n ∧ o.acceptAllUppercase = false)) := by
    rintro (k | k)
    · exact k.1 h.case
    · exact c2 k.1.1
  have notCap : ¬ IsCapitalised n := by
    rintro ⟨c, rest, rfl, hu, _⟩
    exact c2 ⟨c, List.mem_cons_self, hu⟩
  constructor
  · rintro (k | ⟨c, _, _, hm, k1, k2⟩ | ⟨_, _, k⟩ | ⟨_, _, k⟩ | ⟨v, _, hv, hd⟩)
    · obtain ⟨c, hc, _⟩ := c1
      rw [k] at hc
      cases hc
    · exact absurd ⟨k1, k2⟩ (h.digits c hm)
    · exact absurd k.1 c2
    · exact absurd k h.code
    · have e : v = n := by
        cases hv with
        | word => rfl
        | noDot _ _ he => exact absurd (by rw [he]; simp) h.dot
      subst e
      cases hd with
      | lower _ b => rw [h.same] at b; exact b
      | properNoun a _ => exact absurd a notCap
      | capitalised a _ _ => exact absurd a notCap
      | capitals a _ _ => exact absurd a.1 c2
      | exact _ a _ _ => exact absurd a notOther
      | exactNoun _ _ _ a _ _ _ _ _ => exact absurd a notOther
  · intro k
    exact .dictionary n h.short .word (.lower h.case (by rw [h.same]; exact k))

/-- **C117** (spelling): without ACCEPT_MISSING_HYPHENS the library accepts a word in lower case with soft hyphens exactly if these are between other characters, the word
without them is accepted, and each soft hyphen is where the text allows it. -/
theorem C117_accepted {ls : List Att.Line} {runsOf : List Wc → List (List Nat)} {an : Analyzer} (hf : FollowsText ls runsOf an)
    {read : List Wc → List Nat → List SItem} (hread : Reads ls runsOf read) (extra : Bool) (dict : List Wc → SpellRes)
    (hdict : ∀ w, 0 ∉ w → finnishSpell extra an w = some (dict w)) (o : SpellOpts) (ho : o.acceptMissingHyphens = false)
    (cache cache' : Option SpellerCache) (hc : CacheInv (effDict dict o.acceptMissingHyphens) cache) (hc' : CacheInv (effDict dict o.acceptMissingHyphens) cache')
    (w : List Wc) (hw : 0xAD ∈ w) (hl : LowerCase w) (hl' : LowerCase (w.filter (· ≠ 0xAD))) (hs : ShyPlaced w → SoftSuitable runsOf read (w.filter (· ≠ 0xAD))) :
    ∃ r r' c c', spellUcs4 dict o cache w = some (r, c) ∧ spellUcs4 dict o cache' (w.filter (· ≠ 0xAD)) = some (r', c') ∧
      (r = .ok ∨ r = .failed) ∧ (r = .ok ↔
        (w.head? ≠ some 0xAD ∧ w.getLast? ≠ some 0xAD ∧ ∀ i : Nat, ¬ (w[i]? = some 0xAD ∧ w[i + 1]? = some 0xAD)) ∧
        r' = .ok ∧ ∀ i : Nat, w[i]? = some 0xAD → AllowedAt runsOf read (w.filter (· ≠ 0xAD)) (charsBefore w i)) := by
  obtain ⟨r, c, a1, a2, a3⟩ := C65_exact dict o cache hc w hl.ok
  obtain ⟨r', c', b1, _, b3⟩ := C65_exact dict o cache' hc' _ hl'.ok
  have h0 : 0 ∉ w := fun h => (hl.ok 0 h).1 rfl
  have h0' : 0 ∉ w.filter (· ≠ 0xAD) := fun h => (hl'.ok 0 h).1 rfl
  have e : effDict dict o.acceptMissingHyphens = dict := by rw [ho]; rfl
  rw [e, lower_accepted hl] at a3
  rw [e, lower_accepted hl'] at b3
  refine ⟨r, r', c, c', a1, b1, a2, ?_⟩
  rw [a3, b3]
  have := C117_verdict hf hread extra w h0 hw hs .ok (by decide)
  rw [hdict w h0, hdict _ h0', Option.some.injEq, Option.some.injEq] at this
  exact this

/-- Non-vacuity (points): "kaivosaukko" is "kaivos|aukko" or "kaivo|saukko". The hyphenator divides it at neither border (C100), and soft hyphens are allowed at both. -/
example : ∃ an, IsFinnishAnalyzer mineDict an ∧ ∃ r, allPositions softOpts an (lit "kaivosaukko") = some (some r) ∧ r[5]? = some 0x2D ∧ r[6]? = some 0x2D := by
  obtain ⟨an, han⟩ := (C70_analyser mineDict mineDict_good).1
  have hlow : setCase .allLower (lit "kaivosaukko") = lit "kaivosaukko" := by decide
  obtain ⟨r, r1, r3⟩ := C117_points mineDict mineDict_good an han softOpts (lit "kaivosaukko") (by decide) (by unfold ValidCp; decide) (by decide) (by decide)
    [mineReading, otterReading] (by rw [hlow]; decide) (by decide)
    (by
      rw [hlow]
      intro its h
      simp only [List.mem_cons, List.not_mem_nil, or_false] at h
      rcases h with rfl | rfl
      · exact ⟨mine_good.1, by decide⟩
      · exact ⟨mine_good.2, by decide⟩)
    (by
      intro its h _
      simp only [List.mem_cons, List.not_mem_nil, or_false] at h
      rcases h with rfl | rfl
      · exact (mine_divisible _).1
      · exact (mine_divisible _).2)
    ⟨mineReading, by simp, mine_valid.1⟩
  have u1 : ¬ Undivided mineReading := fun h => h 6 ((mine_cuts 6).1.2 ⟨by omega, rfl⟩)
  have u2 : ¬ Undivided otterReading := fun h => h 5 ((mine_cuts 5).2.2 ⟨by omega, rfl⟩)
  have hno : ¬ ∃ x ∈ [mineReading, otterReading], Validity.Valid (Validity.events x) ∧ Undivided x := by
    rintro ⟨x, hx, _, hu⟩
    simp only [List.mem_cons, List.not_mem_nil, or_false] at hx
    rcases hx with rfl | rfl
    · exact u1 hu
    · exact u2 hu
  have plain : ∀ i : Nat, (lit "kaivosaukko")[i]? ≠ some 0x2D := fun i h => absurd (List.mem_of_getElem? h) (by decide)
  exact ⟨an, han, r, r1,
    (r3 5 (by decide)).2 ⟨otterReading, by simp, mine_valid.2, fun h => absurd h hno, .inl ⟨plain 5, .inl ((mine_cuts 5).2.2 ⟨by omega, rfl⟩)⟩⟩,
    (r3 6 (by decide)).2 ⟨mineReading, by simp, mine_valid.1, fun h => absurd h hno, .inl ⟨plain 6, .inl ((mine_cuts 6).1.2 ⟨by omega, rfl⟩)⟩⟩⟩

/-- A compound with a hyphen: a bus. -/
def busReading : List SItem := twoNouns (lit "linja-") (lit "auto")

theorem bus_border (j : Nat) : Verif.Border busReading j ↔ j = 0 ∨ j = 6 := by
  simp [Verif.Border, BorderFrom, busReading, twoNouns, lit]

theorem bus_cut (i : Nat) : Cut busReading i ↔ i = 5 := by
  have hc : content busReading = lit "linja-auto" := by decide
  unfold Cut
  rw [bus_border, bus_border, bus_border, hc]
  constructor
  · rintro ⟨h0, ⟨h1, h2⟩ | ⟨_, h⟩⟩
    · obtain rfl : i = 6 := by omega
      rcases h2 with h | h
      · exact absurd (by decide) h
      · omega
    · omega
  · rintro rfl
    exact ⟨by omega, .inr ⟨by decide, by omega⟩⟩

theorem bus_sections {s e : Nat} (h : Section busReading s e) : (s = 0 ∧ e = 5) ∨ (s = 6 ∧ e = 10) := by
  obtain ⟨h1, h2, h3, h4, h5⟩ := h
  rw [show (content busReading).length = 10 by decide] at h2 h5
  rw [bus_border] at h3
  rw [bus_cut] at h5
  have h4 : ¬ (s < 5 ∧ 5 < e) := fun k => h4 5 k.1 k.2 ((bus_cut 5).2 rfl)
  omega

theorem bus_part {w : List Wc} (hf : FinnishWord w) (h3 : ∀ k < w.length, ((w.map lower)[k]?.any (fun c => decide (c ∈ ruleVowels)) &&
        (w.map lower)[k + 1]?.any (fun c => decide (c ∈ ruleVowels)) && (w.map lower)[k + 2]?.any (fun c => decide (c ∈ ruleVowels))) = false)
    (hg : ∀ k < w.length, ∀ g ∈ wholeGroups, ¬ g <+: (w.map lower).drop k) : SimplePart true w := by
  refine ⟨hf, ?_, ?_⟩
  · rintro k ⟨g, hgm, hp⟩
    by_cases h : k < w.length
    · exact hg k h g hgm hp
    · rw [List.drop_eq_nil_of_le (by simp; omega), List.prefix_nil] at hp
      exact (show ∀ g ∈ wholeGroups, g ≠ [] by decide +kernel) g hgm hp
  · rintro _ k ⟨⟨c, hc, v1⟩, ⟨d, hd, v2⟩, ⟨e, he, v3⟩⟩
    have hk : k < w.length := by
      have := (List.getElem?_eq_some_iff.1 hc).1
      simpa using this
    have := h3 k hk
    rw [hc, hd, he] at this
    simp [v1, v2, v3] at this

/-- Non-vacuity (hyphens): `linja-auto` has a border only after the hyphen. It can be divided at the hyphen, but no soft hyphen is accepted next to it. -/
example : Divisible true busReading (lit "linja-auto") ∧ Divides softOpts busReading (lit "linja-auto") 5 ∧ ¬ SoftPoint softOpts busReading (lit "linja-auto") 5 ∧
    ¬ SoftPoint softOpts busReading (lit "linja-auto") 6 := by
  have hc : content busReading = lit "linja-auto" := by decide
  refine ⟨⟨by decide, ?_, by decide +kernel, ?_⟩, .inl ((bus_cut 5).2 rfl), ?_, ?_⟩
  · intro i h
    rw [hc] at h ⊢
    have hi : i < 10 := (List.getElem?_eq_some_iff.1 h).1
    revert h
    exact (show ∀ i < 10, (lit "linja-auto")[i]? = some 0x2D → (lit "linja-auto")[i + 1]? ≠ some 0x2D by decide) i hi
  · intro s e h _
    rcases bus_sections h with ⟨rfl, rfl⟩ | ⟨rfl, rfl⟩
    · exact bus_part (by unfold FinnishWord; decide +kernel) (by decide +kernel) (by decide +kernel)
    · exact bus_part (by unfold FinnishWord; decide +kernel) (by decide +kernel) (by decide +kernel)
  · rintro (⟨h, _⟩ | ⟨_, h⟩)
    · exact h (by decide)
    · rw [bus_border] at h; omega
  · rintro (⟨_, h | ⟨s, e, h, h1, h2, _⟩⟩ | ⟨h, _⟩)
    · rw [bus_cut] at h; omega
    · rcases bus_sections h with ⟨rfl, rfl⟩ | ⟨rfl, rfl⟩ <;> omega
    · exact absurd h (by decide)

/-- `abb` with a soft hyphen before its last letter. -/
def softAbb : List Wc := [97, 98, 0xAD, 98]

theorem haha_soft {runsOf : List Wc → List (List Nat)} (hr : ∀ v : List Wc, v.length ≤ 255 → AllRuns hahaLines v (runsOf v)) :
    SoftSuitable runsOf (fun v _ => hahaReading v) (softAbb.filter (· ≠ 0xAD)) ∧
      ¬ AllowedAt runsOf (fun v _ => hahaReading v) (softAbb.filter (· ≠ 0xAD)) (charsBefore softAbb 2) := by
  have e : softAbb.filter (· ≠ 0xAD) = lit "abb" := by decide
  have low : setCase .allLower (lit "abb") = lit "abb" := by decide +kernel
  have hc : content (hahaReading (lit "abb")) = lit "abb" := by decide
  have hno : 0x2D ∉ lit "abb" := by decide
  have no : ∀ i : Nat, (lit "abb")[i]? ≠ some 0x2D := fun i h => hno (List.mem_of_getElem? h)
  have uncut : Undivided (hahaReading (lit "abb")) := by
    rintro i ⟨h, ⟨hb, _⟩ | ⟨hh, _⟩⟩
    · exact haha_noBorder _ _ h hb
    · rw [hc] at hh; exact no _ hh
  have valid : ∀ its, ValidOf runsOf (fun v _ => hahaReading v) (lit "abb") its → its = hahaReading (lit "abb") := by
    rintro _ ⟨_, _, rfl, _⟩; rw [low]
  have part : SimplePart true (lit "abb") := ⟨by unfold FinnishWord; decide +kernel, no_group (by decide +kernel), fun _ k h => by
    obtain ⟨_, ⟨c, h1, h2⟩, _⟩ := h
    match k, h1 with
    | 0, h1 => cases h1; revert h2; decide +kernel
    | 1, h1 => cases h1; revert h2; decide +kernel
    | k + 2, h1 => simp [lit] at h1⟩
  rw [e]
  refine ⟨⟨by unfold ValidCp; decide, by decide, ?_, ?_, fun its h => ?_⟩, ?_⟩
  · have := haha_one hr (setCase .allLower (lit "abb")) (by decide +kernel); omega
  · refine .inl ⟨hahaReading (lit "abb"), [0, 1, 1, 2], ?_, by rw [low], ?_⟩
    · rw [low]
      exact ((hr (lit "abb") (by decide)).mem _).2 haha_run_abb
    · exact haha_abb_valid
  · rw [valid its h]
    exact ⟨by rw [hc]; exact no 0, fun i h => by rw [hc]; exact no _, by decide +kernel, fun s e _ _ => sections_plain part s e⟩
  · rintro ⟨_, its, h, _, hd⟩
    rw [valid its h] at hd
    replace hd := (hd.resolve_right fun k => no _ k.1).2
    rcases hd with hd | ⟨s, e, hs, h1, h2, _, hp⟩
    · exact uncut _ hd
    · have h3 : s = 0 := by
        rcases hs.start with k | k
        · exact k
        · exact Classical.byContradiction fun hn => haha_noBorder _ _ (by omega) k
      have h4 : e = 3 := by
        rcases hs.fin with k | k
        · rw [k, hc]; rfl
        · exact absurd k (uncut _)
      subst h3 h4
      rcases hp with ⟨⟨_, c, k, _⟩, _⟩ | ⟨_, c, d, k1, k2, k3⟩
      · rw [show ((slice (lit "abb") 0 3).map lower)[charsBefore softAbb 2 - 0 + 1]? = none by decide +kernel] at k
        cases k
      · rw [show ((slice (lit "abb") 0 3).map lower)[charsBefore softAbb 2 - 0 - 1]? = some 0x62 by decide +kernel] at k1
        rw [show ((slice (lit "abb") 0 3).map lower)[charsBefore softAbb 2 - 0 - 1 + 1]? = some 0x62 by decide +kernel] at k2
        cases k1; cases k2
        revert k3
        decide

/-- Non-vacuity (verdict): with an analyser that follows the text of the words `a`, `ab`, `abb`, ... the word `abb` has no place for a soft hyphen, so that it is unknown with one. -/
example {runsOf : List Wc → List (List Nat)} {an : Analyzer} (hr : ∀ v : List Wc, v.length ≤ 255 → AllRuns hahaLines v (runsOf v)) (hf : FollowsText hahaLines runsOf an)
    (extra : Bool) : finnishSpell extra an softAbb = some .failed := by
  obtain ⟨r, e⟩ := hf.total extra softAbb (by decide)
  rw [e]
  by_cases hr' : r = .failed
  · rw [hr']
  · have hread : Reads hahaLines runsOf (fun v _ => hahaReading v) := by
      intro v hv run hm
      obtain ⟨m, rfl, rfl⟩ := haha_runs (((hr v hv).mem run).1 hm)
      exact ⟨haha_output m, haha_good⟩
    obtain ⟨_, _, h⟩ := (C117_verdict hf hread extra softAbb (by decide) (by decide) (fun _ => (haha_soft hr).1) r hr').1 e
    exact absurd (h 2 rfl) (haha_soft hr).2

/-- The words of the last example are in lower case, as C117_accepted demands. -/
example : LowerCase softAbb ∧ LowerCase (softAbb.filter (· ≠ 0xAD)) := by
  have code : ∀ n : List Wc, 0x2E ∉ n → ¬ NonwordCode n := by
    rintro n h ⟨_, ⟨_, q, _, _, _, _, _, _, k⟩ | ⟨_, q, _, _, _, _, _, _, k⟩ | ⟨_, _, _, q, _, _, k⟩⟩ <;> exact h (List.mem_of_getElem? k)
  refine ⟨⟨by unfold WordOk; decide, by decide +kernel, ⟨⟨97, by decide, by decide +kernel⟩, ?_⟩, by decide +kernel, by decide, by decide, code _ (by decide), by decide⟩,
    ⟨by unfold WordOk; decide, by decide +kernel, ⟨⟨97, by decide, by decide +kernel⟩, ?_⟩, by decide +kernel, by decide, by decide, code _ (by decide), by decide⟩⟩
  · unfold HasUpper; decide +kernel
  · unfold HasUpper; decide +kernel

end Verif.SoftText
