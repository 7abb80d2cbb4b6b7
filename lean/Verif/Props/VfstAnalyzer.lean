import Verif.Model.VfstAnalyzer
import Verif.Lemmas.VfstSuggest
import Verif.Lemmas.VfstWithin
import Verif.Props.FstWeighted
import Verif.Props.VfstSpell
import Verif.Props.Analysis
import Verif.Props.Utf8
import Mathlib.Data.List.Forall2
/-!
# Analysis with a weighted transducer (C91) and the analysis functions of the library (C92)
-/

set_option linter.unusedSimpArgs false
set_option linter.unusedVariables false

namespace Verif.Props
open Verif

/-! ## C91: the analyses are the readings of the word -/

theorem wenumerate_take {f : WFst} {len : Nat} : ∀ (N m : Nat) (c c' : WConf) (rs : List WNextRes), m ≤ N →
    wenumerate f len N c = some (rs, c') → ∃ c'', wenumerate f len m c = some (rs.take m, c'') := by
  intro N
  induction N with
  | zero =>
    intro m c c' rs hm h
    have : m = 0 := by omega
    subst this
    exact ⟨c, rfl⟩
  | succ N ih =>
    intro m c c' rs hm h
    cases m with
    | zero => exact ⟨c, rfl⟩
    | succ m =>
      rw [wenumerate] at h
      obtain ⟨⟨r, reached, c1⟩, h1, h2⟩ := Option.bind_eq_some_iff.1 h
      rw [wenumerate, h1, ub_bind]
      simp only at h2 ⊢
      cases r with
      | found out w =>
        simp only at h2 ⊢
        obtain ⟨⟨rs1, c2⟩, h3, h4⟩ := Option.bind_eq_some_iff.1 h2
        obtain ⟨rfl, rfl⟩ := Prod.mk.inj (Option.some.inj h4)
        obtain ⟨c3, h5⟩ := ih m c1 _ _ (by omega) h3
        exact ⟨c3, by rw [h5]; rfl⟩
      | _ =>
        obtain ⟨rfl, rfl⟩ := Prod.mk.inj (Option.some.inj h2)
        exact ⟨c1, by rw [List.take_of_length_le (by simp)]; rfl⟩

theorem wenumerate_used {f : WFst} {size len : Nat} : ∀ (n : Nat) (c c' : WConf) (rs : List WNextRes), WUsed f size c →
    wenumerate f len n c = some (rs, c') → WUsed f size c' := by
  intro n
  induction n with
  | zero =>
    intro c c' rs hu h
    obtain ⟨rfl, rfl⟩ := Prod.mk.inj (Option.some.inj h)
    exact hu
  | succ n ih =>
    intro c c' rs hu h
    rw [wenumerate] at h
    obtain ⟨⟨r, reached, c1⟩, h1, h2⟩ := Option.bind_eq_some_iff.1 h
    have hu1 : WUsed f size c1 := .next _ _ _ _ _ hu h1
    simp only at h2
    cases r with
    | found out w =>
      obtain ⟨⟨rs1, c2⟩, h3, h4⟩ := Option.bind_eq_some_iff.1 h2
      obtain ⟨rfl, rfl⟩ := Prod.mk.inj (Option.some.inj h4)
      exact ih _ _ _ hu1 h3
    | _ =>
      obtain ⟨rfl, rfl⟩ := Prod.mk.inj (Option.some.inj h2)
      exact hu1

/-- The analysis made from one result of the search. -/
def madeOf (prob : Int → List Wc) (full : Bool) : WNextRes → Option Ana
  | .found out w => some (vfstAnalysis prob full out w)
  | _ => none

theorem analysisLoop_eq {f : WFst} {prob : Int → List Wc} {full : Bool} : ∀ (m count : Nat) (c c' : WConf)
    (rs : List WNextRes), count + m = 99 → wenumerate f 2000 m c = some (rs, c') →
    vfstAnalysisLoop f prob full (m + 1) count c = some (rs.filterMap (madeOf prob full), c') := by
  intro m
  induction m with
  | zero =>
    intro count c c' rs hc h
    obtain ⟨rfl, rfl⟩ := Prod.mk.inj (Option.some.inj h)
    rw [vfstAnalysisLoop, if_neg (by rw [vfstMaxAnalysisCount]; omega)]
    rfl
  | succ m ih =>
    intro count c c' rs hc h
    rw [wenumerate] at h
    obtain ⟨⟨r, reached, c1⟩, h1, h2⟩ := Option.bind_eq_some_iff.1 h
    rw [vfstAnalysisLoop, if_pos (by rw [vfstMaxAnalysisCount]; omega), show vfstBufferSize = 2000 from rfl, h1, ub_bind]
    simp only at h2 ⊢
    cases r with
    | found out w =>
      obtain ⟨⟨rs1, c2⟩, h3, h4⟩ := Option.bind_eq_some_iff.1 h2
      obtain ⟨rfl, rfl⟩ := Prod.mk.inj (Option.some.inj h4)
      simp only
      rw [ih (count + 1) _ _ _ (by omega) h3, ub_bind]
      rfl
    | _ =>
      obtain ⟨rfl, rfl⟩ := Prod.mk.inj (Option.some.inj h2)
      rfl

theorem filterMap_made (f : WFst) (prob : Int → List Wc) (full : Bool) : ∀ qs : List (List Nat),
    (qs.map fun q => WNextRes.found (outputOf (plainFst f) q) (pathWeight f q)).filterMap (madeOf prob full) =
      qs.map fun q => vfstAnalysis prob full (outputOf (plainFst f) q) (pathWeight f q)
  | [] => rfl
  | q :: qs => by
    rw [List.map_cons, List.map_cons, List.filterMap_cons]
    simp only [madeOf]
    rw [filterMap_made f prob full qs]

/-- The analysis `a` shows the reading `q`: it has a value for the output and one for the weight of the reading, and no others. -/
structure Shows (f : WFst) (prob : Int → List Wc) (a : Ana) (q : List Nat) : Prop where
  keys : analysisKeys a = some [lit "FSTOUTPUT", lit "WEIGHT"]
  output : analysisValue a (lit "FSTOUTPUT") = some (outputOf (plainFst f) q)
  weight : analysisValue a (lit "WEIGHT") = some (prob (pathWeight f q))
  others : ∀ name, name ≠ lit "FSTOUTPUT" → name ≠ lit "WEIGHT" → analysisValue a name = none
  free : a.destroy = some ()

theorem outputOf_noNul {f : WFst} (hs : ∀ s ∈ f.symbols, 0 ∉ s) (q : List Nat) :
    (outputOf (plainFst f) q).takeWhile (· ≠ 0) = outputOf (plainFst f) q := by
  refine takeWhile_all _ fun x hx => ?_
  obtain ⟨a, _, ha⟩ := List.mem_flatMap.1 hx
  have : 0 ∉ outText (plainFst f) a := by
    unfold outText
    split
    · simp
    · split
      · rename_i t _ hn
        cases he : (plainFst f).symbols[t.symOut]? with
        | none => simp
        | some s => exact hs s (List.mem_of_getElem? he)
      · simp
  simp only [ne_eq, decide_not, Bool.not_eq_eq_eq_not, Bool.not_true, decide_eq_false_iff_not]
  intro h0
  subst h0
  exact this ha

theorem seal_shows {f : WFst} (hs : ∀ s ∈ f.symbols, 0 ∉ s) (prob : Int → List Wc) (q : List Nat) :
    ∃ b, (vfstAnalysis prob true (outputOf (plainFst f) q) (pathWeight f q)).seal = some b ∧ Shows f prob b q := by
  obtain ⟨a, b, h1, h2, h3, h4, h5, h6, h7⟩ :=
    C57_analysis [.add .fstoutput (outputOf (plainFst f) q), .add .weight (prob (pathWeight f q))]
  have ha : a = vfstAnalysis prob true (outputOf (plainFst f) q) (pathWeight f q) := by
    unfold vfstAnalysis
    rw [outputOf_noNul hs]
    simp only [if_true]
    exact (Option.some.inj h1).symm
  subst ha
  refine ⟨b, h2, ?_, ?_, ?_, ?_, h7⟩
  · rw [h4]; rfl
  · exact h5 (.fstoutput, "FSTOUTPUT") (by decide)
  · exact h5 (.weight, "WEIGHT") (by decide)
  · intro name n1 n2
    by_cases hx : ∃ x ∈ attributeNames, name = lit x.2
    · obtain ⟨x, hx, rfl⟩ := hx
      rw [h5 x hx]
      have : x.1 ≠ .fstoutput ∧ x.1 ≠ .weight := by
        revert n1 n2
        clear h3 h4 h5 h6
        revert x
        decide
      simp only [histValue, if_neg this.1, if_neg this.2]
    · exact h6 name fun x hx' e => hx ⟨x, hx', e⟩

theorem sealEach_shows {f : WFst} (hs : ∀ s ∈ f.symbols, 0 ∉ s) (prob : Int → List Wc) : ∀ qs : List (List Nat),
    ∃ l, sealEach (qs.map fun q => vfstAnalysis prob true (outputOf (plainFst f) q) (pathWeight f q)) = some l ∧
      List.Forall₂ (Shows f prob) l qs
  | [] => ⟨[], rfl, .nil⟩
  | q :: qs => by
    obtain ⟨b, h1, h2⟩ := seal_shows hs prob q
    obtain ⟨l, h3, h4⟩ := sealEach_shows hs prob qs
    refine ⟨b :: l, ?_, .cons h2 h4⟩
    rw [List.map_cons, sealEach, h1, ub_bind, h3, ub_bind]
    rfl

theorem take_term {α : Type} (w : List α) (x : α) : (w ++ [x]).take w.length = w := by simp

theorem setCase_lower (w : List Wc) : setCase .allLower w = w.map lower := by cases w <;> rfl

/-- The analyser, for a word of at most 255 characters: what the search gives for the word in lower case. -/
theorem vfstAnalyze_eq {f : WFst} {prob : Int → List Wc} {full : Bool} (hg : GoodFst f) {c : WConf} (hu : WUsed f 2000 c)
    {word : List Wc} (hlen : word.length ≤ 255) (hrun : ∀ c1, WUsed f 2000 c1 →
      c1 = toW (prepared (plainFst f) 2000 (word.map lower)) [List.replicate f.featureCount 0] →
      wprepare f (WConf.new f.featureCount 2000) (word.map lower) = some (true, c1) →
      ∃ rs c2, wenumerate f 2000 99 c1 = some (rs, c2)) :
    (¬ Accepts f (word.map lower) ∧ ∃ c', vfstAnalyze f prob c (word ++ [0]) word.length full = some ([], c') ∧ WUsed f 2000 c') ∨
    ∃ c1 rs c2, wprepare f (WConf.new f.featureCount 2000) (word.map lower) = some (true, c1) ∧
      wenumerate f 2000 99 c1 = some (rs, c2) ∧ WUsed f 2000 c2 ∧
      vfstAnalyze f prob c (word ++ [0]) word.length full = some (rs.filterMap (madeOf prob full), c2) := by
  have hm : maxWordChars = 255 := rfl
  unfold vfstAnalyze
  rw [if_neg (by omega), if_neg (by simp), take_term, setCase_lower]
  obtain ⟨known, c1, p1, p2, p3, p4⟩ := prepare_call hg hu (word := word.map lower) (by rw [List.length_map]; omega)
  rw [p1, ub_bind]
  cases known with
  | false => exact .inl ⟨p3 rfl, c1, rfl, p2⟩
  | true =>
    rw [C42_weighted hu] at p1
    obtain ⟨rs, c2, h1⟩ := hrun c1 p2 (p4 rfl) p1
    refine .inr ⟨c1, rs, c2, p1, h1, wenumerate_used _ _ _ _ p2 h1, ?_⟩
    simp only [if_true]
    exact analysisLoop_eq 99 0 _ _ _ rfl h1

theorem readings_complete {f : WFst} (hg : GoodFst f) {word : List Wc} (hlen : word.length ≤ 2000) (hw : Within f word) {c : WConf}
    (hp : wprepare f (WConf.new f.featureCount 2000) word = some (true, c)) : ∃ (qs : List (List Nat)) (N : Nat) (c' : WConf),
      99 ≤ N ∧ wenumerate f 2000 N c =
        some (qs.map (fun q => .found (outputOf (plainFst f) q) (pathWeight f q)) ++ [.exhausted], c') ∧
      (∀ q, q ∈ qs ↔ Reading f word q) ∧ qs.Pairwise Before := by
  obtain ⟨S, wf⟩ := hg.wf
  obtain ⟨all, hall⟩ := readings_finite hw
  have hk : Known f word := (C45_unknown f _ _ _ _ hp).1 rfl
  obtain ⟨c1, h1, qs, c', h2, h3, h4, h5⟩ := C45_complete_partial wf (good_normal hg) word hk hw.mask (bufferSize := 2000) (bufferLen := 2000)
    (by decide) hlen (by decide) all (fun q m h => hall q (reading_of_accepting h).1) hw.depth (fun q m h => hw.out q (reading_of_accepting h).1) hw.paths
    (all.length + 100) (by omega)
  rw [hp] at h1
  obtain ⟨_, rfl⟩ := Prod.mk.inj (Option.some.inj h1)
  exact ⟨qs, _, c', by omega, h2, h4, h5⟩

/-- C91, the part that holds: whatever was analysed before, the analyses of a word of at most 255 characters are the readings of
the word in lower case, in the order of the transition table: all of them if there are at most 99 and otherwise the first 99. Each
analysis has exactly the keys FSTOUTPUT and WEIGHT; their values are the output of the reading and the text for its weight.
(Missing: words whose search meets a fixed limit, see `C91_limits`, or a masked flag.) -/
theorem C91_partial {f : WFst} (hg : GoodFst f) (hs : ∀ s ∈ f.symbols, 0 ∉ s) (prob : Int → List Wc) {c : WConf}
    (hu : WUsed f 2000 c) {word : List Wc} (hlen : word.length ≤ 255) (hw : Within f (word.map lower)) :
    ∃ (qs : List (List Nat)) (l : List Ana) (c' : WConf), analyzeWordUcs4 (vfstAnalyze f prob) c word = some (l, c') ∧ WUsed f 2000 c' ∧
      qs.Pairwise Before ∧ (∀ q, q ∈ qs ↔ Reading f (word.map lower) q) ∧ List.Forall₂ (Shows f prob) l (qs.take 99) := by
  have hl2 : (word.map lower).length ≤ 2000 := by rw [List.length_map]; omega
  have hrun : ∀ c1, wprepare f (WConf.new f.featureCount 2000) (word.map lower) = some (true, c1) →
      ∃ rs c2, wenumerate f 2000 99 c1 = some (rs, c2) := by
    intro c1 hp
    obtain ⟨qs, N, c', h1, h2, _, _⟩ := readings_complete hg hl2 hw hp
    obtain ⟨c2, h3⟩ := wenumerate_take N 99 _ _ _ h1 h2
    exact ⟨_, c2, h3⟩
  unfold analyzeWordUcs4
  rcases vfstAnalyze_eq (prob := prob) (full := true) hg hu hlen (fun c1 _ _ hp => hrun c1 hp) with
    ⟨hna, c', h1, h2⟩ | ⟨c1, rs, c2, h1, h2, h3, h4⟩
  · refine ⟨[], [], c', ?_, h2, .nil, fun q => ⟨fun h => absurd h (List.not_mem_nil), fun h => absurd ⟨q, h⟩ hna⟩, .nil⟩
    rw [h1, ub_bind]
    rfl
  · obtain ⟨qs, N, c', k1, k2, k3, k4⟩ := readings_complete hg hl2 hw h1
    obtain ⟨c3, k5⟩ := wenumerate_take N 99 _ _ _ k1 k2
    rw [h2] at k5
    obtain ⟨rfl, rfl⟩ := Prod.mk.inj (Option.some.inj k5)
    obtain ⟨l, g1, g2⟩ := sealEach_shows hs prob (qs.take 99)
    have e : ((qs.map (fun q => WNextRes.found (outputOf (plainFst f) q) (pathWeight f q)) ++ [WNextRes.exhausted]).take 99).filterMap
        (madeOf prob true) =
        (qs.take 99).map fun q => vfstAnalysis prob true (outputOf (plainFst f) q) (pathWeight f q) := by
      rw [List.take_append, List.filterMap_append, ← List.map_take, filterMap_made]
      have : ([WNextRes.exhausted].take (99 - (qs.map fun q =>
          WNextRes.found (outputOf (plainFst f) q) (pathWeight f q)).length)).filterMap (madeOf prob true) = [] := by
        generalize 99 - _ = k
        cases k with
        | zero => rfl
        | succ k => rw [List.take_of_length_le (by simp)]; rfl
      rw [this, List.append_nil]
    refine ⟨qs, l, c2, ?_, h3, k4, k3, g2⟩
    rw [h4, ub_bind]
    simp only
    rw [e, g1]
    rfl

/-- C91 for words whose search meets a fixed limit: there are fewer analyses, each of them a different reading. -/
theorem C91_limits {f : WFst} (hg : GoodFst f) (hs : ∀ s ∈ f.symbols, 0 ∉ s) (prob : Int → List Wc) {c : WConf}
    (hu : WUsed f 2000 c) {word : List Wc} (hlen : word.length ≤ 255)
    (hmask : NoMaskedFlag (plainFst f) ((word.map lower).map (plainFst f).symOf)) :
    ∃ (qs : List (List Nat)) (l : List Ana) (c' : WConf), analyzeWordUcs4 (vfstAnalyze f prob) c word = some (l, c') ∧ WUsed f 2000 c' ∧
      qs.Pairwise Before ∧ (∀ q ∈ qs, Reading f (word.map lower) q) ∧ qs.length ≤ 99 ∧ List.Forall₂ (Shows f prob) l qs := by
  have hl2 : (word.map lower).length ≤ 2000 := by rw [List.length_map]; omega
  obtain ⟨S, wf⟩ := hg.wf
  have hrun : ∀ c1, wprepare f (WConf.new f.featureCount 2000) (word.map lower) = some (true, c1) →
      ∃ (qs : List (List Nat)) (tail : List WNextRes) (c2 : WConf), wenumerate f 2000 99 c1 =
          some (qs.map (fun q => .found (outputOf (plainFst f) q) (pathWeight f q)) ++ tail, c2) ∧
        (∀ q ∈ qs, Reading f (word.map lower) q) ∧ qs.Pairwise Before ∧ tail.filterMap (madeOf prob true) = [] := by
    intro c1 hp
    have hk : Known f (word.map lower) := (C45_unknown f _ _ _ _ hp).1 rfl
    obtain ⟨c1', h1, qs, tail, c2, h2, h3, h4, h5⟩ := C45_partial wf (good_normal hg) (word.map lower) hk hmask
      (bufferSize := 2000) (bufferLen := 2000) (by decide) hl2 (by decide) 99
    rw [hp] at h1
    obtain ⟨_, rfl⟩ := Prod.mk.inj (Option.some.inj h1)
    refine ⟨qs, tail, c2, h2, h3, h4, ?_⟩
    rcases h5 with ⟨rfl, _⟩ | ⟨rfl, _⟩ | ⟨r, rfl, hr⟩
    · rfl
    · rfl
    · cases r <;> first | rfl | exact hr.elim
  have hcount : ∀ (n : Nat) (c c' : WConf) (rs : List WNextRes), wenumerate f 2000 n c = some (rs, c') → rs.length ≤ n := by
    intro n
    induction n with
    | zero =>
      intro c c' rs h
      obtain ⟨rfl, rfl⟩ := Prod.mk.inj (Option.some.inj h)
      simp
    | succ n ih =>
      intro c c' rs h
      rw [wenumerate] at h
      obtain ⟨⟨r, reached, c1⟩, h1, h2⟩ := Option.bind_eq_some_iff.1 h
      simp only at h2
      cases r with
      | found out w =>
        obtain ⟨⟨rs1, c2⟩, h3, h4⟩ := Option.bind_eq_some_iff.1 h2
        obtain ⟨rfl, rfl⟩ := Prod.mk.inj (Option.some.inj h4)
        have := ih _ _ _ h3
        simp only [List.length_cons]
        omega
      | _ =>
        obtain ⟨rfl, rfl⟩ := Prod.mk.inj (Option.some.inj h2)
        simp
  unfold analyzeWordUcs4
  rcases vfstAnalyze_eq (prob := prob) (full := true) hg hu hlen
      (fun c1 _ _ hp => by obtain ⟨qs, tail, c2, h, _⟩ := hrun c1 hp; exact ⟨_, _, h⟩) with
    ⟨hna, c', h1, h2⟩ | ⟨c1, rs, c2, h1, h2, h3, h4⟩
  · refine ⟨[], [], c', ?_, h2, .nil, by simp, by simp, .nil⟩
    rw [h1, ub_bind]
    rfl
  · obtain ⟨qs, tail, c3, k1, k2, k3, k4⟩ := hrun c1 h1
    rw [h2] at k1
    obtain ⟨rfl, rfl⟩ := Prod.mk.inj (Option.some.inj k1)
    obtain ⟨l, g1, g2⟩ := sealEach_shows hs prob qs
    refine ⟨qs, l, c2, ?_, h3, k3, k2, ?_, g2⟩
    · rw [h4, ub_bind]
      simp only
      rw [List.filterMap_append, k4, List.append_nil, filterMap_made, g1]
      rfl
    · have := hcount _ _ _ _ h2
      rw [List.length_append, List.length_map] at this
      omega

/-- C91: a word of more than 255 characters has no analyses. -/
theorem C91_long (f : WFst) (prob : Int → List Wc) (c : WConf) {word : List Wc} (hlen : 255 < word.length) :
    analyzeWordUcs4 (vfstAnalyze f prob) c word = some ([], c) := by
  unfold analyzeWordUcs4 vfstAnalyze
  rw [if_pos (show word.length > maxWordChars from hlen)]
  rfl

/-- C91: the analyses do not depend on the case of the letters. -/
theorem C91_case (f : WFst) (prob : Int → List Wc) (c : WConf) {word word' : List Wc} (h : word.map lower = word'.map lower) :
    analyzeWordUcs4 (vfstAnalyze f prob) c word = analyzeWordUcs4 (vfstAnalyze f prob) c word' := by
  have hl : word.length = word'.length := by rw [← List.length_map (f := lower) (as := word), h, List.length_map]
  unfold analyzeWordUcs4 vfstAnalyze
  rw [take_term, take_term, setCase_lower, setCase_lower, h, hl]
  simp only [List.length_append, hl]

/-- C91: the analyses do not depend on what was analysed before. -/
theorem C91_history {f : WFst} (prob : Int → List Wc) {c c' : WConf} (hu : WUsed f 2000 c) (hu' : WUsed f 2000 c')
    (word : List Wc) :
    (analyzeWordUcs4 (vfstAnalyze f prob) c word).map (·.1) = (analyzeWordUcs4 (vfstAnalyze f prob) c' word).map (·.1) := by
  by_cases hlen : 255 < word.length
  · rw [C91_long f prob c hlen, C91_long f prob c' hlen]
    rfl
  · have : maxWordChars = 255 := rfl
    unfold analyzeWordUcs4 vfstAnalyze
    have h1 : ¬ word.length > maxWordChars := by omega
    have h2 : ¬ (word ++ [0]).length < word.length := by simp
    simp only [if_neg h1, if_neg h2, C42_weighted hu, C42_weighted hu']

/-- C91 without conditions on the words, for deterministic transducers without epsilon and flag transitions: one analysis for
each accepted word of at most 255 characters. -/
theorem C91_deterministic {f : WFst} (hg : GoodFst f) (hf : ReadsInput f) (hsh : ShortOutput f) (hd : Deterministic f)
    (hsym : f.symbols.length < 65536) (hs : ∀ s ∈ f.symbols, 0 ∉ s) (prob : Int → List Wc) {c : WConf} (hu : WUsed f 2000 c)
    {word : List Wc} (hlen : word.length ≤ 255) :
    (∃ a q c', analyzeWordUcs4 (vfstAnalyze f prob) c word = some ([a], c') ∧ Reading f (word.map lower) q ∧ Shows f prob a q) ∨
    (¬ Accepts f (word.map lower) ∧ ∃ c', analyzeWordUcs4 (vfstAnalyze f prob) c word = some ([], c')) := by
  have hfn : f.firstNormal ≤ 0xFFFF := by have := hg.unknown; omega
  have hw : Within f (word.map lower) := within_of_deterministic hf hsh hfn hd (by rw [List.length_map]; omega)
  obtain ⟨qs, l, c', h1, h2, h3, h4, h5⟩ := C91_partial hg hs prob hu hlen hw
  cases qs with
  | nil =>
    cases h5
    exact .inr ⟨fun ⟨q, hq⟩ => absurd ((h4 q).2 hq) List.not_mem_nil, c', h1⟩
  | cons q qs =>
    have hq := (h4 q).1 List.mem_cons_self
    have huniq : qs = [] := by
      cases qs with
      | nil => rfl
      | cons q2 rest =>
        exfalso
        have hq2 := (h4 q2).1 (List.mem_cons_of_mem _ List.mem_cons_self)
        have hb : Before q q2 := (List.pairwise_cons.1 h3).1 q2 List.mem_cons_self
        obtain ⟨as, a, p, t, e1, e2, e3, e4, e5, e6, e7⟩ := hq
        obtain ⟨as', a', p', t', g1, g2, g3, g4, g5, g6, g7⟩ := hq2
        have l1 := (readsInput_length hf e2).1
        have l2 := (readsInput_length hf g2).1
        have has : as = as' := deterministic_path hf hd e2 g2 (by omega)
        subst has
        have hp : p = p' := path_det e2 g2
        subst hp
        have ha : a = a' := hd _ a e3 a' g3 t t' e4 g4 (e5.trans g5.symm)
        subst ha
        rw [e1, g1] at hb
        exact before_irrefl _ hb
    subst huniq
    cases h5 with
    | cons ha hr =>
      cases hr
      exact .inl ⟨_, q, c', h1, hq, ha⟩

/-- The letter `a` read as the last letter of a dictionary with two entries: `a` (weight 111) and `b` (weight 93). The analyses of
`A` are in the order of the transition table, which is not the order of the weights. -/
example : ∃ c', analyzeWordUcs4 (vfstAnalyze wdemoFst fun w => [w.toNat]) (WConf.new 1 2000) (lit "A") = some
    ([{ attributes := [(.fstoutput, ⟨lit "a", true⟩), (.weight, ⟨[111], true⟩)], keys := some [lit "FSTOUTPUT", lit "WEIGHT"] },
      { attributes := [(.fstoutput, ⟨lit "b", true⟩), (.weight, ⟨[93], true⟩)], keys := some [lit "FSTOUTPUT", lit "WEIGHT"] }], c') :=
  ⟨_, rfl⟩

/-- The hypotheses of `C91_partial` hold for a dictionary that reads `aa` in four ways. -/
example (prob : Int → List Wc) (c : WConf) (hu : WUsed demoErrors 2000 c) :
    ∃ (qs : List (List Nat)) (l : List Ana) (c' : WConf), analyzeWordUcs4 (vfstAnalyze demoErrors prob) c (lit "AA") = some (l, c') ∧
      List.Forall₂ (Shows demoErrors prob) l (qs.take 99) := by
  obtain ⟨qs, l, c', h1, _, _, _, h2⟩ := C91_partial demoErrors_good.toGoodFst (by decide) prob hu (word := lit "AA") (by decide)
    (withinCheck_spec (k := 5) (by decide +kernel))
  exact ⟨qs, l, c', h1, h2⟩

/-- The hypotheses of `C91_deterministic` and `C91_limits` hold for the example dictionary and every word. -/
example (prob : Int → List Wc) (c : WConf) (hu : WUsed demoAcceptor 2000 c) (word : List Wc) (hlen : word.length ≤ 255) :
    (∃ (qs : List (List Nat)) (l : List Ana) (c' : WConf), analyzeWordUcs4 (vfstAnalyze demoAcceptor prob) c word = some (l, c') ∧
      qs.length ≤ 99 ∧ List.Forall₂ (Shows demoAcceptor prob) l qs) ∧
    (Accepts demoAcceptor (word.map lower) → ∃ a c', analyzeWordUcs4 (vfstAnalyze demoAcceptor prob) c word = some ([a], c')) := by
  constructor
  · obtain ⟨qs, l, c', h1, _, _, _, h2, h3⟩ := C91_limits demoAcceptor_good (by decide) prob hu hlen (C45_no_flags rfl _)
    exact ⟨qs, l, c', h1, h2, h3⟩
  · intro hacc
    rcases C91_deterministic demoAcceptor_good demoAcceptor_reads (by unfold ShortOutput; decide) demoAcceptor_deterministic
      (by decide) (by decide) prob hu hlen with ⟨a, q, c', h1, _, _⟩ | ⟨h1, _⟩
    · exact ⟨a, c', h1⟩
    · exact absurd hacc h1

/-! ## C92: the two functions of the library -/

/-- An analysis as an analyser can build it. -/
def Made (a : Ana) : Prop := ∃ ops, Ana.run {} ops = some a

theorem sealEach_made : ∀ l : List Ana, (∀ a ∈ l, Made a) → ∃ m, sealEach l = some m ∧
    List.Forall₂ (fun a b => a.seal = some b ∧ b.destroy = some ()) l m
  | [], _ => ⟨[], rfl, .nil⟩
  | a :: l, h => by
    obtain ⟨ops, ho⟩ := h a List.mem_cons_self
    obtain ⟨a', b, h1, h2, _, _, _, _, h7⟩ := C57_analysis ops
    rw [ho] at h1
    cases h1
    obtain ⟨m, h3, h4⟩ := sealEach_made l fun x hx => h x (List.mem_cons_of_mem _ hx)
    refine ⟨b :: m, ?_, .cons ⟨h2, h7⟩ h4⟩
    rw [sealEach, h2, ub_bind, h3, ub_bind]
    rfl

theorem free_forall : ∀ m : List Ana, (∀ a ∈ m, a.destroy = some ()) → freeAnalyses m = some ()
  | [], _ => rfl
  | a :: m, h => by
    rw [freeAnalyses, h a List.mem_cons_self, ub_bind]
    exact free_forall m fun x hx => h x (List.mem_cons_of_mem _ hx)

/-- C92: the function for wide strings gives one published analysis for each analysis of the analyser, in the same order, and the
result can be freed. -/
theorem C92_ucs4 {σ : Type} (analyze : σ → List Wc → Nat → Bool → UB (List Ana × σ)) (s s' : σ) (word : List Wc) (l : List Ana)
    (h : analyze s (word ++ [0]) word.length true = some (l, s')) (hm : ∀ a ∈ l, Made a) :
    ∃ m, analyzeWordUcs4 analyze s word = some (m, s') ∧ List.Forall₂ (fun a b => a.seal = some b) l m ∧
      freeAnalyses m = some () := by
  obtain ⟨m, h1, h2⟩ := sealEach_made l hm
  refine ⟨m, ?_, h2.imp fun _ _ h => h.1, free_forall m ?_⟩
  · unfold analyzeWordUcs4
    rw [h, ub_bind]
    simp only
    rw [h1]
    rfl
  · clear h1 h hm
    induction h2 with
    | nil => intro a ha; cases ha
    | cons hx _ ih =>
      intro a ha
      rcases List.mem_cons.1 ha with rfl | ha
      · exact hx.2
      · exact ih a ha

theorem encodeStr_ne_nil {w : List Nat} (h : w ≠ []) : encodeStr w ≠ [] := by
  cases w with
  | nil => exact absurd rfl h
  | cons a w =>
    rw [encodeStr, List.flatMap_cons]
    unfold enc
    repeat' split
    all_goals simp

/-- C92, the part that holds: the function for UTF-8 strings gives for the UTF-8 form of a word what the function for wide strings
gives for the word, if it has at most 255 bytes. -/
theorem C92_utf8_partial {σ : Type} (analyze : σ → List Wc → Nat → Bool → UB (List Ana × σ)) (s : σ) {w : List Nat}
    (hv : ∀ cp ∈ w, ValidCp cp ∧ cp ≠ 0) (hne : w ≠ []) (hlen : (encodeStr w).length ≤ 255) :
    analyzeWordCstr analyze s (some (encodeStr w)) = (analyzeWordUcs4 analyze s w).map fun r => (some r.1, r.2) := by
  obtain ⟨bytes, h1, _, _, h4⟩ := C14_round_trip w fun cp h => (hv cp h).1
  have hb : bytes = encodeStr w := by
    have := (utf8FromUcs4_eq w).1 fun cp h => (hv cp h).1
    rw [this] at h1
    exact (Option.some.inj (Option.some.inj h1)).symm
  subst hb
  have htw : w.takeWhile (· ≠ 0) = w := takeWhile_all _ fun x hx => by simpa using (hv x hx).2
  generalize he : encodeStr w = bs at *
  cases bs with
  | nil => exact absurd he (encodeStr_ne_nil hne)
  | cons b bs =>
    unfold analyzeWordCstr
    simp only
    rw [if_neg (by have : maxWordChars = 255 := rfl; omega), h4, ub_bind]
    simp only
    rw [htw]
    cases analyzeWordUcs4 analyze s w <;> rfl

/-- C92: the function for UTF-8 strings returns the null pointer, without changing anything, for the null pointer, the empty
string, a string of more than 255 bytes and one that is not valid UTF-8. For all other strings it does what the function for wide
strings does. -/
theorem C92_null {σ : Type} (analyze : σ → List Wc → Nat → Bool → UB (List Ana × σ)) (s : σ) (word : Option (List Nat))
    (hb : ∀ bytes, word = some bytes → ∀ b ∈ bytes, b < 256 ∧ b ≠ 0) :
    ((word = none ∨ word = some [] ∨ ∃ bytes, word = some bytes ∧
        (255 < bytes.length ∨ ¬ ∃ w, (∀ cp ∈ w, ValidCp cp) ∧ bytes = encodeStr w)) ∧
      analyzeWordCstr analyze s word = some (none, s)) ∨
    ∃ w, (∀ cp ∈ w, ValidCp cp ∧ cp ≠ 0) ∧ word = some (encodeStr w) ∧
      analyzeWordCstr analyze s word = (analyzeWordUcs4 analyze s w).map fun r => (some r.1, r.2) := by
  cases word with
  | none => exact .inl ⟨.inl rfl, rfl⟩
  | some bytes =>
    have hb' := hb bytes rfl
    by_cases h0 : bytes = []
    · subst h0
      exact .inl ⟨.inr (.inl rfl), rfl⟩
    · by_cases hlen : 255 < bytes.length
      · refine .inl ⟨.inr (.inr ⟨bytes, rfl, .inl hlen⟩), ?_⟩
        cases bytes with
        | nil => exact absurd rfl h0
        | cons b bs =>
          unfold analyzeWordCstr
          simp only
          rw [if_pos (show (b :: bs).length > maxWordChars from hlen)]
          rfl
      · by_cases hval : ∃ w, (∀ cp ∈ w, ValidCp cp) ∧ bytes = encodeStr w
        · obtain ⟨w, hw, rfl⟩ := hval
          have hnz : ∀ cp ∈ w, cp ≠ 0 := by
            rintro cp hcp rfl
            have : (0 : Nat) ∈ encodeStr w := List.mem_flatMap.2 ⟨0, hcp, by decide⟩
            exact (hb' 0 this).2 rfl
          have hne : w ≠ [] := by rintro rfl; exact h0 rfl
          have hv : ∀ cp ∈ w, ValidCp cp ∧ cp ≠ 0 := fun cp h => ⟨hw cp h, hnz cp h⟩
          exact .inr ⟨w, hv, rfl, C92_utf8_partial analyze s hv hne (by omega)⟩
        · refine .inl ⟨.inr (.inr ⟨bytes, rfl, .inr hval⟩), ?_⟩
          have hu : ucs4FromUtf8 bytes = some none := by
            cases hx : ucs4FromUtf8 bytes with
            | none => exact absurd hx (C15_in_bounds bytes fun b h => (hb' b h).1)
            | some r =>
              cases r with
              | none => rfl
              | some w => exact absurd ⟨w, (C15_decoder_exact bytes w fun b h => (hb' b h).1).1 hx⟩ hval
          cases bytes with
          | nil => exact absurd rfl h0
          | cons b bs =>
            unfold analyzeWordCstr
            simp only
            rw [if_neg (by have : maxWordChars = 255 := rfl; omega), hu]
            rfl

/-- The hypotheses of `C92_utf8_partial` and `C92_ucs4` hold for the word `Äb`. -/
example : analyzeWordCstr (vfstAnalyze demoAcceptor fun x => [x.toNat]) (WConf.new 0 2000) (some [0xC3, 0x84, 0x62]) =
    (analyzeWordUcs4 (vfstAnalyze demoAcceptor fun x => [x.toNat]) (WConf.new 0 2000) [0xC4, 0x62]).map fun r => (some r.1, r.2) :=
  C92_utf8_partial _ _ (w := [0xC4, 0x62]) (by unfold ValidCp; decide) (by decide) (by decide)

example : Made (vfstAnalysis (fun x => [x.toNat]) true (lit "ab") 2) := ⟨[.add .fstoutput (lit "ab"), .add .weight [2]], rfl⟩

/-- A dictionary that accepts the words `ä`, `ää` and so on. -/
def umlautFst : WFst :=
  { cells := [⟨0xFFFFFFFF, 0, 0, 7, 1⟩, ⟨1, 1, 0, 0, 0⟩], symbols := [[], [0xE4]], firstNormal := 1, diacritics := []
    featureCount := 0, charToSym := [(0xE4, 1)] }

/-- C92 fails for words of at most 255 characters that have more than 255 bytes: a word of 128 letters has an analysis, but the
function for UTF-8 strings returns the null pointer. -/
theorem C92_violation : ∃ (f : WFst) (w : List Nat) (a : Ana) (c' : WConf), w.length = 128 ∧ (∀ cp ∈ w, ValidCp cp ∧ cp ≠ 0) ∧
    analyzeWordUcs4 (vfstAnalyze f fun x => [x.toNat]) (WConf.new f.featureCount 2000) w = some ([a], c') ∧
    analyzeWordCstr (vfstAnalyze f fun x => [x.toNat]) (WConf.new f.featureCount 2000) (some (encodeStr w)) =
      some (none, WConf.new f.featureCount 2000) := by
  have h : ((analyzeWordUcs4 (vfstAnalyze umlautFst fun x => [x.toNat]) (WConf.new umlautFst.featureCount 2000)
      (List.replicate 128 0xE4)).map fun r => r.1.length) = some 1 := by decide +kernel
  obtain ⟨⟨l, c'⟩, h1, h2⟩ := Option.map_eq_some_iff.1 h
  obtain ⟨a, rfl⟩ := List.length_eq_one_iff.1 h2
  refine ⟨umlautFst, List.replicate 128 0xE4, a, c', List.length_replicate, ?_, h1, by decide +kernel⟩
  intro cp h
  rw [List.eq_of_mem_replicate h]
  unfold ValidCp
  omega

end Verif.Props
