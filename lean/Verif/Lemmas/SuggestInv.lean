import Verif.Lemmas.SuggestSplit
import Verif.Spec.SuggestGood
/-!
# Invariants of the suggestion search
-/
set_option linter.unusedSimpArgs false
set_option linter.unusedVariables false

namespace Verif.Props
open Verif Verif.Spec

/-! ### Capitalisation -/

theorem isLower_upper (c : Wc) : isLower (upper c) = false := by
  unfold isLower
  simp [(C09_case_laws c).2.1]

theorem isUpper_lower (c : Wc) (h : isUpper (lower c) = true) : lower c = 0x18F := by
  unfold isUpper at h
  simpa [(C09_case_laws c).1] using h

theorem wrongAt_zip (x s : List Wc) (i : Nat) : WrongAt x s i ↔
    ∃ p, (x.zip (caseRequirements s))[i]? = some p ∧ (TooLow p.1 p.2 ∨ TooHigh p.1 p.2) := by
  rw [WrongAt, at_iff, at_iff]
  constructor
  · rintro (⟨p, a, b⟩ | ⟨p, a, b⟩)
    · exact ⟨p, a, Or.inl b⟩
    · exact ⟨p, a, Or.inr b⟩
  · rintro ⟨p, a, b | b⟩
    · exact Or.inl ⟨p, a, b⟩
    · exact Or.inr ⟨p, a, b⟩

theorem applyStructure_spec (w cells : List Wc) (h : 0 ∈ cells) :
    ∃ x, applyStructure w cells = some x ∧ x.map lower = w.map lower ∧ (0 ∉ w → 0 ∉ x) ∧
      ∀ (i : Nat) p, (x.zip (caseRequirements cells))[i]? = some p → (TooLow p.1 p.2 ∨ TooHigh p.1 p.2) → p.1 = 0x18F := by
  induction w generalizing cells with
  | nil => exact ⟨[], rfl, rfl, fun h => h, by simp⟩
  | cons c cs ih =>
    obtain ⟨k, t, h1, h2, h3, h4⟩ := skipEq_spec cells h
    rw [applyStructure, h1, h3]
    simp only [Option.bind_eq_bind, Option.bind_some, rd, List.getElem?_cons_zero, Option.pure_def,
      List.drop_succ_cons, List.drop_zero]
    by_cases hk : k = 0
    · subst hk
      exact ⟨c :: cs, by simp, rfl, fun h => h, by simp [caseRequirements]⟩
    · have h5 : 0 ∈ t := by
        rcases List.mem_cons.1 h4 with e | e
        · exact absurd e.symm hk
        · exact e
      obtain ⟨x, e1, e2, e3, e4⟩ := ih t h5
      rw [if_neg hk, e1]
      obtain ⟨l1, l2, l3, _⟩ := C09_case_laws c
      refine ⟨_, rfl, ?_, ?_, ?_⟩
      · simp only [List.map_cons, e2, List.cons.injEq, and_true]
        split
        · exact l3
        · split
          · exact l1
          · rfl
      · intro hz
        simp only [List.mem_cons, not_or] at hz ⊢
        refine ⟨?_, e3 hz.2⟩
        have hc : c ≠ 0 := fun e => hz.1 e.symm
        split
        · exact (upper_ne_zero c hc).symm
        · split
          · exact (lower_ne_zero c hc).symm
          · exact hz.1
      · intro i p hp hw
        rw [caseRequirements_cons k t hk h2, List.zip_cons_cons] at hp
        cases i with
        | zero =>
          simp only [List.getElem?_cons_zero, Option.some.injEq] at hp
          subst hp
          simp only [TooLow, TooHigh] at hw ⊢
          by_cases k1 : k = 0x69 ∨ k = 0x6A
          · rw [if_pos k1] at hw ⊢
            rw [isLower_upper] at hw
            rcases hw with ⟨hw, _⟩ | ⟨_, hw⟩
            · cases hw
            · omega
          · rw [if_neg k1] at hw ⊢
            rcases hw with ⟨_, hw⟩ | ⟨hw, k2⟩
            · exact absurd hw k1
            · rw [if_pos k2] at hw ⊢
              exact isUpper_lower c hw
        | succ i =>
          rw [List.getElem?_cons_succ] at hp
          exact e4 i p hp hw

theorem gives_ok {x : List Wc} {a : MorAn} (h : Gives x a .ok) : ∃ s, a.struct = some s ∧ ∀ i, ¬ WrongAt x s i := by
  obtain ⟨s, h1, h2⟩ := h
  obtain ⟨r, g1, g2, _⟩ := C26_verdict x s
  rw [h2] at g1; cases g1
  exact ⟨s, h1, g2.1 rfl⟩

theorem gives_capFirst {x : List Wc} {a : MorAn} (h : Gives x a .capFirst) :
    ∃ s, a.struct = some s ∧ At TooLow x s 0 ∧ ∀ i, 0 < i → ¬ WrongAt x s i := by
  obtain ⟨s, h1, h2⟩ := h
  obtain ⟨r, g1, _, g3, _⟩ := C26_verdict x s
  rw [h2] at g1; cases g1
  exact ⟨s, h1, g3.1 rfl⟩

/-- Only the first letter differs. -/
theorem wrongAt_tail (c d : Wc) (cs s : List Wc) (i : Nat) (hi : 0 < i) (h : WrongAt (c :: cs) s i) :
    WrongAt (d :: cs) s i := by
  obtain ⟨i, rfl⟩ : ∃ m, i = m + 1 := ⟨i - 1, by omega⟩
  unfold WrongAt At at *
  simpa only [List.getElem?_cons_succ] using h

theorem not_tooLow_upper (c : Wc) (cs s : List Wc) : ¬ At TooLow (upper c :: cs) s 0 := by
  rintro ⟨d, k, h1, h2, h3, _⟩
  simp only [List.getElem?_cons_zero, Option.some.injEq] at h1
  rw [← h1, isLower_upper] at h3; cases h3

/-! ### One candidate -/

/-- Invariant of the search. -/
structure SugInv (an : Analyzer) (s : SugStatus) : Prop where
  cap : s.sugg.length ≤ s.maxSug
  small : s.maxSug ≤ 30
  cost : s.cost ≤ 2 * s.maxCost + 2
  good : ∀ x ∈ s.sugg, GoodSug an x.1

theorem not_abort {s : SugStatus} (h : s.shouldAbort = false) : s.sugg.length ≠ s.maxSug ∧ s.cost < 2 * s.maxCost := by
  unfold SugStatus.shouldAbort at h
  by_cases h1 : s.sugg.length = s.maxSug
  · rw [if_pos h1] at h; cases h
  rw [if_neg h1] at h
  refine ⟨h1, ?_⟩
  by_cases h2 : s.cost < s.maxCost
  · omega
  rw [if_neg h2] at h
  by_cases h3 : s.sugg.length = 0 ∧ s.cost < 2 * s.maxCost
  · exact h3.2
  · rw [if_neg h3] at h; cases h

theorem add_ok {s : SugStatus} {x : List Wc} {p : Nat} (h1 : s.sugg.length < s.maxSug) (h2 : s.maxSug ≤ 30)
    (hp : p ≤ 8847360) :
    s.addSuggestion x p = some { s with sugg := s.sugg ++ [(x, p * (s.sugg.length + 5))] } := by
  unfold SugStatus.addSuggestion int32
  rw [if_pos h1, if_pos (by nlinarith)]
  rfl

/-- What the submission of a candidate does if the search has not been aborted. -/
theorem suggest_spec (an : Analyzer) (h : AnalyzerOk an) (s : SugStatus) (c : List Wc) (h0 : 0 ∉ c)
    (hcap : s.sugg.length ≤ s.maxSug) (hs : s.maxSug ≤ 30) (hab : s.shouldAbort = false) :
    (an c = [] ∧ suggestForBuffer an s c = some s.charge) ∨
    ∃ x p k, suggestForBuffer an s c = some { s with cost := s.cost + k, sugg := s.sugg ++ [(x, p)] } ∧ an c ≠ [] ∧
      1 ≤ k ∧ k ≤ 2 ∧ x.map lower = c.map lower ∧ Accepted an x := by
  obtain ⟨n1, n2⟩ := not_abort hab
  have hlt : s.sugg.length < s.maxSug := by omega
  obtain ⟨r, p, e1, e2, e3, e4⟩ := swp_total an h c
  unfold suggestForBuffer
  rw [if_neg (by simp [hab]), e1]
  simp only [Option.bind_eq_bind, Option.bind_some, Option.pure_def]
  cases r with
  | failed => exact Or.inl ⟨e3.1 rfl, rfl⟩
  | ok =>
    right
    obtain ⟨a, ha, hg⟩ := e4 (by simp)
    obtain ⟨st, g1, g2⟩ := gives_ok hg
    simp only
    rw [wcsncpyR_plain c c.length (by simpa using h0) (Nat.le_refl _)]
    simp only [Option.bind_some, List.take_length]
    rw [takeWhile_nz c h0, add_ok (s := s.charge) hlt hs (by omega)]
    exact ⟨_, _, 1, rfl, by intro e; rw [e] at ha; simp at ha, by omega, by omega, rfl, c, rfl, a, ha, st, g1,
      fun i hi => absurd hi (g2 i)⟩
  | capFirst =>
    right
    obtain ⟨a, ha, hg⟩ := e4 (by simp)
    obtain ⟨st, g1, ⟨d, k, g2, g3, g4⟩, g5⟩ := gives_capFirst hg
    cases c with
    | nil => simp at g2
    | cons c cs =>
      simp only [List.getElem?_cons_zero, Option.some.injEq] at g2
      subst g2
      simp only [List.mem_cons, not_or] at h0
      simp only [rd, List.getElem?_cons_zero, Option.bind_some, List.drop_succ_cons, List.drop_zero, List.length_cons,
        Nat.add_sub_cancel]
      rw [wcsncpyR_plain cs cs.length (by simpa using h0.2) (Nat.le_refl _)]
      simp only [Option.bind_some, List.take_length]
      have hu := upper_ne_zero c (fun e => h0.1 e.symm)
      rw [takeWhile_nz _ (by simp [h0.2, hu.symm]), add_ok (s := s.charge) hlt hs (by omega)]
      have el : (upper c :: cs).map lower = (c :: cs).map lower := by simp [(C09_case_laws c).2.2.1]
      refine ⟨_, _, 1, rfl, by intro e; rw [e] at ha; simp at ha, by omega, by omega, el, c :: cs, el, a, ha, st, g1, ?_⟩
      intro i hi
      exfalso
      rcases Nat.eq_zero_or_pos i with rfl | hpos
      · rcases hi with hi | ⟨d, k', q1, q2, q3⟩
        · exact not_tooLow_upper c cs st hi
        · rw [g3] at q2; cases q2
          have q4 := q3.2
          have g6 := g4.2
          omega
      · exact g5 i hpos (wrongAt_tail _ _ _ _ _ hpos hi)
  | capError =>
    right
    simp only
    obtain ⟨a0, ha0, _⟩ := e4 (by simp)
    cases han : an c with
    | nil => rw [han] at ha0; simp at ha0
    | cons a as =>
      have ha : a ∈ an c := by rw [han]; simp
      obtain ⟨st, hst⟩ := h c a ha
      simp only [MorAn.structCells, hst, Option.bind_some]
      rw [wcsncpyR_plain c c.length (by simpa using h0) (Nat.le_refl _)]
      simp only [Option.bind_some, List.take_length]
      obtain ⟨x, x1, x2, x3, x4⟩ := applyStructure_spec c (st ++ [0]) (by simp)
      rw [x1]
      simp only [Option.bind_some]
      rw [takeWhile_nz x (x3 h0), add_ok (s := s.charge.charge) hlt hs (by omega)]
      refine ⟨_, _, 2, rfl, by simp, by omega, by omega, x2, c, x2, a, ha, st, hst, ?_⟩
      intro i hi
      rw [wrongAt_zip] at hi
      obtain ⟨p, p1, p2⟩ := hi
      rw [← caseRequirements_cells] at p1
      have := x4 i p p1 p2
      rw [List.getElem?_zip_eq_some] at p1
      rw [p1.1, this]

theorem suggest_inv (an : Analyzer) (h : AnalyzerOk an) (s : SugStatus) (c : List Wc) (h0 : 0 ∉ c) (hi : SugInv an s) :
    ∃ s', suggestForBuffer an s c = some s' ∧ SugInv an s' ∧ SameTask s s' := by
  cases hab : s.shouldAbort with
  | true => exact ⟨s, suggest_abort an s c hab, hi, SameTask.refl _⟩
  | false =>
    obtain ⟨n1, n2⟩ := not_abort hab
    have := hi.cap
    rcases suggest_spec an h s c h0 hi.cap hi.small hab with ⟨_, e⟩ | ⟨x, p, k, e, _, k1, k2, _, e2⟩
    · exact ⟨_, e, ⟨hi.cap, hi.small, by simp [SugStatus.charge]; omega, hi.good⟩, ⟨rfl, rfl, rfl⟩⟩
    · refine ⟨_, e, ⟨by simp; omega, hi.small, by simp; omega, ?_⟩, ⟨rfl, rfl, rfl⟩⟩
      intro y hy
      simp only [List.mem_append, List.mem_singleton] at hy
      rcases hy with hy | hy
      · exact hi.good y hy
      · subst hy; exact Or.inl e2

theorem feed_inv (an : Analyzer) (h : AnalyzerOk an) (cs : List (List Wc)) (h0 : ∀ c ∈ cs, 0 ∉ c) (s : SugStatus)
    (hi : SugInv an s) : ∃ s', feed an cs s = some s' ∧ SugInv an s' ∧ SameTask s s' := by
  induction cs generalizing s with
  | nil => exact ⟨s, rfl, hi, SameTask.refl _⟩
  | cons c cs ih =>
    obtain ⟨s1, e1, i1, t1⟩ := suggest_inv an h s c (h0 c (by simp)) hi
    obtain ⟨s2, e2, i2, t2⟩ := ih (fun x hx => h0 x (by simp [hx])) s1 i1
    exact ⟨s2, by rw [feed_cons, e1]; exact e2, i2, t1.trans t2⟩

/-- If the search is still running after a list of candidates, then every recognised candidate has led to a
suggestion, and the earlier suggestions are still there. -/
theorem feed_complete (an : Analyzer) (h : AnalyzerOk an) (cs : List (List Wc)) (h0 : ∀ c ∈ cs, 0 ∉ c) (s s' : SugStatus)
    (hcap : s.sugg.length ≤ s.maxSug) (hs : s.maxSug ≤ 30) (he : feed an cs s = some s') (hab : s'.shouldAbort = false) :
    s.sugg <+: s'.sugg ∧ (∀ c ∈ cs, an c ≠ [] → ∃ x ∈ s'.sugg, x.1.map lower = c.map lower) ∧
      ∀ x ∈ s'.sugg, x ∈ s.sugg ∨ ∃ c ∈ cs, an c ≠ [] ∧ x.1.map lower = c.map lower := by
  induction cs generalizing s with
  | nil => cases he; exact ⟨List.prefix_refl _, by simp, fun x hx => Or.inl hx⟩
  | cons c cs ih =>
    cases hs0 : s.shouldAbort with
    | true =>
      rw [feed_abort _ _ _ hs0] at he
      cases he
      rw [hs0] at hab; cases hab
    | false =>
      have h0' : ∀ c ∈ cs, 0 ∉ c := fun x hx => h0 x (by simp [hx])
      obtain ⟨n1, n2⟩ := not_abort hs0
      rw [feed_cons] at he
      rcases suggest_spec an h s c (h0 c (by simp)) hcap hs hs0 with ⟨en, e⟩ | ⟨x, p, k, e, en, k1, k2, e1, e2⟩
      · rw [e] at he
        obtain ⟨g1, g2, g3⟩ := ih h0' s.charge hcap hs he
        refine ⟨g1, ?_, ?_⟩
        · intro d hd hne
          rcases List.mem_cons.1 hd with rfl | hd
          · exact absurd en hne
          · exact g2 d hd hne
        · intro y hy
          rcases g3 y hy with g | ⟨d, hd, g⟩
          · exact Or.inl g
          · exact Or.inr ⟨d, by simp [hd], g⟩
      · rw [e] at he
        simp only [Option.bind_some] at he
        obtain ⟨g1, g2, g3⟩ := ih h0' { s with cost := s.cost + k, sugg := s.sugg ++ [(x, p)] } (by simp; omega) hs he
        simp only at g1 g3
        refine ⟨(List.prefix_append _ _).trans g1, ?_, ?_⟩
        · intro d hd hne
          rcases List.mem_cons.1 hd with rfl | hd
          · exact ⟨(x, p), g1.subset (by simp), e1⟩
          · exact g2 d hd hne
        · intro y hy
          rcases g3 y hy with g | ⟨d, hd, g⟩
          · simp only [List.mem_append, List.mem_singleton] at g
            rcases g with g | g
            · exact Or.inl g
            · subst g; exact Or.inr ⟨c, by simp, en, e1⟩
          · exact Or.inr ⟨d, by simp [hd], g⟩

/-! ### Splitting -/

theorem capIf_lower (b : Bool) (x : List Wc) : (capIf b x).map lower = x.map lower := by
  cases x with
  | nil => rfl
  | cons c cs => cases b <;> simp [capIf, (C09_case_laws c).2.2.1]

theorem lowerFirst_lower (x : List Wc) : (lowerFirst x).map lower = x.map lower := by
  cases x with
  | nil => rfl
  | cons c cs => simp [lowerFirst, (C09_case_laws c).1]

/-- A part that was looked up successfully. -/
theorem part_accepted (an : Analyzer) (h : AnalyzerOk an) (x : List Wc) (r : SpellRes) (p : Nat) (cap : Bool)
    (he : spellWithPriority an (lowerFirst x) = some (r, p)) (hr : partOk r = true)
    (hcap : headUpper x = true ∨ r = .capFirst → cap = true) : AcceptedCap an (capIf cap x) := by
  obtain ⟨r', p', e1, _, _, e4⟩ := swp_total an h (lowerFirst x)
  rw [he] at e1; cases e1
  obtain ⟨a, ha, hg⟩ := e4 (by rintro rfl; simp [partOk] at hr)
  refine ⟨lowerFirst x, by rw [capIf_lower, lowerFirst_lower], a, ha, ?_⟩
  cases x with
  | nil =>
    obtain ⟨s, hs⟩ := h _ a ha
    exact ⟨s, hs, by intro i _; simp [WrongAt, At, capIf], by simp [At, capIf]⟩
  | cons c cs =>
    cases r with
    | failed => simp [partOk] at hr
    | capError => simp [partOk] at hr
    | ok =>
      obtain ⟨s, g1, g2⟩ := gives_ok hg
      refine ⟨s, g1, fun i hi hw => g2 i (wrongAt_tail _ _ _ _ _ hi hw), ?_⟩
      cases cap with
      | true => exact not_tooLow_upper c cs s
      | false =>
        have hu : isUpper c = false := by
          cases hu : isUpper c with
          | false => rfl
          | true => have := hcap (Or.inl (by simp [headUpper, hu])); cases this
        intro ht
        apply g2 0
        left
        simp only [capIf, Bool.false_eq_true, if_false] at ht
        simpa only [lowerFirst, lower_of_not_upper c hu] using ht
    | capFirst =>
      obtain ⟨s, g1, _, g2⟩ := gives_capFirst hg
      have : cap = true := hcap (Or.inr rfl)
      subst this
      exact ⟨s, g1, fun i hi hw => g2 i hi (wrongAt_tail _ _ _ _ _ hi hw), not_tooLow_upper c cs s⟩

theorem tryFirst_good (an : Analyzer) (h : AnalyzerOk an) (a : List Wc) (ha : 2 ≤ a.length) (cap cap' : Bool) (p : Nat)
    (s s' : SugStatus) (he : tryFirst an a cap s = some (true, p, cap', s')) :
    AcceptedCap an (capIf cap' a) ∨ ∃ a', capIf cap' a = a' ++ [0x2E] ∧ AcceptedCap an a' := by
  unfold tryFirst at he
  obtain ⟨r, q, e1, _⟩ := swp_total an h (lowerFirst a)
  rw [e1] at he
  simp only [Option.bind_eq_bind, Option.bind_some, Option.pure_def] at he
  by_cases h3 : partOk r = true
  · rw [if_pos h3] at he
    simp only [Option.some.injEq, Prod.mk.injEq] at he
    left
    refine part_accepted an h a r q cap' e1 h3 ?_
    intro hh
    rw [← he.2.2.1]
    rcases hh with hh | hh <;> simp [hh]
  · rw [if_neg h3] at he
    by_cases h4 : a.getLast? = some 0x2E
    · rw [if_pos h4] at he
      obtain ⟨r', q', e1', _⟩ := swp_total an h (lowerFirst a.dropLast)
      rw [e1'] at he
      simp only [Option.bind_some, Option.some.injEq, Prod.mk.injEq] at he
      right
      have hd := dropLast_append_getLast? h4
      have hne : a.dropLast ≠ [] := by
        intro e; have := congrArg List.length e; simp at this; omega
      refine ⟨capIf cap' a.dropLast, ?_, part_accepted an h a.dropLast r' q' cap' e1' he.1 ?_⟩
      · conv_lhs => rw [hd]
        exact capIf_append _ _ _ hne
      · rw [headUpper_dropLast a ha]
        intro hh
        rw [← he.2.2.1]
        rcases hh with hh | hh <;> simp [hh]
    · rw [if_neg h4] at he
      simp at he

theorem trySplit_inv (an : Analyzer) (h : AnalyzerOk an) (w : List Wc) (i : Nat) (h2 : 2 ≤ i) (hi : i + 2 ≤ w.length)
    (cap : Bool) (s : SugStatus) (hv : SugInv an s) (hab : s.shouldAbort = false) :
    ∃ cap' s', trySplit an w i cap s = some (cap', s') ∧ SugInv an s' ∧ SameTask s s' := by
  obtain ⟨n1, n2⟩ := not_abort hab
  have hc := hv.cap
  obtain ⟨ok, p, cap', s1, e1, e2, e3, e4, e5, e6⟩ := tryFirst_total an h (before w i) cap s
  have hlt : s1.sugg.length < s1.maxSug := by rw [e4, e3.2.1]; omega
  have hsm : s1.maxSug ≤ 30 := by rw [e3.2.1]; exact hv.small
  unfold trySplit
  rw [e1]
  simp only [Option.bind_eq_bind, Option.bind_some, Option.pure_def]
  cases hok : ok with
  | false =>
    exact ⟨_, _, rfl, ⟨by rw [e4, e3.2.1]; exact hc, hsm, by rw [e3.2.2]; omega, by rw [e4]; exact hv.good⟩, e3⟩
  | true =>
    subst hok
    simp only [if_true]
    obtain ⟨r, q, f1, f2, _⟩ := swp_total an h (lowerFirst (after w i))
    rw [f1]
    simp only [Option.bind_some]
    by_cases hr : partOk r = true
    · rw [if_pos hr]
      have hm : (if w[i]? = some 0x2D then 6 else 1) ≤ 6 := by split <;> omega
      rw [add_ok (s := s1.charge) hlt hsm (by nlinarith)]
      refine ⟨_, _, rfl, ⟨?_, hsm, ?_, ?_⟩, ⟨e3.1, e3.2.1, e3.2.2⟩⟩
      · simp [SugStatus.charge]; omega
      · simp [SugStatus.charge]; rw [e3.2.2]; omega
      · intro y hy
        simp only [SugStatus.charge, List.mem_append, List.mem_singleton, e4] at hy
        rcases hy with hy | hy
        · exact hv.good y hy
        · subst hy
          right
          refine ⟨_, _, rfl, ?_, tryFirst_good an h (before w i) (by simp [before]; omega) cap cap' p s s1 e1⟩
          refine part_accepted an h (after w i) r q _ f1 hr ?_
          rintro (hh | hh) <;> simp [hh]
    · rw [if_neg hr]
      exact ⟨_, _, rfl, ⟨by simp [SugStatus.charge]; omega, hsm, by simp [SugStatus.charge]; rw [e3.2.2]; omega,
        by simp only [SugStatus.charge, e4]; exact hv.good⟩, ⟨e3.1, e3.2.1, e3.2.2⟩⟩

theorem trySplits_inv (an : Analyzer) (h : AnalyzerOk an) (w : List Wc) (is : List Nat)
    (his : ∀ i ∈ is, 2 ≤ i ∧ i + 2 ≤ w.length) (cap : Bool) (s : SugStatus) (hv : SugInv an s)
    (hab : s.shouldAbort = false) : ∃ s', trySplits an w is cap s = some s' ∧ SugInv an s' ∧ SameTask s s' := by
  induction is generalizing cap s with
  | nil => exact ⟨s, rfl, hv, SameTask.refl _⟩
  | cons i is ih =>
    obtain ⟨cap', s1, e1, i1, t1⟩ := trySplit_inv an h w i (his i (by simp)).1 (his i (by simp)).2 cap s hv hab
    unfold trySplits
    rw [e1]
    simp only [Option.bind_eq_bind, Option.bind_some, Option.pure_def]
    cases hs1 : s1.shouldAbort with
    | true => exact ⟨s1, rfl, i1, t1⟩
    | false =>
      obtain ⟨s2, e2, i2, t2⟩ := ih (fun x hx => his x (by simp [hx])) cap' s1 i1 hs1
      exact ⟨s2, by simpa using e2, i2, t1.trans t2⟩

theorem splitPlaces_mem {w : List Wc} {i : Nat} (h : i ∈ splitPlaces w) : 2 ≤ i ∧ i + 2 ≤ w.length := by
  unfold splitPlaces at h
  simp only [List.mem_reverse, List.mem_filter, decide_eq_true_eq] at h
  exact ⟨h.2.1, h.2.2.1⟩

/-! ### No terminators in candidates -/

theorem nz_deletions {w : List Wc} (h : 0 ∉ w) : ∀ c ∈ deletions w, 0 ∉ c := by
  intro c hc
  unfold deletions at hc
  rw [List.mem_filterMap] at hc
  obtain ⟨i, _, hc⟩ := hc
  split at hc
  · cases hc; exact fun hm => h (List.mem_of_mem_eraseIdx hm)
  · cases hc

theorem nz_insertAt {w : List Wc} {c : Wc} (h : 0 ∉ w) (hc : c ≠ 0) (i : Nat) : 0 ∉ insertAt w i c := by
  unfold insertAt
  simp only [List.mem_append, List.mem_cons, not_or]
  exact ⟨not_mem_take h i, hc.symm, not_mem_drop h i⟩

theorem nz_pairDeletions {w : List Wc} (h : 0 ∉ w) : ∀ c ∈ pairDeletions w, 0 ∉ c := by
  intro c hc
  unfold pairDeletions at hc
  split at hc
  · simp at hc
  · rw [List.mem_eraseDups] at hc
    unfold doubledPairs at hc
    rw [List.mem_filterMap] at hc
    obtain ⟨i, _, hc⟩ := hc
    split at hc
    · cases hc
      simp only [List.mem_append, not_or]
      exact ⟨not_mem_take h i, not_mem_drop h _⟩
    · cases hc

theorem nz_special {w : List Wc} (h : 0 ∉ w) : ∀ c ∈ hyphenInsertions w ++ duplications w, 0 ∉ c := by
  intro c hc
  rw [List.mem_append] at hc
  rcases hc with hc | hc
  · unfold hyphenInsertions at hc
    rw [List.mem_filterMap] at hc
    obtain ⟨i, _, hc⟩ := hc
    split at hc
    · cases hc; exact nz_insertAt h (by omega) i
    · cases hc
  · unfold duplications at hc
    rw [List.mem_filterMap] at hc
    obtain ⟨i, _, hc⟩ := hc
    split at hc
    · cases hc
    · rw [Option.map_eq_some_iff] at hc
      obtain ⟨d, hd, rfl⟩ := hc
      exact nz_insertAt h (fun e => h (e ▸ List.mem_of_getElem? hd)) i

theorem nz_insertions {chars w : List Wc} (h : 0 ∉ w) (hch : 0 ∉ chars) : ∀ c ∈ insertions chars w, 0 ∉ c := by
  intro c hc
  unfold insertions at hc
  rw [List.mem_flatMap] at hc
  obtain ⟨d, hd, hc⟩ := hc
  have hd0 : d ≠ 0 := fun e => hch (e ▸ hd)
  unfold insertionsOf at hc
  rw [List.mem_append, List.mem_filterMap] at hc
  rcases hc with ⟨i, _, hc⟩ | hc
  · split at hc
    · cases hc
    · cases hc; exact nz_insertAt h hd0 i
  · split at hc
    · simp at hc
    · simp only [List.mem_singleton] at hc
      subst hc
      simp [h, hd0.symm]

theorem pairs_mem {table : List Wc} {p : Wc × Wc} (h : p ∈ pairs table) : p.1 ∈ table ∧ p.2 ∈ table := by
  induction table using pairs.induct with
  | case1 f t rest ih =>
    rw [pairs, List.mem_cons] at h
    rcases h with rfl | h
    · simp
    · have := ih h; simp [this]
  | case2 l hl =>
    match l, hl with
    | [], _ => simp [pairs] at h
    | [_], _ => simp [pairs] at h
    | a :: b :: t, hl => exact absurd rfl (hl a b t)

theorem nz_replaceOne {w : List Wc} (h : 0 ∉ w) {off : Nat} {f t : Wc} (ht : t ≠ 0) : ∀ c ∈ replaceOne off f t w, 0 ∉ c := by
  intro c hc
  unfold replaceOne at hc
  rw [List.mem_filterMap] at hc
  obtain ⟨i, _, hc⟩ := hc
  split at hc
  · cases hc; exact not_mem_set h i t ht
  · cases hc

theorem nz_replacements {table w : List Wc} (h : 0 ∉ w) (ht : 0 ∉ table) : ∀ c ∈ replacements table w, 0 ∉ c := by
  intro c hc
  unfold replacements at hc
  rw [List.mem_flatMap] at hc
  obtain ⟨p, hp, hc⟩ := hc
  have hp2 : p.2 ≠ 0 := fun e => ht (e ▸ (pairs_mem hp).2)
  rw [List.mem_append] at hc
  rcases hc with hc | hc
  · exact nz_replaceOne h hp2 c hc
  · split at hc
    · simp at hc
    · exact nz_replaceOne h (upper_ne_zero _ hp2) c hc

theorem nz_multi {table : List Wc} (ht : 0 ∉ table) (r off : Nat) {w : List Wc} (h : 0 ∉ w) :
    ∀ c ∈ multiReplacements table r off w, 0 ∉ c := by
  induction r generalizing off w with
  | zero =>
    intro c hc
    unfold multiReplacements at hc
    rw [List.mem_flatMap] at hc
    obtain ⟨p, hp, hc⟩ := hc
    exact nz_replaceOne h (fun e => ht (e ▸ (pairs_mem hp).2)) c hc
  | succ r ih =>
    intro c hc
    unfold multiReplacements at hc
    rw [List.mem_flatMap] at hc
    obtain ⟨p, hp, hc⟩ := hc
    rw [List.mem_flatMap] at hc
    obtain ⟨i, _, hc⟩ := hc
    split at hc
    · exact ih i (not_mem_set h i _ (fun e => ht (e ▸ (pairs_mem hp).2))) c hc
    · simp at hc

theorem nz_lower {w : List Wc} (h : 0 ∉ w) : 0 ∉ w.map lower := by
  intro hm
  rw [List.mem_map] at hm
  obtain ⟨c, hc, e⟩ := hm
  exact lower_ne_zero c (fun e => h (e ▸ hc)) e

theorem nz_double {table w : List Wc} (h : 0 ∉ w) (ht : 0 ∉ table) : ∀ c ∈ doubleReplacements table w, 0 ∉ c := by
  intro c hc
  unfold doubleReplacements at hc
  rw [List.mem_flatMap] at hc
  obtain ⟨i, _, hc⟩ := hc
  rw [List.mem_filterMap] at hc
  obtain ⟨p, hp, hc⟩ := hc
  have hp2 : p.2 ≠ 0 := fun e => ht (e ▸ (pairs_mem hp).2)
  split at hc
  · cases hc; exact not_mem_set (not_mem_set (nz_lower h) _ _ hp2) _ _ hp2
  · cases hc

theorem nz_swaps {w : List Wc} (h : 0 ∉ w) (d : Nat) : ∀ c ∈ swaps d w, 0 ∉ c := by
  intro c hc
  unfold swaps at hc
  rw [List.mem_flatMap] at hc
  obtain ⟨i, _, hc⟩ := hc
  rw [List.mem_filterMap] at hc
  obtain ⟨j, _, hc⟩ := hc
  split at hc
  · next a b ha hb =>
    split at hc
    · cases hc
      exact not_mem_set (not_mem_set h _ _ (fun e => h (e ▸ List.mem_of_getElem? hb))) _ _
        (fun e => h (e ▸ List.mem_of_getElem? ha))
    · cases hc
  · cases hc

theorem nz_flip (pat j : Nat) {w : List Wc} (h : 0 ∉ w) : 0 ∉ flipBits pat j w := by
  induction w generalizing j with
  | nil => exact h
  | cons c cs ih =>
    simp only [List.mem_cons, not_or] at h
    unfold flipBits
    split
    · next v hv =>
      have := (otherVowel_ne c v hv).2.1
      simp only [List.mem_cons, not_or]
      refine ⟨?_, ih _ h.2⟩
      split
      · exact this.symm
      · exact h.1
    · simp only [List.mem_cons, not_or]
      exact ⟨h.1, ih _ h.2⟩

theorem nz_vowel {w : List Wc} (h : 0 ∉ w) : ∀ c ∈ vowelChanges w, 0 ∉ c := by
  intro c hc
  unfold vowelChanges at hc
  split at hc
  · simp at hc
  · rw [List.mem_map] at hc
    obtain ⟨pat, _, rfl⟩ := hc
    exact nz_flip pat 0 h

theorem nz_soft {w : List Wc} (h : 0 ∉ w) : ∀ c ∈ softHyphenRemoval w, 0 ∉ c := by
  intro c hc
  unfold softHyphenRemoval at hc
  split at hc
  · simp only [List.mem_singleton] at hc
    subst hc
    exact fun hm => h (List.mem_filter.1 hm).1
  · simp at hc

/-! ### Strategies -/

/-- A generator that behaves on the word `w`. -/
def GenOk (an : Analyzer) (w : List Wc) (g : Gen) : Prop :=
  ∀ s, s.word = w → SugInv an s → s.shouldAbort = false → ∃ s', g s = some s' ∧ SugInv an s' ∧ SameTask s s'

theorem genOk_feed {an : Analyzer} (h : AnalyzerOk an) {w : List Wc} {g : Gen} {cs : List (List Wc)}
    (he : ∀ s, s.word = w → g s = feed an cs s) (hz : ∀ c ∈ cs, 0 ∉ c) : GenOk an w g := by
  intro s hs hv _
  rw [he s hs]
  exact feed_inv an h cs hz s hv

theorem runGens_inv (an : Analyzer) (w : List Wc) (gs : List Gen) (hg : ∀ g ∈ gs, GenOk an w g) (s : SugStatus)
    (hs : s.word = w) (hv : SugInv an s) : ∃ s', runGens gs s = some s' ∧ SugInv an s' ∧ SameTask s s' := by
  induction gs generalizing s with
  | nil => exact ⟨s, rfl, hv, SameTask.refl _⟩
  | cons g gs ih =>
    unfold runGens
    cases hab : s.shouldAbort with
    | true => exact ⟨s, rfl, hv, SameTask.refl _⟩
    | false =>
      obtain ⟨s1, e1, i1, t1⟩ := hg g (by simp) s hs hv hab
      obtain ⟨s2, e2, i2, t2⟩ := ih (fun x hx => hg x (by simp [hx])) s1 (t1.1.trans hs) i1
      refine ⟨s2, ?_, i2, t1.trans t2⟩
      simp only [Bool.false_eq_true, if_false, Option.bind_eq_bind, e1, Option.bind_some]
      exact e2

theorem strategy_inv (an : Analyzer) (w : List Wc) (prim others : List Gen) (hp : ∀ g ∈ prim, GenOk an w g)
    (ho : ∀ g ∈ others, GenOk an w g) (maxCost n : Nat) (hn : n ≤ 30) :
    ∃ s', strategyGenerate prim others maxCost { word := w, maxSug := n } = some s' ∧ SugInv an s' ∧
      s'.word = w ∧ s'.maxSug = n ∧ s'.maxCost = maxCost := by
  have hv : SugInv an { word := w, maxSug := n, maxCost := maxCost } := ⟨by simp, hn, by simp, by simp⟩
  obtain ⟨s1, e1, i1, t1⟩ := runGens_inv an w prim hp _ rfl hv
  unfold strategyGenerate
  simp only [Option.bind_eq_bind]
  rw [e1]
  simp only [Option.bind_some]
  by_cases hc : s1.sugg.length > 0
  · exact ⟨s1, by rw [if_pos hc]; rfl, i1, t1.1, t1.2.1, t1.2.2⟩
  · obtain ⟨s2, e2, i2, t2⟩ := runGens_inv an w others ho s1 t1.1 i1
    exact ⟨s2, by rw [if_neg hc]; exact e2, i2, t2.1.trans t1.1, t2.2.1.trans t1.2.1, t2.2.2.trans t1.2.2⟩

theorem tables_ok : TableOk replacements1 ∧ TableOk replacements2 ∧ TableOk replacements3 ∧ TableOk replacements4 ∧
    TableOk replacements5 ∧ TableOk replacementsOcr ∧ 0 ∉ insertChars1 ∧ 0 ∉ insertChars2 := by
  unfold TableOk
  decide +kernel

theorem typing_inv (an : Analyzer) (h : AnalyzerOk an) (junk : Nat → Wc) (w : List Wc) (h0 : 0 ∉ w) (h2 : 2 ≤ w.length)
    (hv : vowelCount w ≤ 32) (n : Nat) (hn : n ≤ 30) :
    ∃ s', typingStrategy an junk { word := w, maxSug := n } = some s' ∧ SugInv an s' ∧ s'.word = w ∧ s'.maxSug = n ∧
      s'.maxCost = 800 := by
  obtain ⟨t1, t2, t3, t4, t5, _, c1, c2⟩ := tables_ok
  have hne : w ≠ [] := by rintro rfl; simp at h2
  have rep : ∀ t, TableOk t → GenOk an w (genReplacement an junk t) := fun t ht =>
    genOk_feed h (cs := replacements t w)
      (fun s hs => by rw [← hs] at h0 ⊢; exact genReplacement_feed an junk t s h0 ht) (nz_replacements h0 ht.2)
  have two : ∀ t, TableOk t → GenOk an w (genReplaceTwo an t) := fun t ht =>
    genOk_feed h (cs := doubleReplacements t w)
      (fun s hs => by rw [← hs] at hne ⊢; exact genReplaceTwo_feed an t s ht.1 hne) (nz_double h0 ht.2)
  have ins : ∀ t, 0 ∉ t → GenOk an w (genInsertion an junk t) := fun t ht =>
    genOk_feed h (cs := insertions t w)
      (fun s hs => by rw [← hs] at h0 hne ⊢; exact genInsertion_feed an junk t s h0 hne) (nz_insertions h0 ht)
  apply strategy_inv an w _ _ _ _ 800 n hn
  · intro g hg
    simp only [List.mem_cons, List.not_mem_nil, or_false] at hg
    rcases hg with rfl | rfl
    · exact genOk_feed h (cs := [w]) (fun s hs => by rw [← hs]; exact genCaseChange_feed an s) (by simpa using h0)
    · exact genOk_feed h (cs := softHyphenRemoval w) (fun s hs => by rw [← hs]; exact genSoftHyphens_feed an junk s)
        (nz_soft h0)
  · intro g hg
    simp only [List.mem_cons, List.not_mem_nil, or_false] at hg
    rcases hg with rfl | rfl | rfl | rfl | rfl | rfl | rfl | rfl | rfl | rfl | rfl | rfl | rfl | rfl | rfl | rfl | rfl
    · exact genOk_feed h (cs := vowelChanges w)
        (fun s hs => by rw [← hs] at h0 hv ⊢; exact genVowelChange_feed an junk s h0 hv) (nz_vowel h0)
    · exact rep _ t1
    · exact genOk_feed h (cs := deletions w)
        (fun s hs => by rw [← hs] at h0 ⊢; exact genDeletion_feed an junk s h0) (nz_deletions h0)
    · exact genOk_feed h (cs := hyphenInsertions w ++ duplications w)
        (fun s hs => by rw [← hs] at h0 h2 ⊢; exact genInsertSpecial_feed an junk s h0 h2) (nz_special h0)
    · intro s hs hi hab
      rw [genSplitWord_eq an h junk s (by rw [hs]; exact h0) (by rw [hs]; exact h2)]
      exact trySplits_inv an h s.word _ (fun i hi => splitPlaces_mem hi) false s hi hab
    · exact two _ t1
    · exact rep _ t2
    · exact ins _ c1
    · exact genOk_feed h (cs := swaps (swapDistance w.length) w)
        (fun s hs => by rw [← hs] at h0 ⊢; exact genSwap_feed an junk s h0) (nz_swaps h0 _)
    · exact rep _ t3
    · exact ins _ c2
    · exact rep _ t4
    · exact two _ t2
    · exact two _ t3
    · exact two _ t4
    · exact genOk_feed h (cs := pairDeletions w)
        (fun s hs => by rw [← hs] at h0 ⊢; exact genDeleteTwo_feed an junk s h0) (nz_pairDeletions h0)
    · exact rep _ t5

theorem ocr_inv (an : Analyzer) (h : AnalyzerOk an) (junk : Nat → Wc) (w : List Wc) (h0 : 0 ∉ w) (n : Nat) (hn : n ≤ 30) :
    ∃ s', ocrStrategy an junk { word := w, maxSug := n } = some s' ∧ SugInv an s' ∧ s'.word = w ∧ s'.maxSug = n ∧
      s'.maxCost = 2000 := by
  obtain ⟨_, _, _, _, _, t, _, _⟩ := tables_ok
  apply strategy_inv an w _ _ _ _ 2000 n hn
  · intro g hg
    simp only [List.mem_cons, List.not_mem_nil, or_false] at hg
    subst hg
    exact genOk_feed h (cs := [w]) (fun s hs => by rw [← hs]; exact genCaseChange_feed an s) (by simpa using h0)
  · intro g hg
    simp only [List.mem_cons, List.not_mem_nil, or_false] at hg
    rcases hg with rfl | rfl
    · exact genOk_feed h (cs := replacements replacementsOcr w)
        (fun s hs => by rw [← hs] at h0 ⊢; exact genReplacement_feed an junk _ s h0 t) (nz_replacements h0 t.2)
    · exact genOk_feed h (cs := multiReplacements replacementsOcr (2 - 1) 0 w)
        (fun s hs => by rw [← hs] at h0 ⊢; exact genMultiReplacement_feed an junk _ 2 s h0 t) (nz_multi t.2 _ _ h0)

end Verif.Props
