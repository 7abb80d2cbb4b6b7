import Verif.Lemmas.HyphSplit
/-!
# Lemmas comparing hyphenation with and without `NO_UGLY_HYPHENATION`
-/

namespace Verif
open Verif.Props
set_option linter.unusedSimpArgs false

/-- Every point of `p` is a point of `q`. -/
def PtLe (p q : List Wc) : Prop := ∀ i, blankAt p i = true ∨ blankAt q i = false

theorem PtLe.refl (p : List Wc) : PtLe p p := by
  intro i; cases blankAt p i <;> simp

theorem blankAt_congr {p q : List Wc} {i j : Nat} (h : p[i]? = q[j]?) : blankAt p i = blankAt q j := by
  simp only [blankAt, h]

/-- `q` differs from `p` only in cells that contain `c`. -/
def OnlyWrites (c : Wc) (p q : List Wc) : Prop := ∀ i : Nat, q[i]? = p[i]? ∨ q[i]? = some c

theorem OnlyWrites.refl (c : Wc) (p : List Wc) : OnlyWrites c p p := fun _ => Or.inl rfl

theorem OnlyWrites.trans {c : Wc} {p q r : List Wc} (h1 : OnlyWrites c p q) (h2 : OnlyWrites c q r) : OnlyWrites c p r := by
  intro i
  rcases h2 i with h | h
  · rw [h]; exact h1 i
  · exact Or.inr h

theorem wr_only {c : Wc} {p q : List Wc} {i : Nat} (h : wr p i c = some q) : OnlyWrites c p q := by
  unfold wr at h
  split at h
  · rename_i hl
    rw [Option.some.injEq] at h
    subst h
    intro j
    by_cases hj : i = j
    · subst hj; right; rw [List.getElem?_set_self hl]
    · left; rw [List.getElem?_set_ne hj]
  · simp at h

theorem forIdx_only {c : Wc} (k lo : Nat) (f : Nat → List Wc → UB (List Wc))
    (h : ∀ i p q, f i p = some q → OnlyWrites c p q) : ∀ p q, forIdx lo k f p = some q → OnlyWrites c p q := by
  induction k generalizing lo with
  | zero =>
    intro p q hq
    simp only [forIdx, Option.pure_def, Option.some.injEq] at hq
    subst hq; exact .refl c p
  | succ k ih =>
    intro p q hq
    simp only [forIdx, Option.bind_eq_bind] at hq
    rw [Option.bind_eq_some_iff] at hq
    obtain ⟨r, h1, h2⟩ := hq
    exact (h _ _ _ h1).trans (ih _ _ _ h2)

theorem forTable_only {c : Wc} {α : Type} (xs : List α) (f : α → List Wc → UB (List Wc))
    (h : ∀ i p q, f i p = some q → OnlyWrites c p q) : ∀ p q, forTable xs f p = some q → OnlyWrites c p q := by
  induction xs with
  | nil =>
    intro p q hq
    simp only [forTable, Option.pure_def, Option.some.injEq] at hq
    subst hq; exact .refl c p
  | cons x xs ih =>
    intro p q hq
    simp only [forTable, Option.bind_eq_bind] at hq
    rw [Option.bind_eq_some_iff] at hq
    obtain ⟨r, h1, h2⟩ := hq
    exact (h _ _ _ h1).trans (ih _ _ h2)

theorem stepNoVV_only (w : List Wc) (i : Nat) (p q : List Wc) (h : stepNoVV w i p = some q) : OnlyWrites 0x20 p q := by
  unfold stepNoVV at h
  simp only [Option.bind_eq_bind, Option.pure_def] at h
  rw [Option.bind_eq_some_iff] at h
  obtain ⟨c, _, h⟩ := h
  split at h
  · rw [Option.bind_eq_some_iff] at h
    obtain ⟨d, _, h⟩ := h
    split at h
    · exact wr_only h
    · rw [Option.some.injEq] at h; subst h; exact .refl _ _
  · rw [Option.some.injEq] at h; subst h; exact .refl _ _

theorem stepAfter_only (w : List Wc) (n i : Nat) (sa p q : List Wc) (h : stepAfter w n i sa p = some q) :
    OnlyWrites 0x2D p q := by
  unfold stepAfter at h
  simp only [Option.bind_eq_bind, Option.pure_def] at h
  rw [Option.bind_eq_some_iff] at h
  obtain ⟨c, _, h⟩ := h
  split at h
  · rw [Option.bind_eq_some_iff] at h
    obtain ⟨d, _, h⟩ := h
    split at h
    · rw [Option.bind_eq_some_iff] at h
      obtain ⟨d, _, h⟩ := h
      split at h
      · rw [Option.bind_eq_some_iff] at h
        obtain ⟨d, _, h⟩ := h
        split at h
        · exact wr_only h
        · rw [Option.some.injEq] at h; subst h; exact .refl _ _
      · rw [Option.some.injEq] at h; subst h; exact .refl _ _
    · rw [Option.some.injEq] at h; subst h; exact .refl _ _
  · rw [Option.some.injEq] at h; subst h; exact .refl _ _

/-- The last step removes points if the option is on and adds points if it is off. -/
theorem ruleLast_only (w : List Wc) (n : Nat) (p q : List Wc) :
    (ruleLast false w n p = some q → OnlyWrites 0x20 p q) ∧ (ruleLast true w n p = some q → OnlyWrites 0x2D p q) := by
  constructor
  · intro h
    simp only [ruleLast, Bool.not_false, if_true, Option.bind_eq_bind] at h
    rw [Option.bind_eq_some_iff] at h
    obtain ⟨a, h1, h⟩ := h
    rw [Option.bind_eq_some_iff] at h
    obtain ⟨b, h2, h⟩ := h
    exact (wr_only h1).trans ((wr_only h2).trans (forIdx_only _ _ _ (stepNoVV_only w) _ _ h))
  · intro h
    simp only [ruleLast, Bool.not_true, Bool.false_eq_true, if_false] at h
    split at h
    · exact forIdx_only _ _ _ (fun i => forTable_only _ _ (fun sa => stepAfter_only w n i sa)) _ _ h
    · simp only [Option.pure_def, Option.some.injEq] at h; subst h; exact .refl _ _

/-- Without apostrophes the other rules do not depend on the option. -/
theorem rulePoints_same (w : List Wc) (h : 0x27 ∉ w) (n : Nat) (p : List Wc) : rulePoints false w n p = rulePoints true w n p := by
  have hs : ∀ i, stepCV false w i = stepCV true w i := by
    intro i
    funext p
    unfold stepCV
    by_cases hi : i + 1 < w.length
    · simp only [rd_eq_some hi, rd_eq_some (show i < w.length by omega), rd_eq_some (show i - 1 < w.length by omega),
        rd_eq_some (show i - 2 < w.length by omega), Option.bind_eq_bind, Option.bind_some]
      have hne : w[i - 2] ≠ 0x27 := fun e => h (e ▸ List.getElem_mem _)
      simp [hne]
    · rw [rd_eq_none (show w.length ≤ i + 1 by omega)]
      simp
  unfold rulePoints
  rw [show stepCV false w = stepCV true w from funext hs]

theorem lower_eq_apos {c : Wc} (h : lower c = 0x27) : c = 0x27 := by
  rcases Props.lower_eq_or c with h1 | h1 <;> omega

theorem allowRule_true {word : List Wc} {n : Nat} (h : 2 ≤ n) : allowRule true word n = some true := by
  unfold allowRule
  rw [if_neg (by omega)]
  rfl

/-- One part: with the option on there are no additional points. -/
theorem rule_mono (word pts : List Wc) (n : Nat) (hn : n ≤ word.length) (hp : n ≤ pts.length)
    (h0 : ∀ c ∈ word.take n, c ≠ 0) (ha : 0x27 ∉ word.take n) (hb : ∀ i, 1 ≤ i → i < n → blankAt pts i = true)
    (p q : List Wc) (e1 : ruleHyphenation false word pts n = some p) (e2 : ruleHyphenation true word pts n = some q) :
    PtLe p q := by
  obtain ⟨q', e2', u⟩ := safe_rule true word n hn h0 pts hp
  have hq : q' = q := Option.some.inj (e2'.symm.trans e2)
  subst hq
  have same : PtLe pts q' := by
    intro i
    rcases u.cell i with h | ⟨h1, h2, _⟩
    · rw [blankAt_congr h]; exact PtLe.refl pts i
    · exact Or.inl (hb i h1 h2)
  obtain ⟨b, hab, hab'⟩ := allowRule_total false word n hn
  unfold ruleHyphenation at e1
  simp only [hab, Option.bind_eq_bind, Option.bind_some] at e1
  cases b
  · simp only [Bool.not_false, if_true, Option.pure_def, Option.some.injEq] at e1
    subst e1; exact same
  · have h2 := hab' rfl
    simp only [Bool.not_true, Bool.false_eq_true, if_false, rd_eq_some (show 0 < pts.length by omega), Option.bind_some,
      show ¬ word.length < n by omega] at e1
    split at e1
    · simp only [Option.pure_def, Option.some.injEq] at e1
      subst e1; exact same
    · rename_i hx
      unfold ruleHyphenation at e2
      simp only [allowRule_true h2, Option.bind_eq_bind, Option.bind_some, Bool.not_true, Bool.false_eq_true, if_false,
        rd_eq_some (show 0 < pts.length by omega), show ¬ word.length < n by omega, hx] at e2
      have hap : 0x27 ∉ (word.take n).map lower ++ [0] := by
        intro hm
        rw [List.mem_append, List.mem_map] at hm
        rcases hm with ⟨c, hc, hl⟩ | hm
        · exact ha (lower_eq_apos hl ▸ hc)
        · simp at hm
      rw [rulePoints_same _ hap, Option.bind_eq_some_iff] at e1
      rw [Option.bind_eq_some_iff] at e2
      obtain ⟨r, r1, e1⟩ := e1
      obtain ⟨r', r2, e2⟩ := e2
      have : r' = r := Option.some.inj (r2.symm.trans r1)
      subst this
      have o1 := (ruleLast_only _ _ _ _).1 e1
      have o2 := (ruleLast_only _ _ _ _).2 e2
      intro i
      rcases o1 i with h1 | h1
      · rcases o2 i with h3 | h3
        · rw [blankAt_congr h1, blankAt_congr h3]; exact PtLe.refl r' i
        · right; simp [blankAt, h3]
      · left; simp [blankAt, h1]

theorem foldParts_mono (min : Nat) (word : List Wc) (len : Nat) (hy0 : List Wc) (h0 : ∀ c ∈ word.take len, c ≠ 0)
    (hap : 0x27 ∉ word.take len) (hwl : len ≤ word.length) (hhl : len ≤ hy0.length) :
    ∀ (ps : List (Nat × Nat)) (m : Nat) (hy1 hy2 r1 r2 : List Wc), PartsOk len m ps → AgreeFrom m hy0 hy1 →
      AgreeFrom m hy0 hy2 → (∀ p ∈ ps, ∀ j, p.1 < j → j < p.2 → blankAt hy0 j = true) → PtLe hy1 hy2 →
      foldParts false min word ps hy1 = some r1 → foldParts true min word ps hy2 = some r2 → PtLe r1 r2 := by
  intro ps
  induction ps with
  | nil =>
    intro m hy1 hy2 r1 r2 _ _ _ _ hle f1 f2
    simp only [foldParts, Option.some.injEq] at f1 f2
    subst f1; subst f2; exact hle
  | cons pe ps ih =>
    intro m hy1 hy2 r1 r2 hok a1 a2 hin hle f1 f2
    obtain ⟨s, e⟩ := pe
    cases hok with
    | cons _ _ _ _ h1 h2 h3 h4 =>
      unfold foldParts at f1 f2
      by_cases hmin : e ≥ s + min
      · have l1 := a1.1
        have l2 := a2.1
        obtain ⟨q1, hy1', e1, u1, _, e3, l3, le3, ge3, g3⟩ := ruleAt_agree (ugly := false) (word := word) (hy := hy1)
          (s := s) (n := e - s) (by omega) (by omega) (fun c hc => h0 c (List.take_subset_take_left word (by omega) hc))
        obtain ⟨q2, hy2', e1', u1', _, e3', l3', le3', ge3', g3'⟩ := ruleAt_agree (ugly := true) (word := word) (hy := hy2)
          (s := s) (n := e - s) (by omega) (by omega) (fun c hc => h0 c (List.take_subset_take_left word (by omega) hc))
        simp only [if_pos hmin, e3, Option.bind_some] at f1
        simp only [if_pos hmin, e3', Option.bind_some] at f2
        refine ih e hy1' hy2' r1 r2 h4 ⟨l3.trans l1, fun i hi => (g3 i (by omega)).trans (a1.2 i (by omega))⟩
          ⟨l3'.trans l2, fun i hi => (g3' i (by omega)).trans (a2.2 i (by omega))⟩
          (fun p hp => hin p (by simp [hp])) ?_ f1 f2
        rw [(a1.mono h1).drop] at e1
        rw [(a2.mono h1).drop] at e1'
        have etk : (word.drop s).take (e - s) = (word.take e).drop s := by rw [List.drop_take]
        have hmono := rule_mono (word.drop s) (hy0.drop s) (e - s) (by simp; omega) (by simp; omega)
          (by
            intro c hc
            rw [etk] at hc
            exact h0 c (List.take_subset_take_left word (by omega) (List.mem_of_mem_drop hc)))
          (by
            rw [etk]
            exact fun hc => hap (List.take_subset_take_left word (by omega) (List.mem_of_mem_drop hc)))
          (by
            intro i hi1 hi2
            rw [blankAt_congr (q := hy0) (j := s + i) (List.getElem?_drop)]
            exact hin (s, e) (by simp) (s + i) (by simp; omega) (by simp; omega))
          q1 q2 e1 e1'
        intro i
        rcases Nat.lt_or_ge i s with h | h
        · rw [blankAt_congr (le3 i (by omega)), blankAt_congr (le3' i (by omega))]; exact hle i
        · rw [blankAt_congr (ge3 i h), blankAt_congr (ge3' i h)]; exact hmono (i - s)
      · rw [if_neg hmin] at f1 f2
        exact ih e hy1 hy2 r1 r2 h4 (a1.mono (by omega)) (a2.mono (by omega)) (fun p hp => hin p (by simp [hp])) hle f1 f2

/-- A pattern hyphenated with the option on has no additional points. -/
theorem compound_mono (min : Nat) (word : List Wc) (len : Nat) (hy : List Wc) (h0 : ∀ c ∈ word.take len, c ≠ 0)
    (hap : 0x27 ∉ word.take len) (hwl : len ≤ word.length) (hhl : len ≤ hy.length) (r1 r2 : List Wc)
    (e1 : compoundHyphenation false min word len hy = some r1) (e2 : compoundHyphenation true min word len hy = some r2) :
    PtLe r1 r2 := by
  rw [compoundHyphenation_eq _ _ _ _ _ h0 hwl hhl] at e1 e2
  refine foldParts_mono min word len hy h0 hap hwl hhl _ _ hy hy r1 r2
    (partsOf_ok hy len len (leadingEq hy len) (leadingEq hy len + 1) (by omega)) ⟨rfl, fun _ _ => rfl⟩ ⟨rfl, fun _ _ => rfl⟩
    ?_ (PtLe.refl hy) e1 e2
  exact partsOf_inside hy len len _ _ (by omega) (by omega)

/-- A pattern without borders is left alone if the rules do not apply to the whole word. -/
theorem compound_blank (ugly : Bool) (min : Nat) (word : List Wc) (len : Nat) (hy : List Wc) (h0 : ∀ c ∈ word.take len, c ≠ 0)
    (hwl : len ≤ word.length) (hhl : len ≤ hy.length) (hb : ∀ i < len, blankAt hy i = true)
    (ha : allowRule ugly word len = some false) (r : List Wc) (e : compoundHyphenation ugly min word len hy = some r) :
    ∀ i < len, blankAt r i = true := by
  obtain ⟨r', e1, _, _, h⟩ := compound_spec ugly min word len hy h0 hwl hhl
  have : r' = r := Option.some.inj (e1.symm.trans e)
  subst this
  intro i hi
  rcases h i with h | ⟨s, t, q, hpart, _, h1, h2, hr, _, hc⟩
  · rw [blankAt_congr h]; exact hb i hi
  · have hlt := hpart.lt
    have hle := hpart.le
    have hs : s = 0 := by
      rcases hpart.start with h | ⟨h, hpos⟩ | ⟨h, _⟩
      · exact h.1
      · have := hb (s - 1) (by omega)
        rw [blankAt_true_iff h] at this
        omega
      · rw [hb s (by omega)] at h; simp at h
    have ht : t = len := by
      rcases hpart.fin with h | h
      · exact h
      · rcases Nat.lt_or_ge t len with h' | h'
        · rw [hb t h'] at h; simp at h
        · omega
    subst hs; subst ht
    simp only [List.drop_zero, Nat.sub_zero] at hr hc
    unfold ruleHyphenation at hr
    rw [ha] at hr
    simp only [Option.bind_eq_bind, Option.bind_some, Bool.not_false, if_true, Option.pure_def, Option.some.injEq] at hr
    rw [blankAt_congr hc, ← hr]
    exact hb i hi

end Verif
