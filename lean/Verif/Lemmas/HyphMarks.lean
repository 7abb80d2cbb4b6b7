import Verif.Lemmas.HyphSplit
/-!
Helper lemmas: where the hyphenation rules write `=`.
-/
set_option linter.unusedSimpArgs false
set_option linter.unusedVariables false

namespace Verif

/-- `q` has no `=` that `p` does not have. -/
def NoNewEq (p q : List Wc) : Prop := ∀ j : Nat, q[j]? = some 0x3D → p[j]? = some 0x3D

theorem NoNewEq.refl (p : List Wc) : NoNewEq p p := fun _ h => h
theorem NoNewEq.trans {p q r : List Wc} (h : NoNewEq p q) (h' : NoNewEq q r) : NoNewEq p r := fun j hj => h j (h' j hj)

theorem wr_noNewEq {p q : List Wc} {i : Nat} {c : Wc} (h : wr p i c = some q) (hc : c ≠ 0x3D) : NoNewEq p q := by
  have hi : i < p.length := by
    by_contra hn
    unfold wr at h
    rw [if_neg hn] at h
    cases h
  rw [wr_eq_some _ hi] at h
  cases h
  intro j hj
  rw [List.getElem?_set] at hj
  by_cases hij : i = j
  · rw [if_pos hij] at hj
    simp_all
  · rw [if_neg hij] at hj
    exact hj

theorem forIdx_noNewEq {f : Nat → List Wc → UB (List Wc)} (hf : ∀ i p q, f i p = some q → NoNewEq p q) :
    ∀ n lo p q, forIdx lo n f p = some q → NoNewEq p q := by
  intro n
  induction n with
  | zero => intro lo p q h; simp only [forIdx, Option.pure_def, Option.some.injEq] at h; subst h; exact .refl _
  | succ n ih =>
    intro lo p q h
    simp only [forIdx, Option.bind_eq_bind, Option.bind_eq_some_iff] at h
    obtain ⟨p', h1, h2⟩ := h
    exact (hf _ _ _ h1).trans (ih _ _ _ h2)

theorem forTable_noNewEq {α : Type} {f : α → List Wc → UB (List Wc)} (hf : ∀ x p q, f x p = some q → NoNewEq p q) :
    ∀ l p q, forTable l f p = some q → NoNewEq p q := by
  intro l
  induction l with
  | nil => intro p q h; simp only [forTable, Option.pure_def, Option.some.injEq] at h; subst h; exact .refl _
  | cons x xs ih =>
    intro p q h
    simp only [forTable, Option.bind_eq_bind, Option.bind_eq_some_iff] at h
    obtain ⟨p', h1, h2⟩ := h
    exact (hf _ _ _ h1).trans (ih _ _ h2)

theorem pure_noNewEq {p q : List Wc} (h : (pure p : UB (List Wc)) = some q) : NoNewEq p q := by
  simp only [Option.pure_def, Option.some.injEq] at h; subst h; exact .refl _

theorem stepCV_noNewEq (ugly : Bool) (w : List Wc) (i : Nat) (p q : List Wc) (h : stepCV ugly w i p = some q) : NoNewEq p q := by
  simp only [stepCV, Option.bind_eq_bind, Option.bind_eq_some_iff] at h
  obtain ⟨c, _, d, _, h⟩ := h
  split at h
  · split at h
    · cases h
    · rw [Option.bind_eq_some_iff] at h
      obtain ⟨b, _, h⟩ := h
      split at h
      · exact pure_noNewEq h
      · split at h
        · exact wr_noNewEq h (by decide)
        · rw [Option.bind_eq_some_iff] at h
          obtain ⟨a, _, h⟩ := h
          split at h
          · exact wr_noNewEq h (by decide)
          · exact pure_noNewEq h
  · exact pure_noNewEq h

theorem stepLong_noNewEq (w : List Wc) (n i : Nat) (p q : List Wc) (h : stepLong w n i p = some q) : NoNewEq p q := by
  have hb : ∀ p q, stepLongBefore w n i p = some q → NoNewEq p q := by
    intro p q h
    simp only [stepLongBefore, Option.bind_eq_bind, Option.bind_eq_some_iff] at h
    obtain ⟨b, _, h⟩ := h
    split at h
    · rw [Option.bind_eq_some_iff] at h
      obtain ⟨g, _, h⟩ := h
      split at h
      · exact wr_noNewEq h (by decide)
      · exact pure_noNewEq h
    · exact pure_noNewEq h
  have ha : ∀ p q, stepLongAfter w n i p = some q → NoNewEq p q := by
    intro p q h
    simp only [stepLongAfter, Option.bind_eq_bind, Option.bind_eq_some_iff] at h
    obtain ⟨g, _, h⟩ := h
    split at h
    · exact wr_noNewEq h (by decide)
    · exact pure_noNewEq h
  simp only [stepLong, Option.bind_eq_bind, Option.bind_eq_some_iff] at h
  obtain ⟨c, _, h⟩ := h
  split at h
  · rw [Option.bind_eq_some_iff] at h
    obtain ⟨d, _, h⟩ := h
    split at h
    · rw [Option.bind_eq_some_iff] at h
      obtain ⟨p', h1, h2⟩ := h
      exact (hb _ _ h1).trans (ha _ _ h2)
    · exact pure_noNewEq h
  · exact pure_noNewEq h

theorem stepVV_noNewEq (w : List Wc) (i : Nat) (p q : List Wc) (h : stepVV w i p = some q) : NoNewEq p q := by
  simp only [stepVV, Option.bind_eq_bind, Option.bind_eq_some_iff] at h
  obtain ⟨c, _, h⟩ := h
  split at h
  · exact pure_noNewEq h
  · rw [Option.bind_eq_some_iff] at h
    obtain ⟨d, _, h⟩ := h
    split at h
    · exact pure_noNewEq h
    · rw [Option.bind_eq_some_iff] at h
      obtain ⟨d, _, h⟩ := h
      split at h
      · exact pure_noNewEq h
      · split at h
        · exact wr_noNewEq h (by decide)
        · exact pure_noNewEq h

theorem stepCons_noNewEq (w : List Wc) (n i : Nat) (lc p q : List Wc) (h : stepCons w n i lc p = some q) : NoNewEq p q := by
  have hm : ∀ k p q, stepMove i k p = some q → NoNewEq p q := by
    intro k p q h
    simp only [stepMove, Option.bind_eq_bind, Option.bind_eq_some_iff] at h
    obtain ⟨c, _, h⟩ := h
    split at h
    · rw [Option.bind_eq_some_iff] at h
      obtain ⟨p', h1, h2⟩ := h
      exact (wr_noNewEq h1 (by decide)).trans (wr_noNewEq h2 (by decide))
    · exact pure_noNewEq h
  unfold stepCons at h
  split at h
  · simp only [Option.bind_eq_bind, Option.bind_eq_some_iff] at h
    obtain ⟨e, _, h⟩ := h
    split at h
    · exact forIdx_noNewEq hm _ _ _ _ h
    · exact pure_noNewEq h
  · exact pure_noNewEq h

theorem ruleLast_noNewEq (ugly : Bool) (w : List Wc) (n : Nat) (p q : List Wc) (h : ruleLast ugly w n p = some q) : NoNewEq p q := by
  have hn : ∀ i p q, stepNoVV w i p = some q → NoNewEq p q := by
    intro i p q h
    simp only [stepNoVV, Option.bind_eq_bind, Option.bind_eq_some_iff] at h
    obtain ⟨c, _, h⟩ := h
    split at h
    · rw [Option.bind_eq_some_iff] at h
      obtain ⟨d, _, h⟩ := h
      split at h
      · exact wr_noNewEq h (by decide)
      · exact pure_noNewEq h
    · exact pure_noNewEq h
  have ha : ∀ i sa p q, stepAfter w n i sa p = some q → NoNewEq p q := by
    intro i sa p q h
    simp only [stepAfter, Option.bind_eq_bind, Option.bind_eq_some_iff] at h
    obtain ⟨c, _, h⟩ := h
    split at h
    · rw [Option.bind_eq_some_iff] at h
      obtain ⟨e, _, h⟩ := h
      split at h
      · rw [Option.bind_eq_some_iff] at h
        obtain ⟨d, _, h⟩ := h
        split at h
        · rw [Option.bind_eq_some_iff] at h
          obtain ⟨g, _, h⟩ := h
          split at h
          · exact wr_noNewEq h (by decide)
          · exact pure_noNewEq h
        · exact pure_noNewEq h
      · exact pure_noNewEq h
    · exact pure_noNewEq h
  unfold ruleLast at h
  split at h
  · simp only [Option.bind_eq_bind, Option.bind_eq_some_iff] at h
    obtain ⟨p1, h1, p2, h2, h3⟩ := h
    exact ((wr_noNewEq h1 (by decide)).trans (wr_noNewEq h2 (by decide))).trans (forIdx_noNewEq hn _ _ _ _ h3)
  · split at h
    · exact forIdx_noNewEq (fun i p q h => forTable_noNewEq (ha i) _ _ _ h) _ _ _ _ h
    · exact pure_noNewEq h

/-- The apostrophe loop writes `=` only at apostrophes before vowels. -/
theorem forApos_eq (w : List Wc) : ∀ n lo p q, forIdx lo n (stepApos w) p = some q → ∀ j, q[j]? = some 0x3D →
    p[j]? = some 0x3D ∨ (lo ≤ j ∧ j < lo + n ∧ w[j]? = some 0x27 ∧ ∃ d, w[j + 1]? = some d ∧ wcschr voikkoVowels d = true) := by
  intro n
  induction n with
  | zero =>
    intro lo p q h j hj
    simp only [forIdx, Option.pure_def, Option.some.injEq] at h; subst h; exact Or.inl hj
  | succ n ih =>
    intro lo p q h j hj
    simp only [forIdx, Option.bind_eq_bind, Option.bind_eq_some_iff] at h
    obtain ⟨p', h1, h2⟩ := h
    rcases ih _ _ _ h2 j hj with h3 | ⟨h3, h4, h5⟩
    · simp only [stepApos, Option.bind_eq_bind, Option.bind_eq_some_iff] at h1
      obtain ⟨c, hc, h1⟩ := h1
      split at h1
      · next h27 =>
        rw [Option.bind_eq_some_iff] at h1
        obtain ⟨d, hd, h1⟩ := h1
        split at h1
        · next hv =>
          by_cases hjl : j = lo
          · subst hjl
            subst h27
            exact Or.inr ⟨by omega, by omega, hc, d, hd, hv⟩
          · left
            have hi : lo < p.length := by
              by_contra hn
              unfold wr at h1
              rw [if_neg hn] at h1
              cases h1
            rw [wr_eq_some _ hi] at h1
            cases h1
            rw [List.getElem?_set_ne (by omega)] at h3
            exact h3
        · exact Or.inl (pure_noNewEq h1 j h3)
      · exact Or.inl (pure_noNewEq h1 j h3)
    · exact Or.inr ⟨by omega, by omega, h5⟩

/-- The rules write `=` only at apostrophes before vowels. -/
theorem ruleHyphenation_eq (ugly : Bool) (word p q : List Wc) (n : Nat) (h : ruleHyphenation ugly word p n = some q) (j : Nat)
    (hj : q[j]? = some 0x3D) : p[j]? = some 0x3D ∨ (1 ≤ j ∧ j + 1 < n ∧
      (word.map lower)[j]? = some 0x27 ∧ ∃ d, (word.map lower)[j + 1]? = some d ∧ wcschr voikkoVowels d = true) := by
  simp only [ruleHyphenation, Option.bind_eq_bind, Option.bind_eq_some_iff] at h
  obtain ⟨al, _, h⟩ := h
  split at h
  · exact Or.inl (pure_noNewEq h j hj)
  · rw [Option.bind_eq_some_iff] at h
    obtain ⟨c, _, h⟩ := h
    split at h
    · exact Or.inl (pure_noNewEq h j hj)
    · split at h
      · cases h
      · next hl =>
        rw [Option.bind_eq_some_iff] at h
        obtain ⟨p1, h1, h2⟩ := h
        simp only [rulePoints, Option.bind_eq_bind, Option.bind_eq_some_iff] at h1
        obtain ⟨a1, e1, a2, e2, a3, e3, a4, e4, e5⟩ := h1
        have k1 := ruleLast_noNewEq _ _ _ _ _ h2 j hj
        have k2 := forIdx_noNewEq (fun i p q h => forTable_noNewEq (stepCons_noNewEq _ _ i) _ _ _ h) _ _ _ _ e5 j k1
        have k3 := forIdx_noNewEq (stepVV_noNewEq _) _ _ _ _ e4 j k2
        have k4 := forIdx_noNewEq (stepLong_noNewEq _ _) _ _ _ _ e3 j k3
        rcases forApos_eq _ _ _ _ _ e2 j k4 with k5 | ⟨k5, k6, k7, d, k8, k9⟩
        · exact Or.inl (forIdx_noNewEq (stepCV_noNewEq _ _) _ _ _ _ e1 j k5)
        · have hcell : ∀ i, i < n → ((word.take n).map lower ++ [0])[i]? = (word.map lower)[i]? := by
            intro i hi
            rw [List.getElem?_append_left (by simp; omega), List.getElem?_map, List.getElem?_map, List.getElem?_take_of_lt hi]
          rw [hcell _ (by omega)] at k7 k8
          exact Or.inr ⟨k5, by omega, k7, d, k8, k9⟩

end Verif
