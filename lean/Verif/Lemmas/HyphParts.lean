import Verif.Lemmas.Hyphenator
import Mathlib.Data.List.TakeWhile
/-!
# Lemmas on the compound parts, the analyses and the intersection
-/

namespace Verif
set_option linter.unusedSimpArgs false

/-- Cell `i` is neither a border nor outside the pattern. -/
def blankAt (hy : List Wc) (i : Nat) : Bool := hy[i]? == some 0x20 || hy[i]? == some 0x58

/-- The parts `(start, end)` visited by `compoundHyphenation`, as a function of the original pattern. -/
def partsOf (hy : List Wc) (len : Nat) : Nat → Nat → Nat → List (Nat × Nat)
  | 0, s, e => if e = len ∧ s < e then [(s, e)] else []
  | k + 1, s, e =>
    if e < len then
      if blankAt hy e then partsOf hy len k s (e + 1)
      else
        let s' := if hy[e]? = some 0x3D then e + 1 else e
        (s, e) :: partsOf hy len k s' (s' + 1)
    else if e = len ∧ s < e then [(s, e)] else []

/-- Apply the rules to the parts that are long enough. -/
def foldParts (ugly : Bool) (min : Nat) (word : List Wc) : List (Nat × Nat) → List Wc → UB (List Wc)
  | [], hy => some hy
  | (s, e) :: ps, hy =>
    if e ≥ s + min then (ruleAt ugly word s (e - s) hy).bind (foldParts ugly min word ps)
    else foldParts ugly min word ps hy

/-- `hy'` agrees with `hy` from index `s` on. -/
def AgreeFrom (s : Nat) (hy hy' : List Wc) : Prop := hy'.length = hy.length ∧ ∀ i, s ≤ i → hy'[i]? = hy[i]?

theorem AgreeFrom.mono {s t : Nat} {hy hy' : List Wc} (h : AgreeFrom s hy hy') (hst : s ≤ t) : AgreeFrom t hy hy' :=
  ⟨h.1, fun i hi => h.2 i (by omega)⟩

theorem AgreeFrom.drop {s : Nat} {hy hy' : List Wc} (h : AgreeFrom s hy hy') : hy'.drop s = hy.drop s := by
  apply List.ext_getElem?
  intro i
  rw [List.getElem?_drop, List.getElem?_drop]
  exact h.2 _ (by omega)

theorem ruleAt_agree {ugly : Bool} {word hy : List Wc} {s n : Nat} (hn : s + n ≤ word.length) (hs : s + n ≤ hy.length)
    (h0 : ∀ c ∈ word.take (s + n), c ≠ 0) :
    ∃ q hy', ruleHyphenation ugly (word.drop s) (hy.drop s) n = some q ∧ Upd n (hy.drop s) q ∧
      hy' = hy.take s ++ q ∧ ruleAt ugly word s n hy = some hy' ∧ hy'.length = hy.length ∧
      (∀ i, i ≤ s → hy'[i]? = hy[i]?) ∧ (∀ i, s ≤ i → hy'[i]? = q[i - s]?) ∧ (∀ i, s + n ≤ i → hy'[i]? = hy[i]?) := by
  obtain ⟨q, e, u, e2⟩ := ruleAt_spec ugly word hy s n hn hs
    (fun c hc => h0 c (by
      have e : (word.drop s).take n = (word.take (s + n)).drop s := by
        rw [List.drop_take]; congr 1; omega
      rw [e] at hc
      exact List.mem_of_mem_drop hc))
  have hts : (hy.take s).length = s := by simp; omega
  have hge : ∀ i, s ≤ i → (hy.take s ++ q)[i]? = q[i - s]? := by
    intro i hi
    rw [List.getElem?_append_right (by omega), hts]
  refine ⟨q, hy.take s ++ q, e, u, rfl, e2, ?_, ?_, hge, ?_⟩
  · have := u.len
    simp only [List.length_append, List.length_drop, hts] at this ⊢
    omega
  · intro i hi
    rcases Nat.lt_or_ge i s with h | h
    · rw [List.getElem?_append_left (by omega), List.getElem?_take_of_lt h]
    · have : i = s := by omega
      subst this
      rw [hge i (by omega), Nat.sub_self]
      rcases u.cell 0 with h' | h'
      · rw [h', List.getElem?_drop]; rfl
      · omega
  · intro i hi
    rw [hge i (by omega)]
    rcases u.cell (i - s) with h' | h'
    · rw [h', List.getElem?_drop]; congr 1; omega
    · omega

theorem blankAt_iff (hy : List Wc) (i : Nat) (h : i < hy.length) :
    blankAt hy i = true ↔ ¬ (hy[i] ≠ 0x20 ∧ hy[i] ≠ 0x58) := by
  simp only [blankAt, List.getElem?_eq_getElem h, Bool.or_eq_true, beq_iff_eq, Option.some.injEq]
  omega

/-- The loop followed by the last part is the application of the rules to the parts of the original pattern. -/
theorem compoundLoop_eq (ugly : Bool) (min : Nat) (word : List Wc) (len : Nat) (hy0 : List Wc) (h0 : ∀ c ∈ word.take len, c ≠ 0)
    (hwl : len ≤ word.length) (hhl : len ≤ hy0.length) :
    ∀ (k s e : Nat) (hy : List Wc), s < e → len ≤ e + k → AgreeFrom s hy0 hy →
    ((compoundLoop ugly min word len k s e hy).bind fun r =>
      if r.2.1 = len ∧ r.1 < r.2.1 ∧ r.2.1 ≥ r.1 + min then ruleAt ugly word r.1 (r.2.1 - r.1) r.2.2
      else some r.2.2) = foldParts ugly min word (partsOf hy0 len k s e) hy := by
  have hlast : ∀ (s e : Nat) (hy : List Wc),
      (if e = len ∧ s < e ∧ e ≥ s + min then ruleAt ugly word s (e - s) hy else some hy) =
        foldParts ugly min word (if e = len ∧ s < e then [(s, e)] else []) hy := by
    intro s e hy
    by_cases h1 : e = len ∧ s < e
    · rw [if_pos h1]
      simp only [foldParts]
      by_cases h2 : e ≥ s + min
      · rw [if_pos ⟨h1.1, h1.2, h2⟩, if_pos h2]
        cases ruleAt ugly word s (e - s) hy <;> rfl
      · rw [if_neg (by omega), if_neg h2]
    · rw [if_neg h1, if_neg (by omega)]
      rfl
  intro k
  induction k with
  | zero =>
    intro s e hy hse hlen ha
    simp only [compoundLoop, partsOf, if_neg (show ¬ e < len by omega), Option.pure_def, Option.bind_some]
    exact hlast s e hy
  | succ k ih =>
    intro s e hy hse hlen ha
    unfold compoundLoop partsOf
    by_cases he : e < len
    · have hel : e < hy.length := by rw [ha.1]; omega
      have hcell : hy0[e]? = some hy[e] := by rw [← ha.2 e (by omega), List.getElem?_eq_getElem hel]
      have hbl : blankAt hy0 e = blankAt hy e := by
        simp only [blankAt, ha.2 e (by omega : s ≤ e)]
      simp only [he, if_true, rd_eq_some hel, Option.bind_eq_bind, Option.bind_some]
      by_cases hc : hy[e] ≠ 0x20 ∧ hy[e] ≠ 0x58
      · have hbf : blankAt hy0 e = false := by
          rw [hbl]
          have := blankAt_iff hy e hel
          cases hb : blankAt hy e
          · rfl
          · exact absurd hc (this.1 hb)
        rw [if_pos hc, hbf]
        simp only [Bool.false_eq_true, if_false, foldParts]
        have key : ∀ hy' : List Wc, hy'.length = hy.length → (∀ i, e ≤ i → hy'[i]? = hy[i]?) →
            (((rd hy' e).bind fun c' => compoundLoop ugly min word len k (if c' = 61 then e + 1 else e)
              ((if c' = 61 then e + 1 else e) + 1) hy').bind fun r =>
              if r.2.1 = len ∧ r.1 < r.2.1 ∧ r.2.1 ≥ r.1 + min then ruleAt ugly word r.1 (r.2.1 - r.1) r.2.2
              else some r.2.2) =
            foldParts ugly min word (partsOf hy0 len k (if hy0[e]? = some 61 then e + 1 else e)
              ((if hy0[e]? = some 61 then e + 1 else e) + 1)) hy' := by
          intro hy' hl hag
          have hr : rd hy' e = some hy[e] := by
            simp only [rd, hag e (Nat.le_refl e), List.getElem?_eq_getElem hel]
          rw [hr, hcell]
          simp only [Option.bind_some, Option.some.injEq]
          have ha' : AgreeFrom e hy0 hy' := ⟨hl.trans ha.1, fun i hi => (hag i hi).trans (ha.2 i (by omega))⟩
          split
          · exact ih _ _ hy' (by omega) (by omega) (ha'.mono (by omega))
          · exact ih _ _ hy' (by omega) (by omega) ha'
        by_cases hmin : e ≥ s + min
        · obtain ⟨q, hy', _, _, _, e3, l3, _, _, g3⟩ := ruleAt_agree (ugly := ugly) (word := word) (hy := hy) (s := s)
            (n := e - s) (by omega) (by omega) (fun c hc => h0 c (List.take_subset_take_left word (by omega) hc))
          simp only [if_pos hmin, e3, Option.bind_some]
          exact key hy' l3 (fun i hi => g3 i (by omega))
        · simp only [if_neg hmin, Option.bind_some]
          exact key hy rfl (fun _ _ => rfl)
      · have hbt : blankAt hy0 e = true := by
          rw [hbl]; exact (blankAt_iff hy e hel).2 hc
        rw [if_neg hc, hbt, if_pos rfl]
        exact ih s (e + 1) hy (by omega) (by omega) ha
    · simp only [if_neg he, Option.pure_def, Option.bind_some]
      exact hlast s e hy

/-- `compoundHyphenation` as a fold over the parts of the original pattern. -/
theorem compoundHyphenation_eq (ugly : Bool) (min : Nat) (word : List Wc) (len : Nat) (hy : List Wc)
    (h0 : ∀ c ∈ word.take len, c ≠ 0) (hwl : len ≤ word.length) (hhl : len ≤ hy.length) :
    compoundHyphenation ugly min word len hy =
      foldParts ugly min word (partsOf hy len len (leadingEq hy len) (leadingEq hy len + 1)) hy := by
  rw [← compoundLoop_eq ugly min word len hy h0 hwl hhl len (leadingEq hy len) (leadingEq hy len + 1) hy (by omega) (by omega)
    ⟨rfl, fun _ _ => rfl⟩]
  rfl

/-- Parts are consecutive and inside the word. -/
inductive PartsOk (len : Nat) : Nat → List (Nat × Nat) → Prop
  | nil (m : Nat) : PartsOk len m []
  | cons (m s e : Nat) (ps : List (Nat × Nat)) : m ≤ s → s < e → e ≤ len → PartsOk len e ps → PartsOk len m ((s, e) :: ps)

theorem PartsOk.weaken {len m m' : Nat} {ps : List (Nat × Nat)} (h : PartsOk len m ps) (hm : m' ≤ m) : PartsOk len m' ps := by
  cases h with
  | nil => exact .nil _
  | cons _ s e ps h1 h2 h3 h4 => exact .cons _ _ _ _ (by omega) h2 h3 h4

theorem partsOf_ok (hy : List Wc) (len : Nat) : ∀ k s e, s < e → PartsOk len s (partsOf hy len k s e) := by
  intro k
  induction k with
  | zero =>
    intro s e h
    unfold partsOf
    split
    · exact .cons _ _ _ _ (by omega) h (by omega) (.nil _)
    · exact .nil _
  | succ k ih =>
    intro s e h
    unfold partsOf
    split
    · split
      · exact ih s (e + 1) (by omega)
      · refine .cons _ _ _ _ (by omega) h (by omega) ?_
        exact (ih _ _ (by omega)).weaken (by split <;> omega)
    · split
      · exact .cons _ _ _ _ (by omega) h (by omega) (.nil _)
      · exact .nil _

/-- Each part is bounded by borders of the pattern and has none inside. -/
structure IsPart (hy : List Wc) (len s e : Nat) : Prop where
  lt : s < e
  le : e ≤ len
  inside : ∀ j, s < j → j < e → blankAt hy j = true
  fin : e = len ∨ blankAt hy e = false
  start : (s = 0 ∧ hy[0]? ≠ some 0x3D) ∨ hy[s - 1]? = some 0x3D ∧ 0 < s ∨ (blankAt hy s = false ∧ hy[s]? ≠ some 0x3D)

theorem partsOf_isPart (hy : List Wc) (len : Nat) : ∀ k s e, s < e → (∀ j, s < j → j < e → blankAt hy j = true) →
    ((s = 0 ∧ hy[0]? ≠ some 0x3D) ∨ hy[s - 1]? = some 0x3D ∧ 0 < s ∨ (blankAt hy s = false ∧ hy[s]? ≠ some 0x3D)) →
    ∀ p ∈ partsOf hy len k s e, IsPart hy len p.1 p.2 := by
  intro k
  induction k with
  | zero =>
    intro s e h hin hst p hp
    unfold partsOf at hp
    split at hp
    · rw [List.mem_singleton] at hp; subst hp
      exact ⟨h, by omega, hin, by omega, hst⟩
    · simp at hp
  | succ k ih =>
    intro s e h hin hst p hp
    unfold partsOf at hp
    split at hp
    · split at hp
      · rename_i hb
        refine ih s (e + 1) (by omega) ?_ hst p hp
        intro j h1 h2
        rcases Nat.lt_or_ge j e with h3 | h3
        · exact hin j h1 h3
        · rw [show j = e by omega]; exact hb
      · rename_i hel hb
        rw [List.mem_cons] at hp
        rcases hp with rfl | hp
        · exact ⟨h, by simp; omega, hin, Or.inr (by simpa using hb), hst⟩
        · split at hp
          · rename_i heq
            exact ih _ _ (by omega) (by omega) (Or.inr (Or.inl ⟨by simpa using heq, by omega⟩)) p hp
          · rename_i heq
            exact ih _ _ (by omega) (by omega) (Or.inr (Or.inr ⟨by simpa using hb, heq⟩)) p hp
    · split at hp
      · rw [List.mem_singleton] at hp; subst hp
        exact ⟨h, by omega, hin, by omega, hst⟩
      · simp at hp

theorem partsOf_inside (hy : List Wc) (len : Nat) : ∀ k s e, s < e → (∀ j, s < j → j < e → blankAt hy j = true) →
    ∀ p ∈ partsOf hy len k s e, ∀ j, p.1 < j → j < p.2 → blankAt hy j = true := by
  intro k
  induction k with
  | zero =>
    intro s e h hin p hp
    unfold partsOf at hp
    split at hp
    · rw [List.mem_singleton] at hp; subst hp; exact hin
    · simp at hp
  | succ k ih =>
    intro s e h hin p hp
    unfold partsOf at hp
    split at hp
    · split at hp
      · rename_i hb
        refine ih s (e + 1) (by omega) ?_ p hp
        intro j h1 h2
        rcases Nat.lt_or_ge j e with h3 | h3
        · exact hin j h1 h3
        · rw [show j = e by omega]; exact hb
      · rw [List.mem_cons] at hp
        rcases hp with rfl | hp
        · exact hin
        · exact ih _ _ (by omega) (by omega) p hp
    · split at hp
      · rw [List.mem_singleton] at hp; subst hp; exact hin
      · simp at hp

/-- Every cell of the result is the original one or lies in a part that is long enough, where it is given by the rules. -/
theorem foldParts_spec (ugly : Bool) (min : Nat) (word : List Wc) (len : Nat) (hy0 : List Wc) (h0 : ∀ c ∈ word.take len, c ≠ 0)
    (hwl : len ≤ word.length) (hhl : len ≤ hy0.length) :
    ∀ (ps : List (Nat × Nat)) (m : Nat) (hy : List Wc), PartsOk len m ps → AgreeFrom m hy0 hy →
    ∃ r, foldParts ugly min word ps hy = some r ∧ r.length = hy.length ∧ (∀ i, i ≤ m → r[i]? = hy[i]?) ∧
      ∀ i, r[i]? = hy[i]? ∨ ∃ s e q, (s, e) ∈ ps ∧ s + min ≤ e ∧ s < i ∧ i < e ∧
        ruleHyphenation ugly (word.drop s) (hy0.drop s) (e - s) = some q ∧ Upd (e - s) (hy0.drop s) q ∧
        r[i]? = q[i - s]? := by
  intro ps
  induction ps with
  | nil => exact fun m hy _ _ => ⟨hy, rfl, rfl, fun _ _ => rfl, fun i => Or.inl rfl⟩
  | cons pe ps ih =>
    intro m hy hok ha
    obtain ⟨s, e⟩ := pe
    cases hok with
    | cons _ _ _ _ h1 h2 h3 h4 =>
      unfold foldParts
      by_cases hmin : e ≥ s + min
      · have hl := ha.1
        obtain ⟨q, hy', e1, u1, _, e3, l3, le3, ge3, g3⟩ := ruleAt_agree (ugly := ugly) (word := word) (hy := hy) (s := s)
          (n := e - s) (by omega) (by omega) (fun c hc => h0 c (List.take_subset_take_left word (by omega) hc))
        have ha' : AgreeFrom e hy0 hy' := ⟨l3.trans hl, fun i hi => (g3 i (by omega)).trans (ha.2 i (by omega))⟩
        obtain ⟨r, f1, f2, f3, f4⟩ := ih e hy' h4 ha'
        refine ⟨r, by simp only [if_pos hmin, e3, Option.bind_some, f1], f2.trans l3, ?_, ?_⟩
        · intro i hi
          rw [f3 i (by omega), le3 i (by omega)]
        · intro i
          rcases f4 i with h | ⟨s', e', q', hm, hx⟩
          · by_cases hi : s < i ∧ i < e
            · right
              rw [(ha.mono h1).drop] at e1 u1
              exact ⟨s, e, q, by simp, by omega, hi.1, hi.2, e1, u1, h.trans (ge3 i (by omega))⟩
            · left
              rw [h]
              rcases Nat.lt_or_ge s i with h5 | h5
              · exact g3 i (by omega)
              · exact le3 i h5
          · right
            exact ⟨s', e', q', by simp [hm], hx⟩
      · obtain ⟨r, f1, f2, f3, f4⟩ := ih e hy h4 (ha.mono (by omega))
        refine ⟨r, by simp only [if_neg hmin, f1], f2, fun i hi => f3 i (by omega), fun i => ?_⟩
        rcases f4 i with h | ⟨s', e', q', hm, hx⟩
        · exact Or.inl h
        · exact Or.inr ⟨s', e', q', by simp [hm], hx⟩

theorem leadingEq_le (hy : List Wc) (len : Nat) : leadingEq hy len ≤ len := by
  unfold leadingEq
  exact Nat.le_trans (List.takeWhile_sublist _).length_le (List.length_take_le _ _)

theorem leadingEq_cells (hy : List Wc) (len i : Nat) (h : i < leadingEq hy len) : hy[i]? = some 0x3D := by
  unfold leadingEq at h
  have h1 := List.getElem_mem (l := (hy.take len).takeWhile (· == 0x3D)) h
  have h2 := List.mem_takeWhile_imp h1
  have h3 : ((hy.take len).takeWhile (· == 0x3D)) <+: hy := (List.takeWhile_prefix _).trans (List.take_prefix _ _)
  obtain ⟨t, ht⟩ := h3
  conv => lhs; rw [← ht]
  rw [List.getElem?_append_left h, List.getElem?_eq_getElem h]
  exact congrArg some (by simpa using h2)

/-- Specification of `compoundHyphenation`. -/
theorem compound_spec (ugly : Bool) (min : Nat) (word : List Wc) (len : Nat) (hy : List Wc)
    (h0 : ∀ c ∈ word.take len, c ≠ 0) (hwl : len ≤ word.length) (hhl : len ≤ hy.length) :
    ∃ r, compoundHyphenation ugly min word len hy = some r ∧ r.length = hy.length ∧ r[0]? = hy[0]? ∧
      ∀ i, r[i]? = hy[i]? ∨ ∃ s e q, IsPart hy len s e ∧ s + min ≤ e ∧ s < i ∧ i < e ∧
        ruleHyphenation ugly (word.drop s) (hy.drop s) (e - s) = some q ∧ Upd (e - s) (hy.drop s) q ∧
        r[i]? = q[i - s]? := by
  rw [compoundHyphenation_eq ugly min word len hy h0 hwl hhl]
  have hk := partsOf_ok hy len len (leadingEq hy len) (leadingEq hy len + 1) (by omega)
  obtain ⟨r, e1, e2, e3, e4⟩ := foldParts_spec ugly min word len hy h0 hwl hhl _ _ hy hk ⟨rfl, fun _ _ => rfl⟩
  refine ⟨r, e1, e2, e3 0 (by omega), fun i => ?_⟩
  rcases e4 i with h | ⟨s, e, q, hm, hx⟩
  · exact Or.inl h
  · refine Or.inr ⟨s, e, q, ?_, hx⟩
    refine partsOf_isPart hy len len (leadingEq hy len) (leadingEq hy len + 1) (by omega) (by omega) ?_ (s, e) hm
    rcases Nat.eq_zero_or_pos (leadingEq hy len) with h | h
    · refine Or.inl ⟨h, fun hc => ?_⟩
      have hlen : 0 < len := by
        rcases Nat.eq_zero_or_pos len with hl | hl
        · subst hl
          rw [h] at hm
          simp [partsOf] at hm
        · exact hl
      obtain ⟨l, rfl⟩ : ∃ l, len = l + 1 := ⟨len - 1, by omega⟩
      cases hy with
      | nil => simp at hc
      | cons c t =>
        simp only [List.getElem?_cons_zero, Option.some.injEq] at hc
        simp [leadingEq, hc] at h
    · exact Or.inr (Or.inl ⟨leadingEq_cells hy len _ (by omega), h⟩)

end Verif
