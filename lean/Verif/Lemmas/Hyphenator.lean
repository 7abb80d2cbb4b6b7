import Verif.Model.Hyphenator
import Verif.Props.Nonword
import Verif.Lemmas.Spell
/-!
# Lemmas on the hyphenation rules
-/

namespace Verif
set_option linter.unusedSimpArgs false

/-- `q` arises from `p` by writing pattern characters into cells `1 .. n-1`. -/
structure Upd (n : Nat) (p q : List Wc) : Prop where
  len : q.length = p.length
  cell : ∀ i, q[i]? = p[i]? ∨ (1 ≤ i ∧ i < n ∧ (q[i]? = some 0x20 ∨ q[i]? = some 0x2D ∨ q[i]? = some 0x3D))

theorem Upd.refl (n : Nat) (p : List Wc) : Upd n p p := ⟨rfl, fun _ => Or.inl rfl⟩

theorem Upd.trans {n : Nat} {p q r : List Wc} (h1 : Upd n p q) (h2 : Upd n q r) : Upd n p r := by
  refine ⟨h2.len.trans h1.len, fun i => ?_⟩
  rcases h2.cell i with h | h
  · rcases h1.cell i with h' | h'
    · exact Or.inl (h.trans h')
    · rw [← h] at h'; exact Or.inr h'
  · exact Or.inr h

theorem upd_set {n : Nat} {p : List Wc} {i : Nat} {c : Wc} (h1 : 1 ≤ i) (h2 : i < n)
    (hc : c = 0x20 ∨ c = 0x2D ∨ c = 0x3D) : Upd n p (p.set i c) := by
  refine ⟨by simp, fun j => ?_⟩
  by_cases hj : i = j
  · subst hj
    by_cases hl : i < p.length
    · refine Or.inr ⟨h1, h2, ?_⟩
      rw [List.getElem?_set_self hl]
      rcases hc with h | h | h <;> simp [h]
    · left; rw [List.set_eq_of_length_le (by omega)]
  · left; rw [List.getElem?_set_ne hj]

/-- `f` is defined on every pattern of at least `n` cells and changes only cells `1 .. n-1`. -/
def Safe (n : Nat) (f : List Wc → UB (List Wc)) : Prop :=
  ∀ pts : List Wc, n ≤ pts.length → ∃ q, f pts = some q ∧ Upd n pts q

theorem safe_id (n : Nat) : Safe n (fun p => some p) := fun p _ => ⟨p, rfl, Upd.refl n p⟩

theorem safe_wr {n i : Nat} {c : Wc} (h1 : 1 ≤ i) (h2 : i < n) (hc : c = 0x20 ∨ c = 0x2D ∨ c = 0x3D) :
    Safe n (fun p => wr p i c) := by
  intro p hp
  exact ⟨p.set i c, wr_eq_some c (by omega), upd_set h1 h2 hc⟩

theorem safe_bind {n : Nat} {f g : List Wc → UB (List Wc)} (hf : Safe n f) (hg : Safe n g) :
    Safe n (fun p => (f p).bind g) := by
  intro p hp
  obtain ⟨q, e1, u1⟩ := hf p hp
  obtain ⟨r, e2, u2⟩ := hg q (by rw [u1.len]; exact hp)
  exact ⟨r, by simp only [e1, Option.bind_some, e2], u1.trans u2⟩

theorem safe_forIdx {n : Nat} (k lo : Nat) (f : Nat → List Wc → UB (List Wc))
    (h : ∀ i, lo ≤ i → i < lo + k → Safe n (f i)) : Safe n (forIdx lo k f) := by
  induction k generalizing lo with
  | zero => exact safe_id n
  | succ k ih =>
    exact safe_bind (h lo (Nat.le_refl _) (by omega)) (ih (lo + 1) (fun i h1 h2 => h i (by omega) (by omega)))

theorem safe_forTable {n : Nat} {α : Type} (xs : List α) (f : α → List Wc → UB (List Wc))
    (h : ∀ x ∈ xs, Safe n (f x)) : Safe n (forTable xs f) := by
  induction xs with
  | nil => exact safe_id n
  | cons x xs ih =>
    exact safe_bind (h x (by simp)) (ih (fun y hy => h y (by simp [hy])))

/-! ### `isGoodHyphenPosition` -/

theorem goodBack_total (w pts : List Wc) (i : Nat) (has : Bool) (h1 : i < w.length) (h2 : i < pts.length) :
    ∃ b, goodBack w pts i has = some b := by
  induction i generalizing has with
  | zero => exact ⟨has, by simp [goodBack, rd_eq_some h2]⟩
  | succ i ih =>
    unfold goodBack
    simp only [rd_eq_some h2, rd_eq_some h1, Option.bind_eq_bind, Option.bind_some]
    split
    · exact ⟨has, rfl⟩
    · exact ih _ (by omega) (by omega)

theorem goodFwd_total (w pts : List Wc) (k i : Nat) (has : Bool) (h1 : i + k ≤ w.length) (h2 : i + k ≤ pts.length) :
    ∃ b, goodFwd w pts k i has = some b := by
  induction k generalizing i has with
  | zero => exact ⟨has, rfl⟩
  | succ k ih =>
    unfold goodFwd
    simp only [rd_eq_some (show i < pts.length by omega), rd_eq_some (show i < w.length by omega),
      Option.bind_eq_bind, Option.bind_some]
    split
    · exact ⟨has, rfl⟩
    · split
      · exact ⟨has, rfl⟩
      · exact ih _ _ (by omega) (by omega)

theorem isGoodPos_total (w pts : List Wc) (pos n : Nat) (h1 : n ≤ w.length) (h2 : n ≤ pts.length) :
    ∃ b, isGoodPos w pts pos n = some b ∧ (b = true → 1 ≤ pos ∧ pos + 1 < n) := by
  unfold isGoodPos
  by_cases h : pos = 0 ∨ pos + 1 ≥ n
  · exact ⟨false, by simp [h], by simp⟩
  · obtain ⟨b, hb⟩ := goodBack_total w pts (pos - 1) false (by omega) (by omega)
    simp only [h, if_false, Option.bind_eq_bind, hb, Option.bind_some]
    cases b
    · exact ⟨false, rfl, by simp⟩
    · obtain ⟨b', hb'⟩ := goodFwd_total w pts (n - pos) pos false (by omega) (by omega)
      exact ⟨b', by simpa using hb', fun _ => by omega⟩

/-! ### The rules -/

section
variable {n : Nat} {w : List Wc} (hw : w.length = n + 1)
include hw

theorem safe_stepCV (ugly : Bool) (i : Nat) (hi : i + 1 < n)
    (h0 : i = 0 → wcschr voikkoConsonants w[0] = false) : Safe n (stepCV ugly w i) := by
  intro p hp
  unfold stepCV
  simp only [rd_eq_some (show i < w.length by omega), rd_eq_some (show i + 1 < w.length by omega),
    Option.bind_eq_bind, Option.bind_some]
  by_cases hc : (wcschr voikkoConsonants w[i] && wcschr voikkoVowels w[i + 1]) = true
  · have hi0 : i ≠ 0 := by
      intro h
      have := h0 h
      subst h
      simp [this] at hc
    simp only [hc, hi0, if_true, if_false, rd_eq_some (show i - 1 < w.length by omega), Option.bind_some]
    split
    · exact safe_id n p hp
    · split
      · exact safe_wr (by omega) (by omega) (by simp) p hp
      · simp only [rd_eq_some (show i - 2 < w.length by omega), Option.bind_some]
        split
        · exact safe_wr (by omega) (by omega) (by simp) p hp
        · exact safe_id n p hp
  · rw [if_neg hc]
    exact safe_id n p hp

theorem safe_stepApos (i : Nat) (h1 : 1 ≤ i) (hi : i + 1 < n) : Safe n (stepApos w i) := by
  intro p hp
  unfold stepApos
  simp only [rd_eq_some (show i < w.length by omega), rd_eq_some (show i + 1 < w.length by omega),
    Option.bind_eq_bind, Option.bind_some]
  split
  · split
    · exact safe_wr (by omega) (by omega) (by simp) p hp
    · exact safe_id n p hp
  · exact safe_id n p hp

theorem safe_stepLongBefore (i : Nat) (h1 : 1 ≤ i) (hi : i + 1 < n) : Safe n (stepLongBefore w n i) := by
  intro p hp
  unfold stepLongBefore
  simp only [rd_eq_some (show i - 1 < w.length by omega), Option.bind_eq_bind, Option.bind_some]
  split
  · obtain ⟨b, hb, hb'⟩ := isGoodPos_total w p i n (by omega) hp
    simp only [hb, Option.bind_some]
    split
    · exact safe_wr (by omega) (by omega) (by simp) p hp
    · exact safe_id n p hp
  · exact safe_id n p hp

theorem safe_stepLongAfter (i : Nat) : Safe n (stepLongAfter w n i) := by
  intro p hp
  unfold stepLongAfter
  obtain ⟨b, hb, hb'⟩ := isGoodPos_total w p (i + 2) n (by omega) hp
  simp only [hb, Option.bind_eq_bind, Option.bind_some]
  split
  · rename_i h
    have := hb' h
    exact safe_wr (by omega) (by omega) (by simp) p hp
  · exact safe_id n p hp

theorem safe_stepLong (i : Nat) (h1 : 1 ≤ i) (hi : i + 1 < n) : Safe n (stepLong w n i) := by
  intro p hp
  unfold stepLong
  simp only [rd_eq_some (show i < w.length by omega), rd_eq_some (show i + 1 < w.length by omega),
    Option.bind_eq_bind, Option.bind_some]
  split
  · split
    · exact safe_bind (safe_stepLongBefore hw i h1 hi) (safe_stepLongAfter hw i) p hp
    · exact safe_id n p hp
  · exact safe_id n p hp

theorem safe_stepVV (i : Nat) (hi : i + 1 < n) : Safe n (stepVV w i) := by
  intro p hp
  unfold stepVV
  simp only [rd_eq_some (show i < w.length by omega), rd_eq_some (show i + 1 < w.length by omega),
    rd_eq_some (show i + 1 < p.length by omega), Option.bind_eq_bind, Option.bind_some]
  repeat' split
  all_goals first
    | exact safe_id n p hp
    | exact safe_wr (by omega) (by omega) (by simp) p hp

omit hw in
theorem safe_stepMove (i k : Nat) (h1 : 1 ≤ i) (hi : i < n) (hk : 1 ≤ k) (hk' : k < n) : Safe n (stepMove i k) := by
  intro p hp
  unfold stepMove
  simp only [rd_eq_some (show k < p.length by omega), Option.bind_eq_bind, Option.bind_some]
  split
  · exact safe_bind (safe_wr hk hk' (by simp)) (safe_wr h1 hi (by simp)) p hp
  · exact safe_id n p hp

omit hw in
theorem wcsncmpEq_total (l t : List Wc) (off : Nat) (h : off + l.length ≤ t.length) : ∃ b, wcsncmpEq l t off = some b := by
  induction l generalizing off with
  | nil => exact ⟨true, rfl⟩
  | cons c l ih =>
    simp only [List.length_cons] at h
    unfold wcsncmpEq
    simp only [rd_eq_some (show off < t.length by omega), Option.bind_eq_bind, Option.bind_some]
    split
    · exact ih (off + 1) (by omega)
    · exact ⟨false, rfl⟩

theorem safe_stepCons (i : Nat) (lc : List Wc) (h1 : 1 ≤ i) : Safe n (stepCons w n i lc) := by
  intro p hp
  unfold stepCons
  split
  · rename_i h
    obtain ⟨b, hb⟩ := wcsncmpEq_total lc w i (by omega)
    simp only [hb, Option.bind_eq_bind, Option.bind_some]
    split
    · exact safe_forIdx _ _ _ (fun k _ _ => safe_stepMove i k h1 (by omega) (by omega) (by omega)) p hp
    · exact safe_id n p hp
  · exact safe_id n p hp

theorem safe_stepNoVV (i : Nat) (hi : i + 1 < n) : Safe n (stepNoVV w i) := by
  intro p hp
  unfold stepNoVV
  simp only [rd_eq_some (show i < w.length by omega), rd_eq_some (show i + 1 < w.length by omega),
    Option.bind_eq_bind, Option.bind_some]
  repeat' split
  all_goals first
    | exact safe_id n p hp
    | exact safe_wr (by omega) (by omega) (by simp) p hp

theorem safe_stepAfter (i : Nat) (sa : List Wc) (hsa : sa.length = 2) (hi : i + 3 < n) : Safe n (stepAfter w n i sa) := by
  intro p hp
  unfold stepAfter
  obtain ⟨b, hb⟩ := wcsncmpEq_total sa w i (by omega)
  obtain ⟨g, hg, hg'⟩ := isGoodPos_total w p (i + 2) n (by omega) hp
  simp only [rd_eq_some (show i + 2 < w.length by omega), rd_eq_some (show i + 1 < p.length by omega), hb, hg,
    Option.bind_eq_bind, Option.bind_some]
  repeat' split
  all_goals first
    | exact safe_id n p hp
    | exact safe_wr (by omega) (by omega) (by simp) p hp

theorem safe_ruleLast (ugly : Bool) (hn : 2 ≤ n) : Safe n (ruleLast ugly w n) := by
  intro p hp
  unfold ruleLast
  split
  · exact safe_bind (safe_wr (by omega) (by omega) (by simp)) (safe_bind (safe_wr (by omega) (by omega) (by simp))
      (safe_forIdx _ _ _ (fun i _ h => safe_stepNoVV hw i (by omega)))) p hp
  · split
    · refine safe_forIdx _ _ _ (fun i _ h => safe_forTable _ _ (fun sa hsa => safe_stepAfter hw i sa ?_ (by omega))) p hp
      simp only [splitAfter, List.mem_cons, List.not_mem_nil, or_false] at hsa
      rcases hsa with rfl | rfl <;> rfl
    · exact safe_id n p hp

theorem safe_rulePoints (ugly : Bool) (hn : 2 ≤ n) (h0 : w[0] ≠ 0) : Safe n (rulePoints ugly w n) := by
  unfold rulePoints
  refine safe_bind (safe_forIdx _ _ _ fun i h1 h2 => safe_stepCV hw ugly i (by omega) ?_) (safe_bind
    (safe_forIdx _ _ _ fun i h1 h2 => safe_stepApos hw i h1 (by omega)) (safe_bind
    (safe_forIdx _ _ _ fun i h1 h2 => safe_stepLong hw i h1 (by omega)) (safe_bind
    (safe_forIdx _ _ _ fun i h1 h2 => safe_stepVV hw i (by omega))
    (safe_forIdx _ _ _ fun i h1 h2 => safe_forTable _ _ fun lc _ => safe_stepCons hw i lc h1))))
  intro hi
  subst hi
  have hl : (w.takeWhile fun c => c != 0 && wcschr voikkoConsonants c).length = 0 := by omega
  obtain ⟨c, r, rfl⟩ := List.exists_cons_of_length_pos (show 0 < w.length by omega)
  rw [List.length_eq_zero_iff, List.takeWhile_cons] at hl
  simp only [List.getElem_cons_zero] at h0 ⊢
  split at hl
  · simp at hl
  · rename_i h
    simpa [h0] using h

end

theorem hyLower_ne_zero {c : Wc} (h : c ≠ 0) : lower c ≠ 0 := by
  rcases Props.lower_eq_or c with h1 | h1 <;> omega

theorem allowRule_total (ugly : Bool) (word : List Wc) (n : Nat) (h : n ≤ word.length) :
    ∃ b, allowRule ugly word n = some b ∧ (b = true → 2 ≤ n) := by
  unfold allowRule
  by_cases h1 : n ≤ 1
  · exact ⟨false, by simp [h1], by simp⟩
  · simp only [h1, if_false]
    cases ugly
    · obtain ⟨b, hb, _⟩ := Props.C29_exact (word.take n)
      simp only [Bool.not_false, if_true, show ¬ word.length < n by omega, if_false, hb, Option.bind_eq_bind,
        Option.bind_some, rd_eq_some (show n - 1 < word.length by omega)]
      cases b
      · exact ⟨_, rfl, fun _ => by omega⟩
      · exact ⟨false, rfl, by simp⟩
    · exact ⟨true, rfl, fun _ => by omega⟩

theorem safe_rule (ugly : Bool) (word : List Wc) (n : Nat) (hn : n ≤ word.length) (h0 : ∀ c ∈ word.take n, c ≠ 0) :
    Safe n (fun pts => ruleHyphenation ugly word pts n) := by
  intro p hp
  show ∃ q, ruleHyphenation ugly word p n = some q ∧ _
  unfold ruleHyphenation
  obtain ⟨b, hb, hb'⟩ := allowRule_total ugly word n hn
  simp only [hb, Option.bind_eq_bind, Option.bind_some]
  cases b
  · exact safe_id n p hp
  · have h2 := hb' rfl
    simp only [Bool.not_true, Bool.false_eq_true, if_false, rd_eq_some (show 0 < p.length by omega), Option.bind_some,
      show ¬ word.length < n by omega]
    split
    · exact safe_id n p hp
    · have hw : ((word.take n).map lower ++ [0]).length = n + 1 := by simp; omega
      have hz : ((word.take n).map lower ++ [0])[0]'(by omega) ≠ 0 := by
        rw [List.getElem_append_left (by simp; omega), List.getElem_map]
        exact hyLower_ne_zero (h0 _ (List.getElem_mem _))
      exact safe_bind (safe_rulePoints hw ugly h2 hz) (safe_ruleLast hw ugly h2) p hp

theorem ruleAt_spec (ugly : Bool) (word hy : List Wc) (s n : Nat) (hn : s + n ≤ word.length) (hs : s + n ≤ hy.length)
    (h0 : ∀ c ∈ (word.drop s).take n, c ≠ 0) :
    ∃ q, ruleHyphenation ugly (word.drop s) (hy.drop s) n = some q ∧ Upd n (hy.drop s) q ∧
      ruleAt ugly word s n hy = some (hy.take s ++ q) := by
  obtain ⟨q, e, u⟩ := safe_rule ugly (word.drop s) n (by simp; omega) h0 (hy.drop s) (by simp; omega)
  exact ⟨q, e, u, by simp only [ruleAt, Option.bind_eq_bind]; rw [show ruleHyphenation ugly (word.drop s) (hy.drop s) n = some q from e]; rfl⟩

end Verif
