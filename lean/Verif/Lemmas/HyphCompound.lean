import Verif.Lemmas.HyphParts
import Verif.Lemmas.HyphSplit
import Verif.Props.Hyphenator
/-!
# The hyphenation of a part of a word depends only on the part

The rules for a part read and write only the cells of the part, and of the first cell they only test whether it is `X`.
-/

namespace Verif.Compound
open Verif Verif.Props

/-- Two pattern buffers for `n` characters that differ at most in the first cell and behind the `n` cells. -/
def Same (n : Nat) (p p' : List Wc) : Prop := n ≤ p.length ∧ n ≤ p'.length ∧ ∀ k, 1 ≤ k → k < n → p[k]? = p'[k]?

/-- Both undefined, or both defined with such results. -/
def SimU (n : Nat) (x y : UB (List Wc)) : Prop := (x = none ∧ y = none) ∨ ∃ q q', x = some q ∧ y = some q' ∧ Same n q q'

theorem sim_some {n : Nat} {p p' : List Wc} (h : Same n p p') : SimU n (some p) (some p') := .inr ⟨p, p', rfl, rfl, h⟩

theorem sim_pure {n : Nat} {p p' : List Wc} (h : Same n p p') : SimU n (pure p) (pure p') := sim_some h

theorem rd_same {n k : Nat} {p p' : List Wc} (h : Same n p p') (h1 : 1 ≤ k) (h2 : k < n) : rd p k = rd p' k := h.2.2 k h1 h2

theorem sim_wr {n k : Nat} {p p' : List Wc} (h : Same n p p') (hk : k < n) (v : Wc) : SimU n (wr p k v) (wr p' k v) := by
  obtain ⟨h1, h2, h3⟩ := h
  unfold wr
  rw [if_pos (by omega), if_pos (by omega)]
  refine sim_some ⟨by simpa using h1, by simpa using h2, fun j hj hj2 => ?_⟩
  by_cases hkj : k = j
  · subst hkj
    rw [List.getElem?_set_self (by omega), List.getElem?_set_self (by omega)]
  · rw [List.getElem?_set_ne hkj, List.getElem?_set_ne hkj]
    exact h3 j hj hj2

theorem sim_bind {n : Nat} {x y : UB (List Wc)} {f g : List Wc → UB (List Wc)} (h : SimU n x y)
    (hf : ∀ q q', Same n q q' → SimU n (f q) (g q')) : SimU n (x >>= f) (y >>= g) := by
  rcases h with ⟨rfl, rfl⟩ | ⟨q, q', rfl, rfl, h⟩
  · exact .inl ⟨rfl, rfl⟩
  · exact hf q q' h

/-- The same value is read first. -/
theorem sim_same {α : Type} {n : Nat} {x y : UB α} {f g : α → UB (List Wc)} (h : x = y) (hf : ∀ a, SimU n (f a) (g a)) :
    SimU n (x >>= f) (y >>= g) := by
  subst h
  cases x with
  | none => exact .inl ⟨rfl, rfl⟩
  | some a => exact hf a

theorem forIdx_sim {n : Nat} {f : Nat → List Wc → UB (List Wc)} : ∀ (k lo : Nat) (p p' : List Wc),
    (∀ i, lo ≤ i → i < lo + k → ∀ q q', Same n q q' → SimU n (f i q) (f i q')) → Same n p p' →
    SimU n (forIdx lo k f p) (forIdx lo k f p') := by
  intro k
  induction k with
  | zero => exact fun lo p p' _ h => sim_some h
  | succ k ih =>
    intro lo p p' hf h
    exact sim_bind (hf lo (by omega) (by omega) p p' h) fun q q' hq =>
      ih (lo + 1) q q' (fun i h1 h2 => hf i (by omega) (by omega)) hq

theorem forTable_sim {n : Nat} {α : Type} {f : α → List Wc → UB (List Wc)} : ∀ (l : List α) (p p' : List Wc),
    (∀ x ∈ l, ∀ q q', Same n q q' → SimU n (f x q) (f x q')) → Same n p p' → SimU n (forTable l f p) (forTable l f p') := by
  intro l
  induction l with
  | nil => exact fun p p' _ h => sim_some h
  | cons x l ih =>
    intro p p' hf h
    exact sim_bind (hf x (by simp) p p' h) fun q q' hq => ih q q' (fun y hy => hf y (by simp [hy])) hq

theorem goodBack_same {n : Nat} {w p p' : List Wc} (h : Same n p p') (hn : 0 < n) : ∀ (i : Nat) (has : Bool), i < n →
    goodBack w p i has = goodBack w p' i has := by
  intro i
  induction i with
  | zero =>
    intro has _
    have h1 : ∀ q : List Wc, n ≤ q.length → goodBack w q 0 has = some has := by
      intro q hq
      unfold goodBack
      rw [rd_eq_some (by omega)]
      rfl
    rw [h1 p h.1, h1 p' h.2.1]
  | succ i ih =>
    intro has hi
    unfold goodBack
    rw [rd_same h (by omega) hi]
    refine congrArg _ (funext fun c => ?_)
    split
    · rfl
    · exact congrArg _ (funext fun d => ih _ (by omega))

theorem goodFwd_same {n : Nat} {w p p' : List Wc} (h : Same n p p') : ∀ (k i : Nat) (has : Bool), 1 ≤ i → i + k ≤ n →
    goodFwd w p k i has = goodFwd w p' k i has := by
  intro k
  induction k with
  | zero => intro i has _ _; rfl
  | succ k ih =>
    intro i has hi hk
    unfold goodFwd
    rw [rd_same h hi (by omega)]
    refine congrArg _ (funext fun c => ?_)
    split
    · rfl
    · refine congrArg _ (funext fun d => ?_)
      split
      · rfl
      · exact ih _ _ (by omega) (by omega)

theorem isGoodPos_same {n : Nat} {w p p' : List Wc} (h : Same n p p') (pos : Nat) : isGoodPos w p pos n = isGoodPos w p' pos n := by
  unfold isGoodPos
  split
  · rfl
  · rename_i hpos
    rw [goodBack_same h (by omega) (pos - 1) false (by omega), goodFwd_same h (n - pos) pos false (by omega) (by omega)]

theorem isGoodPos_lt {n : Nat} {w p : List Wc} {pos : Nat} (h : isGoodPos w p pos n = some true) : pos < n := by
  unfold isGoodPos at h
  split at h
  · cases h
  · omega

section Steps
variable {n : Nat} {w p p' : List Wc}

theorem stepCV_sim (ugly : Bool) {i : Nat} (hi : i < n) (h : Same n p p') : SimU n (stepCV ugly w i p) (stepCV ugly w i p') := by
  unfold stepCV
  refine sim_same rfl fun c => sim_same rfl fun d => ?_
  split
  · split
    · exact .inl ⟨rfl, rfl⟩
    · refine sim_same rfl fun b => ?_
      split
      · exact sim_pure h
      · split
        · exact sim_wr h hi _
        · refine sim_same rfl fun a => ?_
          split
          · exact sim_wr h hi _
          · exact sim_pure h
  · exact sim_pure h

theorem stepApos_sim {i : Nat} (hi : i < n) (h : Same n p p') : SimU n (stepApos w i p) (stepApos w i p') := by
  unfold stepApos
  refine sim_same rfl fun c => ?_
  split
  · refine sim_same rfl fun d => ?_
    split
    · exact sim_wr h hi _
    · exact sim_pure h
  · exact sim_pure h

theorem wrGood_sim {pos : Nat} (h : Same n p p') :
    SimU n (do let good ← isGoodPos w p pos n; if good then wr p pos 0x2D else return p)
      (do let good ← isGoodPos w p' pos n; if good then wr p' pos 0x2D else return p') := by
  rw [isGoodPos_same h]
  cases hg : isGoodPos w p' pos n with
  | none => exact .inl ⟨rfl, rfl⟩
  | some b =>
    cases b with
    | true => exact sim_wr h (isGoodPos_lt hg) _
    | false => exact sim_pure h

theorem stepLong_sim {i : Nat} (h : Same n p p') : SimU n (stepLong w n i p) (stepLong w n i p') := by
  unfold stepLong
  refine sim_same rfl fun c => ?_
  split
  · refine sim_same rfl fun d => ?_
    split
    · refine sim_bind ?_ fun q q' hq => wrGood_sim hq
      unfold stepLongBefore
      refine sim_same rfl fun b => ?_
      split
      · exact wrGood_sim h
      · exact sim_pure h
    · exact sim_pure h
  · exact sim_pure h

theorem stepVV_sim {i : Nat} (hi : i + 1 < n) (h : Same n p p') : SimU n (stepVV w i p) (stepVV w i p') := by
  unfold stepVV
  refine sim_same (rd_same h (by omega) hi) fun c => ?_
  split
  · exact sim_pure h
  · refine sim_same rfl fun c => ?_
    split
    · exact sim_pure h
    · refine sim_same rfl fun d => ?_
      split
      · exact sim_pure h
      · split
        · exact sim_wr h hi _
        · exact sim_pure h

theorem stepCons_sim {i : Nat} (lc : List Wc) (h : Same n p p') : SimU n (stepCons w n i lc p) (stepCons w n i lc p') := by
  unfold stepCons
  split
  · refine sim_same rfl fun eq => ?_
    split
    · refine forIdx_sim _ _ _ _ (fun k h1 h2 q q' hq => ?_) h
      unfold stepMove
      refine sim_same (rd_same hq (by omega) (by omega)) fun c => ?_
      split
      · exact sim_bind (sim_wr hq (by omega) _) fun q q' hq => sim_wr hq (by omega) _
      · exact sim_pure hq
    · exact sim_pure h
  · exact sim_pure h

theorem stepNoVV_sim {i : Nat} (hi : i + 1 < n) (h : Same n p p') : SimU n (stepNoVV w i p) (stepNoVV w i p') := by
  unfold stepNoVV
  refine sim_same rfl fun c => ?_
  split
  · refine sim_same rfl fun d => ?_
    split
    · exact sim_wr h hi _
    · exact sim_pure h
  · exact sim_pure h

theorem stepAfter_sim {i : Nat} (sa : List Wc) (hi : i + 1 < n) (h : Same n p p') : SimU n (stepAfter w n i sa p) (stepAfter w n i sa p') := by
  unfold stepAfter
  refine sim_same (rd_same h (by omega) hi) fun c => ?_
  split
  · refine sim_same rfl fun eq => ?_
    split
    · refine sim_same rfl fun d => ?_
      split
      · exact wrGood_sim h
      · exact sim_pure h
    · exact sim_pure h
  · exact sim_pure h

theorem rulePoints_sim (ugly : Bool) (h : Same n p p') : SimU n (rulePoints ugly w n p) (rulePoints ugly w n p') := by
  unfold rulePoints
  refine sim_bind (forIdx_sim _ _ _ _ (fun i _ h2 q q' hq => stepCV_sim ugly (by omega) hq) h) fun q q' h => ?_
  refine sim_bind (forIdx_sim _ _ _ _ (fun i _ h2 q q' hq => stepApos_sim (by omega) hq) h) fun q q' h => ?_
  refine sim_bind (forIdx_sim _ _ _ _ (fun i _ h2 q q' hq => stepLong_sim hq) h) fun q q' h => ?_
  refine sim_bind (forIdx_sim _ _ _ _ (fun i _ h2 q q' hq => stepVV_sim (by omega) hq) h) fun q q' h => ?_
  exact forIdx_sim _ _ _ _ (fun i _ _ q q' hq => forTable_sim _ _ _ (fun lc _ q q' hq => stepCons_sim lc hq) hq) h

theorem ruleLast_sim (ugly : Bool) (hn : 2 ≤ n) (h : Same n p p') : SimU n (ruleLast ugly w n p) (ruleLast ugly w n p') := by
  unfold ruleLast
  split
  · refine sim_bind (sim_wr h (by omega) _) fun q q' h => ?_
    refine sim_bind (sim_wr h (by omega) _) fun q q' h => ?_
    exact forIdx_sim _ _ _ _ (fun i _ h2 q q' hq => stepNoVV_sim (by omega) hq) h
  · split
    · exact forIdx_sim _ _ _ _ (fun i _ h2 q q' hq => forTable_sim _ _ _ (fun sa _ q q' hq => stepAfter_sim sa (by omega) hq) hq) h
    · exact sim_pure h

end Steps

theorem allowRule_take {ugly : Bool} {w w' : List Wc} {n : Nat} (hw : w.take n = w'.take n) (h1 : n ≤ w.length) (h2 : n ≤ w'.length) :
    allowRule ugly w n = allowRule ugly w' n := by
  unfold allowRule
  split
  · rfl
  · rename_i hn
    rw [if_neg (by omega : ¬ w.length < n), if_neg (by omega : ¬ w'.length < n), hw]
    have : rd w (n - 1) = rd w' (n - 1) := by
      have e := congrArg (·[n - 1]?) hw
      simp only [List.getElem?_take_of_lt (show n - 1 < n by omega)] at e
      exact e
    rw [this]

/-- The rules for a part depend only on the characters of the part, its cells, and whether the first cell is `X`. -/
theorem ruleHyphenation_sim (ugly : Bool) {w w' p p' : List Wc} {n : Nat} (hn : 1 ≤ n) (hw : w.take n = w'.take n) (h1 : n ≤ w.length)
    (h2 : n ≤ w'.length) (hp : Same n p p') (hx : p[0]? = some 0x58 ↔ p'[0]? = some 0x58) :
    SimU n (ruleHyphenation ugly w p n) (ruleHyphenation ugly w' p' n) := by
  by_cases hn2 : 2 ≤ n
  case neg =>
    have e : ∀ v : List Wc, allowRule ugly v n = some false := fun v => by unfold allowRule; rw [if_pos (by omega)]; rfl
    unfold ruleHyphenation
    rw [e, e]
    exact sim_pure hp
  unfold ruleHyphenation
  refine sim_same (allowRule_take hw h1 h2) fun b => ?_
  cases b with
  | false => exact sim_pure hp
  | true =>
    simp only [Bool.not_true, Bool.false_eq_true, if_false]
    obtain ⟨l1, l2, _⟩ := id hp
    rw [rd_eq_some (show 0 < p.length by omega), rd_eq_some (show 0 < p'.length by omega)]
    simp only [Option.bind_eq_bind, Option.bind_some]
    rw [List.getElem?_eq_getElem (by omega), List.getElem?_eq_getElem (by omega), Option.some.injEq, Option.some.injEq] at hx
    by_cases hc : p[0] = 0x58
    · rw [if_pos hc, if_pos (hx.1 hc)]
      exact sim_pure hp
    · rw [if_neg hc, if_neg (fun h => hc (hx.2 h)), if_neg (by omega), if_neg (by omega), hw]
      exact sim_bind (rulePoints_sim ugly hp) fun q q' h => ruleLast_sim ugly hn2 h

/-- `s` is where a part starts, if the walk over the parts has last started one at `s0`. -/
def StartOk (hy : List Wc) (s0 s : Nat) : Prop :=
  s = s0 ∨ (s0 < s ∧ blankAt hy s = false ∧ hy[s]? ≠ some 0x3D) ∨ (s0 + 1 < s ∧ hy[s - 1]? = some 0x3D ∧ hy[s - 2]? ≠ some 0x3D)

theorem not_blank_eq {hy : List Wc} {i : Nat} (h : hy[i]? = some 0x3D) : blankAt hy i = false := by simp [blankAt, h]

/-- Every such part is visited. -/
theorem mem_partsOf (hy : List Wc) (len s e : Nat) (hse : s < e) (hel : e ≤ len) (hin : ∀ j, s < j → j < e → blankAt hy j = true)
    (hfin : e = len ∨ blankAt hy e = false) : ∀ k s0 e0, s0 < e0 → (e0 ≤ len ∨ e0 = s0 + 1) →
    (∀ j, s0 < j → j < e0 → blankAt hy j = true) → len ≤ e0 + k → StartOk hy s0 s → (s, e) ∈ partsOf hy len k s0 e0 := by
  have key : ∀ s0 e0, s0 < e0 → (∀ j, s0 < j → j < e0 → blankAt hy j = true) → s0 < s → s < e0 → StartOk hy s0 s → False := by
    intro s0 e0 h1 h2 h3 h4 h5
    rcases h5 with h | ⟨_, h, _⟩ | ⟨h, h', _⟩
    · omega
    · rw [h2 s h3 h4] at h; cases h
    · have := h2 (s - 1) (by omega) (by omega)
      rw [not_blank_eq h'] at this; cases this
  have stop : ∀ s0 e0, s0 < e0 → (e0 ≤ len ∨ e0 = s0 + 1) → (∀ j, s0 < j → j < e0 → blankAt hy j = true) → len ≤ e0 → StartOk hy s0 s →
      (s, e) ∈ (if e0 = len ∧ s0 < e0 then [(s0, e0)] else []) := by
    intro s0 e0 h1 h2 h3 h4 h5
    have hs : s = s0 ∨ s0 < s := by
      rcases h5 with h | ⟨h, _⟩ | ⟨h, _⟩ <;> omega
    rcases hs with rfl | hs
    · have he0 : e0 = len := by omega
      rw [if_pos ⟨he0, h1⟩, List.mem_singleton]
      rcases hfin with h | h
      · rw [h, he0]
      · rcases Nat.lt_or_ge e e0 with h' | h'
        · rw [h3 e hse h'] at h; cases h
        · rw [show e = e0 by omega]
    · exact absurd (key s0 e0 h1 h3 hs (by omega) h5) id
  intro k
  induction k with
  | zero =>
    intro s0 e0 h1 h2 h3 h4 h5
    unfold partsOf
    exact stop s0 e0 h1 h2 h3 (by omega) h5
  | succ k ih =>
    intro s0 e0 h1 h2 h3 h4 h5
    unfold partsOf
    by_cases hlt : e0 < len
    · rw [if_pos hlt]
      cases hb : blankAt hy e0 with
      | true =>
        rw [if_pos rfl]
        refine ih s0 (e0 + 1) (by omega) (.inl (by omega)) (fun j hj1 hj2 => ?_) (by omega) h5
        rcases Nat.lt_or_ge j e0 with h | h
        · exact h3 j hj1 h
        · rw [show j = e0 by omega]; exact hb
      | false =>
        simp only [Bool.false_eq_true, if_false]
        have hs : s = s0 ∨ s0 < s := by
          rcases h5 with h | ⟨h, _⟩ | ⟨h, _⟩ <;> omega
        rcases hs with rfl | hs
        · have : e = e0 := by
            rcases Nat.lt_trichotomy e e0 with h | h | h
            · rcases hfin with h' | h'
              · omega
              · rw [h3 e hse h] at h'; cases h'
            · exact h
            · rw [hin e0 h1 h] at hb; cases hb
          rw [this]
          exact List.mem_cons_self
        · have hge : e0 ≤ s := by
            rcases Nat.lt_or_ge s e0 with h | h
            · exact absurd (key s0 e0 h1 h3 hs h h5) id
            · exact h
          refine List.mem_cons_of_mem _ (ih _ _ (by omega) (.inr rfl) (by omega) (by split <;> omega) ?_)
          rcases h5 with h | ⟨_, h, h'⟩ | ⟨h, h', h''⟩
          · omega
          · split
            · rename_i hq
              have : s ≠ e0 := fun hh => h' (by rw [hh]; exact hq)
              rcases Nat.lt_or_ge (e0 + 1) s with g | g
              · exact .inr (.inl ⟨g, h, h'⟩)
              · exact .inl (by omega)
            · rcases Nat.lt_or_ge e0 s with g | g
              · exact .inr (.inl ⟨g, h, h'⟩)
              · exact .inl (by omega)
          · have hge1 : e0 ≤ s - 1 := by
              rcases Nat.lt_or_ge (s - 1) e0 with g | g
              · have := h3 (s - 1) (by omega) g
                rw [not_blank_eq h'] at this; cases this
              · exact g
            split
            · rename_i hq
              have : s - 2 ≠ e0 := fun hh => h'' (by rw [hh]; exact hq)
              rcases Nat.lt_or_ge (e0 + 1) s with g | g
              · exact .inr (.inr ⟨by omega, h', h''⟩)
              · exact .inl (by omega)
            · rename_i hq
              have : s - 1 ≠ e0 := fun hh => hq (by rw [← hh]; exact h')
              exact .inr (.inr ⟨by omega, h', h''⟩)
    · rw [if_neg hlt]
      exact stop s0 e0 h1 h2 h3 (by omega) h5

/-- The cells inside a part that is visited: those given by the rules, or the original ones if the part is too short. -/
theorem foldParts_exact (ugly : Bool) (min : Nat) (word : List Wc) (len : Nat) (hy0 : List Wc) (h0 : ∀ c ∈ word.take len, c ≠ 0)
    (hwl : len ≤ word.length) (hhl : len ≤ hy0.length) (s e : Nat) :
    ∀ (ps : List (Nat × Nat)) (m : Nat) (hy r : List Wc), PartsOk len m ps → AgreeFrom m hy0 hy → (s, e) ∈ ps →
    foldParts ugly min word ps hy = some r →
    (s + min ≤ e → ∃ q, ruleHyphenation ugly (word.drop s) (hy0.drop s) (e - s) = some q ∧ ∀ i, s ≤ i → i < e → r[i]? = q[i - s]?) ∧
    (e < s + min → ∀ i, s ≤ i → i < e → r[i]? = hy0[i]?) := by
  intro ps
  induction ps with
  | nil => intro m hy r _ _ h; simp at h
  | cons pe ps ih =>
    intro m hy r hok ha hm hf
    obtain ⟨s1, e1⟩ := pe
    cases hok with
    | cons _ _ _ _ h1 h2 h3 h4 =>
      unfold foldParts at hf
      have hl := ha.1
      by_cases hmin : e1 ≥ s1 + min
      · obtain ⟨q, hy', g1, u1, _, g3, l3, le3, ge3, g4⟩ := ruleAt_agree (ugly := ugly) (word := word) (hy := hy) (s := s1)
          (n := e1 - s1) (by omega) (by omega) (fun c hc => h0 c (List.take_subset_take_left word (by omega) hc))
        have ha' : AgreeFrom e1 hy0 hy' := ⟨l3.trans hl, fun i hi => (g4 i (by omega)).trans (ha.2 i (by omega))⟩
        rw [if_pos hmin, g3, Option.bind_some] at hf
        rw [List.mem_cons] at hm
        rcases hm with hm | hm
        · cases hm
          refine ⟨fun _ => ⟨q, ?_, fun i hi hi2 => ?_⟩, fun h => by omega⟩
          · rw [← (ha.mono h1).drop]; exact g1
          · obtain ⟨r', f1, _, f3, _⟩ := foldParts_spec ugly min word len hy0 h0 hwl hhl ps e hy' h4 ha'
            rw [hf, Option.some.injEq] at f1
            subst f1
            rw [f3 i (by omega), ge3 i hi]
        · exact ih e1 hy' r h4 ha' hm hf
      · rw [if_neg hmin] at hf
        rw [List.mem_cons] at hm
        rcases hm with hm | hm
        · cases hm
          refine ⟨fun h => by omega, fun _ i hi hi2 => ?_⟩
          obtain ⟨r', f1, _, f3, _⟩ := foldParts_spec ugly min word len hy0 h0 hwl hhl ps e hy h4 (ha.mono (by omega))
          rw [hf, Option.some.injEq] at f1
          subst f1
          rw [f3 i (by omega), ha.2 i (by omega)]
        · exact ih e1 hy r h4 (ha.mono (by omega)) hm hf

theorem leadingEq_zero {hy : List Wc} {len : Nat} (h : hy[0]? ≠ some 0x3D) : leadingEq hy len = 0 := by
  rcases Nat.eq_zero_or_pos (leadingEq hy len) with h' | h'
  · exact h'
  · exact absurd (leadingEq_cells hy len 0 h') h

/-- The result inside a part. -/
theorem compound_exact (ugly : Bool) (min : Nat) (word : List Wc) (len : Nat) (hy r : List Wc) (h0 : ∀ c ∈ word.take len, c ≠ 0)
    (hwl : len ≤ word.length) (hhl : len ≤ hy.length) (hz : hy[0]? ≠ some 0x3D) (s e : Nat) (hse : s < e) (hel : e ≤ len)
    (hin : ∀ j, s < j → j < e → blankAt hy j = true) (hfin : e = len ∨ blankAt hy e = false) (hst : StartOk hy 0 s)
    (h : compoundHyphenation ugly min word len hy = some r) :
    (s + min ≤ e → ∃ q, ruleHyphenation ugly (word.drop s) (hy.drop s) (e - s) = some q ∧ ∀ i, s ≤ i → i < e → r[i]? = q[i - s]?) ∧
    (e < s + min → ∀ i, s ≤ i → i < e → r[i]? = hy[i]?) := by
  rw [compoundHyphenation_eq ugly min word len hy h0 hwl hhl, leadingEq_zero hz] at h
  exact foldParts_exact ugly min word len hy h0 hwl hhl s e _ _ hy r (partsOf_ok hy len len 0 1 (by omega)) ⟨rfl, fun _ _ => rfl⟩
    (mem_partsOf hy len s e hse hel hin hfin len 0 1 (by omega) (.inr rfl) (by omega) (by omega) hst) h

/-- The word has one pattern of compound borders: that of its only analysis, or that of an unknown word. -/
def OnePat (o : HyphOpts) (an : Analyzer) (word p : List Wc) : Prop :=
  dotCut o an word = false ∧
    ((an word = [] ∧ unknownPattern o word = some p) ∨ ∃ a, an word = [a] ∧ rawPattern word.length false a = some p)

theorem onePat_hyphenate {o : HyphOpts} {an : Analyzer} {word p : List Wc} (h1 : OnePat o an word p) (hv : ∀ c ∈ word, ValidCp c)
    (h0 : 0 ∉ word) (hmin : o.minLength ≤ word.length) :
    ∃ q r, PatOk word.length p ∧ compoundHyphenation o.ugly o.minLength (word ++ [0]) word.length p = some q ∧
      hyphenateUcs4 o an word = some (some r) ∧ r.length = word.length ∧
      ∀ i < word.length, r[i]? = if blankAt q i = true then some 0x20 else q[i]? := by
  obtain ⟨hdot, hp⟩ := h1
  have hlen : usedLen o an word = word.length := by unfold usedLen; rw [hdot]; simp
  obtain ⟨all, e1, hone⟩ : ∃ all, interpretAll word.length (dotCut o an word) (usedAnalyses o an word) = some all ∧
      ((all = [] ∧ unknownPattern o word = some p) ∨ all = [p]) := by
    rcases hp with ⟨ha, hp⟩ | ⟨a, ha, hp⟩
    · refine ⟨[], ?_, .inl ⟨rfl, hp⟩⟩
      simp [usedAnalyses, hdot, ha, interpretAll]
    · refine ⟨[p], ?_, .inr rfl⟩
      have hus : usedAnalyses o an word = [a] := by simp [usedAnalyses, hdot, ha]
      rw [hus, hdot]
      unfold rawPattern at hp
      rw [Option.map_eq_some_iff] at hp
      obtain ⟨x, hx, rfl⟩ := hp
      simp only [interpretAll, hx, Option.bind_eq_bind, Option.bind_some, Option.pure_def]
  obtain ⟨pats, rs, hr, _, e2⟩ := hyphenateWith_of intersectHyph o an word hv h0 hmin all e1
  have hpats : pats = [p] := by
    rcases hone with ⟨hall, hp'⟩ | hall
    · obtain ⟨p', h1, h2⟩ := hr.split.unknown hall
      rw [h2, Option.some.inj (h1.symm.trans hp')]
    · by_cases hex : ∃ p ∈ all, ∀ i < word.length, blankAt p i = true
      · have := hr.split.unsplit (by rw [hall]; simp) hex
        rw [hall] at hex this
        obtain ⟨x, hx, hx2⟩ := hex
        rw [List.mem_singleton] at hx
        subst hx
        rw [List.filter_cons, if_pos (decide_eq_true hx2)] at this
        exact List.perm_singleton.1 this
      · rw [hr.split.split (by rw [hall]; simp) hex, hall]
  have hrules := hr.rules
  rw [hpats] at hrules
  cases hrules with
  | cons hc hnil =>
    rename_i q qs
    cases hnil
    rw [hlen] at hc
    obtain ⟨r, e5, hl, g⟩ := intersect_spec word.length [q] (by simp) hr.ok
    rw [e5] at e2
    refine ⟨q, r, hr.split.ok p (by rw [hpats]; simp), hc, e2, hl, fun i hi => ?_⟩
    obtain ⟨g1, g2⟩ := g i hi
    cases hb : blankAt q i with
    | true => rw [if_pos rfl]; exact g1 ⟨q, by simp, hb⟩
    | false =>
      simp only [Bool.false_eq_true, if_false]
      rw [g2 (fun y hy => by rw [List.mem_singleton] at hy; rw [hy]; exact hb)]
      rfl

/-- The pattern of a part of the word is that of the part as a word of its own. -/
theorem part_alone {o : HyphOpts} {an an' : Analyzer} {word p p' r : List Wc} {s e : Nat} (h1 : OnePat o an word p)
    (h0 : 0 ∉ word) (hmin : o.minLength ≤ word.length) (h : hyphenateUcs4 o an word = some (some r)) (hz : p[0]? ≠ some 0x3D)
    (hse : s < e) (hel : e ≤ word.length) (hin : ∀ j, s < j → j < e → blankAt p j = true)
    (hfin : e = word.length ∨ blankAt p e = false) (hst : StartOk p 0 s)
    (h1' : OnePat o an' ((word.drop s).take (e - s)) p') (hz' : p'[0]? ≠ some 0x3D)
    (hcell : ∀ j, 1 ≤ j → j < e - s → p'[j]? = p[s + j]?) (hx : p'[0]? = some 0x58 ↔ p[s]? = some 0x58) :
    ∃ r', hyphenateUcs4 o an' ((word.drop s).take (e - s)) = some (some r') ∧ r'.length = e - s ∧
      ∀ j, 1 ≤ j → j < e - s → r[s + j]? = r'[j]? := by
  have hl' : ((word.drop s).take (e - s)).length = e - s := by simp; omega
  have hv := (Props.defined_cases intersectHyph o an word r hmin h).1
  obtain ⟨q, r1, hok, hq, hr1, hrl, hrc⟩ := onePat_hyphenate h1 hv h0 hmin
  rw [h, Option.some.injEq, Option.some.injEq] at hr1
  subst hr1
  have hpl := patOk_length hok
  obtain ⟨c1, c2⟩ := compound_exact o.ugly o.minLength (word ++ [0]) word.length p q (take_word_ne h0 _ (Nat.le_refl _)) (by simp)
    (by omega) hz s e hse hel hin hfin hst hq
  by_cases hm : s + o.minLength ≤ e
  · obtain ⟨u, hu, huc⟩ := c1 hm
    have hsub : ∀ c ∈ (word.drop s).take (e - s), c ∈ word := fun c hc => List.mem_of_mem_drop (List.mem_of_mem_take hc)
    obtain ⟨q', r', hok', hq', hr', hrl', hrc'⟩ := onePat_hyphenate h1' (fun c hc => hv c (hsub c hc)) (fun hc => h0 (hsub 0 hc)) (by omega)
    rw [hl'] at hok' hq' hrl' hrc'
    have hpl' := patOk_length hok'
    refine ⟨r', hr', hrl', fun j hj1 hj2 => ?_⟩
    obtain ⟨d1, _⟩ := compound_exact o.ugly o.minLength ((word.drop s).take (e - s) ++ [0]) (e - s) p' q'
      (by have := take_word_ne (word := (word.drop s).take (e - s)) (fun hc => h0 (hsub 0 hc)) (e - s) (by omega); exact this)
      (by rw [List.length_append, hl']; simp) (by omega) hz' 0 (e - s) (by omega) (Nat.le_refl _)
      (fun j hj1 hj2 => by
        rw [blankAt_congr (hcell j hj1 hj2)]; exact hin (s + j) (by omega) (by omega)) (.inl rfl) (.inl rfl) hq'
    obtain ⟨u', hu', huc'⟩ := d1 (by omega)
    have hsim := ruleHyphenation_sim o.ugly (w := (word ++ [0]).drop s) (w' := (word.drop s).take (e - s) ++ [0]) (p := p.drop s) (p' := p')
      (n := e - s) (by omega) (by
        rw [List.drop_append_of_le_length (by omega), List.take_append_of_le_length (by simp <;> omega),
          List.take_append_of_le_length (Nat.le_of_eq hl'.symm), List.take_of_length_le (l := (word.drop s).take (e - s)) (Nat.le_of_eq hl')])
      (by simp; omega) (by rw [List.length_append, hl']; omega)
      ⟨by simp; omega, by omega, fun k hk1 hk2 => by rw [List.getElem?_drop]; exact (hcell k hk1 hk2).symm⟩
      (by rw [List.getElem?_drop]; exact hx.symm)
    rw [List.drop_zero, List.drop_zero, Nat.sub_zero] at hu'
    rw [hu, hu'] at hsim
    rcases hsim with ⟨hn, _⟩ | ⟨x, x', hx1, hx2, hsame⟩
    · cases hn
    · rw [Option.some.injEq] at hx1 hx2
      subst hx1 hx2
      have hqq : q[s + j]? = q'[j]? := by
        rw [huc (s + j) (by omega) (by omega), huc' j (by omega) hj2, show s + j - s = j by omega, Nat.sub_zero]
        exact hsame.2.2 j hj1 hj2
      rw [hrc (s + j) (by omega), hrc' j hj2, hqq, blankAt_congr hqq]
  · refine ⟨List.replicate (e - s) 0x20, ?_, by simp, fun j hj1 hj2 => ?_⟩
    · have := Props.C38_short_word o an' ((word.drop s).take (e - s)) (by omega)
      rw [hl'] at this; exact this
    · have hqp := c2 (by omega) (s + j) (by omega) (by omega)
      rw [hrc (s + j) (by omega), blankAt_congr hqp, if_pos (hin (s + j) (by omega) (by omega)), List.getElem?_replicate, if_pos hj2]

end Verif.Compound
