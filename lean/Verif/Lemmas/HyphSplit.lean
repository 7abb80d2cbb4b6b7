import Verif.Lemmas.HyphParts
import Verif.Props.Utf8
import Mathlib.Data.List.Perm.Basic
/-!
# Lemmas on `splitCompounds`, `removeExtraHyphenations`, `intersectHyphenations`
-/

namespace Verif
open Verif.Props
set_option linter.unusedSimpArgs false

/-- A pattern character. -/
def PatChar (c : Wc) : Prop := c = 0x20 ∨ c = 0x2D ∨ c = 0x3D ∨ c = 0x58

/-- A pattern buffer for `n` characters: `n` pattern characters and the terminator. -/
def PatOk (n : Nat) (p : List Wc) : Prop := ∃ b : List Wc, p = b ++ [0] ∧ b.length = n ∧ ∀ c ∈ b, PatChar c

/-- STRUCTURE is present and does not end in `=`. -/
def StructOk (a : MorAn) : Prop := ∃ s : List Wc, a.struct = some s ∧ s.getLast? ≠ some 0x3D

/-- Every analysis given by the analyser has a usable STRUCTURE. -/
def StructuresOk (an : Analyzer) : Prop := ∀ w, ∀ a ∈ an w, StructOk a

theorem interpretLoop_total (k : Nat) (first : Bool) (s : List Wc) (hs : s.getLast? ≠ some 0x3D) :
    ∃ r, interpretLoop k first (s ++ [0]) = some r ∧ r.length = k ∧ ∀ c ∈ r, PatChar c := by
  induction k generalizing first s with
  | zero => exact ⟨[], rfl, rfl, by simp⟩
  | succ k ih =>
    unfold interpretLoop
    cases s with
    | nil =>
      refine ⟨List.replicate (k + 1) 0x20, by simp [rd], by simp, ?_⟩
      intro c hc
      exact Or.inl (List.eq_of_mem_replicate hc)
    | cons c s =>
      have hr : rd (c :: s ++ [0]) 0 = some c := rfl
      rw [hr]
      simp only [Option.bind_eq_bind, Option.bind_some]
      by_cases hc0 : c = 0
      · refine ⟨List.replicate (k + 1) 0x20, by simp [hc0], by simp, ?_⟩
        intro c hc
        exact Or.inl (List.eq_of_mem_replicate hc)
      · rw [if_neg hc0]
        have hlast : ∀ t : List Wc, t <:+ s → t.getLast? ≠ some 0x3D := by
          intro t ht h
          obtain ⟨u, rfl⟩ := ht
          apply hs
          cases t with
          | nil => simp at h
          | cons d t =>
            rw [show c :: (u ++ d :: t) = (c :: u) ++ d :: t from rfl, List.getLast?_append, h]
            rfl
        have tail : ∀ x : Wc, PatChar x →
            ∃ r, ((interpretLoop k false ((c :: s ++ [0]).drop 1)).bind fun rest => some (x :: rest)) = some r ∧
              r.length = k + 1 ∧ ∀ c ∈ r, PatChar c := by
          intro x hx
          obtain ⟨r, e, l, a⟩ := ih false s (hlast s (List.suffix_refl s))
          refine ⟨x :: r, ?_, by simp [l], ?_⟩
          · exact (congrArg (fun z => Option.bind z fun rest => some (x :: rest)) e).trans rfl
          · intro y hy
            rw [List.mem_cons] at hy
            rcases hy with rfl | hy
            · exact hx
            · exact a y hy
        have tail2 : ∀ x : Wc, PatChar x → s ≠ [] →
            ∃ r, ((interpretLoop k false ((c :: s ++ [0]).drop 2)).bind fun rest => some (x :: rest)) = some r ∧
              r.length = k + 1 ∧ ∀ c ∈ r, PatChar c := by
          intro x hx hne
          obtain ⟨d, t, rfl⟩ := List.exists_cons_of_ne_nil hne
          obtain ⟨r, e, l, a⟩ := ih false t (hlast t (List.suffix_cons d t))
          refine ⟨x :: r, ?_, by simp [l], ?_⟩
          · exact (congrArg (fun z => Option.bind z fun rest => some (x :: rest)) e).trans rfl
          · intro y hy
            rw [List.mem_cons] at hy
            rcases hy with rfl | hy
            · exact hx
            · exact a y hy
        have last : ∃ r, (if c = 61 then (interpretLoop k false ((c :: s ++ [0]).drop 2)).bind fun rest => some (45 :: rest)
            else (interpretLoop k false ((c :: s ++ [0]).drop 1)).bind fun rest =>
              some ((if c = 106 ∨ c = 113 then 88 else 32) :: rest)) = some r ∧ r.length = k + 1 ∧ ∀ c ∈ r, PatChar c := by
          by_cases h3 : c = 61
          · rw [if_pos h3]
            refine tail2 45 (by simp [PatChar]) ?_
            rintro rfl
            exact hs (by simp [h3])
          · rw [if_neg h3]
            apply tail
            split <;> simp [PatChar]
        by_cases h2 : c = 45
        · simp only [h2, if_true, Option.pure_def]
          rw [h2] at tail2 last
          cases s with
          | nil =>
            simp only [rd, List.cons_append, List.nil_append, List.getElem?_cons_succ, List.getElem?_cons_zero,
              Option.bind_some, show ((0 : Nat) == 61) = false from rfl, Bool.false_eq_true, if_false]
            exact last
          | cons d t =>
            simp only [rd, List.cons_append, List.getElem?_cons_succ, List.getElem?_cons_zero, Option.bind_some]
            by_cases hd : d = 61
            · simp only [hd, beq_self_eq_true, if_true]
              have := tail2 (if first = true then 0x20 else 0x3D) (by split <;> simp [PatChar]) (by simp)
              simp only [List.cons_append, hd] at this
              exact this
            · rw [beq_false_of_ne hd]
              simp only [Bool.false_eq_true, if_false]
              exact last
        · simp only [h2, if_false, Option.bind_some, Bool.false_eq_true, Option.pure_def]
          exact last

theorem interpretAnalysis_total (a : MorAn) (h : StructOk a) (len : Nat) :
    ∃ r, interpretAnalysis a len = some r ∧ r.length = len ∧ ∀ c ∈ r, PatChar c := by
  obtain ⟨s, h1, h2⟩ := h
  unfold interpretAnalysis MorAn.structCells
  rw [h1]
  simp only [Option.bind_eq_bind, Option.bind_some]
  cases s with
  | nil => exact interpretLoop_total len true [] (by simp)
  | cons c s =>
    simp only [rd, List.cons_append, List.getElem?_cons_zero, Option.bind_some]
    split
    · have : s.getLast? ≠ some 0x3D := by
        intro h
        apply h2
        cases s with
        | nil => simp at h
        | cons d t => rw [List.getLast?_cons_cons]; exact h
      exact interpretLoop_total len true s this
    · exact interpretLoop_total len true (c :: s) h2

/-- The patterns of a list of analyses. -/
theorem interpretAll_total (len : Nat) (dot : Bool) (hl : dot = true → 1 ≤ len) (as : List MorAn) (h : ∀ a ∈ as, StructOk a) :
    ∃ ps, interpretAll len dot as = some ps ∧ ps.length = as.length ∧
      ∀ p ∈ ps, PatOk len p ∧ (dot = true → p[len - 1]? = some 0x20) := by
  induction as with
  | nil => exact ⟨[], rfl, rfl, by simp⟩
  | cons a as ih =>
    obtain ⟨ps, e1, l1, g1⟩ := ih (fun b hb => h b (by simp [hb]))
    obtain ⟨r, e2, l2, g2⟩ := interpretAnalysis_total a (h a (by simp)) (len - (if dot = true then 1 else 0))
    unfold interpretAll
    rw [e2, e1]
    refine ⟨_, rfl, by simp [l1], ?_⟩
    intro p hp
    rw [List.mem_cons] at hp
    rcases hp with rfl | hp
    · cases dot
      · refine ⟨⟨r, rfl, by simpa using l2, g2⟩, by simp⟩
      · have := hl rfl
        simp only [if_true] at l2
        refine ⟨⟨r ++ [0x20], by simp, by simp [l2]; omega, ?_⟩, ?_⟩
        · intro c hc
          rw [List.mem_append, List.mem_singleton] at hc
          rcases hc with hc | rfl
          · exact g2 c hc
          · simp [PatChar]
        · intro _
          simp only [if_true]
          rw [List.getElem?_append_right (by omega), l2]
          simp
    · exact g1 p hp

/-- Whenever the interpretation is defined it gives one pattern character per position. -/
theorem interpretLoop_sound (k : Nat) (first : Bool) (cells r : List Wc) (h : interpretLoop k first cells = some r) :
    r.length = k ∧ ∀ c ∈ r, PatChar c := by
  induction k generalizing first cells r with
  | zero =>
    simp only [interpretLoop, Option.pure_def, Option.some.injEq] at h
    subst h; simp
  | succ k ih =>
    have cons : ∀ (x : Wc) (cs : List Wc), PatChar x →
        ((interpretLoop k false cs).bind fun rest => some (x :: rest)) = some r → r.length = k + 1 ∧ ∀ c ∈ r, PatChar c := by
      intro x cs hx h
      rw [Option.bind_eq_some_iff] at h
      obtain ⟨rest, h1, h2⟩ := h
      rw [Option.some.injEq] at h2
      obtain ⟨l, a⟩ := ih false cs rest h1
      subst h2
      refine ⟨by simp [l], fun c hc => ?_⟩
      rw [List.mem_cons] at hc
      rcases hc with rfl | hc
      · exact hx
      · exact a c hc
    unfold interpretLoop at h
    simp only [Option.bind_eq_bind, Option.pure_def] at h
    rw [Option.bind_eq_some_iff] at h
    obtain ⟨c, _, h⟩ := h
    split at h
    · rw [Option.some.injEq] at h
      subst h
      exact ⟨by simp, fun c hc => Or.inl (List.eq_of_mem_replicate hc)⟩
    · rw [Option.bind_eq_some_iff] at h
      obtain ⟨b, _, h⟩ := h
      split at h
      · exact cons _ _ (by split <;> simp [PatChar]) h
      · split at h
        · exact cons _ _ (by simp [PatChar]) h
        · exact cons _ _ (by split <;> simp [PatChar]) h

theorem interpretAnalysis_sound (a : MorAn) (len : Nat) (r : List Wc) (h : interpretAnalysis a len = some r) :
    r.length = len ∧ ∀ c ∈ r, PatChar c := by
  unfold interpretAnalysis at h
  simp only [Option.bind_eq_bind] at h
  rw [Option.bind_eq_some_iff] at h
  obtain ⟨cells, _, h⟩ := h
  rw [Option.bind_eq_some_iff] at h
  obtain ⟨c, _, h⟩ := h
  exact interpretLoop_sound _ _ _ _ h

/-- The pattern buffer of one analysis. -/
def rawPattern (len : Nat) (dot : Bool) (a : MorAn) : UB (List Wc) :=
  (interpretAnalysis a (len - (if dot then 1 else 0))).map fun p => p ++ (if dot then [0x20, 0] else [0])

theorem interpretAll_eq (len : Nat) (dot : Bool) (as : List MorAn) (ps : List (List Wc))
    (h : interpretAll len dot as = some ps) : List.Forall₂ (fun a p => rawPattern len dot a = some p) as ps := by
  induction as generalizing ps with
  | nil =>
    simp only [interpretAll, Option.pure_def, Option.some.injEq] at h
    subst h; exact .nil
  | cons a as ih =>
    unfold interpretAll at h
    simp only [Option.bind_eq_bind, Option.pure_def] at h
    rw [Option.bind_eq_some_iff] at h
    obtain ⟨p, h1, h⟩ := h
    rw [Option.bind_eq_some_iff] at h
    obtain ⟨ps', h2, h⟩ := h
    rw [Option.some.injEq] at h
    subst h
    exact .cons (by simp [rawPattern, h1]) (ih ps' h2)

theorem rawPattern_sound (len : Nat) (dot : Bool) (hl : dot = true → 1 ≤ len) (a : MorAn) (p : List Wc)
    (h : rawPattern len dot a = some p) : PatOk len p ∧ (dot = true → p[len - 1]? = some 0x20) := by
  unfold rawPattern at h
  rw [Option.map_eq_some_iff] at h
  obtain ⟨r, e2, rfl⟩ := h
  obtain ⟨l2, g2⟩ := interpretAnalysis_sound a _ r e2
  cases dot
  · exact ⟨⟨r, rfl, by simpa using l2, g2⟩, by simp⟩
  · have := hl rfl
    simp only [if_true] at l2
    refine ⟨⟨r ++ [0x20], by simp, by simp [l2]; omega, ?_⟩, ?_⟩
    · intro c hc
      rw [List.mem_append, List.mem_singleton] at hc
      rcases hc with hc | rfl
      · exact g2 c hc
      · simp [PatChar]
    · intro _
      simp only [if_true]
      rw [List.getElem?_append_right (by omega), l2]
      simp

theorem forall₂_mem_right {α β : Type} {R : α → β → Prop} {as : List α} {bs : List β} (h : List.Forall₂ R as bs) :
    ∀ b ∈ bs, ∃ a ∈ as, R a b := by
  induction h with
  | nil => simp
  | cons h1 _ ih =>
    intro b hb
    rw [List.mem_cons] at hb
    rcases hb with rfl | hb
    · exact ⟨_, by simp, h1⟩
    · obtain ⟨a, ha, hr⟩ := ih b hb
      exact ⟨a, by simp [ha], hr⟩

theorem forall₂_mem_left {α β : Type} {R : α → β → Prop} {as : List α} {bs : List β} (h : List.Forall₂ R as bs) :
    ∀ a ∈ as, ∃ b ∈ bs, R a b := by
  induction h with
  | nil => simp
  | cons h1 _ ih =>
    intro b hb
    rw [List.mem_cons] at hb
    rcases hb with rfl | hb
    · exact ⟨_, by simp, h1⟩
    · obtain ⟨a, ha, hr⟩ := ih b hb
      exact ⟨a, by simp [ha], hr⟩

theorem interpretAll_sound (len : Nat) (dot : Bool) (hl : dot = true → 1 ≤ len) (as : List MorAn) (ps : List (List Wc))
    (h : interpretAll len dot as = some ps) : ∀ p ∈ ps, PatOk len p := by
  intro p hp
  obtain ⟨a, _, ha⟩ := forall₂_mem_right (interpretAll_eq len dot as ps h) p hp
  exact (rawPattern_sound len dot hl a p ha).1

/-! ### `removeExtraHyphenations` -/

theorem countBorders_pos (p : List Wc) (len : Nat) : 1 ≤ countBorders p len := by unfold countBorders; omega

theorem countBorders_one (p : List Wc) (len : Nat) (h : len ≤ p.length) :
    countBorders p len = 1 ↔ ∀ i < len, blankAt p i = true := by
  unfold countBorders
  constructor
  · intro h1 i hi
    have h2 : ((p.take len).filter fun c => c != 0x20 && c != 0x58) = [] := by
      rw [← List.length_eq_zero_iff]; omega
    rw [List.filter_eq_nil_iff] at h2
    have := h2 p[i] (by rw [List.mem_take_iff_getElem]; exact ⟨i, by omega, rfl⟩)
    rw [blankAt_iff p i (by omega)]
    simpa using this
  · intro h1
    have h2 : ((p.take len).filter fun c => c != 0x20 && c != 0x58) = [] := by
      rw [List.filter_eq_nil_iff]
      intro c hc
      rw [List.mem_take_iff_getElem] at hc
      obtain ⟨i, hi, rfl⟩ := hc
      have := (blankAt_iff p i (by omega)).1 (h1 i (by omega))
      simpa using this
    rw [h2]; rfl

theorem minBorders_spec (len : Nat) (ps : List (List Wc)) : ∀ m, 1 ≤ m →
    1 ≤ minBorders len m ps ∧ (minBorders len m ps = 1 ↔ m = 1 ∨ ∃ p ∈ ps, countBorders p len = 1) := by
  induction ps with
  | nil => intro m hm; simp [minBorders]; exact hm
  | cons p ps ih =>
    intro m hm
    unfold minBorders
    have hp := countBorders_pos p len
    rw [if_congr (show (m = 0 ∨ m > countBorders p len) ↔ m > countBorders p len by omega) rfl rfl]
    by_cases h : m > countBorders p len
    · rw [if_pos h]
      obtain ⟨h1, h2⟩ := ih _ hp
      refine ⟨h1, h2.trans ?_⟩
      simp only [List.mem_cons, exists_eq_or_imp]
      constructor
      · rintro (h | h) <;> simp [h]
      · rintro (h | h | h)
        · omega
        · exact Or.inl h
        · exact Or.inr h
    · rw [if_neg h]
      obtain ⟨h1, h2⟩ := ih _ hm
      refine ⟨h1, h2.trans ?_⟩
      simp only [List.mem_cons, exists_eq_or_imp]
      constructor
      · rintro (h | h) <;> simp [h]
      · rintro (h | h | h)
        · exact Or.inl h
        · left; omega
        · exact Or.inr h

theorem minBorders_zero (len : Nat) (ps : List (List Wc)) (hne : ps ≠ []) :
    1 ≤ minBorders len 0 ps ∧ (minBorders len 0 ps = 1 ↔ ∃ p ∈ ps, countBorders p len = 1) := by
  obtain ⟨p, ps, rfl⟩ := List.exists_cons_of_ne_nil hne
  unfold minBorders
  simp only [true_or, if_true]
  obtain ⟨h1, h2⟩ := minBorders_spec len ps _ (countBorders_pos p len)
  exact ⟨h1, h2.trans (by simp)⟩

theorem removeLoop_spec (len m : Nat) : ∀ (k j : Nat) (A B : List (List Wc)), A.length = j → B.length ≤ k →
    ∃ r, removeLoop len m k j (A ++ B) = some r ∧ r.Perm (A ++ B.filter fun p => decide (countBorders p len ≤ m)) := by
  intro k
  induction k with
  | zero =>
    intro j A B hj hB
    have : B = [] := List.length_eq_zero_iff.1 (by omega)
    subst this
    refine ⟨A, ?_, by simp⟩
    simp [removeLoop, hj]
  | succ k ih =>
    intro j A B hj hB
    unfold removeLoop
    cases B with
    | nil => exact ⟨A, by simp [hj], by simp⟩
    | cons x B =>
      simp only [List.length_append, List.length_cons] at hB ⊢
      have hr : rd (A ++ x :: B) j = some x := by
        simp only [rd]
        rw [List.getElem?_append_right (by omega), hj]; simp
      rw [if_pos (by omega), hr]
      simp only [Option.bind_eq_bind, Option.bind_some]
      by_cases hc : countBorders x len > m
      · rw [if_pos hc]
        rcases List.eq_nil_or_concat B with rfl | ⟨B', l, rfl⟩
        · have hl : rd (A ++ [x]) (A.length + ([] : List (List Wc)).length + 1 - 1) = some x := by
            simp [rd]
          simp only [List.length_nil] at hl ⊢
          have e2 : ((A ++ [x]).set j x).take (A.length + (0 + 1) - 1) = A ++ [] := by
            rw [List.set_append_right _ _ (by omega), hj]
            simp [← hj]
          rw [show rd (A ++ [x]) (A.length + (0 + 1) - 1) = some x from by simp [rd]]
          simp only [Option.bind_some, e2]
          obtain ⟨r, f1, f2⟩ := ih j A [] hj (by simp)
          refine ⟨r, f1, f2.trans ?_⟩
          simp [List.filter_cons, show ¬ countBorders x len ≤ m by omega]
        · have e1 : rd (A ++ x :: (B' ++ [l])) (A.length + ((B' ++ [l]).length + 1) - 1) = some l := by
            simp only [rd, List.length_append, List.length_cons, List.length_nil]
            rw [List.getElem?_append_right (by omega)]
            rw [show A.length + (B'.length + (0 + 1) + 1) - 1 - A.length = B'.length + 1 by omega]
            simp
          have e2 : ((A ++ x :: (B' ++ [l])).set j l).take (A.length + ((B' ++ [l]).length + 1) - 1) = A ++ l :: B' := by
            rw [List.set_append_right _ _ (by omega), hj, Nat.sub_self, List.set_cons_zero]
            rw [show A ++ l :: (B' ++ [l]) = (A ++ l :: B') ++ [l] by simp]
            rw [List.take_append_of_le_length (by simp; omega), List.take_of_length_le (by simp; omega)]
          rw [List.concat_eq_append, e1]
          simp only [Option.bind_some, e2]
          obtain ⟨r, f1, f2⟩ := ih j A (l :: B') hj (by simp at hB ⊢; omega)
          refine ⟨r, f1, f2.trans ?_⟩
          have hx : ¬ countBorders x len ≤ m := by omega
          rw [List.filter_cons (xs := B' ++ [l]), decide_eq_false hx]
          simp only [Bool.false_eq_true, if_false]
          refine List.Perm.append_left A ?_
          refine List.Perm.filter _ ?_
          exact (List.perm_append_singleton l B').symm
      · rw [if_neg hc]
        obtain ⟨r, f1, f2⟩ := ih (j + 1) (A ++ [x]) B (by simp [hj]) (by omega)
        rw [List.append_assoc] at f1
        refine ⟨r, f1, f2.trans ?_⟩
        rw [List.filter_cons, decide_eq_true (show countBorders x len ≤ m by omega)]
        simp

/-- `removeExtraHyphenations`: if some pattern has no border, exactly the patterns without borders are kept. -/
theorem removeExtra_spec (len : Nat) (ps : List (List Wc)) (hne : ps ≠ []) (hl : ∀ p ∈ ps, len ≤ p.length) :
    ∃ r, removeExtra len ps = some r ∧
      ((∃ p ∈ ps, ∀ i < len, blankAt p i = true) →
        r.Perm (ps.filter fun p => decide (∀ i < len, blankAt p i = true))) ∧
      ((¬ ∃ p ∈ ps, ∀ i < len, blankAt p i = true) → r = ps) := by
  obtain ⟨h1, h2⟩ := minBorders_zero len ps hne
  have hex : (∃ p ∈ ps, countBorders p len = 1) ↔ ∃ p ∈ ps, ∀ i < len, blankAt p i = true := by
    constructor
    · rintro ⟨p, hp, h⟩; exact ⟨p, hp, (countBorders_one p len (hl p hp)).1 h⟩
    · rintro ⟨p, hp, h⟩; exact ⟨p, hp, (countBorders_one p len (hl p hp)).2 h⟩
  unfold removeExtra
  by_cases hm : minBorders len 0 ps > 1
  · rw [if_pos hm]
    have hno : ¬ ∃ p ∈ ps, ∀ i < len, blankAt p i = true := by
      rw [← hex, ← h2]; omega
    exact ⟨ps, rfl, fun h => absurd h hno, fun _ => rfl⟩
  · rw [if_neg hm]
    have h3 : minBorders len 0 ps = 1 := by omega
    obtain ⟨r, f1, f2⟩ := removeLoop_spec len (minBorders len 0 ps) ps.length 0 [] ps rfl (Nat.le_refl _)
    refine ⟨r, f1, fun _ => ?_, fun h => absurd (hex.1 (h2.1 h3)) h⟩
    refine f2.trans ?_
    rw [List.nil_append, h3]
    refine List.Perm.of_eq (List.filter_congr fun p hp => ?_)
    rw [decide_eq_decide, ← countBorders_one p len (hl p hp)]
    have := countBorders_pos p len
    omega

/-! ### `intersectHyphenations` and `unionHyphenations` -/

theorem cstr_patOk {n : Nat} {p : List Wc} (h : PatOk n p) : cstr p = p.take n := by
  obtain ⟨b, rfl, hl, hb⟩ := h
  subst hl
  unfold cstr
  rw [List.takeWhile_append_of_pos]
  · simp
  · intro c hc
    rcases hb c hc with h | h | h | h <;> simp [h]

theorem patOk_length {n : Nat} {p : List Wc} (h : PatOk n p) : p.length = n + 1 := by
  obtain ⟨b, rfl, rfl, _⟩ := h; simp

theorem patOk_cell {n : Nat} {p : List Wc} (h : PatOk n p) {i : Nat} (hi : i < n) : ∃ c, p[i]? = some c ∧ PatChar c := by
  obtain ⟨b, rfl, rfl, hb⟩ := h
  rw [List.getElem?_append_left hi, List.getElem?_eq_getElem hi]
  exact ⟨b[i], rfl, hb _ (List.getElem_mem hi)⟩

theorem blankAt_false_iff {p : List Wc} {i : Nat} {c : Wc} (h : p[i]? = some c) :
    blankAt p i = false ↔ ¬ (c = 0x20 ∨ c = 0x58) := by
  simp only [blankAt, h, Bool.or_eq_false_iff, beq_eq_false_iff_ne, ne_eq, Option.some.injEq]
  omega

theorem blankAt_true_iff {p : List Wc} {i : Nat} {c : Wc} (h : p[i]? = some c) :
    blankAt p i = true ↔ (c = 0x20 ∨ c = 0x58) := by
  simp only [blankAt, h, Bool.or_eq_true, beq_iff_eq, Option.some.injEq]

theorem intersect_go (n : Nat) (ps : List (List Wc)) (hp : ∀ p ∈ ps, PatOk n p) : ∀ s : List Wc, s.length = n →
    ∃ r, intersectHyph.go ps s = some r ∧ r.length = n ∧
      ∀ i < n, ((∃ p ∈ ps, blankAt p i = true) → r[i]? = some 0x20) ∧ ((∀ p ∈ ps, blankAt p i = false) → r[i]? = s[i]?) := by
  induction ps with
  | nil => intro s hs; exact ⟨s, rfl, hs, fun i _ => ⟨by simp, fun _ => rfl⟩⟩
  | cons p ps ih =>
    intro s hs
    have hpl := patOk_length (hp p (by simp))
    unfold intersectHyph.go
    rw [if_neg (by omega)]
    have hl : (List.zipWith (fun c d => if d = 0x20 ∨ d = 0x58 then (0x20 : Nat) else c) s p).length = n := by
      rw [List.length_zipWith]; omega
    obtain ⟨r, e1, e2, e3⟩ := ih (fun q hq => hp q (by simp [hq])) _ hl
    refine ⟨r, e1, e2, fun i hi => ?_⟩
    obtain ⟨c, hc, _⟩ := patOk_cell (hp p (by simp)) hi
    have hz : (List.zipWith (fun c d => if d = 0x20 ∨ d = 0x58 then (0x20 : Nat) else c) s p)[i]? =
        some (if c = 0x20 ∨ c = 0x58 then (0x20 : Nat) else s[i]'(by omega)) := by
      rw [List.getElem?_zipWith, hc, List.getElem?_eq_getElem (by omega)]
    obtain ⟨f1, f2⟩ := e3 i hi
    constructor
    · rintro ⟨q, hq, hb⟩
      rw [List.mem_cons] at hq
      by_cases hex : ∃ p ∈ ps, blankAt p i = true
      · exact f1 hex
      · have hall : ∀ p ∈ ps, blankAt p i = false := by
          intro p hp
          cases h : blankAt p i
          · rfl
          · exact absurd ⟨p, hp, h⟩ hex
        rcases hq with rfl | hq
        · rw [f2 hall, hz, if_pos ((blankAt_true_iff hc).1 hb)]
        · exact absurd ⟨q, hq, hb⟩ hex
    · intro hall
      rw [f2 (fun q hq => hall q (by simp [hq])), hz, if_neg ((blankAt_false_iff hc).1 (hall p (by simp))),
        List.getElem?_eq_getElem (by omega)]

theorem first_cell {n : Nat} {p : List Wc} (h : PatOk n p) {i : Nat} (hi : i < n) :
    ((cstr p).map fun c => if c = 0x58 then (0x20 : Nat) else c)[i]? = p[i]?.map fun c => if c = 0x58 then (0x20 : Nat) else c := by
  rw [cstr_patOk h, List.getElem?_map, List.getElem?_take_of_lt hi]

/-- `intersectHyphenations`: blank where some pattern is blank, otherwise the character of the first pattern. -/
theorem intersect_spec (n : Nat) (ps : List (List Wc)) (hne : ps ≠ []) (hp : ∀ p ∈ ps, PatOk n p) :
    ∃ r, intersectHyph ps = some r ∧ r.length = n ∧
      ∀ i < n, ((∃ p ∈ ps, blankAt p i = true) → r[i]? = some 0x20) ∧
        ((∀ p ∈ ps, blankAt p i = false) → r[i]? = (ps.head hne)[i]?) := by
  obtain ⟨p, ps, rfl⟩ := List.exists_cons_of_ne_nil hne
  unfold intersectHyph
  simp only [rd, List.getElem?_cons_zero, Option.bind_eq_bind, Option.bind_some, List.drop_one, List.tail_cons, List.head_cons]
  have hp0 := hp p (by simp)
  obtain ⟨r, e1, e2, e3⟩ := intersect_go n ps (fun q hq => hp q (by simp [hq]))
    ((cstr p).map fun c => if c = 0x58 then 0x20 else c) (by
      rw [List.length_map, cstr_patOk hp0, List.length_take, patOk_length hp0]; omega)
  refine ⟨r, e1, e2, fun i hi => ?_⟩
  obtain ⟨f1, f2⟩ := e3 i hi
  obtain ⟨c, hc, _⟩ := patOk_cell hp0 hi
  rw [first_cell hp0 hi, hc] at f2
  simp only [Option.map_some] at f2
  constructor
  · rintro ⟨q, hq, hb⟩
    by_cases hex : ∃ p ∈ ps, blankAt p i = true
    · exact f1 hex
    · have hall : ∀ p ∈ ps, blankAt p i = false := by
        intro p hp
        cases h : blankAt p i
        · rfl
        · exact absurd ⟨p, hp, h⟩ hex
      rw [List.mem_cons] at hq
      rcases hq with rfl | hq
      · rw [f2 hall]
        rcases (blankAt_true_iff hc).1 hb with h | h <;> simp [h]
      · exact absurd ⟨q, hq, hb⟩ hex
  · intro hall
    have := (blankAt_false_iff hc).1 (hall p (by simp))
    rw [f2 (fun q hq => hall q (by simp [hq])), hc, if_neg (by omega)]

theorem union_go (n : Nat) (ps : List (List Wc)) (hp : ∀ p ∈ ps, PatOk n p) : ∀ s : List Wc, s.length = n →
    ∃ r, unionHyph.go ps s = some r ∧ r.length = n ∧
      ∀ i < n, ((∃ p ∈ ps, p[i]? = some 0x2D) → r[i]? = some 0x2D) ∧ ((∀ p ∈ ps, p[i]? ≠ some 0x2D) → r[i]? = s[i]?) := by
  induction ps with
  | nil => intro s hs; exact ⟨s, rfl, hs, fun i _ => ⟨by simp, fun _ => rfl⟩⟩
  | cons p ps ih =>
    intro s hs
    have hpl := patOk_length (hp p (by simp))
    unfold unionHyph.go
    rw [if_neg (by omega)]
    have hl : (List.zipWith (fun c d => if d = 0x2D then (0x2D : Nat) else c) s p).length = n := by
      rw [List.length_zipWith]; omega
    obtain ⟨r, e1, e2, e3⟩ := ih (fun q hq => hp q (by simp [hq])) _ hl
    refine ⟨r, e1, e2, fun i hi => ?_⟩
    obtain ⟨c, hc, _⟩ := patOk_cell (hp p (by simp)) hi
    have hz : (List.zipWith (fun c d => if d = 0x2D then (0x2D : Nat) else c) s p)[i]? =
        some (if c = 0x2D then (0x2D : Nat) else s[i]'(by omega)) := by
      rw [List.getElem?_zipWith, hc, List.getElem?_eq_getElem (by omega)]
    obtain ⟨f1, f2⟩ := e3 i hi
    constructor
    · rintro ⟨q, hq, hb⟩
      by_cases hex : ∃ p ∈ ps, p[i]? = some 0x2D
      · exact f1 hex
      · have hall : ∀ p ∈ ps, p[i]? ≠ some 0x2D := fun p hp h => hex ⟨p, hp, h⟩
        rw [List.mem_cons] at hq
        rcases hq with rfl | hq
        · rw [hc, Option.some.injEq] at hb
          rw [f2 hall, hz, if_pos hb]
        · exact absurd ⟨q, hq, hb⟩ hex
    · intro hall
      have h1 := hall p (by simp)
      rw [hc, ne_eq, Option.some.injEq] at h1
      rw [f2 (fun q hq => hall q (by simp [hq])), hz, if_neg h1, List.getElem?_eq_getElem (by omega)]

/-- `unionHyphenations`: `-` where some pattern has it, otherwise the character of the first pattern. -/
theorem union_spec (n : Nat) (ps : List (List Wc)) (hne : ps ≠ []) (hp : ∀ p ∈ ps, PatOk n p) :
    ∃ r, unionHyph ps = some r ∧ r.length = n ∧
      ∀ i < n, ((∃ p ∈ ps, p[i]? = some 0x2D) → r[i]? = some 0x2D) ∧
        ((∀ p ∈ ps, p[i]? ≠ some 0x2D) → r[i]? = (ps.head hne)[i]?.map fun c => if c = 0x58 then (0x20 : Nat) else c) := by
  obtain ⟨p, ps, rfl⟩ := List.exists_cons_of_ne_nil hne
  unfold unionHyph
  simp only [rd, List.getElem?_cons_zero, Option.bind_eq_bind, Option.bind_some, List.drop_one, List.tail_cons, List.head_cons]
  have hp0 := hp p (by simp)
  obtain ⟨r, e1, e2, e3⟩ := union_go n ps (fun q hq => hp q (by simp [hq]))
    ((cstr p).map fun c => if c = 0x58 then 0x20 else c) (by
      rw [List.length_map, cstr_patOk hp0, List.length_take, patOk_length hp0]; omega)
  refine ⟨r, e1, e2, fun i hi => ?_⟩
  obtain ⟨f1, f2⟩ := e3 i hi
  rw [first_cell hp0 hi] at f2
  constructor
  · rintro ⟨q, hq, hb⟩
    by_cases hex : ∃ p ∈ ps, p[i]? = some 0x2D
    · exact f1 hex
    · have hall : ∀ p ∈ ps, p[i]? ≠ some 0x2D := fun p hp h => hex ⟨p, hp, h⟩
      rw [List.mem_cons] at hq
      rcases hq with rfl | hq
      · rw [f2 hall, hb]; rfl
      · exact absurd ⟨q, hq, hb⟩ hex
  · intro hall
    exact f2 (fun q hq => hall q (by simp [hq]))

/-! ### Words -/

theorem enc_getLast (c : Nat) : (enc c).getLast? = some 0x2E ↔ c = 0x2E := by
  unfold enc
  split
  · simp
  · split
    · simp only [List.getLast?_cons_cons, List.getLast?_singleton, Option.some.injEq]; omega
    · split
      · simp only [List.getLast?_cons_cons, List.getLast?_singleton, Option.some.injEq]; omega
      · simp only [List.getLast?_cons_cons, List.getLast?_singleton, Option.some.injEq]; omega

theorem encodeStr_append (a b : List Nat) : encodeStr (a ++ b) = encodeStr a ++ encodeStr b := by
  simp [encodeStr]

/-- The last octet of the encoding is a dot iff the last character is. -/
theorem encodeStr_getLast (w : List Nat) : (encodeStr w).getLast? = some 0x2E ↔ w.getLast? = some 0x2E := by
  rcases List.eq_nil_or_concat w with rfl | ⟨u, c, rfl⟩
  · simp [encodeStr]
  · rw [List.concat_eq_append, encodeStr_append, List.getLast?_append]
    have h1 : encodeStr [c] = enc c := by simp [encodeStr]
    obtain ⟨x, hx⟩ : ∃ x, (enc c).getLast? = some x := by
      cases h : (enc c).getLast? with
      | none => exact absurd (List.getLast?_eq_none_iff.1 h) (enc_ne_nil c)
      | some x => exact ⟨x, rfl⟩
    rw [h1, hx]
    have := enc_getLast c
    rw [hx] at this
    simp only [Option.some_or, List.getLast?_append, List.getLast?_singleton]
    simpa using this

theorem encodeStr_dropLast (w : List Nat) (h : w.getLast? = some 0x2E) : (encodeStr w).dropLast = encodeStr w.dropLast := by
  rcases List.eq_nil_or_concat w with rfl | ⟨u, c, rfl⟩
  · simp at h
  · rw [List.concat_eq_append] at h ⊢
    simp only [List.getLast?_append, List.getLast?_singleton, Option.some_or, Option.some.injEq] at h
    subst h
    rw [encodeStr_append, show encodeStr [0x2E] = [0x2E] by decide, List.dropLast_concat, List.dropLast_concat]

theorem decode_encode (w : List Nat) (h : ∀ c ∈ w, ValidCp c) : ucs4FromUtf8 (encodeStr w) = some (some w) := by
  obtain ⟨b, h1, _, _, h2⟩ := C14_round_trip w h
  rw [(utf8FromUcs4_eq w).1 h, Option.some.injEq, Option.some.injEq] at h1
  rw [h1]; exact h2

theorem unknownPattern_total (o : HyphOpts) (word : List Wc) : ∃ p, unknownPattern o word = some p ∧ PatOk word.length p := by
  unfold unknownPattern
  obtain ⟨b, hb, _⟩ := allowRule_total o.ugly word word.length (Nat.le_refl _)
  rw [hb]
  refine ⟨_, rfl, _, rfl, by simp, ?_⟩
  intro c hc
  rw [List.mem_mapIdx] at hc
  obtain ⟨i, hi, rfl⟩ := hc
  split
  · simp [PatChar]
  · split <;> simp [PatChar]

/-- The dot at the end is cut off: the word has no analyses, ends in a dot and `IGNORE_DOT` is set. -/
def dotCut (o : HyphOpts) (an : Analyzer) (word : List Wc) : Bool :=
  (an word).isEmpty && o.ignoreDot && decide (word.length > 1) && word.getLast? == some 0x2E

/-- The analyses that are used. -/
def usedAnalyses (o : HyphOpts) (an : Analyzer) (word : List Wc) : List MorAn :=
  (if dotCut o an word then an word.dropLast else an word).take 31

/-- Meaning of `splitCompounds` before `removeExtraHyphenations`. -/
theorem splitCompounds_eq (o : HyphOpts) (an : Analyzer) (word : List Wc) (hv : ∀ c ∈ word, ValidCp c) :
    splitCompounds o an word =
      (interpretAll word.length (dotCut o an word) (usedAnalyses o an word)).bind fun pats =>
        (if pats.isEmpty then (unknownPattern o word).map fun p => [p] else some pats).bind fun pats =>
          (removeExtra word.length pats).map fun pats => some (pats, dotCut o an word) := by
  unfold splitCompounds
  rw [(utf8FromUcs4_eq word).1 hv]
  have h1 : analyzeUtf8 an (encodeStr word) = some (an word) := by
    unfold analyzeUtf8; rw [decode_encode word hv]; rfl
  simp only [Option.bind_eq_bind, Option.bind_some, h1]
  have hlast : ((encodeStr word).getLast? == some 0x2E) = (word.getLast? == some 0x2E) := by
    rw [Bool.eq_iff_iff, beq_iff_eq, beq_iff_eq]; exact encodeStr_getLast word
  rw [hlast]
  have hcut : ((an word).isEmpty && o.ignoreDot && decide (word.length > 1) && word.getLast? == some 0x2E) =
      dotCut o an word := rfl
  rw [hcut]
  have h2 : (if dotCut o an word = true then analyzeUtf8 an (encodeStr word).dropLast else some (an word)) =
      some (if dotCut o an word = true then an word.dropLast else an word) := by
    by_cases hc : dotCut o an word = true
    · rw [if_pos hc, if_pos hc]
      have hl : word.getLast? = some 0x2E := by
        simp only [dotCut, Bool.and_eq_true, beq_iff_eq] at hc; exact hc.2
      unfold analyzeUtf8
      rw [encodeStr_dropLast word hl, decode_encode _ (fun c hc => hv c ((List.dropLast_sublist _).subset hc))]
      rfl
    · rw [if_neg hc, if_neg hc]
  rw [h2]
  simp only [Option.bind_some, usedAnalyses]
  congr 1
  funext pats
  cases unknownPattern o word <;> cases pats <;> simp <;> cases removeExtra word.length _ <;> rfl

theorem dotCut_length {o : HyphOpts} {an : Analyzer} {word : List Wc} (h : dotCut o an word = true) : 1 ≤ word.length := by
  simp only [dotCut, Bool.and_eq_true, decide_eq_true_eq] at h
  omega

/-- Meaning of the list of patterns given by `splitCompounds`. -/
structure SplitOk (o : HyphOpts) (word : List Wc) (all pats : List (List Wc)) : Prop where
  ne : pats ≠ []
  ok : ∀ p ∈ pats, PatOk word.length p
  unknown : all = [] → ∃ p, unknownPattern o word = some p ∧ pats = [p]
  sub : all ≠ [] → ∀ p ∈ pats, p ∈ all
  unsplit : all ≠ [] → (∃ p ∈ all, ∀ i < word.length, blankAt p i = true) →
    pats.Perm (all.filter fun p => decide (∀ i < word.length, blankAt p i = true))
  split : all ≠ [] → (¬ ∃ p ∈ all, ∀ i < word.length, blankAt p i = true) → pats = all

/-- `splitCompounds` on a word that can be encoded, when the analyses can be interpreted. -/
theorem splitCompounds_of (o : HyphOpts) (an : Analyzer) (word : List Wc) (hv : ∀ c ∈ word, ValidCp c) (all : List (List Wc))
    (e1 : interpretAll word.length (dotCut o an word) (usedAnalyses o an word) = some all) :
    ∃ pats, splitCompounds o an word = some (some (pats, dotCut o an word)) ∧ SplitOk o word all pats := by
  have g1 := interpretAll_sound word.length (dotCut o an word) dotCut_length _ _ e1
  rw [splitCompounds_eq o an word hv, e1]
  simp only [Option.bind_some]
  by_cases hall : all = []
  · obtain ⟨p, e2, g2⟩ := unknownPattern_total o word
    subst hall
    obtain ⟨r, e3, f1, f2⟩ := removeExtra_spec word.length [p] (by simp) (by simp [patOk_length g2])
    have hr : r = [p] := by
      by_cases h : ∃ q ∈ [p], ∀ i < word.length, blankAt q i = true
      · have := f1 h
        obtain ⟨q, hq, h'⟩ := h
        rw [List.mem_singleton] at hq; subst hq
        rw [List.filter_cons, decide_eq_true h'] at this
        simpa using this
      · exact f2 h
    subst hr
    exact ⟨[p], by simp [e2, e3], by simp, by simpa using g2, fun _ => ⟨p, e2, rfl⟩, by simp, by simp, by simp⟩
  · have hne : all.isEmpty = false := by cases all <;> simp at hall ⊢
    obtain ⟨r, e3, f1, f2⟩ := removeExtra_spec word.length all hall
      (fun p hp => by have := patOk_length (g1 p hp); omega)
    have hsub : ∀ p ∈ r, p ∈ all := by
      intro p hp
      by_cases h : ∃ q ∈ all, ∀ i < word.length, blankAt q i = true
      · exact (List.mem_filter.1 ((f1 h).mem_iff.1 hp)).1
      · rw [f2 h] at hp; exact hp
    have hrne : r ≠ [] := by
      rintro rfl
      by_cases h : ∃ q ∈ all, ∀ i < word.length, blankAt q i = true
      · have hp := f1 h
        obtain ⟨q, hq, h'⟩ := h
        have := hp.mem_iff.2 (List.mem_filter.2 ⟨hq, decide_eq_true h'⟩)
        simp at this
      · exact hall (f2 h).symm
    exact ⟨r, by simp [hne, e3], hrne, fun p hp => g1 p (hsub p hp), fun h => absurd h hall,
      fun _ => hsub, fun _ => f1, fun _ => f2⟩

theorem usedAnalyses_ok (o : HyphOpts) (an : Analyzer) (ha : StructuresOk an) (word : List Wc) :
    ∃ all, interpretAll word.length (dotCut o an word) (usedAnalyses o an word) = some all := by
  have hus : ∀ a ∈ usedAnalyses o an word, StructOk a := by
    intro a h
    have := List.mem_of_mem_take h
    split at this
    · exact ha _ a this
    · exact ha _ a this
  obtain ⟨all, e1, _, _⟩ := interpretAll_total word.length (dotCut o an word) dotCut_length _ hus
  exact ⟨all, e1⟩

theorem compoundAll_total (o : HyphOpts) (word : List Wc) (n len : Nat) (hln : len ≤ n) (h0 : ∀ c ∈ word.take len, c ≠ 0)
    (hwl : len ≤ word.length) (ps : List (List Wc)) (hp : ∀ p ∈ ps, PatOk n p) :
    ∃ rs, compoundAll o word len ps = some rs ∧ (ps ≠ [] → rs ≠ []) ∧ (∀ r ∈ rs, PatOk n r) ∧
      List.Forall₂ (fun p r => compoundHyphenation o.ugly o.minLength word len p = some r) ps rs := by
  induction ps with
  | nil => exact ⟨[], rfl, by simp, by simp, .nil⟩
  | cons p ps ih =>
    obtain ⟨rs, e1, _, g1, f1⟩ := ih (fun q hq => hp q (by simp [hq]))
    have hpk := hp p (by simp)
    have hpl := patOk_length hpk
    obtain ⟨r, e2, l2, _, c2⟩ := compound_spec o.ugly o.minLength word len p h0 hwl (by omega)
    refine ⟨r :: rs, by simp [compoundAll, e2, e1], by simp, ?_, .cons e2 f1⟩
    intro q hq
    rw [List.mem_cons] at hq
    rcases hq with rfl | hq
    · refine ⟨q.take n, ?_, by simp; omega, ?_⟩
      · have h3 : q[n]? = some 0 := by
          rcases c2 n with h | ⟨s, e, q', hi, _, _, h4, _⟩
          · rw [h]
            obtain ⟨b, rfl, rfl, _⟩ := hpk
            simp
          · have := hi.le; omega
        have h4 : q.drop n = [0] := by
          have : n < q.length := by omega
          rw [List.drop_eq_getElem_cons this, List.drop_of_length_le (by omega)]
          rw [List.getElem?_eq_getElem this, Option.some.injEq] at h3
          rw [h3]
        conv => lhs; rw [← List.take_append_drop n q]
        rw [h4]
      · intro c hc
        rw [List.mem_take_iff_getElem] at hc
        obtain ⟨i, hi, rfl⟩ := hc
        have hin : i < n := by omega
        rcases c2 i with h | ⟨s, e, q', _, _, h5, h6, _, u, h7⟩
        · obtain ⟨c, hc, hpc⟩ := patOk_cell hpk hin
          rw [hc, List.getElem?_eq_getElem (by omega), Option.some.injEq] at h
          rw [h]; exact hpc
        · rw [List.getElem?_eq_getElem (by omega)] at h7
          rcases u.cell (i - s) with h8 | ⟨_, _, h8⟩
          · obtain ⟨c, hc, hpc⟩ := patOk_cell hpk hin
            rw [h8, List.getElem?_drop, show s + (i - s) = i by omega, hc, Option.some.injEq] at h7
            rw [h7]; exact hpc
          · rw [← h7] at h8
            simp only [Option.some.injEq] at h8
            rcases h8 with h8 | h8 | h8 <;> rw [h8] <;> simp [PatChar]
    · exact g1 q hq

/-- The number of characters that are hyphenated. -/
def usedLen (o : HyphOpts) (an : Analyzer) (word : List Wc) : Nat := word.length - (if dotCut o an word then 1 else 0)

/-- The readings of a word long enough to be hyphenated: the patterns `pats` of `splitCompounds` and their hyphenations
`rs`. -/
structure Readings (o : HyphOpts) (an : Analyzer) (word : List Wc) (all pats rs : List (List Wc)) : Prop where
  interp : interpretAll word.length (dotCut o an word) (usedAnalyses o an word) = some all
  split : SplitOk o word all pats
  ok : ∀ r ∈ rs, PatOk word.length r
  ne : rs ≠ []
  rules : List.Forall₂ (fun p r => compoundHyphenation o.ugly o.minLength (word ++ [0]) (usedLen o an word) p = some r) pats rs

theorem take_word_ne {word : List Wc} (h0 : 0 ∉ word) (k : Nat) (hk : k ≤ word.length) : ∀ c ∈ (word ++ [0]).take k, c ≠ 0 := by
  intro c hc h
  rw [List.take_append_of_le_length hk] at hc
  exact h0 (h ▸ List.mem_of_mem_take hc)

/-- `hyphenate` and `allPossibleHyphenPositions` on a word that can be encoded, when the analyses can be interpreted. -/
theorem hyphenateWith_of (join : List (List Wc) → UB (List Wc)) (o : HyphOpts) (an : Analyzer) (word : List Wc)
    (hv : ∀ c ∈ word, ValidCp c) (h0 : 0 ∉ word) (hmin : o.minLength ≤ word.length) (all : List (List Wc))
    (e1 : interpretAll word.length (dotCut o an word) (usedAnalyses o an word) = some all) :
    ∃ pats rs, Readings o an word all pats rs ∧ splitCompounds o an word = some (some (pats, dotCut o an word)) ∧
      hyphenateWith join o an word = (join rs).map some := by
  obtain ⟨pats, e2, hs⟩ := splitCompounds_of o an word hv all e1
  have hu : usedLen o an word ≤ word.length := by unfold usedLen; omega
  obtain ⟨rs, e3, n3, g3, f3⟩ := compoundAll_total o (word ++ [0]) word.length (usedLen o an word) hu
    (take_word_ne h0 _ hu) (by simp; omega) pats hs.ok
  refine ⟨pats, rs, ⟨e1, hs, g3, n3 hs.ne, f3⟩, e2, ?_⟩
  unfold hyphenateWith
  rw [if_neg (by omega), e2]
  simp only [Option.bind_eq_bind, Option.bind_some]
  rw [show word.length - (if dotCut o an word = true then 1 else 0) = usedLen o an word from rfl, e3]
  simp only [Option.bind_some]
  cases join rs <;> rfl

end Verif
