import Verif.Lemmas.FstCompile
/-!
# Addresses of the transitions of a compiled table
-/

set_option linter.unusedSimpArgs false
set_option linter.unusedVariables false

namespace Verif.Props
open Verif

/-- Position of transition number `j` inside a state with `n` transitions. -/
def cellIdx (n j : Nat) : Nat := if 255 < n ∧ 0 < j then j + 1 else j

/-- Address of transition number `j` of state `i`. -/
def addrOf (states : List (List CTrans)) (a : Nat × Nat) : Nat :=
  offsetOf states a.1 + cellIdx ((states[a.1]?).getD []).length a.2

theorem cellIdx_lt {n j : Nat} (h : j < n) : cellIdx n j < stateSize n := by
  unfold cellIdx stateSize; split <;> split <;> omega

theorem cellIdx_mono {n j k : Nat} : cellIdx n j < cellIdx n k ↔ j < k := by
  unfold cellIdx; split <;> split <;> omega

theorem cellIdx_inj {n j k : Nat} (h : cellIdx n j = cellIdx n k) : j = k := by
  unfold cellIdx at h; split at h <;> split at h <;> omega

/-- The cells of one state as read. -/
theorem stateCells_get (s : List (CTrans × Nat)) (j : Nat) (x : CTrans × Nat) (hx : s[j]? = some x) :
    ((stateCells s).map OutCell.toCell)[cellIdx s.length j]? =
      some (transCell x.2 (if j = 0 then (if 255 < s.length then 255 else s.length - 1) else 0) x.1) := by
  cases s with
  | nil => simp at hx
  | cons y s =>
    unfold stateCells
    cases j with
    | zero =>
      simp only [List.getElem?_cons_zero, Option.some.injEq] at hx
      subst hx
      simp [cellIdx, OutCell.toCell]
    | succ j =>
      simp only [List.getElem?_cons_succ] at hx
      by_cases hl : 255 < (y :: s).length
      · have e : cellIdx (y :: s).length (j + 1) = j + 1 + 1 := by unfold cellIdx; rw [if_pos ⟨hl, by omega⟩]
        rw [e, if_pos hl, if_pos hl]
        simp only [List.map_cons, List.map_append, List.map_nil, List.cons_append, List.nil_append, List.getElem?_cons_succ,
          List.map_map, List.getElem?_map, hx, Option.map_some]
        rfl
      · have e : cellIdx (y :: s).length (j + 1) = j + 1 := by unfold cellIdx; rw [if_neg (by omega)]
        rw [e, if_neg hl, if_neg hl]
        simp only [List.map_cons, List.map_append, List.map_nil, List.cons_append, List.nil_append, List.getElem?_cons_succ,
          List.map_map, List.getElem?_map, hx, Option.map_some]
        rfl

theorem stateCells_overflow (s : List (CTrans × Nat)) (hl : 255 < s.length) :
    ((stateCells s).map OutCell.toCell)[1]? = some (OutCell.toCell (.overflow (s.length - 1))) := by
  cases s with
  | nil => simp at hl
  | cons y s => unfold stateCells; rw [if_pos hl, if_pos hl]; simp

section
variable {states : List (List CTrans)}

/-- The cells of the whole table. -/
def tableOf (states : List (List CTrans)) : List Cell := (states.flatMap (cellsOf states)).map OutCell.toCell

theorem flatMap_get {α : Type} (g : List CTrans → List α) (hg : ∀ s, (g s).length = stateSize s.length) :
    ∀ (xs : List (List CTrans)) (i : Nat) (s : List CTrans), xs[i]? = some s → ∀ k, k < stateSize s.length →
      (xs.flatMap g)[offsetOf xs i + k]? = (g s)[k]? := by
  intro xs
  induction xs with
  | nil => intro i s h; simp at h
  | cons x xs ih =>
    intro i s h k hk
    rw [List.flatMap_cons]
    cases i with
    | zero =>
      simp only [List.getElem?_cons_zero, Option.some.injEq] at h
      subst h
      have : offsetOf (x :: xs) 0 = 0 := by simp [offsetOf, sizeOf']
      rw [this, Nat.zero_add, List.getElem?_append_left (by rw [hg]; exact hk)]
    | succ i =>
      simp only [List.getElem?_cons_succ] at h
      have : offsetOf (x :: xs) (i + 1) = stateSize x.length + offsetOf xs i := by simp [offsetOf, sizeOf']
      rw [this, List.getElem?_append_right (by rw [hg]; omega), hg,
        show stateSize x.length + offsetOf xs i + k - stateSize x.length = offsetOf xs i + k by omega]
      exact ih i s h k hk

theorem table_get {i : Nat} {s : List CTrans} (hi : states[i]? = some s) {k : Nat} (hk : k < stateSize s.length) :
    (tableOf states)[offsetOf states i + k]? = ((cellsOf states s).map OutCell.toCell)[k]? := by
  unfold tableOf
  rw [List.map_flatMap]
  exact flatMap_get (fun s => (cellsOf states s).map OutCell.toCell)
    (fun s => by rw [List.length_map, cellsOf, stateCells_length, List.length_map]) states i s hi k hk

theorem table_length : (tableOf states).length = sizeOf' states := by
  unfold tableOf sizeOf'
  rw [List.length_map, List.length_flatMap]
  congr 1
  apply List.map_congr_left
  intro s _
  rw [cellsOf, stateCells_length, List.length_map]

theorem offset_add_le {i : Nat} {s : List CTrans} (hi : states[i]? = some s) :
    offsetOf states i + stateSize s.length ≤ sizeOf' states := by
  have hlt : i < states.length := by
    rcases Nat.lt_or_ge i states.length with h | h
    · exact h
    · rw [List.getElem?_eq_none h] at hi; cases hi
  have e : states = states.take i ++ s :: states.drop (i + 1) := by
    rw [List.getElem?_eq_getElem hlt] at hi
    cases hi
    rw [List.getElem_cons_drop, List.take_append_drop]
  have : sizeOf' states = sizeOf' (states.take i) + (stateSize s.length + sizeOf' (states.drop (i + 1))) := by
    exact (congrArg sizeOf' e).trans (by simp [sizeOf'])
  rw [this]
  unfold offsetOf
  omega

theorem offset_mono {i k : Nat} (hik : i < k) {s : List CTrans} (hi : states[i]? = some s) :
    offsetOf states i + stateSize s.length ≤ offsetOf states k := by
  have hi' : (states.take k)[i]? = some s := by rw [List.getElem?_take_of_lt hik]; exact hi
  have h := offset_add_le (states := states.take k) hi'
  have e : offsetOf (states.take k) i = offsetOf states i := by
    unfold offsetOf
    rw [List.take_take, Nat.min_eq_left (by omega)]
  rw [e] at h
  exact h

/-- The cell of transition number `j` of state `i`. -/
theorem cell_at {i j : Nat} {s : List CTrans} {t : CTrans} (hi : states[i]? = some s) (hj : s[j]? = some t) :
    (tableOf states)[addrOf states (i, j)]? = some (transCell (offsetOf states t.targetOrd)
      (if j = 0 then (if 255 < s.length then 255 else s.length - 1) else 0) t) := by
  have hlt : j < s.length := by
    rcases Nat.lt_or_ge j s.length with h | h
    · exact h
    · rw [List.getElem?_eq_none h] at hj; cases hj
  unfold addrOf
  simp only [hi, Option.getD_some]
  rw [table_get hi (cellIdx_lt hlt)]
  have := stateCells_get (s.map fun t => (t, offsetOf states t.targetOrd)) j (t, offsetOf states t.targetOrd)
    (by rw [List.getElem?_map, hj]; rfl)
  rw [List.length_map] at this
  exact this

theorem overflow_at {i : Nat} {s : List CTrans} (hi : states[i]? = some s) (hl : 255 < s.length) :
    (tableOf states)[offsetOf states i + 1]? = some (OutCell.toCell (.overflow (s.length - 1))) := by
  rw [table_get hi (by have := stateSize_ge s.length; omega)]
  have := stateCells_overflow (s.map fun t => (t, offsetOf states t.targetOrd)) (by rw [List.length_map]; exact hl)
  rw [List.length_map] at this
  exact this

/-- The addresses found by the reader are those of the transitions of the state. -/
theorem stateAddrs_table {f : Fst} (hf : f.cells = tableOf states) {i : Nat} {s : List CTrans} (hi : states[i]? = some s)
    (hne : s ≠ []) (hsz : sizeOf' states < 2 ^ 32) :
    stateAddrs f (offsetOf states i) = (List.range s.length).map fun j => addrOf states (i, j) := by
  have hlen : 0 < s.length := List.length_pos_iff.2 hne
  have h0 := cell_at hi (List.getElem?_eq_getElem hlen)
  have ea : addrOf states (i, 0) = offsetOf states i := by simp [addrOf, cellIdx]
  rw [ea] at h0
  unfold stateAddrs
  rw [hf, h0]
  simp only [if_true]
  have hadd : ∀ j, addrOf states (i, j) = offsetOf states i + cellIdx s.length j := by
    intro j; simp only [addrOf, hi, Option.getD_some]
  by_cases hl : 255 < s.length
  · rw [if_pos hl, if_pos (by simp [transCell]), overflow_at hi hl]
    have hle := length_le_size (List.mem_of_getElem? hi)
    have ho : (OutCell.toCell (.overflow (s.length - 1))).overflow = s.length - 1 := by
      simp only [OutCell.toCell, Cell.overflow]
      omega
    simp only [ho]
    apply List.ext_getElem?
    intro k
    cases k with
    | zero => simp [hlen, hadd, cellIdx]
    | succ k =>
      rw [List.getElem?_cons_succ, List.getElem?_map]
      by_cases hk : k + 1 < s.length
      · rw [List.getElem?_range' (by omega), List.getElem?_range hk]
        simp only [Option.map_some, hadd, cellIdx]
        rw [if_pos ⟨hl, by omega⟩]
        congr 1
        omega
      · rw [List.getElem?_eq_none (by simp; omega), List.getElem?_eq_none (by simp; omega)]
        rfl
  · rw [if_neg hl]
    have hm : (transCell (offsetOf states s[0].targetOrd) (s.length - 1) s[0]).more = s.length - 1 := by
      simp only [transCell]; omega
    rw [hm, if_neg (by omega), show s.length - 1 + 1 = s.length by omega]
    apply List.ext_getElem?
    intro k
    rw [List.getElem?_map]
    by_cases hk : k < s.length
    · rw [List.getElem?_range' hk, List.getElem?_range hk]
      simp only [Option.map_some, hadd, cellIdx]
      rw [if_neg (by omega), Nat.one_mul]
    · rw [List.getElem?_eq_none (by simp; omega), List.getElem?_eq_none (by simp; omega)]
      rfl

end

end Verif.Props
