import Verif.Lemmas.FstWFile
import Verif.Spec.FstWeighted
/-!
# Addresses of the transitions of a compiled weighted table
-/

set_option linter.unusedSimpArgs false
set_option linter.unusedVariables false

namespace Verif.Props
open Verif

/-- The automaton without weights. -/
def bare (states : List (List WTrans)) : List (List CTrans) := states.map fun s => s.map (·.t)

/-- The cells of one state. -/
def wcellsOf (states : List (List WTrans)) (s : List WTrans) : List WOutCell :=
  wstateCells (s.map fun x => (x, offsetOf (bare states) x.t.targetOrd))

theorem bare_get {states : List (List WTrans)} {i : Nat} {s : List WTrans} (h : states[i]? = some s) :
    (bare states)[i]? = some (s.map (·.t)) := by
  unfold bare; rw [List.getElem?_map, h]; rfl

theorem bare_length (states : List (List WTrans)) : (bare states).length = states.length := List.length_map _

theorem wtableCells_eq {states : List (List WTrans)} (hne : ∀ s ∈ states, s ≠ [])
    (ht : ∀ s ∈ states, ∀ x ∈ s, x.t.targetOrd < states.length) (hsz : sizeOf' (bare states) < 2 ^ 32) :
    wtableCells states = some (states.flatMap (wcellsOf states)) := by
  have hne' : ∀ s ∈ bare states, s ≠ [] := by
    intro s hs
    obtain ⟨w, hw, rfl⟩ := List.mem_map.1 hs
    intro h
    exact hne w hw (List.map_eq_nil_iff.1 h)
  unfold wtableCells
  rw [← bare.eq_def, stateOffsets_eq (bare states) 0 hne' (by omega)]
  have hm : states.mapM (wsetTargets ((List.range (bare states).length).map fun i => 0 + offsetOf (bare states) i)) =
      some (states.map fun s => s.map fun x => (x, offsetOf (bare states) x.t.targetOrd)) := by
    apply mapM_some
    intro s hs
    unfold wsetTargets
    apply mapM_some
    intro t htm
    have := ht s hs t htm
    simp [List.getElem?_map, bare_length, List.getElem?_range this]
  simp only [Option.bind_eq_bind, Option.bind_some, hm, Option.pure_def, List.flatMap_map]
  rfl

theorem wstateCells_length (s : List (WTrans × Nat)) : (wstateCells s).length = stateSize s.length := by
  cases s with
  | nil => rfl
  | cons x s =>
    unfold wstateCells stateSize
    simp only [List.length_cons, List.length_append, List.length_map]
    split <;> split <;> simp only [List.length_cons, List.length_nil] <;> omega

theorem wplaced_trans_zero (xs : List (WTrans × Nat)) {rest : List WOutCell} (h : WPlaced false rest) :
    WPlaced false ((xs.map fun x => WOutCell.trans (wtransCell x.2 0 x.1) x.1.reserved) ++ rest) := by
  induction xs with
  | nil => exact h
  | cons x xs ih =>
    show WPlaced ((wtransCell x.2 0 x.1).more == 0xFF) _
    exact ih

theorem wplaced_state (s : List (WTrans × Nat)) {rest : List WOutCell} (h : WPlaced false rest) :
    WPlaced false (wstateCells s ++ rest) := by
  cases s with
  | nil => exact h
  | cons x s =>
    unfold wstateCells
    by_cases hl : 255 < (x :: s).length
    · simp only [if_pos hl]
      show WPlaced (_ == 0xFF) _
      rw [show ((wtransCell x.2 255 x.1).more == 0xFF) = true from rfl]
      show WPlaced false _
      exact wplaced_trans_zero s h
    · simp only [if_neg hl]
      show WPlaced (_ == 0xFF) _
      have hlen : (x :: s).length - 1 < 255 := by omega
      have : ((wtransCell x.2 ((x :: s).length - 1) x.1).more == 0xFF) = false := by
        simp only [wtransCell, beq_eq_false_iff_ne, ne_eq]
        omega
      rw [this]
      show WPlaced false ([] ++ _ ++ _)
      exact wplaced_trans_zero s h

theorem wplaced_table (states : List (List WTrans)) (g : List WTrans → List (WTrans × Nat)) :
    WPlaced false (states.flatMap fun s => wstateCells (g s)) := by
  induction states with
  | nil => trivial
  | cons s ss ih => rw [List.flatMap_cons]; exact wplaced_state _ ih

theorem wplaced_cells (states : List (List WTrans)) : WPlaced false (states.flatMap (wcellsOf states)) := wplaced_table _ _

theorem wcellFits_trans (a b : Nat) (t : WTrans) : WCellFits (wtransCell a b t) :=
  ⟨Nat.mod_lt _ (by decide), Nat.mod_lt _ (by decide), Nat.mod_lt _ (by decide), Nat.mod_lt _ (by decide),
    Nat.mod_lt _ (by decide)⟩

theorem wmem_state {s : List (WTrans × Nat)} {c : WOutCell} (hc : c ∈ wstateCells s) :
    (∃ x ∈ s, ∃ m, c = .trans (wtransCell x.2 m x.1) x.1.reserved) ∨ c = .overflow (s.length - 1) := by
  cases s with
  | nil => exact absurd hc (List.not_mem_nil)
  | cons x s =>
    unfold wstateCells at hc
    simp only [List.mem_cons, List.mem_append, List.mem_map] at hc
    rcases hc with hc | hc | ⟨y, hy, hc⟩
    · exact .inl ⟨x, List.mem_cons_self, _, hc⟩
    · split at hc
      · simp only [List.mem_singleton] at hc
        exact .inr hc
      · exact absurd hc (List.not_mem_nil)
    · exact .inl ⟨y, List.mem_cons_of_mem _ hy, _, hc.symm⟩

theorem wfits_table {states : List (List WTrans)} (hsz : sizeOf' (bare states) < 2 ^ 32) :
    ∀ c ∈ states.flatMap (wcellsOf states), WOutFits c := by
  intro c hc
  obtain ⟨s, hs, hc⟩ := List.mem_flatMap.1 hc
  rcases wmem_state hc with ⟨x, _, m, rfl⟩ | rfl
  · exact wcellFits_trans _ _ _
  · show _ < 4294967296
    have := length_le_size (states := bare states) (List.mem_map.2 ⟨s, hs, rfl⟩)
    rw [List.length_map] at this ⊢
    omega

/-- The cells of one state as read. -/
theorem wstateCells_get (s : List (WTrans × Nat)) (j : Nat) (x : WTrans × Nat) (hx : s[j]? = some x) :
    ((wstateCells s).map WOutCell.toCell)[cellIdx s.length j]? =
      some (wtransCell x.2 (if j = 0 then (if 255 < s.length then 255 else s.length - 1) else 0) x.1) := by
  cases s with
  | nil => simp at hx
  | cons y s =>
    unfold wstateCells
    cases j with
    | zero =>
      simp only [List.getElem?_cons_zero, Option.some.injEq] at hx
      subst hx
      simp [cellIdx, WOutCell.toCell]
    | succ j =>
      simp only [List.getElem?_cons_succ] at hx
      by_cases hl : 255 < (y :: s).length
      · have e : cellIdx (y :: s).length (j + 1) = j + 1 + 1 := by unfold cellIdx; rw [if_pos ⟨hl, by omega⟩]
        rw [e, if_pos hl, if_pos hl]
        simp only [List.map_cons, List.map_append, List.map_nil, List.cons_append, List.nil_append, List.getElem?_cons_succ,
          List.map_map, List.getElem?_map, hx, Option.map_some]
        rfl
      · have e : cellIdx (y :: s).length (j + 1) = j + 1 := by unfold cellIdx; rw [if_neg (by omega)]
        rw [e, if_neg hl, if_neg hl]
        simp only [List.map_cons, List.map_append, List.map_nil, List.cons_append, List.nil_append, List.getElem?_cons_succ,
          List.map_map, List.getElem?_map, hx, Option.map_some]
        rfl

theorem wstateCells_overflow (s : List (WTrans × Nat)) (hl : 255 < s.length) :
    ((wstateCells s).map WOutCell.toCell)[1]? = some ⟨s.length - 1, 0, 0, 0, 0⟩ := by
  cases s with
  | nil => simp at hl
  | cons y s => unfold wstateCells; rw [if_pos hl, if_pos hl]; simp [WOutCell.toCell]

section
variable {states : List (List WTrans)}

/-- The cells of the whole table. -/
def wtableOf (states : List (List WTrans)) : List WCell := (states.flatMap (wcellsOf states)).map WOutCell.toCell

theorem wflatMap_get {α : Type} (g : List WTrans → List α) (hg : ∀ s, (g s).length = stateSize s.length) :
    ∀ (xs : List (List WTrans)) (i : Nat) (s : List WTrans), xs[i]? = some s → ∀ k, k < stateSize s.length →
      (xs.flatMap g)[offsetOf (bare xs) i + k]? = (g s)[k]? := by
  intro xs
  induction xs with
  | nil => intro i s h; simp at h
  | cons x xs ih =>
    intro i s h k hk
    rw [List.flatMap_cons]
    cases i with
    | zero =>
      simp only [List.getElem?_cons_zero, Option.some.injEq] at h
      subst h
      have : offsetOf (bare (x :: xs)) 0 = 0 := by simp [offsetOf, sizeOf']
      rw [this, Nat.zero_add, List.getElem?_append_left (by rw [hg]; exact hk)]
    | succ i =>
      simp only [List.getElem?_cons_succ] at h
      have : offsetOf (bare (x :: xs)) (i + 1) = stateSize x.length + offsetOf (bare xs) i := by
        simp [offsetOf, sizeOf', bare]
      rw [this, List.getElem?_append_right (by rw [hg]; omega), hg,
        show stateSize x.length + offsetOf (bare xs) i + k - stateSize x.length = offsetOf (bare xs) i + k by omega]
      exact ih i s h k hk

theorem wtable_get {i : Nat} {s : List WTrans} (hi : states[i]? = some s) {k : Nat} (hk : k < stateSize s.length) :
    (wtableOf states)[offsetOf (bare states) i + k]? = ((wcellsOf states s).map WOutCell.toCell)[k]? := by
  unfold wtableOf
  rw [List.map_flatMap]
  exact wflatMap_get (fun s => (wcellsOf states s).map WOutCell.toCell)
    (fun s => by rw [List.length_map, wcellsOf, wstateCells_length, List.length_map]) states i s hi k hk

theorem wtable_length : (wtableOf states).length = sizeOf' (bare states) := by
  unfold wtableOf sizeOf' bare
  rw [List.length_map, List.length_flatMap, List.map_map]
  congr 1
  apply List.map_congr_left
  intro s _
  simp only [wcellsOf, wstateCells_length, List.length_map, Function.comp]

theorem addrOf_eq {i : Nat} {s : List WTrans} (hi : states[i]? = some s) (j : Nat) :
    addrOf (bare states) (i, j) = offsetOf (bare states) i + cellIdx s.length j := by
  unfold addrOf
  simp only [bare_get hi, Option.getD_some, List.length_map]

/-- The cell of transition number `j` of state `i`. -/
theorem wcell_at {i j : Nat} {s : List WTrans} {x : WTrans} (hi : states[i]? = some s) (hj : s[j]? = some x) :
    (wtableOf states)[addrOf (bare states) (i, j)]? = some (wtransCell (offsetOf (bare states) x.t.targetOrd)
      (if j = 0 then (if 255 < s.length then 255 else s.length - 1) else 0) x) := by
  have hlt : j < s.length := by
    rcases Nat.lt_or_ge j s.length with h | h
    · exact h
    · rw [List.getElem?_eq_none h] at hj; cases hj
  rw [addrOf_eq hi, wtable_get hi (cellIdx_lt hlt)]
  have := wstateCells_get (s.map fun x => (x, offsetOf (bare states) x.t.targetOrd)) j (x, offsetOf (bare states) x.t.targetOrd)
    (by rw [List.getElem?_map, hj]; rfl)
  rw [List.length_map] at this
  exact this

theorem woverflow_at {i : Nat} {s : List WTrans} (hi : states[i]? = some s) (hl : 255 < s.length) :
    (wtableOf states)[offsetOf (bare states) i + 1]? = some ⟨s.length - 1, 0, 0, 0, 0⟩ := by
  rw [wtable_get hi (by have := stateSize_ge s.length; omega)]
  have := wstateCells_overflow (s.map fun x => (x, offsetOf (bare states) x.t.targetOrd)) (by rw [List.length_map]; exact hl)
  rw [List.length_map] at this
  exact this

/-- The addresses found by the reader, from the number of transitions in the head of the state or its overflow cell. -/
theorem stateAddrs_of {f : Fst} {o n : Nat} (hn : 0 < n) {h : Cell} (h0 : f.cells[o]? = some h)
    (hm : h.more = if 255 < n then 255 else n - 1)
    (h1 : 255 < n → ∃ oc, f.cells[o + 1]? = some oc ∧ oc.overflow = n - 1) :
    stateAddrs f o = (List.range n).map fun j => o + cellIdx n j := by
  unfold stateAddrs
  rw [h0]
  simp only [hm]
  by_cases hl : 255 < n
  · obtain ⟨oc, h2, h3⟩ := h1 hl
    rw [if_pos hl, if_pos rfl, h2]
    simp only [h3]
    apply List.ext_getElem?
    intro k
    cases k with
    | zero => simp [hn, cellIdx]
    | succ k =>
      rw [List.getElem?_cons_succ, List.getElem?_map]
      by_cases hk : k + 1 < n
      · rw [List.getElem?_range' (by omega), List.getElem?_range hk]
        simp only [Option.map_some, cellIdx]
        rw [if_pos ⟨hl, by omega⟩]
        congr 1
        omega
      · rw [List.getElem?_eq_none (by simp; omega), List.getElem?_eq_none (by simp; omega)]
        rfl
  · rw [if_neg hl, if_neg (by omega), show n - 1 + 1 = n by omega]
    apply List.ext_getElem?
    intro k
    rw [List.getElem?_map]
    by_cases hk : k < n
    · rw [List.getElem?_range' hk, List.getElem?_range hk]
      simp only [Option.map_some, cellIdx]
      rw [if_neg (by omega), Nat.one_mul]
    · rw [List.getElem?_eq_none (by simp; omega), List.getElem?_eq_none (by simp; omega)]
      rfl

theorem wstateAddrs_table {f : WFst} (hf : f.cells = wtableOf states) {i : Nat} {s : List WTrans} (hi : states[i]? = some s)
    (hne : s ≠ []) (hsz : sizeOf' (bare states) < 2 ^ 32) :
    stateAddrs (plainFst f) (offsetOf (bare states) i) = (List.range s.length).map fun j => addrOf (bare states) (i, j) := by
  have hlen : 0 < s.length := List.length_pos_iff.2 hne
  have h0 := wcell_at hi (List.getElem?_eq_getElem hlen)
  rw [addrOf_eq hi] at h0
  have e0 : cellIdx s.length 0 = 0 := by simp [cellIdx]
  rw [e0, Nat.add_zero] at h0
  rw [stateAddrs_of (f := plainFst f) (o := offsetOf (bare states) i) hlen (by
    show (f.cells.map WCell.plain)[_]? = _
    rw [List.getElem?_map, hf, h0]; rfl)]
  · apply List.map_congr_left
    intro j _
    rw [addrOf_eq hi]
  · simp only [WCell.plain, wtransCell, if_true]
    split <;> omega
  · intro hl
    have := length_le_size (List.mem_of_getElem? (bare_get hi))
    rw [List.length_map] at this
    refine ⟨WCell.plain ⟨s.length - 1, 0, 0, 0, 0⟩, ?_, ?_⟩
    · show (f.cells.map WCell.plain)[_]? = _
      rw [List.getElem?_map, hf, woverflow_at hi hl]; rfl
    · unfold WCell.plain Cell.overflow
      simp only
      rw [if_neg (by omega)]
      omega

end

end Verif.Props
