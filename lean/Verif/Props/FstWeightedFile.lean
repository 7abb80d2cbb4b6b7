import Verif.Lemmas.FstWTable
import Verif.Props.FstFile
/-!
# Files of weighted transducers (C43, C44)
-/

set_option linter.unusedSimpArgs false
set_option linter.unusedVariables false

namespace Verif.Props
open Verif

/-! ## C43 -/

/-- A transition with the weight 200 and a final marker. -/
def weight200 : List (List WTrans) := [[⟨⟨1, 1, 1⟩, 200, 0⟩], [⟨⟨0xFFFFFFFF, 0, 0⟩, 0, 0⟩]]

/-- C43 fails for weighted files: the weight 200 is read as -56 from the file in the opposite byte order. -/
theorem C43_weighted_violation :
    ∃ (symbols : List (List Nat)) (states : List (List WTrans)) (native foreign : List Nat), WGoodInput symbols states ∧
      writeFileW false symbols states = some native ∧ writeFileW true symbols states = some foreign ∧
      (loadFileW native).map (·.map fun f => f.cells.map fun c => toInt16 c.weight) = some (some [200, 0]) ∧
      (loadFileW foreign).map (·.map fun f => f.cells.map fun c => toInt16 c.weight) = some (some [-56, 0]) := by
  refine ⟨[[], [97]], weight200, (writeFileW false [[], [97]] weight200).getD [], (writeFileW true [[], [97]] weight200).getD [],
    ⟨by decide, by decide, by decide, by decide, by decide, by decide, by decide, by decide, by decide⟩,
    by decide +kernel, by decide +kernel, by decide +kernel, by decide +kernel⟩

/-- The weights of the transitions survive a change of byte order. -/
def WeightsOk (cells : List WOutCell) : Prop :=
  ∀ c ∈ cells, match c with
    | .trans t _ => (t.weight < 32768 ∧ t.weight % 256 < 128) ∨ t.weight = 65535
    | .overflow _ => True

theorem swapped_ok {cells : List WOutCell} (hf : ∀ c ∈ cells, WOutFits c) (hw : WeightsOk cells) :
    (cells.map WOutCell.swapped).map WOutCell.toCell = cells.map WOutCell.toCell := by
  rw [List.map_map]
  apply List.map_congr_left
  intro c hc
  cases c with
  | trans t z =>
    have h1 : WCellFits t := hf _ hc
    have h2 : WeightOk t.weight := hw _ hc
    have := (swapS16_swapS16 h1.2.2.2.1).2 h2
    simp only [Function.comp, WOutCell.swapped, WOutCell.toCell, this]
  | overflow n => rfl

/-- C43 for weighted files, the part that holds: the byte order is irrelevant if the lower byte of each weight is less than 128
and the weight is not negative, or the weight is -1. (Missing: all other weights; for these the claim is false,
see `C43_weighted_exact`.) -/
theorem C43_weighted_partial {symbols : List (List Nat)} {cells : List WOutCell} (he : symbols[0]? = some [])
    (hs : symbols.length < 65536) (hz : ∀ s ∈ symbols, 0 ∉ s) (hp : WPlaced false cells) (hf : ∀ c ∈ cells, WOutFits c)
    (hw : WeightsOk cells) :
    loadFileW (layoutFileW true symbols cells) = loadFileW (layoutFileW false symbols cells) := by
  rw [loadFileW_layout true hs hz hp hf, loadFileW_layout false hs hz hp hf]
  cases symbols with
  | nil => cases he
  | cons s0 ss =>
    simp only [List.getElem?_cons_zero, Option.some.injEq] at he
    subst he
    rw [List.length_cons] at hs
    have hz' := fun s hs => hz s (List.mem_cons_of_mem _ hs)
    simp only [if_true, Bool.false_eq_true, if_false]
    rw [readBodyW_layout hs hz' hf, readBodyW_layout hs hz' (swapped_fits hf), swapped_ok hf hw]

/-- C43 for weighted files, exactly: when the file loads, all but the weights agree, and each weight agrees just in the cases of
`C43_weighted_partial`. -/
theorem C43_weighted_exact {symbols : List (List Nat)} {cells : List WOutCell} (he : symbols[0]? = some [])
    (hs : symbols.length < 65536) (hz : ∀ s ∈ symbols, 0 ∉ s) (hp : WPlaced false cells) (hf : ∀ c ∈ cells, WOutFits c)
    {f : WFst} (hl : loadFileW (layoutFileW false symbols cells) = some (some f)) :
    ∃ g, loadFileW (layoutFileW true symbols cells) = some (some g) ∧ f.cells = cells.map WOutCell.toCell ∧
      g = { f with cells := g.cells } ∧
      g.cells.map (fun c => (c.symIn, c.symOut, c.target, c.more)) = f.cells.map (fun c => (c.symIn, c.symOut, c.target, c.more)) ∧
      (g.cells = f.cells ↔ WeightsOk cells) := by
  rw [loadFileW_layout false hs hz hp hf] at hl
  rw [loadFileW_layout true hs hz hp hf]
  cases symbols with
  | nil => cases he
  | cons s0 ss =>
    simp only [List.getElem?_cons_zero, Option.some.injEq] at he
    subst he
    rw [List.length_cons] at hs
    have hz' := fun s hs => hz s (List.mem_cons_of_mem _ hs)
    simp only [if_true, Bool.false_eq_true, if_false] at hl ⊢
    rw [readBodyW_layout hs hz' hf] at hl
    rw [readBodyW_layout hs hz' (swapped_fits hf)]
    cases h1 : foldSymbols 1 initTab ss with
    | none => rw [h1] at hl; cases hl
    | some o =>
      rw [h1] at hl
      cases o with
      | none => cases hl
      | some st =>
        simp only [Option.map_some, Option.some.injEq] at hl
        subst hl
        refine ⟨_, rfl, rfl, rfl, ?_, ?_, swapped_ok hf⟩
        · simp only [wfstOf, List.map_map]
          apply List.map_congr_left
          intro c hc
          cases c <;> rfl
        · intro h c hc
          simp only [wfstOf, List.map_map] at h
          cases c with
          | overflow n => trivial
          | trans t z =>
            have h2 := List.map_inj_left.1 h _ hc
            have h3 := congrArg (·.weight) h2
            simp only [Function.comp, WOutCell.swapped, WOutCell.toCell] at h3
            exact (swapS16_swapS16 (hf _ hc).2.2.2.1).1 h3

/-- The hypotheses of `C43_weighted_exact` and of `C43_weighted_partial` hold for a small table. -/
example : WPlaced false [.trans ⟨1, 1, 1, 1000, 0⟩ 7, .trans ⟨0xFFFFFFFF, 0, 0, 65535, 0⟩ 0] ∧
    (∀ c ∈ [WOutCell.trans ⟨1, 1, 1, 1000, 0⟩ 7, .trans ⟨0xFFFFFFFF, 0, 0, 65535, 0⟩ 0], WOutFits c) ∧
    ¬ WeightsOk [WOutCell.trans ⟨1, 1, 1, 1000, 0⟩ 7] ∧ WeightsOk [WOutCell.trans ⟨1, 1, 1, 100, 0⟩ 7] ∧
    ((loadFileW (layoutFileW false [[], [97]] [.trans ⟨1, 1, 1, 1000, 0⟩ 7, .trans ⟨0xFFFFFFFF, 0, 0, 65535, 0⟩ 0])).bind
      id).isSome = true := by
  refine ⟨by simp [WPlaced], ?_, ?_, ?_, by decide +kernel⟩
  · intro c hc
    simp only [List.mem_cons, List.not_mem_nil, or_false] at hc
    rcases hc with rfl | rfl <;> simp [WOutFits, WCellFits]
  · intro h
    have := h _ List.mem_cons_self
    simp at this
  · intro c hc
    simp only [List.mem_cons, List.not_mem_nil, or_false] at hc
    subst hc
    simp

/-! ## C44 -/

section
variable {symbols : List (List Nat)} {states : List (List WTrans)} (g : WGoodInput symbols states)
include g

theorem wsize_lt : sizeOf' (bare states) < 2 ^ 32 := by
  have := g.size
  unfold sizeOf' bare
  rw [List.map_map]
  simpa [Function.comp_def, stateSize] using this

theorem writeFileW_eq (doSwap : Bool) :
    writeFileW doSwap symbols states = some (layoutFileW doSwap symbols (states.flatMap (wcellsOf states))) := by
  unfold writeFileW
  rw [wtableCells_eq g.nonempty g.targets (wsize_lt g)]
  rfl

/-- C44 for weighted files: a compiled file with well-encoded symbols loads, in both byte orders. -/
theorem C44_weighted_loads (hl : ∀ s ∈ symbols, (∃ cps, (∀ cp ∈ cps, ValidCp cp) ∧ s = encodeStr cps) ∧ (∀ b ∈ s, b < 256) ∧
      (s[0]? = some 64 → 4 < s.length)) (doSwap : Bool) :
    ∃ file f, writeFileW doSwap symbols states = some file ∧ loadFileW file = some (some f) := by
  have hl' : ∀ s ∈ symbols, LoadableSymbol s := by
    intro s hs
    obtain ⟨⟨cps, h1, h2⟩, h3, h4⟩ := hl s hs
    exact ⟨⟨cps, (C15_decoder_exact s cps h3).2 ⟨h1, h2⟩⟩, h4⟩
  refine ⟨layoutFileW doSwap symbols (states.flatMap (wcellsOf states)), ?_⟩
  rw [writeFileW_eq g doSwap, loadFileW_layout doSwap g.symCount g.noNul (wplaced_cells _) (wfits_table (wsize_lt g))]
  have hfits : ∀ c ∈ (if doSwap = true then (states.flatMap (wcellsOf states)).map WOutCell.swapped
      else states.flatMap (wcellsOf states)), WOutFits c := by
    split
    · exact swapped_fits (wfits_table (wsize_lt g))
    · exact wfits_table (wsize_lt g)
  cases symbols with
  | nil => cases g.epsilon
  | cons s0 ss =>
    have he := g.epsilon
    simp only [List.getElem?_cons_zero, Option.some.injEq] at he
    subst he
    obtain ⟨st, hst⟩ := foldSymbols_loads (fun s hs => hl' s (List.mem_cons_of_mem _ hs)) 1 initTab
    rw [readBodyW_layout (by have := g.symCount; rw [List.length_cons] at this; exact this)
      (fun s hs => g.noNul s (List.mem_cons_of_mem _ hs)) hfits, hst]
    exact ⟨_, rfl, rfl⟩

/-- What a loaded compiled file consists of. -/
theorem wloaded {file : List Nat} {f : WFst} (hw : writeFileW false symbols states = some file)
    (hl : loadFileW file = some (some f)) : ∃ st, SymInv st symbols.length ∧ f = wfstOf st (wtableOf states) := by
  rw [writeFileW_eq g false] at hw
  cases hw
  rw [loadFileW_layout false g.symCount g.noNul (wplaced_cells _) (wfits_table (wsize_lt g))] at hl
  cases symbols with
  | nil => cases g.epsilon
  | cons s0 ss =>
    have he := g.epsilon
    simp only [List.getElem?_cons_zero, Option.some.injEq] at he
    subst he
    have hc := g.symCount
    rw [List.length_cons] at hc
    simp only [Bool.false_eq_true, if_false] at hl
    rw [readBodyW_layout hc (fun s hs => g.noNul s (List.mem_cons_of_mem _ hs)) (wfits_table (wsize_lt g))] at hl
    cases h1 : foldSymbols 1 initTab ss with
    | none => rw [h1] at hl; cases hl
    | some o =>
      rw [h1] at hl
      cases o with
      | none => cases hl
      | some st =>
        simp only [Option.map_some, Option.some.injEq] at hl
        subst hl
        refine ⟨st, ?_, rfl⟩
        have := foldSymbols_inv initTab_inv (by decide) (by omega) h1
        rw [List.length_cons, Nat.add_comm]
        exact this

theorem woffset_lt {i : Nat} (hi : i < states.length) : offsetOf (bare states) i < 2 ^ 32 := by
  have h := offset_add_le (states := bare states) (bare_get (List.getElem?_eq_getElem hi))
  have h1 := g.nonempty _ (List.getElem_mem hi)
  have h2 := stateSize_ge (states[i].map (·.t)).length
  have h3 := List.length_pos_iff.2 h1
  have := wsize_lt g
  rw [List.length_map] at h h2
  omega

/-- The cell of a transition. -/
theorem wgood_cell {i j : Nat} {s : List WTrans} {x : WTrans} (hi : states[i]? = some s) (hj : s[j]? = some x) :
    ∃ c, (wtableOf states)[addrOf (bare states) (i, j)]? = some c ∧ c.symIn = x.t.symIn ∧ c.symOut = x.t.symOut ∧
      c.target = offsetOf (bare states) x.t.targetOrd ∧ c.weight = x.weight := by
  have hs := List.mem_of_getElem? hi
  have hx := List.mem_of_getElem? hj
  have hc := g.symCount
  have ho := woffset_lt g (g.targets s hs x hx)
  have hwt := g.weights s hs x hx
  refine ⟨_, wcell_at hi hj, ?_, ?_, ?_, ?_⟩
  · simp only [wtransCell]
    rcases g.codes s hs x hx with ⟨h, h'⟩ | ⟨h, h'⟩ <;> omega
  · simp only [wtransCell]
    rcases g.codes s hs x hx with ⟨h, h'⟩ | ⟨h, h'⟩ <;> omega
  · simp only [wtransCell]; omega
  · simp only [wtransCell]; omega

theorem wgood_addrs {f : WFst} (hf : f.cells = wtableOf states) {i : Nat} {s : List WTrans} (hi : states[i]? = some s) :
    stateAddrs (plainFst f) (offsetOf (bare states) i) = (List.range s.length).map fun j => addrOf (bare states) (i, j) :=
  wstateAddrs_table hf hi (g.nonempty s (List.mem_of_getElem? hi)) (wsize_lt g)

/-- C44 for weighted files: the transitions that the reader finds at the offset of a state are exactly those of the state, in
order, with their symbols and weights; their targets are the offsets of their target states. Addresses of the transitions of a
state increase and lie before the offsets of all later states. -/
theorem C44_weighted_read_back {file : List Nat} {f : WFst} (hw : writeFileW false symbols states = some file)
    (hl : loadFileW file = some (some f)) :
    ∃ offset : Nat → Nat, offset 0 = 0 ∧ ∀ i s, states[i]? = some s →
      (stateAddrs (plainFst f) (offset i)).map (fun a => (f.cells[a]?).map fun c => (c.symIn, c.symOut, c.target, c.weight)) =
        s.map (fun x => some (x.t.symIn, x.t.symOut, offset x.t.targetOrd, x.weight)) ∧
      (stateAddrs (plainFst f) (offset i)).Pairwise (· < ·) ∧ (∀ a ∈ stateAddrs (plainFst f) (offset i), offset i ≤ a) ∧
      ∀ k, i < k → k < states.length → ∀ a ∈ stateAddrs (plainFst f) (offset i), a < offset k := by
  obtain ⟨st, inv, rfl⟩ := wloaded g hw hl
  refine ⟨offsetOf (bare states), by simp [offsetOf, sizeOf'], fun i s hi => ?_⟩
  rw [wgood_addrs g (f := wfstOf st (wtableOf states)) rfl hi]
  refine ⟨?_, ?_, ?_, ?_⟩
  · apply List.ext_getElem?
    intro j
    simp only [List.getElem?_map]
    by_cases hj : j < s.length
    · rw [List.getElem?_range hj, List.getElem?_eq_getElem hj]
      obtain ⟨c, hc, h1, h2, h3, h4⟩ := wgood_cell g hi (List.getElem?_eq_getElem hj)
      simp only [Option.map_some, Option.some.injEq]
      show ((wtableOf states)[addrOf (bare states) (i, j)]?).map _ = _
      rw [hc, Option.map_some, h1, h2, h3, h4]
    · rw [List.getElem?_eq_none (by simp; omega), List.getElem?_eq_none (by omega)]
      rfl
  · rw [List.pairwise_map]
    refine List.Pairwise.imp ?_ (List.pairwise_lt_range (n := s.length))
    intro a b hab
    rw [addrOf_eq hi, addrOf_eq hi]
    have := (cellIdx_mono (n := s.length)).2 hab
    omega
  · intro a ha
    obtain ⟨j, _, rfl⟩ := List.mem_map.1 ha
    rw [addrOf_eq hi]
    omega
  · intro k hik hk a ha
    obtain ⟨j, hj, rfl⟩ := List.mem_map.1 ha
    rw [addrOf_eq hi]
    have := cellIdx_lt (List.mem_range.1 hj)
    have := offset_mono hik (bare_get hi)
    rw [List.length_map] at this
    omega

/-- The order used by the compiler for the transitions of a state gives the order of the table. -/
theorem fileRank_le {a b : CTrans} (h : fileOrderLt b a = false) : fileRank a.symIn ≤ fileRank b.symIn := by
  unfold fileOrderLt at h
  unfold fileRank
  split at h
  · rename_i e; rw [e]; exact Nat.le_refl _
  · split at h
    · cases h
    · split at h
      · rename_i e; rw [if_pos e]; exact Nat.zero_le _
      · split at h
        · cases h
        · split at h
          · rename_i h1 h2 h3 h4 h5
            rw [if_neg h3, if_pos h5, if_neg h2, if_neg h4]
            omega
          · rename_i h1 h2 h3 h4 h5
            rw [if_neg h3, if_neg h5, if_neg h2, if_neg h4]
            simp only [decide_eq_false_iff_not] at h
            omega

/-- C44 for weighted files: a loaded compiled file whose states were sorted by the compiler, and which has a normal symbol, meets
the conditions under which the weighted look-up is treated here (C45). -/
theorem C44_weighted_well_formed {file : List Nat} {f : WFst} (hw : writeFileW false symbols states = some file)
    (hl : loadFileW file = some (some f)) (hnormal : 0 < f.firstNormal)
    (hsort : ∀ s ∈ states, s.Pairwise fun a b => fileOrderLt b.t a.t = false) :
    (∃ S, WWellFormed f S ∧ ∀ s, S s → ∀ a ∈ stateAddrs (plainFst f) s, ∀ t : WCell, f.cells[a]? = some t →
      t.symIn = 0xFFFFFFFF ∨ t.symIn < f.symbols.length) ∧ NormalSymbols (plainFst f) := by
  obtain ⟨st, inv, rfl⟩ := wloaded g hw hl
  have hfl : st.features.length % 65536 = st.features.length := by
    have := inv.flen; have := g.symCount; omega
  have hsz := wsize_lt g
  have haddr : ∀ i (hi : i < states.length), ∀ b ∈ stateAddrs (plainFst (wfstOf st (wtableOf states))) (offsetOf (bare states) i),
      ∃ j, j < states[i].length ∧ b = addrOf (bare states) (i, j) := by
    intro i hi b hb
    rw [wgood_addrs g (f := wfstOf st (wtableOf states)) rfl (List.getElem?_eq_getElem hi)] at hb
    obtain ⟨j, hj, rfl⟩ := List.mem_map.1 hb
    exact ⟨j, List.mem_range.1 hj, rfl⟩
  have hcell : ∀ {i j : Nat} (hi : i < states.length) (hj : j < states[i].length) {t : WCell},
      (wtableOf states)[addrOf (bare states) (i, j)]? = some t →
      t.symIn = states[i][j].t.symIn ∧ t.symOut = states[i][j].t.symOut ∧
        t.target = offsetOf (bare states) states[i][j].t.targetOrd := by
    intro i j hi hj t ht
    obtain ⟨c, h0, h1, h2, h3, h4⟩ := wgood_cell g (List.getElem?_eq_getElem hi) (List.getElem?_eq_getElem hj)
    rw [h0] at ht
    cases ht
    exact ⟨h1, h2, h3⟩
  have hplain : ∀ (a : Nat) (t : Cell), (plainFst (wfstOf st (wtableOf states))).cells[a]? = some t →
      ∃ c, (wtableOf states)[a]? = some c ∧ t = WCell.plain c := by
    intro a t ht
    have ht' : ((wtableOf states).map WCell.plain)[a]? = some t := ht
    rw [List.getElem?_map] at ht'
    cases hc : (wtableOf states)[a]? with
    | none => rw [hc] at ht'; cases ht'
    | some c => rw [hc] at ht'; exact ⟨c, rfl, (Option.some.inj ht').symm⟩
  have hcodes : ∀ s, (∃ i, i < states.length ∧ s = offsetOf (bare states) i) → ∀ a ∈ stateAddrs (plainFst (wfstOf st (wtableOf states))) s,
      ∀ t : WCell, (wfstOf st (wtableOf states)).cells[a]? = some t → t.symIn = 0xFFFFFFFF ∨ t.symIn < (wfstOf st (wtableOf states)).symbols.length := by
    rintro s ⟨i, hi, rfl⟩ a ha t ht
    obtain ⟨j, hj, rfl⟩ := haddr i hi a ha
    obtain ⟨h1, _⟩ := hcell hi hj ht
    rcases g.codes _ (List.getElem_mem hi) _ (List.getElem_mem hj) with ⟨h, _⟩ | ⟨h, _⟩
    · exact .inl (h1.trans h)
    · right
      show t.symIn < st.symbols.length
      rw [h1, inv.len]
      exact h
  refine ⟨⟨fun a => ∃ i, i < states.length ∧ a = offsetOf (bare states) i, ?_, hcodes⟩, ?_⟩
  · refine ⟨⟨⟨0, List.length_pos_iff.2 g.initial, by simp [offsetOf, sizeOf']⟩, ?_, inv.eps, ?_, ?_⟩, hnormal, ?_, ?_, ?_⟩
    · show ((wtableOf states).map WCell.plain).length < _
      rw [List.length_map, wtable_length]
      exact hsz
    · rintro a ⟨i, hi, rfl⟩
      have hs := List.getElem?_eq_getElem hi
      have hlen := List.length_pos_iff.2 (g.nonempty _ (List.getElem_mem hi))
      have hoff := offset_add_le (bare_get hs)
      rw [List.length_map] at hoff
      have hc := wcell_at hs (List.getElem?_eq_getElem hlen)
      have e : addrOf (bare states) (i, 0) = offsetOf (bare states) i := by simp [addrOf, cellIdx]
      rw [e] at hc
      have hc' := congrArg (Option.map WCell.plain) hc
      rw [← List.getElem?_map, Option.map_some] at hc'
      refine ⟨_, hc', ?_⟩
      have el : (plainFst (wfstOf st (wtableOf states))).cells.length = sizeOf' (bare states) := by
        show ((wtableOf states).map WCell.plain).length = _
        rw [List.length_map, wtable_length]
      rw [el]
      simp only [if_true, WCell.plain, wtransCell]
      have hle := stateSize_ge states[i].length
      by_cases hb : 255 < states[i].length
      · right
        have ho : (plainFst (wfstOf st (wtableOf states))).cells[offsetOf (bare states) i + 1]? =
            some (WCell.plain ⟨states[i].length - 1, 0, 0, 0, 0⟩) := by
          show ((wtableOf states).map WCell.plain)[_]? = _
          rw [List.getElem?_map, woverflow_at hs hb]; rfl
        have hov : (WCell.plain ⟨states[i].length - 1, 0, 0, 0, 0⟩).overflow = states[i].length - 1 := by
          simp only [WCell.plain, Cell.overflow]
          rw [if_neg (by omega)]
          omega
        have : stateSize states[i].length = states[i].length + 1 := by unfold stateSize; rw [if_neg (by omega)]
        refine ⟨by simp [hb], _, ho, ?_, ?_⟩ <;> rw [hov] <;> omega
      · left
        rw [if_neg hb]
        omega
    · rintro a ⟨i, hi, rfl⟩ b hb t ht hfin
      obtain ⟨j, hj, rfl⟩ := haddr i hi b hb
      obtain ⟨c, hc, rfl⟩ := hplain _ _ ht
      obtain ⟨h1, h2, h3⟩ := hcell hi hj hc
      have hmem : states[i][j] ∈ states[i] := List.getElem_mem hj
      have hnf : c.symIn ≠ 0xFFFFFFFF := by
        intro h
        apply hfin
        simp only [WCell.plain, h, if_true]
      have hsym : (WCell.plain c).symIn = c.symIn := by simp only [WCell.plain, if_neg hnf]
      refine ⟨⟨_, g.targets _ (List.getElem_mem hi) _ hmem, h3⟩, ?_, ?_⟩
      · rcases g.codes _ (List.getElem_mem hi) _ hmem with ⟨h, _⟩ | ⟨_, h⟩
        · exact absurd (h1.trans h) hnf
        · show c.symOut < st.symbols.length
          rw [h2, inv.len]
          exact h
      · intro hlt hfc h0'
        have hdl : st.diacritics.length = st.firstNormal := by
          have hlt' : (WCell.plain c).symIn < st.firstNormal := hlt
          exact (inv.dia1 (by omega)).1
        have hlt' : (WCell.plain c).symIn < st.diacritics.length := by rw [hdl]; exact hlt
        refine ⟨_, List.getElem?_eq_getElem hlt', ?_⟩
        show _ < st.features.length % 65536
        rw [hfl]
        exact inv.feat _ h0' _ (List.getElem?_eq_getElem hlt')
    · rintro a ⟨i, hi, rfl⟩ h hh hm
      have hs := List.getElem?_eq_getElem hi
      have hlen := List.length_pos_iff.2 (g.nonempty _ (List.getElem_mem hi))
      have hc := wcell_at hs (List.getElem?_eq_getElem hlen)
      have e : addrOf (bare states) (i, 0) = offsetOf (bare states) i := by simp [addrOf, cellIdx]
      rw [e] at hc
      have hh' : (wtableOf states)[offsetOf (bare states) i]? = some h := hh
      rw [hc] at hh'
      cases hh'
      simp only [wtransCell, if_true] at hm
      have hb : 255 < states[i].length := by
        rcases Nat.lt_or_ge 255 states[i].length with h | h
        · exact h
        · rw [if_neg (by omega)] at hm; omega
      have hle := length_le_size (List.mem_of_getElem? (bare_get hs))
      rw [List.length_map] at hle
      exact ⟨_, woverflow_at hs hb, by simp only; omega, rfl⟩
    · rintro a ⟨i, hi, rfl⟩ b hb t ht
      obtain ⟨j, hj, rfl⟩ := haddr i hi b hb
      obtain ⟨h1, h2, h3⟩ := hcell hi hj ht
      have hc := g.symCount
      rcases g.codes _ (List.getElem_mem hi) _ (List.getElem_mem hj) with ⟨h, _⟩ | ⟨h, _⟩
      · exact .inl (h1.trans h)
      · right; omega
    · rintro a ⟨i, hi, rfl⟩ b hb b' hb' hlt t u ht hu
      obtain ⟨j, hj, rfl⟩ := haddr i hi b hb
      obtain ⟨j', hj', rfl⟩ := haddr i hi b' hb'
      rw [addrOf_eq (List.getElem?_eq_getElem hi), addrOf_eq (List.getElem?_eq_getElem hi)] at hlt
      have hjj := (cellIdx_mono (n := states[i].length) (j := j) (k := j')).1 (by omega)
      rw [(hcell hi hj ht).1, (hcell hi hj' hu).1]
      exact fileRank_le g (List.pairwise_iff_getElem.1 (hsort _ (List.getElem_mem hi)) j j' hj hj' hjj)
  · refine ⟨fun e he => (inv.chars e he).1, ?_⟩
    show st.firstNormal ≤ st.symbols.length
    rw [inv.len]
    by_cases h0 : st.firstNormal = 0
    · omega
    · have := (inv.dia1 h0).2; omega

end

/-! ## A weighted automaton with 300 transitions in its first state -/

/-- 300 transitions with increasing weights, and a final state. -/
def wdemoStates : List (List WTrans) :=
  [(List.range 300).map fun i => ⟨⟨1, 1, 1⟩, i, 0⟩, [⟨⟨0xFFFFFFFF, 0, 0⟩, 5, 0⟩]]

example : WGoodInput [[], [97]] wdemoStates ∧
    (∀ s ∈ wdemoStates, s.Pairwise fun a b => fileOrderLt b.t a.t = false) ∧
    (∃ f file, writeFileW false [[], [97]] wdemoStates = some file ∧ loadFileW file = some (some f) ∧ f.firstNormal = 1) := by
  have g : WGoodInput [[], [97]] wdemoStates := by
    refine ⟨by decide, by decide, by decide, by decide, by decide, ?_, ?_, ?_, by decide +kernel⟩
    all_goals
      intro s hs x hx
      simp only [wdemoStates, List.mem_cons, List.not_mem_nil, or_false] at hs
      rcases hs with rfl | rfl
      · obtain ⟨i, hi, rfl⟩ := List.mem_map.1 hx
        have := List.mem_range.1 hi
        simp [wdemoStates]
        try omega
      · simp only [List.mem_cons, List.not_mem_nil, or_false] at hx
        subst hx
        simp [wdemoStates]
  refine ⟨g, ?_, ?_⟩
  · intro s hs
    simp only [wdemoStates, List.mem_cons, List.not_mem_nil, or_false] at hs
    rcases hs with rfl | rfl
    · rw [List.pairwise_map]
      exact List.Pairwise.imp (fun _ => rfl) (List.pairwise_lt_range (n := 300))
    · simp
  · have h : ((writeFileW false [[], [97]] wdemoStates).bind loadFileW).map (·.map (·.firstNormal)) = some (some 1) := by
      decide +kernel
    rw [writeFileW_eq g false, Option.bind_some] at h
    cases h1 : loadFileW (layoutFileW false [[], [97]] (wdemoStates.flatMap (wcellsOf wdemoStates))) with
    | none => rw [h1] at h; cases h
    | some o =>
      cases o with
      | none => rw [h1] at h; cases h
      | some f =>
        rw [h1] at h
        exact ⟨f, _, writeFileW_eq g false, h1, Option.some.inj (Option.some.inj h)⟩

end Verif.Props
