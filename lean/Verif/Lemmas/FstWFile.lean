import Verif.Lemmas.FstTable
import Verif.Model.FstWeighted
/-!
# Lemmas on files of weighted transducers
-/

set_option linter.unusedSimpArgs false
set_option linter.unusedVariables false

namespace Verif.Props
open Verif

/-! ## Byte order of weights -/

theorem swapS16_lt (x : Nat) : swapS16 x < 65536 := Nat.mod_lt _ (by decide)

theorem swapS16_pos {x : Nat} (h : x < 32768) : swapS16 x = x / 256 + 256 * (x % 256) := by
  rw [← swap16_eq (by omega)]
  unfold swapS16 swap16
  rw [if_pos h]

theorem swapS16_neg {x : Nat} (h : 32768 ≤ x) (h2 : x < 65536) : swapS16 x = 65280 + x / 256 := by
  unfold swapS16
  rw [if_neg (by omega), show (0xFF00 : Nat) = 255 * 2 ^ 8 from rfl, Nat.or_comm (x >>> 8), Nat.shiftRight_eq_div_pow,
    or_eq_add (a := 255) (i := 8) (by omega), Nat.shiftLeft_eq]
  have hy : 255 * 2 ^ 8 + x / 2 ^ 8 = (65280 + x / 256) := by omega
  rw [hy]
  apply Nat.eq_of_testBit_eq
  intro j
  rw [show (65536 : Nat) = 2 ^ 16 from rfl, Nat.testBit_mod_two_pow, Nat.testBit_or, Nat.testBit_mul_two_pow]
  by_cases hj : j < 16
  · by_cases hj8 : 8 ≤ j
    · have : (65280 + x / 256).testBit j = true := by
        have e : 65280 + x / 256 = 255 * 2 ^ 8 ||| x / 256 := by rw [or_eq_add (by omega)]
        rw [e, Nat.testBit_or, Nat.testBit_mul_two_pow, show (255 : Nat) = 2 ^ 8 - 1 from rfl, Nat.testBit_two_pow_sub_one]
        simp [hj8]
        left; omega
      rw [this]
      simp [hj]
    · simp [hj, hj8]
  · have : (65280 + x / 256).testBit j = false := by
      apply Nat.testBit_lt_two_pow
      calc 65280 + x / 256 < 2 ^ 16 := by omega
        _ ≤ 2 ^ j := Nat.pow_le_pow_right (by decide) (by omega)
    simp [hj, this]

/-- The weights that survive being written and read in the opposite byte order. -/
def WeightOk (w : Nat) : Prop := (w < 32768 ∧ w % 256 < 128) ∨ w = 65535

theorem swapS16_swapS16 {w : Nat} (hw : w < 65536) : swapS16 (swapS16 w) = w ↔ WeightOk w := by
  unfold WeightOk
  by_cases h : w < 32768
  · rw [swapS16_pos h]
    by_cases h2 : w % 256 < 128
    · rw [swapS16_pos (by omega)]
      omega
    · rw [swapS16_neg (by omega) (by omega)]
      omega
  · rw [swapS16_neg (by omega) hw, swapS16_neg (by omega) (by omega)]
    omega

/-! ## The transition table -/

/-- The fields have the widths of the file format. -/
def WCellFits (c : WCell) : Prop :=
  c.symIn < 4294967296 ∧ c.symOut < 4294967296 ∧ c.target < 4294967296 ∧ c.weight < 65536 ∧ c.more < 256

/-- The fields have the widths of the file format. -/
def WOutFits : WOutCell → Prop
  | .trans c _ => WCellFits c
  | .overflow n => n < 4294967296

/-- Overflow cells come after the cells with the mark 255 and only there. -/
def WPlaced : Bool → List WOutCell → Prop
  | _, [] => True
  | false, .trans c _ :: r => WPlaced (c.more == 0xFF) r
  | true, .overflow _ :: r => WPlaced false r
  | _, _ => False

/-- A cell as seen by the reader. -/
def WOutCell.toCell : WOutCell → WCell
  | .trans c _ => c
  | .overflow n => ⟨n, 0, 0, 0, 0⟩

/-- A cell after the file has been written and read in the opposite byte order. -/
def WOutCell.swapped : WOutCell → WOutCell
  | .trans c _ => .trans { c with weight := swapS16 (swapS16 c.weight) } 0
  | .overflow n => .overflow n

theorem load16_store {x : Nat} (h : x < 65536) : load16 (x % 256) (x / 256 % 256) = x := by unfold load16; omega

theorem load32_store {x : Nat} (h : x < 4294967296) :
    load32 (x % 256) (x / 256 % 256) (x / 65536 % 256) (x / 16777216 % 256) = x := by unfold load32; omega

theorem swapWCells_write {ov : Bool} {cells : List WOutCell} (hp : WPlaced ov cells) (hf : ∀ c ∈ cells, WOutFits c) :
    swapWCells ov (cells.flatMap (writeWCell true)) = some (cells.flatMap fun c => writeWCell false (WOutCell.swapped c)) := by
  induction cells generalizing ov with
  | nil => rfl
  | cons c cells ih =>
    have hf' : ∀ c ∈ cells, WOutFits c := fun x hx => hf x (List.mem_cons_of_mem _ hx)
    have hc := hf c List.mem_cons_self
    cases c with
    | trans c z =>
      cases ov with
      | true => exact hp.elim
      | false =>
        obtain ⟨h1, h2, h3, h5, h4⟩ := hc
        have hp' : WPlaced (c.more == 0xFF) cells := hp
        have hm : c.more % 256 = c.more := Nat.mod_eq_of_lt h4
        simp only [List.flatMap_cons, writeWCell, if_true, storeWCell, store16, store32, List.cons_append, List.nil_append,
          swapWCells, Bool.false_eq_true, if_false, hm, load32_store (swap32_lt _), load16_store (swapS16_lt _),
          swap32_swap32 h1, swap32_swap32 h2, swap32_swap32 h3, ih hp' hf', Option.bind_eq_bind, Option.bind_some,
          Option.pure_def, WOutCell.swapped]
    | overflow n =>
      cases ov with
      | false => exact hp.elim
      | true =>
        have hn : n < 4294967296 := hc
        have hp' : WPlaced false cells := hp
        simp only [List.flatMap_cons, writeWCell, if_true, store32, List.replicate_succ, List.replicate_zero, List.cons_append,
          List.nil_append, swapWCells, Bool.false_eq_true, if_false, load32_store (swap32_lt _), swap32_swap32 hn, ih hp' hf',
          Option.bind_eq_bind, Option.bind_some, Option.pure_def, WOutCell.swapped]

theorem loadWCells_write {cells : List WOutCell} (hf : ∀ c ∈ cells, WOutFits c) :
    loadWCells (cells.flatMap (writeWCell false)) = cells.map WOutCell.toCell := by
  induction cells with
  | nil => rfl
  | cons c cells ih =>
    have hf' : ∀ c ∈ cells, WOutFits c := fun x hx => hf x (List.mem_cons_of_mem _ hx)
    have hc := hf c List.mem_cons_self
    cases c with
    | trans c z =>
      obtain ⟨h1, h2, h3, h5, h4⟩ := hc
      have hm : c.more % 256 = c.more := Nat.mod_eq_of_lt h4
      simp only [List.flatMap_cons, writeWCell, Bool.false_eq_true, if_false, storeWCell, store16, store32, List.cons_append,
        List.nil_append, loadWCells, load32_store h1, load32_store h2, load32_store h3, load16_store h5, hm, ih hf',
        List.map_cons, WOutCell.toCell]
    | overflow n =>
      have hn : n < 4294967296 := hc
      simp only [List.flatMap_cons, writeWCell, Bool.false_eq_true, if_false, store32, List.replicate_succ, List.replicate_zero,
        List.cons_append, List.nil_append, loadWCells, load32_store hn, ih hf', List.map_cons, WOutCell.toCell]
      rfl

theorem swapped_fits {cells : List WOutCell} (hf : ∀ c ∈ cells, WOutFits c) : ∀ c ∈ cells.map WOutCell.swapped, WOutFits c := by
  intro c hc
  obtain ⟨d, hd, rfl⟩ := List.mem_map.1 hc
  have := hf d hd
  cases d with
  | trans c z => exact ⟨this.1, this.2.1, this.2.2.1, swapS16_lt _, this.2.2.2.2⟩
  | overflow n => exact this

/-! ## Whole files -/

/-- The part of a file after the header. -/
def layoutBodyW (doSwap : Bool) (symbols : List (List Nat)) (cells : List WOutCell) : List Nat :=
  store16 (if doSwap then swap16 symbols.length else symbols.length) ++ symBytes symbols ++
    List.replicate (if 0 < (18 + (symBytes symbols).length) % 16 then 16 - (18 + (symBytes symbols).length) % 16 else 0) 0 ++
    cells.flatMap (writeWCell doSwap)

theorem layoutFileW_eq (doSwap : Bool) {symbols : List (List Nat)} (hs : symbols.length < 65536) (cells : List WOutCell) :
    layoutFileW doSwap symbols cells =
      (if doSwap then store32 (swap32 0x00013A6E) ++ store32 (swap32 0x000351FA) else store32 0x00013A6E ++ store32 0x000351FA) ++
        1 :: List.replicate 7 0 ++ layoutBodyW doSwap symbols cells := by
  have : ∀ x : Nat, (16 + (store16 x ++ symBytes symbols).length) = 18 + (symBytes symbols).length := by
    intro x; simp only [store16, List.length_append, List.length_cons, List.length_nil]; omega
  unfold layoutFileW layoutBodyW
  simp only [Nat.mod_eq_of_lt hs, ← symBytes.eq_def, this]

theorem byteSwapW_layout {symbols : List (List Nat)} {cells : List WOutCell} (hs : symbols.length < 65536)
    (hz : ∀ s ∈ symbols, 0 ∉ s) (hp : WPlaced false cells) (hf : ∀ c ∈ cells, WOutFits c) :
    byteSwapW (layoutBodyW true symbols cells) = some (layoutBodyW false symbols (cells.map WOutCell.swapped)) := by
  unfold layoutBodyW byteSwapW
  simp only [if_true, store16, List.cons_append, List.nil_append, List.append_assoc, load16_store (swap16_lt _),
    swap16_swap16 hs, copySymbols_append hz, Option.bind_eq_bind, Option.bind_some, Bool.false_eq_true, if_false,
    List.flatMap_map]
  have e : 16 + 2 + (symBytes symbols).length = 18 + (symBytes symbols).length := by omega
  rw [e]
  by_cases hpad : 0 < (18 + (symBytes symbols).length) % 16
  · rw [if_pos hpad, if_pos (by omega)]
    rw [if_neg (by simp only [List.length_append, List.length_replicate]; omega)]
    rw [List.drop_left' (by simp), swapWCells_write hp hf]
    simp [Option.pure_def]
  · rw [if_neg hpad, if_neg (by omega)]
    simp only [List.replicate_zero, List.nil_append, swapWCells_write hp hf, Option.bind_some, Option.pure_def,
      List.append_assoc, List.cons_append]

theorem loadFileW_layout (doSwap : Bool) {symbols : List (List Nat)} {cells : List WOutCell} (hs : symbols.length < 65536)
    (hz : ∀ s ∈ symbols, 0 ∉ s) (hp : WPlaced false cells) (hf : ∀ c ∈ cells, WOutFits c) :
    loadFileW (layoutFileW doSwap symbols cells) =
      readBodyW (layoutBodyW false symbols (if doSwap then cells.map WOutCell.swapped else cells)) := by
  rw [layoutFileW_eq doSwap hs]
  generalize hB : layoutBodyW doSwap symbols cells = B
  cases doSwap with
  | false =>
    subst hB
    simp only [Bool.false_eq_true, if_false, store32, List.cons_append, List.nil_append, List.replicate_succ,
      List.replicate_zero, loadFileW]
    rw [if_neg (by simp only [List.length_cons]; omega)]
    rfl
  | true =>
    have hsw := byteSwapW_layout hs hz hp hf
    rw [hB] at hsw
    have e1 : store32 (swap32 0x00013A6E) = [0, 1, 0x3A, 0x6E] := by decide
    have e2 : store32 (swap32 0x000351FA) = [0, 3, 0x51, 0xFA] := by decide
    simp only [if_true, e1, e2, List.cons_append, List.nil_append, List.replicate_succ, List.replicate_zero, loadFileW]
    rw [if_neg (by simp only [List.length_cons]; omega)]
    show (byteSwapW B).bind readBodyW = _
    rw [hsw]
    rfl

/-- The transducer made of a symbol table and cells. -/
def wfstOf (st : SymTab) (cells : List WCell) : WFst :=
  { cells, symbols := st.symbols, firstNormal := st.firstNormal, diacritics := st.diacritics,
    featureCount := st.features.length % 65536, charToSym := st.charToSym }

theorem readBodyW_layout {ss : List (List Nat)} {cells : List WOutCell} (hs : ss.length + 1 < 65536) (hz : ∀ s ∈ ss, 0 ∉ s)
    (hf : ∀ c ∈ cells, WOutFits c) :
    readBodyW (layoutBodyW false ([] :: ss) cells) =
      (foldSymbols 1 initTab ss).map fun o => o.map fun st => wfstOf st (cells.map WOutCell.toCell) := by
  have l1 : load16 ((ss.length + 1) % 256) ((ss.length + 1) / 256 % 256) = ss.length + 1 := by unfold load16; omega
  have e : ∀ rest, symBytes ([] :: ss) ++ rest = 0 :: (symBytes ss ++ rest) := by intro rest; simp [symBytes]
  have e2 : (symBytes ([] :: ss)).length = (symBytes ss).length + 1 := by simp [symBytes, Nat.add_comm]
  unfold layoutBodyW readBodyW
  simp only [Bool.false_eq_true, if_false, store16, List.cons_append, List.nil_append, List.append_assoc, List.length_cons, l1]
  rw [e, e2, readSymbols]
  have u : ucs4FromUtf8 [] = some (some []) := by decide
  simp only [cstring, Option.bind_eq_bind, Option.bind_some, Option.pure_def, if_true, u, List.drop_succ_cons, List.drop_zero]
  have := readSymbols_fold hz 1 (by decide) initTab
    (List.replicate (if 0 < (18 + ((symBytes ss).length + 1)) % 16 then 16 - (18 + ((symBytes ss).length + 1)) % 16 else 0) 0 ++
      cells.flatMap (writeWCell false))
  rw [show ({ symbols := [[]], diacritics := [⟨.P, 0, 0⟩] } : SymTab) = initTab from rfl, this]
  cases h : foldSymbols 1 initTab ss with
  | none => rfl
  | some o =>
    cases o with
    | none => rfl
    | some st =>
      simp only [Option.map_some, Option.bind_some, Option.some.injEq, wfstOf]
      have e3 : 16 + 2 + ((symBytes ss).length + 1) = 18 + ((symBytes ss).length + 1) := by omega
      rw [e3]
      by_cases hp : 0 < (18 + ((symBytes ss).length + 1)) % 16
      · rw [if_pos hp, if_pos hp, List.drop_left' (by simp), loadWCells_write hf]
      · rw [if_neg hp, if_neg hp]
        simp only [List.replicate_zero, List.nil_append, loadWCells_write hf]

end Verif.Props
