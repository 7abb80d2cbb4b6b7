import Verif.Model.FstFile
/-!
# Lemmas on transducer files
-/

set_option linter.unusedSimpArgs false
set_option linter.unusedVariables false

namespace Verif.Props
open Verif

/-! ## Byte order of integers -/

theorem and_mask (y i : Nat) : y &&& (255 <<< i) = (y / 2 ^ i % 256) * 2 ^ i := by
  apply Nat.eq_of_testBit_eq
  intro j
  have e : (255 : Nat) = 2 ^ 8 - 1 := rfl
  rw [Nat.testBit_and, Nat.testBit_shiftLeft, e, Nat.testBit_two_pow_sub_one, Nat.testBit_mul_two_pow,
    show (256 : Nat) = 2 ^ 8 from rfl, Nat.testBit_mod_two_pow, Nat.testBit_div_two_pow]
  by_cases h : i ≤ j
  · have : i + (j - i) = j := by omega
    simp only [h, decide_true, Bool.true_and, Nat.sub_add_cancel, this, Nat.add_sub_cancel' h]
    rw [Bool.and_comm]
  · simp [h]

theorem or_eq_add {a b i : Nat} (hb : b < 2 ^ i) : a * 2 ^ i ||| b = a * 2 ^ i + b := by
  rw [← Nat.shiftLeft_eq, Nat.shiftLeft_add_eq_or_of_lt hb]

theorem swap16_eq {x : Nat} (h : x < 65536) : swap16 x = x / 256 + 256 * (x % 256) := by
  unfold swap16
  rw [Nat.shiftRight_eq_div_pow, Nat.shiftLeft_eq, Nat.or_comm, or_eq_add (by omega)]
  omega

theorem swap16_lt (x : Nat) : swap16 x < 65536 := Nat.mod_lt _ (by decide)

theorem swap16_swap16 {x : Nat} (h : x < 65536) : swap16 (swap16 x) = x := by
  rw [swap16_eq (swap16_lt x), swap16_eq h]
  omega

theorem swap32_eq {x : Nat} (h : x < 4294967296) :
    swap32 x = x / 16777216 + 256 * (x / 65536 % 256) + 65536 * (x / 256 % 256) + 16777216 * (x % 256) := by
  unfold swap32
  have e1 : (x <<< 8) &&& 0x00FF0000 = (x / 256 % 256) * 65536 := by
    rw [show (0x00FF0000 : Nat) = 255 <<< 16 from rfl, and_mask, Nat.shiftLeft_eq]
    omega
  have e2 : (x >>> 8) &&& 0x0000FF00 = (x / 65536 % 256) * 256 := by
    rw [show (0x0000FF00 : Nat) = 255 <<< 8 from rfl, and_mask, Nat.shiftRight_eq_div_pow]
    omega
  rw [e1, e2, Nat.shiftRight_eq_div_pow, Nat.shiftLeft_eq]
  have e3 : x / 2 ^ 24 ||| x / 256 % 256 * 65536 = x / 256 % 256 * 65536 + x / 2 ^ 24 := by
    rw [Nat.or_comm]
    exact or_eq_add (i := 16) (by omega)
  have e4 : x / 256 % 256 * 65536 + x / 2 ^ 24 ||| x / 65536 % 256 * 256 =
      x / 256 % 256 * 65536 + x / 65536 % 256 * 256 + x / 2 ^ 24 := by
    rw [← e3, Nat.or_comm (x / 2 ^ 24), Nat.or_assoc, Nat.or_comm (x / 2 ^ 24),
      or_eq_add (a := x / 65536 % 256) (i := 8) (by omega),
      or_eq_add (a := x / 256 % 256) (i := 16) (by omega)]
    omega
  rw [e3, e4, Nat.or_comm, or_eq_add (a := x) (i := 24) (by omega)]
  omega

theorem swap32_lt (x : Nat) : swap32 x < 4294967296 := Nat.mod_lt _ (by decide)

theorem swap32_swap32 {x : Nat} (h : x < 4294967296) : swap32 (swap32 x) = x := by
  rw [swap32_eq (swap32_lt x), swap32_eq h]
  have e1 : x / 65536 = x / 256 / 256 := by omega
  have e2 : x / 16777216 = x / 256 / 256 / 256 := by omega
  rw [e1, e2]
  have a0 : x = x % 256 + 256 * (x / 256) := by omega
  have a1 : x / 256 = x / 256 % 256 + 256 * (x / 256 / 256) := by omega
  have a2 : x / 256 / 256 = x / 256 / 256 % 256 + 256 * (x / 256 / 256 / 256) := by omega
  have a3 : x / 256 / 256 / 256 < 256 := by omega
  have b0 : x % 256 < 256 := by omega
  have b1 : x / 256 % 256 < 256 := by omega
  have b2 : x / 256 / 256 % 256 < 256 := by omega
  generalize x % 256 = p at *
  generalize x / 256 / 256 / 256 = d at *
  generalize x / 256 / 256 % 256 = c at *
  generalize x / 256 % 256 = b at *
  have f0 : (d + 256 * c + 65536 * b + 16777216 * p) / 16777216 = p := by omega
  have f1 : (d + 256 * c + 65536 * b + 16777216 * p) / 65536 = b + 256 * p := by omega
  have f2 : (d + 256 * c + 65536 * b + 16777216 * p) / 256 = c + 256 * b + 65536 * p := by omega
  have f3 : (d + 256 * c + 65536 * b + 16777216 * p) % 256 = d := by omega
  have f4 : (b + 256 * p) % 256 = b := by omega
  have f5 : (c + 256 * b + 65536 * p) % 256 = c := by omega
  rw [f0, f1, f2, f3, f4, f5]
  omega

theorem swap24_eq {x : Nat} (h : x < 16777216) :
    swap24 x = x / 65536 + 256 * (x / 256 % 256) + 65536 * (x % 256) := by
  unfold swap24
  have e1 : (x <<< 16) &&& 0x00FF0000 = (x % 256) * 65536 := by
    rw [show (0x00FF0000 : Nat) = 255 <<< 16 from rfl, and_mask, Nat.shiftLeft_eq]
    omega
  have e2 : x &&& 0x0000FF00 = (x / 256 % 256) * 256 := by
    rw [show (0x0000FF00 : Nat) = 255 <<< 8 from rfl, and_mask]
  have e3 : (x >>> 16) &&& 0x000000FF = x / 65536 := by
    rw [show (0x000000FF : Nat) = 255 <<< 0 from rfl, and_mask, Nat.shiftRight_eq_div_pow]
    omega
  rw [e1, e2, e3, Nat.or_assoc, or_eq_add (a := x / 256 % 256) (i := 8) (by omega),
    or_eq_add (a := x % 256) (i := 16) (by omega)]
  omega

theorem swap24_lt (x : Nat) : swap24 x < 16777216 := Nat.mod_lt _ (by decide)

theorem swap24_swap24 {x : Nat} (h : x < 16777216) : swap24 (swap24 x) = x := by
  rw [swap24_eq (swap24_lt x), swap24_eq h]
  have e1 : x / 65536 = x / 256 / 256 := by omega
  rw [e1]
  have a0 : x = x % 256 + 256 * (x / 256) := by omega
  have a1 : x / 256 = x / 256 % 256 + 256 * (x / 256 / 256) := by omega
  have a3 : x / 256 / 256 < 256 := by omega
  have b0 : x % 256 < 256 := by omega
  have b1 : x / 256 % 256 < 256 := by omega
  generalize x % 256 = p at *
  generalize x / 256 / 256 = c at *
  generalize x / 256 % 256 = b at *
  have f0 : (c + 256 * b + 65536 * p) / 65536 = p := by omega
  have f1 : (c + 256 * b + 65536 * p) / 256 = b + 256 * p := by omega
  have f2 : (c + 256 * b + 65536 * p) % 256 = c := by omega
  rw [f0, f1, f2]
  omega

/-! ## The transition table -/

/-- The fields have the widths of the file format. -/
def CellFits (c : Cell) : Prop := c.symIn < 65536 ∧ c.symOut < 65536 ∧ c.target < 16777216 ∧ c.more < 256

/-- The fields have the widths of the file format. -/
def OutFits : OutCell → Prop
  | .trans c => CellFits c
  | .overflow n => n < 4294967296

/-- Overflow cells come after the cells with the mark 255 and only there. -/
def Placed : Bool → List OutCell → Prop
  | _, [] => True
  | false, .trans c :: r => Placed (c.more == 0xFF) r
  | true, .overflow _ :: r => Placed false r
  | _, _ => False

theorem swapCells_write {ov : Bool} {cells : List OutCell} (hp : Placed ov cells) (hf : ∀ c ∈ cells, OutFits c) :
    swapCells ov (cells.flatMap (writeCell true)) = some (cells.flatMap (writeCell false)) := by
  induction cells generalizing ov with
  | nil => rfl
  | cons c cells ih =>
    have hf' : ∀ c ∈ cells, OutFits c := fun x hx => hf x (List.mem_cons_of_mem _ hx)
    have hc := hf c List.mem_cons_self
    cases c with
    | trans c =>
      cases ov with
      | true => exact hp.elim
      | false =>
        obtain ⟨h1, h2, h3, h4⟩ := hc
        have hp' : Placed (c.more == 0xFF) cells := hp
        have hm : c.more % 256 = c.more := Nat.mod_eq_of_lt h4
        have l1 : load16 (swap16 c.symIn % 256) (swap16 c.symIn / 256 % 256) = swap16 c.symIn := by
          have := swap16_lt c.symIn; unfold load16; omega
        have l2 : load16 (swap16 c.symOut % 256) (swap16 c.symOut / 256 % 256) = swap16 c.symOut := by
          have := swap16_lt c.symOut; unfold load16; omega
        have l3 : swap24 c.target % 256 + 256 * (swap24 c.target / 256 % 256) + 65536 * (swap24 c.target / 65536 % 256) =
            swap24 c.target := by
          have := swap24_lt c.target; omega
        simp only [List.flatMap_cons, writeCell, if_true, storeCell, store16, List.cons_append, List.nil_append, swapCells,
          Bool.false_eq_true, if_false, hm, l1, l2, l3, swap16_swap16 h1, swap16_swap16 h2, swap24_swap24 h3, ih hp' hf',
          Option.bind_eq_bind, Option.bind_some, Option.pure_def]
    | overflow n =>
      cases ov with
      | false => exact hp.elim
      | true =>
        have hn : n < 4294967296 := hc
        have hp' : Placed false cells := hp
        have l1 : load32 (swap32 n % 256) (swap32 n / 256 % 256) (swap32 n / 65536 % 256) (swap32 n / 16777216 % 256) =
            swap32 n := by
          have := swap32_lt n; unfold load32; omega
        simp only [List.flatMap_cons, writeCell, if_true, store32, List.cons_append, List.nil_append, swapCells,
          Bool.false_eq_true, if_false, l1, swap32_swap32 hn, ih hp' hf', Option.bind_eq_bind, Option.bind_some,
          Option.pure_def]

/-- A cell as seen by the reader. -/
def OutCell.toCell : OutCell → Cell
  | .trans c => c
  | .overflow n => ⟨n % 65536, n / 65536 % 65536, 0, 0⟩

theorem loadCells_write {cells : List OutCell} (hf : ∀ c ∈ cells, OutFits c) :
    loadCells (cells.flatMap (writeCell false)) = cells.map OutCell.toCell := by
  induction cells with
  | nil => rfl
  | cons c cells ih =>
    have hf' : ∀ c ∈ cells, OutFits c := fun x hx => hf x (List.mem_cons_of_mem _ hx)
    have hc := hf c List.mem_cons_self
    cases c with
    | trans c =>
      obtain ⟨h1, h2, h3, h4⟩ := hc
      have hm : c.more % 256 = c.more := Nat.mod_eq_of_lt h4
      have l1 : load16 (c.symIn % 256) (c.symIn / 256 % 256) = c.symIn := by unfold load16; omega
      have l2 : load16 (c.symOut % 256) (c.symOut / 256 % 256) = c.symOut := by unfold load16; omega
      have l3 : c.target % 256 + 256 * (c.target / 256 % 256) + 65536 * (c.target / 65536 % 256) = c.target := by omega
      simp only [List.flatMap_cons, writeCell, Bool.false_eq_true, if_false, storeCell, store16, List.cons_append,
        List.nil_append, loadCells, l1, l2, l3, hm, ih hf', List.map_cons, OutCell.toCell]
    | overflow n =>
      have l1 : load16 (n % 256) (n / 256 % 256) = n % 65536 := by unfold load16; omega
      have l2 : load16 (n / 65536 % 256) (n / 16777216 % 256) = n / 65536 % 65536 := by unfold load16; omega
      simp only [List.flatMap_cons, writeCell, Bool.false_eq_true, if_false, store32, List.cons_append,
        List.nil_append, loadCells, l1, l2, ih hf', List.map_cons, OutCell.toCell, Nat.zero_mod, Nat.zero_div]

/-! ## Symbols -/

/-- The bytes of the symbols. -/
def symBytes (symbols : List (List Nat)) : List Nat := symbols.flatMap fun s => s ++ [0]

theorem cstring_append {s : List Nat} (h : 0 ∉ s) (rest : List Nat) : cstring (s ++ 0 :: rest) = some (s, rest) := by
  induction s with
  | nil => rfl
  | cons b s ih =>
    have hb : b ≠ 0 := fun hb => h (hb ▸ List.mem_cons_self)
    have hs : 0 ∉ s := fun hm => h (List.mem_cons_of_mem _ hm)
    cases b with
    | zero => exact absurd rfl hb
    | succ b => simp only [List.cons_append, cstring, ih hs, Option.bind_eq_bind, Option.bind_some, Option.pure_def]

theorem copySymbols_append {symbols : List (List Nat)} (h : ∀ s ∈ symbols, 0 ∉ s) (rest : List Nat) :
    copySymbols symbols.length (symBytes symbols ++ rest) = some (symBytes symbols, rest) := by
  induction symbols with
  | nil => rfl
  | cons s symbols ih =>
    have e : symBytes (s :: symbols) ++ rest = s ++ 0 :: (symBytes symbols ++ rest) := by simp [symBytes]
    have e2 : symBytes (s :: symbols) = s ++ 0 :: symBytes symbols := by simp [symBytes]
    rw [e, e2]
    simp only [List.length_cons, copySymbols, cstring_append (h s List.mem_cons_self), Option.bind_eq_bind, Option.bind_some,
      ih (fun x hx => h x (List.mem_cons_of_mem _ hx)), Option.pure_def]

/-! ## Byte swapping of a whole file -/

/-- The part of a file after the header. -/
def layoutBody (doSwap : Bool) (symbols : List (List Nat)) (cells : List OutCell) : List Nat :=
  store16 (if doSwap then swap16 symbols.length else symbols.length) ++ symBytes symbols ++
    List.replicate (if 0 < (18 + (symBytes symbols).length) % 8 then 8 - (18 + (symBytes symbols).length) % 8 else 0) 0 ++
    cells.flatMap (writeCell doSwap)

theorem layoutFile_eq (doSwap : Bool) {symbols : List (List Nat)} (hs : symbols.length < 65536) (cells : List OutCell) :
    layoutFile doSwap symbols cells =
      (if doSwap then store32 (swap32 0x00013A6E) ++ store32 (swap32 0x000351FA) else store32 0x00013A6E ++ store32 0x000351FA) ++
        0 :: List.replicate 7 0 ++ layoutBody doSwap symbols cells := by
  have : ∀ x : Nat, (16 + (store16 x ++ symBytes symbols).length) = 18 + (symBytes symbols).length := by
    intro x; simp only [store16, List.length_append, List.length_cons, List.length_nil]; omega
  unfold layoutFile layoutBody
  simp only [Nat.mod_eq_of_lt hs, ← symBytes.eq_def, this]

theorem byteSwap_layout {symbols : List (List Nat)} {cells : List OutCell} (hs : symbols.length < 65536)
    (hz : ∀ s ∈ symbols, 0 ∉ s) (hp : Placed false cells) (hf : ∀ c ∈ cells, OutFits c) :
    byteSwap (layoutBody true symbols cells) = some (layoutBody false symbols cells) := by
  have l1 : load16 (swap16 symbols.length % 256) (swap16 symbols.length / 256 % 256) = swap16 symbols.length := by
    have := swap16_lt symbols.length; unfold load16; omega
  unfold layoutBody byteSwap
  simp only [if_true, store16, List.cons_append, List.nil_append, List.append_assoc, l1, swap16_swap16 hs,
    copySymbols_append hz, Option.bind_eq_bind, Option.bind_some, Bool.false_eq_true, if_false]
  have e : 16 + 2 + (symBytes symbols).length = 18 + (symBytes symbols).length := by omega
  rw [e]
  by_cases hpad : 0 < (18 + (symBytes symbols).length) % 8
  · rw [if_pos hpad, if_pos (by omega)]
    rw [if_neg (by simp only [List.length_append, List.length_replicate]; omega)]
    rw [List.drop_left' (by simp), swapCells_write hp hf]
    simp [Option.pure_def]
  · rw [if_neg hpad, if_neg (by omega)]
    simp only [List.replicate_zero, List.nil_append, swapCells_write hp hf, Option.bind_some, Option.pure_def,
      List.append_assoc, List.cons_append]

theorem loadFile_layout (doSwap : Bool) {symbols : List (List Nat)} {cells : List OutCell} (hs : symbols.length < 65536)
    (hz : ∀ s ∈ symbols, 0 ∉ s) (hp : Placed false cells) (hf : ∀ c ∈ cells, OutFits c) :
    loadFile (layoutFile doSwap symbols cells) = readBody (layoutBody false symbols cells) := by
  rw [layoutFile_eq doSwap hs]
  generalize hB : layoutBody doSwap symbols cells = B
  cases doSwap with
  | false =>
    subst hB
    simp only [Bool.false_eq_true, if_false, store32, List.cons_append, List.nil_append, List.replicate_succ,
      List.replicate_zero, loadFile]
    rw [if_neg (by simp only [List.length_cons]; omega)]
    rfl
  | true =>
    have hsw := byteSwap_layout hs hz hp hf
    rw [hB] at hsw
    have e1 : store32 (swap32 0x00013A6E) = [0, 1, 0x3A, 0x6E] := by decide
    have e2 : store32 (swap32 0x000351FA) = [0, 3, 0x51, 0xFA] := by decide
    simp only [if_true, e1, e2, List.cons_append, List.nil_append, List.replicate_succ, List.replicate_zero, loadFile]
    rw [if_neg (by simp only [List.length_cons]; omega)]
    show (byteSwap B).bind readBody = _
    rw [hsw]
    rfl

end Verif.Props
