import Verif.Lemmas.FstTable
import Verif.Props.Fst
import Verif.Props.Utf8
/-!
# Transducer files (C43, C44)
-/

set_option linter.unusedSimpArgs false
set_option linter.unusedVariables false

namespace Verif.Props
open Verif

/-! ## C43 -/

/-- C43: a file in the opposite byte order gives the same result as the native one, for every transition table whose overflow
cells are where the format has them. -/
theorem C43_byte_order {symbols : List (List Nat)} {cells : List OutCell} (hs : symbols.length < 65536)
    (hz : ∀ s ∈ symbols, 0 ∉ s) (hp : Placed false cells) (hf : ∀ c ∈ cells, OutFits c) :
    loadFile (layoutFile true symbols cells) = loadFile (layoutFile false symbols cells) := by
  rw [loadFile_layout true hs hz hp hf, loadFile_layout false hs hz hp hf]

/-- C43: what is loaded, in both byte orders: the symbols as written and the cells as written. -/
theorem C43_content {symbols : List (List Nat)} {cells : List OutCell} (he : symbols[0]? = some []) (hs : symbols.length < 65536)
    (hz : ∀ s ∈ symbols, 0 ∉ s) (hb : ∀ s ∈ symbols, ∀ b ∈ s, b < 256) (hp : Placed false cells) (hf : ∀ c ∈ cells, OutFits c)
    (doSwap : Bool) {f : Fst} (h : loadFile (layoutFile doSwap symbols cells) = some (some f)) :
    f.symbols.map encodeStr = symbols ∧ f.cells = cells.map OutCell.toCell := by
  rw [loadFile_layout doSwap hs hz hp hf] at h
  cases symbols with
  | nil => cases he
  | cons s0 ss =>
    simp only [List.getElem?_cons_zero, Option.some.injEq] at he
    subst he
    rw [readBody_layout (by rw [List.length_cons] at hs; exact hs) (fun s hs => hz s (List.mem_cons_of_mem _ hs)) hf] at h
    cases h1 : foldSymbols 1 initTab ss with
    | none => rw [h1] at h; cases h
    | some o =>
      rw [h1] at h
      cases o with
      | none => cases h
      | some st =>
        simp only [Option.map_some, Option.some.injEq] at h
        subst h
        refine ⟨?_, rfl⟩
        obtain ⟨texts, h2, h3⟩ := foldSymbols_texts h1
        show st.symbols.map encodeStr = _
        rw [h2, List.map_append]
        show encodeStr [] :: texts.map encodeStr = _
        congr 1
        have hb' : ∀ s ∈ ss, ∀ b ∈ s, b < 256 := fun s hs => hb s (List.mem_cons_of_mem _ hs)
        clear h1 h2 hs hz hb
        induction ss generalizing texts with
        | nil =>
          cases texts with
          | nil => rfl
          | cons t ts => cases h3
        | cons s ss ih =>
          cases texts with
          | nil => cases h3
          | cons t ts =>
            simp only [List.map_cons, List.cons.injEq] at h3
            have := ((C15_decoder_exact s t (hb' s List.mem_cons_self)).1 h3.1).2
            rw [List.map_cons, ih ts h3.2 (fun x hx => hb' x (List.mem_cons_of_mem _ hx)), ← this]

theorem sizeOf_le {symbols : List (List Nat)} {states : List (List CTrans)} (g : GoodInput symbols states) :
    sizeOf' states ≤ 2 ^ 24 := g.size

theorem sizeOf_lt {symbols : List (List Nat)} {states : List (List CTrans)} (g : GoodInput symbols states) :
    sizeOf' states < 2 ^ 32 := by have := sizeOf_le g; omega

theorem writeFile_eq {symbols : List (List Nat)} {states : List (List CTrans)} (g : GoodInput symbols states) (doSwap : Bool) :
    writeFile doSwap symbols states = some (layoutFile doSwap symbols (states.flatMap (cellsOf states))) := by
  unfold writeFile
  rw [tableCells_eq g.nonempty g.targets (sizeOf_lt g)]
  rfl

/-- C43: the two files written by the compiler for an automaton, with and without its option for the opposite byte order,
exist and load with the same result. -/
theorem C43_compiler {symbols : List (List Nat)} {states : List (List CTrans)} (g : GoodInput symbols states) :
    ∃ native foreign, writeFile false symbols states = some native ∧ writeFile true symbols states = some foreign ∧
      loadFile foreign = loadFile native :=
  ⟨_, _, writeFile_eq g false, writeFile_eq g true,
    C43_byte_order g.symCount g.noNul (placed_cells _) (fits_table (sizeOf_lt g))⟩

/-! ## C44 -/

/-- The loader gives a transducer for well-encoded symbols. -/
theorem loads {symbols : List (List Nat)} {states : List (List CTrans)} (g : GoodInput symbols states)
    (hl : ∀ s ∈ symbols, LoadableSymbol s) (doSwap : Bool) :
    ∃ file f, writeFile doSwap symbols states = some file ∧ loadFile file = some (some f) := by
  refine ⟨layoutFile doSwap symbols (states.flatMap (cellsOf states)), ?_⟩
  · rw [writeFile_eq g doSwap]
    cases symbols with
    | nil => cases g.epsilon
    | cons s0 ss =>
      have he := g.epsilon
      simp only [List.getElem?_cons_zero, Option.some.injEq] at he
      subst he
      obtain ⟨st, hst⟩ := foldSymbols_loads (fun s hs => hl s (List.mem_cons_of_mem _ hs)) 1 initTab
      refine ⟨fstOf st ((states.flatMap (cellsOf states)).map OutCell.toCell), rfl, ?_⟩
      rw [loadFile_layout doSwap g.symCount g.noNul (placed_cells _) (fits_table (sizeOf_lt g)),
        readBody_layout (by have := g.symCount; rw [List.length_cons] at this; exact this)
          (fun s hs => g.noNul s (List.mem_cons_of_mem _ hs)) (fits_table (sizeOf_lt g)), hst]
      rfl

/-- C44: a compiled file with well-encoded symbols loads. -/
theorem C44_loads {symbols : List (List Nat)} {states : List (List CTrans)} (g : GoodInput symbols states)
    (hl : ∀ s ∈ symbols, (∃ cps, (∀ cp ∈ cps, ValidCp cp) ∧ s = encodeStr cps) ∧ (∀ b ∈ s, b < 256) ∧
      (s[0]? = some 64 → 4 < s.length)) (doSwap : Bool) :
    ∃ file f, writeFile doSwap symbols states = some file ∧ loadFile file = some (some f) := by
  refine loads g (fun s hs => ?_) doSwap
  obtain ⟨⟨cps, h1, h2⟩, h3, h4⟩ := hl s hs
  exact ⟨⟨cps, (C15_decoder_exact s cps h3).2 ⟨h1, h2⟩⟩, h4⟩

/-- What a loaded compiled file consists of. -/
theorem loaded {symbols : List (List Nat)} {states : List (List CTrans)} (g : GoodInput symbols states) {doSwap : Bool}
    {file : List Nat} {f : Fst} (hw : writeFile doSwap symbols states = some file) (hl : loadFile file = some (some f)) :
    ∃ st, SymInv st symbols.length ∧ f = fstOf st (tableOf states) := by
  rw [writeFile_eq g doSwap] at hw
  cases hw
  rw [loadFile_layout doSwap g.symCount g.noNul (placed_cells _) (fits_table (sizeOf_lt g))] at hl
  cases symbols with
  | nil => cases g.epsilon
  | cons s0 ss =>
    have he := g.epsilon
    simp only [List.getElem?_cons_zero, Option.some.injEq] at he
    subst he
    have hc := g.symCount
    rw [List.length_cons] at hc
    rw [readBody_layout hc (fun s hs => g.noNul s (List.mem_cons_of_mem _ hs)) (fits_table (sizeOf_lt g))] at hl
    cases h1 : foldSymbols 1 initTab ss with
    | none => rw [h1] at hl; cases hl
    | some o =>
      rw [h1] at hl
      cases o with
      | none => cases hl
      | some st =>
        simp only [Option.map_some, Option.some.injEq] at hl
        subst hl
        refine ⟨st, ?_, rfl⟩
        have := foldSymbols_inv initTab_inv (by decide) (by omega) h1
        rw [List.length_cons, Nat.add_comm]
        exact this

theorem ord_lt' {s : List CTrans} {i : Nat} {t : CTrans} (h : s[i]? = some t) : i < s.length := by
  rcases Nat.lt_or_ge i s.length with h' | h'
  · exact h'
  · rw [List.getElem?_eq_none h'] at h; cases h

theorem ord_lt {states : List (List CTrans)} {i : Nat} {s : List CTrans} (h : states[i]? = some s) : i < states.length := by
  rcases Nat.lt_or_ge i states.length with h' | h'
  · exact h'
  · rw [List.getElem?_eq_none h'] at h; cases h

section
variable {symbols : List (List Nat)} {states : List (List CTrans)} (g : GoodInput symbols states)
include g

theorem offset_lt {i : Nat} (hi : i < states.length) : offsetOf states i < 2 ^ 24 := by
  have h := offset_add_le (List.getElem?_eq_getElem hi)
  have h1 := g.nonempty _ (List.getElem_mem hi)
  have h2 := stateSize_ge states[i].length
  have h3 := List.length_pos_iff.2 h1
  have := sizeOf_le g
  omega

/-- The cell of a transition. -/
theorem good_cell {i j : Nat} {s : List CTrans} {t : CTrans} (hi : states[i]? = some s) (hj : s[j]? = some t) :
    ∃ c, (tableOf states)[addrOf states (i, j)]? = some c ∧
      c.symIn = (if t.symIn = 0xFFFFFFFF then 0xFFFF else t.symIn) ∧ c.symOut = t.symOut ∧
      c.target = offsetOf states t.targetOrd ∧ (c.symIn = 0xFFFF ↔ t.symIn = 0xFFFFFFFF) := by
  have hs := List.mem_of_getElem? hi
  have ht := List.mem_of_getElem? hj
  have hc := g.symCount
  have ho := offset_lt g (g.targets s hs t ht)
  refine ⟨_, cell_at hi hj, ?_, ?_, ?_, ?_⟩
  · rcases g.codes s hs t ht with ⟨h, h'⟩ | ⟨h, h'⟩
    · simp only [transCell, h, if_true]
    · simp only [transCell]; rw [if_neg (by omega)]; omega
  · rcases g.codes s hs t ht with ⟨h, h'⟩ | ⟨h, h'⟩
    · simp only [transCell, h']
    · simp only [transCell]; omega
  · simp only [transCell]; omega
  · simp only [transCell]
    rcases g.codes s hs t ht with ⟨h, h'⟩ | ⟨h, h'⟩
    · simp [h]
    · constructor
      · intro h1; omega
      · intro h1; omega

theorem good_addrs {f : Fst} (hf : f.cells = tableOf states) {i : Nat} {s : List CTrans} (hi : states[i]? = some s) :
    stateAddrs f (offsetOf states i) = (List.range s.length).map fun j => addrOf states (i, j) :=
  stateAddrs_table hf hi (g.nonempty s (List.mem_of_getElem? hi)) (sizeOf_lt g)

end

/-- C44: there are offsets, with 0 for the initial state, such that the transitions that the reader finds at the offset of a
state are exactly those of the state, in order, with their symbols, and their targets are the offsets of their target states.
Addresses of the transitions of a state increase and lie before the offsets of all later states. -/
theorem C44_read_back {symbols : List (List Nat)} {states : List (List CTrans)} (g : GoodInput symbols states) {doSwap : Bool}
    {file : List Nat} {f : Fst} (hw : writeFile doSwap symbols states = some file) (hl : loadFile file = some (some f)) :
    ∃ offset : Nat → Nat, offset 0 = 0 ∧ ∀ i s, states[i]? = some s →
      (stateAddrs f (offset i)).map (fun a => (f.cells[a]?).map fun c => (c.symIn, c.symOut, c.target)) =
        s.map (fun t => some (if t.symIn = 0xFFFFFFFF then 0xFFFF else t.symIn, t.symOut, offset t.targetOrd)) ∧
      (stateAddrs f (offset i)).Pairwise (· < ·) ∧ (∀ a ∈ stateAddrs f (offset i), offset i ≤ a) ∧
      ∀ k, i < k → k < states.length → ∀ a ∈ stateAddrs f (offset i), a < offset k := by
  obtain ⟨st, inv, rfl⟩ := loaded g hw hl
  refine ⟨offsetOf states, by simp [offsetOf, sizeOf'], fun i s hi => ?_⟩
  rw [good_addrs g (f := fstOf st (tableOf states)) rfl hi]
  have hadd : ∀ j, addrOf states (i, j) = offsetOf states i + cellIdx s.length j := by
    intro j; simp only [addrOf, hi, Option.getD_some]
  refine ⟨?_, ?_, ?_, ?_⟩
  · apply List.ext_getElem?
    intro j
    simp only [List.getElem?_map]
    by_cases hj : j < s.length
    · rw [List.getElem?_range hj, List.getElem?_eq_getElem hj]
      obtain ⟨c, hc, h1, h2, h3, _⟩ := good_cell g hi (List.getElem?_eq_getElem hj)
      simp only [Option.map_some, Option.some.injEq]
      show ((tableOf states)[addrOf states (i, j)]?).map _ = _
      rw [hc, Option.map_some, h1, h2, h3]
    · rw [List.getElem?_eq_none (by simp; omega), List.getElem?_eq_none (by omega)]
      rfl
  · rw [List.pairwise_map]
    refine List.Pairwise.imp ?_ (List.pairwise_lt_range (n := s.length))
    intro a b hab
    rw [hadd, hadd]
    have := (cellIdx_mono (n := s.length)).2 hab
    omega
  · intro a ha
    obtain ⟨j, _, rfl⟩ := List.mem_map.1 ha
    rw [hadd]
    omega
  · intro k hik hk a ha
    obtain ⟨j, hj, rfl⟩ := List.mem_map.1 ha
    rw [hadd]
    have := cellIdx_lt (List.mem_range.1 hj)
    have := offset_mono hik hi
    omega

/-- C44: a loaded compiled file meets the conditions under which the look-up is correct (C41). -/
theorem C44_well_formed {symbols : List (List Nat)} {states : List (List CTrans)} (g : GoodInput symbols states) {doSwap : Bool}
    {file : List Nat} {f : Fst} (hw : writeFile doSwap symbols states = some file) (hl : loadFile file = some (some f)) :
    (∃ S, WellFormed f S) ∧ NormalSymbols f := by
  obtain ⟨st, inv, rfl⟩ := loaded g hw hl
  have hfl : st.features.length % 65536 = st.features.length := by
    have := inv.flen; have := g.symCount; omega
  refine ⟨⟨fun a => ∃ i, i < states.length ∧ a = offsetOf states i, ?_⟩, ?_⟩
  · refine ⟨⟨0, List.length_pos_iff.2 g.initial, by simp [offsetOf, sizeOf']⟩, ?_, inv.eps, ?_, ?_⟩
    · show (tableOf states).length < _
      rw [table_length]
      exact sizeOf_lt g
    · rintro a ⟨i, hi, rfl⟩
      have hs := List.getElem?_eq_getElem hi
      have hlen := List.length_pos_iff.2 (g.nonempty _ (List.getElem_mem hi))
      have hoff := offset_add_le hs
      have hc := cell_at hs (List.getElem?_eq_getElem hlen)
      have e : addrOf states (i, 0) = offsetOf states i := by simp [addrOf, cellIdx]
      rw [e] at hc
      refine ⟨_, hc, ?_⟩
      show _ ∨ _
      simp only [if_true, fstOf, table_length]
      have hsz := sizeOf_le g
      have hle := stateSize_ge states[i].length
      by_cases hb : 255 < states[i].length
      · right
        refine ⟨by simp [transCell, hb], _, overflow_at hs hb, ?_, ?_⟩
        · simp only [OutCell.toCell, Cell.overflow]; omega
        · simp only [OutCell.toCell, Cell.overflow]
          have : stateSize states[i].length = states[i].length + 1 := by unfold stateSize; rw [if_neg (by omega)]
          omega
      · left
        simp only [transCell, if_neg hb]
        omega
    · rintro a ⟨i, hi, rfl⟩ b hb t ht hfin
      have hs := List.getElem?_eq_getElem hi
      rw [good_addrs g (f := fstOf st (tableOf states)) rfl hs] at hb
      obtain ⟨j, hj, rfl⟩ := List.mem_map.1 hb
      have hj' := List.mem_range.1 hj
      obtain ⟨c, h0, h1, h2, h3, h4⟩ := good_cell g hs (List.getElem?_eq_getElem hj')
      have htc : t = c := by
        have : (tableOf states)[addrOf states (i, j)]? = some t := ht
        rw [h0] at this
        exact (Option.some.inj this).symm
      subst htc
      have hmem : states[i][j] ∈ states[i] := List.getElem_mem hj'
      refine ⟨⟨_, g.targets _ (List.getElem_mem hi) _ hmem, h3⟩, ?_, ?_⟩
      · rcases g.codes _ (List.getElem_mem hi) _ hmem with ⟨h, _⟩ | ⟨_, h⟩
        · exact absurd (h4.2 h) hfin
        · show t.symOut < st.symbols.length
          rw [h2, inv.len]
          exact h
      · intro hlt hfc h0'
        have hdl : st.diacritics.length = st.firstNormal := by
          have hlt' : t.symIn < st.firstNormal := hlt
          exact (inv.dia1 (by omega)).1
        have hlt' : t.symIn < st.diacritics.length := by rw [hdl]; exact hlt
        refine ⟨_, List.getElem?_eq_getElem hlt', ?_⟩
        show _ < st.features.length % 65536
        rw [hfl]
        exact inv.feat _ h0' _ (List.getElem?_eq_getElem hlt')
  · refine ⟨fun e he => (inv.chars e he).1, ?_⟩
    show st.firstNormal ≤ st.symbols.length
    rw [inv.len]
    by_cases h0 : st.firstNormal = 0
    · omega
    · have := (inv.dia1 h0).2; omega

/-! ## C44 and C41: from the automaton to the look-up -/

section
variable {symbols : List (List Nat)} {states : List (List CTrans)} (g : GoodInput symbols states)
include g

/-- The table holds the transitions of the states. -/
structure Holds (f : Fst) (states : List (List CTrans)) : Prop where
  addrs : ∀ {i : Nat} {s : List CTrans}, states[i]? = some s →
    stateAddrs f (offsetOf states i) = (List.range s.length).map fun j => addrOf states (i, j)
  cell : ∀ {i j : Nat} {s : List CTrans} {t : CTrans}, states[i]? = some s → s[j]? = some t →
    ∃ c, f.cells[addrOf states (i, j)]? = some c ∧
      c.symIn = (if t.symIn = 0xFFFFFFFF then 0xFFFF else t.symIn) ∧ c.symOut = t.symOut ∧
      c.target = offsetOf states t.targetOrd ∧ (c.symIn = 0xFFFF ↔ t.symIn = 0xFFFFFFFF)

theorem holds_of {f : Fst} (hf : f.cells = tableOf states) : Holds f states :=
  ⟨fun hi => good_addrs g hf hi, fun hi hj => by rw [hf]; exact good_cell g hi hj⟩

/-- The point of the table for a point of a run. -/
def atOffset (states : List (List CTrans)) (p : APoint) : Point := ⟨offsetOf states p.ord, p.pos, p.flags⟩

theorem step_of_astep {f : Fst} (hf : Holds f states) {input : List Nat} {p q : APoint} {a : Nat × Nat}
    (h : AStep f states input p a q) :
    Step f input (atOffset states p) (addrOf states a) (atOffset states q) ∧ q.ord < states.length := by
  cases h with
  | symbol s j t hi hj hn hf1 hin =>
    obtain ⟨c, h0, h1, h2, h3, h4⟩ := hf.cell hi hj
    rw [if_neg hn] at h1
    have hm : addrOf states (p.ord, j) ∈ stateAddrs f (offsetOf states p.ord) := by
      rw [hf.addrs hi]
      exact List.mem_map.2 ⟨j, List.mem_range.2 (ord_lt' hj), rfl⟩
    refine ⟨?_, g.targets s (List.mem_of_getElem? hi) t (List.mem_of_getElem? hj)⟩
    have := Step.symbol (f := f) (input := input) (atOffset states p) (addrOf states (p.ord, j)) c hm h0
      (fun hc => hn (h4.1 hc)) (by rw [h1]; exact hf1) (by rw [h1]; exact hin)
    rw [h3] at this
    exact this
  | flag s j t fl hi hj hn hf1 hin =>
    obtain ⟨c, h0, h1, h2, h3, h4⟩ := hf.cell hi hj
    rw [if_neg hn] at h1
    have hm : addrOf states (p.ord, j) ∈ stateAddrs f (offsetOf states p.ord) := by
      rw [hf.addrs hi]
      exact List.mem_map.2 ⟨j, List.mem_range.2 (ord_lt' hj), rfl⟩
    refine ⟨?_, g.targets s (List.mem_of_getElem? hi) t (List.mem_of_getElem? hj)⟩
    have := Step.flag (f := f) (input := input) (atOffset states p) (addrOf states (p.ord, j)) c fl hm h0
      (fun hc => hn (h4.1 hc)) (by rw [h1]; exact hf1) (by rw [h1]; exact hin)
    rw [h3] at this
    exact this

/-- The transition at an address of a state. -/
theorem of_addr {f : Fst} (hf : Holds f states) {i : Nat} (hi : i < states.length) {a : Nat} {c : Cell}
    (hm : a ∈ stateAddrs f (offsetOf states i)) (hc : f.cells[a]? = some c) :
    ∃ s j t, states[i]? = some s ∧ s[j]? = some t ∧ a = addrOf states (i, j) ∧
      c.symIn = (if t.symIn = 0xFFFFFFFF then 0xFFFF else t.symIn) ∧ c.symOut = t.symOut ∧
      c.target = offsetOf states t.targetOrd ∧ (c.symIn = 0xFFFF ↔ t.symIn = 0xFFFFFFFF) := by
  have hs := List.getElem?_eq_getElem hi
  rw [hf.addrs hs] at hm
  obtain ⟨j, hj, rfl⟩ := List.mem_map.1 hm
  have hj' := List.mem_range.1 hj
  obtain ⟨c', h0, h1, h2, h3, h4⟩ := hf.cell hs (List.getElem?_eq_getElem hj')
  rw [h0] at hc
  cases hc
  exact ⟨_, j, _, hs, List.getElem?_eq_getElem hj', rfl, h1, h2, h3, h4⟩

theorem astep_of_step {f : Fst} (hf : Holds f states) {input : List Nat} {p : APoint} (hp : p.ord < states.length)
    {q : Point} {a : Nat} (h : Step f input (atOffset states p) a q) :
    ∃ b r, a = addrOf states b ∧ q = atOffset states r ∧ AStep f states input p b r := by
  cases h with
  | symbol c hm hc hn hf1 hin =>
    obtain ⟨s, j, t, hi, hj, ha, h1, h2, h3, h4⟩ := of_addr g hf hp hm hc
    have hn' : t.symIn ≠ 0xFFFFFFFF := fun h => hn (h4.2 h)
    rw [if_neg hn'] at h1
    refine ⟨(p.ord, j), ⟨t.targetOrd, p.pos + 1, p.flags⟩, ha, by rw [h3]; rfl, ?_⟩
    exact .symbol p s j t hi hj hn' (h1 ▸ hf1) (by rw [← h1]; exact hin)
  | flag c fl hm hc hn hf1 hin =>
    obtain ⟨s, j, t, hi, hj, ha, h1, h2, h3, h4⟩ := of_addr g hf hp hm hc
    have hn' : t.symIn ≠ 0xFFFFFFFF := fun h => hn (h4.2 h)
    rw [if_neg hn'] at h1
    refine ⟨(p.ord, j), ⟨t.targetOrd, p.pos, fl⟩, ha, by rw [h3]; rfl, ?_⟩
    exact .flag p s j t fl hi hj hn' (h1 ▸ hf1) (by rw [← h1]; exact hin)

theorem path_of_apath {f : Fst} (hf : Holds f states) {input : List Nat} {p q : APoint} {as : List (Nat × Nat)}
    (h : APath f states input p as q) (hp : p.ord < states.length) :
    Path f input (atOffset states p) (as.map (addrOf states)) (atOffset states q) ∧ q.ord < states.length := by
  induction h with
  | nil p => exact ⟨.nil _, hp⟩
  | cons p q r a as hs _ ih =>
    obtain ⟨h1, h2⟩ := step_of_astep g hf hs
    obtain ⟨h3, h4⟩ := ih h2
    exact ⟨.cons _ _ _ _ _ h1 h3, h4⟩

theorem apath_of_path {f : Fst} (hf : Holds f states) {input : List Nat} {P Q : Point} {as : List Nat}
    (h : Path f input P as Q) : ∀ p : APoint, p.ord < states.length → P = atOffset states p →
    ∃ bs q, as = bs.map (addrOf states) ∧ Q = atOffset states q ∧ APath f states input p bs q ∧ q.ord < states.length := by
  induction h with
  | nil P => intro p hp hP; exact ⟨[], p, rfl, hP, .nil _, hp⟩
  | cons P Q R a as hs _ ih =>
    intro p hp hP
    subst hP
    obtain ⟨b, q, h1, h2, h3⟩ := astep_of_step g hf hp hs
    obtain ⟨bs, r, h4, h5, h6, h7⟩ := ih q (step_of_astep g hf h3).2 h2
    exact ⟨b :: bs, r, by rw [h1, h4]; rfl, h5, .cons _ _ _ _ _ h3 h6, h7⟩

/-- Accepting runs of the automaton and accepting paths of the table correspond. -/
theorem accepting_iff {f : Fst} (hf : Holds f states) {input : List Nat} {pfx : Bool} {path : List Nat} {n : Nat} :
    Accepting f input pfx path n ↔ ∃ run, path = run.map (addrOf states) ∧ AAccepting f states input pfx run n := by
  have h0 : startPoint f = atOffset states ⟨0, 0, List.replicate f.featureCount 0⟩ := by
    simp [startPoint, atOffset, offsetOf, sizeOf']
  have hpos : 0 < states.length := List.length_pos_iff.2 g.initial
  constructor
  · rintro ⟨as, a, p, c, rfl, hp, hm, hc, hfin, hn, hpf⟩
    obtain ⟨bs, q, h1, h2, h3, h4⟩ := apath_of_path g hf hp _ hpos h0
    subst h2
    obtain ⟨s, j, t, hi, hj, ha, _, _, _, h5⟩ := of_addr g hf h4 hm hc
    exact ⟨bs ++ [(q.ord, j)], by simp [h1, ha], bs, q, j, s, t, rfl, h3, hi, hj, h5.1 hfin, hn, hpf⟩
  · rintro ⟨run, rfl, as, p, j, s, t, rfl, hp, hi, hj, hfin, hn, hpf⟩
    obtain ⟨h1, h2⟩ := path_of_apath g hf hp hpos
    obtain ⟨c, h3, h4, h5, h6, h7⟩ := hf.cell hi hj
    refine ⟨as.map (addrOf states), addrOf states (p.ord, j), atOffset states p, c, by simp, by rw [h0]; exact h1, ?_, ?_,
      h7.2 hfin, hn, hpf⟩
    · show _ ∈ stateAddrs f (offsetOf states p.ord)
      rw [hf.addrs hi]
      exact List.mem_map.2 ⟨j, List.mem_range.2 (ord_lt' hj), rfl⟩
    · exact h3

/-- A run follows the transitions of its states. -/
def Follows (states : List (List CTrans)) : Nat → List (Nat × Nat) → Prop
  | _, [] => True
  | i, a :: l => a.1 = i ∧ ∃ s t, states[i]? = some s ∧ s[a.2]? = some t ∧ (l = [] ∨ Follows states t.targetOrd l)

omit g in
theorem follows_run {f : Fst} {input : List Nat} {p q : APoint} {as : List (Nat × Nat)} (h : APath f states input p as q)
    {j : Nat} {s : List CTrans} {t : CTrans} (hi : states[q.ord]? = some s) (hj : s[j]? = some t) :
    Follows states p.ord (as ++ [(q.ord, j)]) := by
  induction h with
  | nil p => exact ⟨rfl, s, t, hi, hj, .inl rfl⟩
  | cons p q r a as hs _ ih =>
    cases hs with
    | symbol s' j' t' hi' hj' _ _ _ => exact ⟨rfl, s', t', hi', hj', .inr (ih hi)⟩
    | flag s' j' t' fl hi' hj' _ _ _ => exact ⟨rfl, s', t', hi', hj', .inr (ih hi)⟩

omit g in
theorem abefore_of_before {a b : List (Nat × Nat)} {i : Nat} (ha : Follows states i a) (hb : Follows states i b)
    (h : Before (a.map (addrOf states)) (b.map (addrOf states))) : ABefore a b := by
  induction a generalizing b i with
  | nil => exact h.elim
  | cons x a ih =>
    cases b with
    | nil => exact h.elim
    | cons y b =>
      obtain ⟨hx, s, t, hi, hj, hl⟩ := ha
      obtain ⟨hy, s', t', hi', hj', hl'⟩ := hb
      rw [hi] at hi'
      cases hi'
      obtain ⟨x1, x2⟩ := x
      obtain ⟨y1, y2⟩ := y
      simp only at hx hy
      subst hx
      subst hy
      have hadd : ∀ k, addrOf states (y1, k) = offsetOf states y1 + cellIdx s.length k := by
        intro k; simp only [addrOf, hi, Option.getD_some]
      rcases h with h | ⟨h, h'⟩
      · left
        rw [hadd, hadd] at h
        exact ⟨rfl, (cellIdx_mono (n := s.length)).1 (by simp only; omega)⟩
      · right
        rw [hadd, hadd] at h
        have e : x2 = y2 := cellIdx_inj (n := s.length) (by omega)
        subst e
        refine ⟨rfl, ?_⟩
        rw [hj] at hj'
        cases hj'
        rcases hl with rfl | hl
        · exact h'.elim
        · rcases hl' with rfl | hl'
          · cases a <;> exact h'.elim
          · exact ih hl hl' h'

omit g in
theorem follows_inj {a b : List (Nat × Nat)} {i : Nat} (ha : Follows states i a) (hb : Follows states i b)
    (h : a.map (addrOf states) = b.map (addrOf states)) : a = b := by
  induction a generalizing b i with
  | nil =>
    cases b with
    | nil => rfl
    | cons y b => cases h
  | cons x a ih =>
    cases b with
    | nil => cases h
    | cons y b =>
      obtain ⟨hx, s, t, hi, hj, hl⟩ := ha
      obtain ⟨hy, s', t', hi', hj', hl'⟩ := hb
      rw [hi] at hi'
      cases hi'
      obtain ⟨x1, x2⟩ := x
      obtain ⟨y1, y2⟩ := y
      simp only at hx hy
      subst hx
      subst hy
      have hadd : ∀ k, addrOf states (y1, k) = offsetOf states y1 + cellIdx s.length k := by
        intro k; simp only [addrOf, hi, Option.getD_some]
      rw [List.map_cons, List.map_cons, List.cons.injEq, hadd, hadd] at h
      have e : x2 = y2 := cellIdx_inj (n := s.length) (by omega)
      subst e
      rw [hj] at hj'
      cases hj'
      congr 1
      rcases hl with rfl | hl
      · rcases hl' with rfl | hl'
        · rfl
        · have := h.2.symm
          simp only [List.map_nil, List.map_eq_nil_iff] at this
          exact this.symm
      · rcases hl' with rfl | hl'
        · have := h.2
          simp only [List.map_nil, List.map_eq_nil_iff] at this
          exact this
        · exact ih hl hl' h.2

/-- The output of a run is that of its path. -/
theorem output_eq {f : Fst} (hf : Holds f states) {input : List Nat} {pfx : Bool} {run : List (Nat × Nat)} {n : Nat}
    (h : AAccepting f states input pfx run n) : outputOf f (run.map (addrOf states)) = aOutput f states run := by
  obtain ⟨as, p, j, s, t, rfl, hp, hrest⟩ := h
  clear hrest
  unfold outputOf aOutput
  rw [List.map_append, List.map_singleton, List.dropLast_concat, List.dropLast_concat, List.flatMap_map]
  have hgen : ∀ a ∈ as, ∃ s t, states[a.1]? = some s ∧ s[a.2]? = some t := by
    generalize (⟨0, 0, _⟩ : APoint) = p0 at hp
    induction hp with
    | nil p => intro a ha; cases ha
    | cons p q r a as hs _ ih =>
      intro x hx
      rcases List.mem_cons.1 hx with rfl | hx
      · cases hs with
        | symbol s' j' t' hi' hj' _ _ _ => exact ⟨s', t', hi', hj'⟩
        | flag s' j' t' fl hi' hj' _ _ _ => exact ⟨s', t', hi', hj'⟩
      · exact ih x hx
  clear hp
  induction as with
  | nil => rfl
  | cons a as ih =>
    rw [List.flatMap_cons, List.flatMap_cons, ih (fun x hx => hgen x (List.mem_cons_of_mem _ hx))]
    congr 1
    obtain ⟨s, t, hi, hj⟩ := hgen a List.mem_cons_self
    obtain ⟨c, h0, h1, h2, _⟩ := hf.cell hi hj
    unfold outText
    rw [h0, hi, Option.bind_some, hj]
    simp only [h2]

end

/-- C44 with C41: looking up a word in a compiled file gives the outputs of accepting runs of the automaton, distinct and in the
order of the transitions. If the look-up reports exhaustion, all accepting runs were given; it ends otherwise only at one of
the fixed limits. -/
theorem C44_look_up {symbols : List (List Nat)} {states : List (List CTrans)} (g : GoodInput symbols states) {doSwap : Bool}
    {file : List Nat} {f : Fst} (hw : writeFile doSwap symbols states = some file) (hl : loadFile file = some (some f))
    (pfx : Bool) (word : List Wc) {bufferSize bufferLen : Nat} (hbs : 2 ≤ bufferSize) (hlen : word.length ≤ bufferSize)
    (hbl : 0 < bufferLen) (n : Nat) :
    ∃ known c, prepare f (Conf.new f.featureCount bufferSize) word = some (known, c) ∧
    ∃ (runs : List (List (Nat × Nat) × Nat)) (tail : List NextRes) (c' : Conf),
      enumerate f pfx bufferLen n c = some (runs.map (fun r => .found (aOutput f states r.1) r.2) ++ tail, c') ∧
      (∀ r ∈ runs, AAccepting f states (word.map f.symOf) pfx r.1 r.2) ∧
      runs.Pairwise (fun a b => ABefore a.1 b.1) ∧
      ((tail = [] ∧ runs.length = n) ∨
        (tail = [.exhausted] ∧ ∀ r m, AAccepting f states (word.map f.symOf) pfx r m → (r, m) ∈ runs) ∨
        ∃ r, tail = [r] ∧ Limit f (word.map f.symOf) pfx bufferSize bufferLen r) := by
  obtain ⟨⟨S, wf⟩, hn⟩ := C44_well_formed g hw hl
  obtain ⟨st, inv, hfe⟩ := loaded g hw hl
  have hf : Holds f states := holds_of g (by rw [hfe]; rfl)
  obtain ⟨known, c, h0, qs, tail, c', h1, h2, h3, h4⟩ := C41_readings wf hn pfx word hbs hlen hbl n
  refine ⟨known, c, h0, ?_⟩
  have hruns : ∃ runs : List (List (Nat × Nat) × Nat), qs = runs.map (fun r => (r.1.map (addrOf states), r.2)) ∧
      ∀ r ∈ runs, AAccepting f states (word.map f.symOf) pfx r.1 r.2 := by
    clear h1 h3 h4
    induction qs with
    | nil => exact ⟨[], rfl, by intro r hr; cases hr⟩
    | cons q qs ih =>
      obtain ⟨runs, h5, h6⟩ := ih (fun x hx => h2 x (List.mem_cons_of_mem _ hx))
      obtain ⟨run, h7, h8⟩ := (accepting_iff g hf).1 (h2 q List.mem_cons_self)
      refine ⟨(run, q.2) :: runs, by rw [List.map_cons, ← h5, ← h7], ?_⟩
      intro r hr
      rcases List.mem_cons.1 hr with rfl | hr
      · exact h8
      · exact h6 r hr
  obtain ⟨runs, rfl, hacc⟩ := hruns
  have hfol : ∀ r m, AAccepting f states (word.map f.symOf) pfx r m → Follows states 0 r := by
    rintro r m ⟨as, p, j, s, t, rfl, hp, hi, hj, _⟩
    exact follows_run hp hi hj
  refine ⟨runs, tail, c', ?_, hacc, ?_, ?_⟩
  · rw [h1, List.map_map]
    congr 3
    apply List.map_congr_left
    intro r hr
    simp only [Function.comp]
    rw [output_eq g hf (hacc r hr)]
  · rw [List.pairwise_map] at h3
    refine List.Pairwise.imp_of_mem ?_ h3
    intro a b ha hb hab
    exact abefore_of_before (hfol _ _ (hacc a ha)) (hfol _ _ (hacc b hb)) hab
  · rcases h4 with ⟨h4, h5⟩ | ⟨h4, h5⟩ | h4
    · exact .inl ⟨h4, by rw [← h5, List.length_map]⟩
    · refine .inr (.inl ⟨h4, fun r m hr => ?_⟩)
      have := h5 _ m ((accepting_iff g hf).2 ⟨r, rfl, hr⟩)
      obtain ⟨⟨r', m'⟩, hr', he⟩ := List.mem_map.1 this
      simp only [Prod.mk.injEq] at he
      obtain ⟨he, rfl⟩ := he
      have : r' = r := follows_inj (hfol _ _ (hacc _ hr')) (hfol _ _ hr) he
      rw [← this]
      exact hr'
    · exact .inr (.inr h4)

/-! ## A concrete automaton -/

/-- Symbols: epsilon, a flag, the letters a and b. -/
def demoSymbols : List (List Nat) := [[], [64, 80, 46, 70, 46, 88, 64], [97], [98]]

/-- State 0 reads letters and has 260 transitions, state 1 is final. -/
def demoStates : List (List CTrans) :=
  [⟨1, 0, 1⟩ :: (List.replicate 258 ⟨2, 3, 1⟩ ++ [⟨3, 2, 0⟩]), [⟨0xFFFFFFFF, 0, 0⟩]]

theorem demo_good : GoodInput demoSymbols demoStates := by
  refine ⟨rfl, by decide, by decide, by decide, by decide, ?_, ?_, by decide +kernel⟩
  · intro s hs t ht
    rcases List.mem_cons.1 hs with rfl | hs
    · rcases List.mem_cons.1 ht with rfl | ht
      · right; decide
      · rcases List.mem_append.1 ht with ht | ht
        · rw [List.eq_of_mem_replicate ht]; right; decide
        · rw [List.mem_singleton.1 ht]; right; decide
    · rw [List.mem_singleton.1 hs, List.mem_singleton] at ht
      rw [ht]; left; decide
  · intro s hs t ht
    rcases List.mem_cons.1 hs with rfl | hs
    · rcases List.mem_cons.1 ht with rfl | ht
      · decide
      · rcases List.mem_append.1 ht with ht | ht
        · rw [List.eq_of_mem_replicate ht]; decide
        · rw [List.mem_singleton.1 ht]; decide
    · rw [List.mem_singleton.1 hs, List.mem_singleton] at ht
      rw [ht]; decide

theorem demo_loadable : ∀ s ∈ demoSymbols, LoadableSymbol s := by
  intro s hs
  simp only [demoSymbols, List.mem_cons, List.not_mem_nil, or_false] at hs
  rcases hs with rfl | rfl | rfl | rfl
  · exact ⟨⟨[], by decide⟩, by decide⟩
  · exact ⟨⟨[64, 80, 46, 70, 46, 88, 64], by decide⟩, by decide⟩
  · exact ⟨⟨[97], by decide⟩, by decide⟩
  · exact ⟨⟨[98], by decide⟩, by decide⟩

/-- The hypotheses of the theorems above are met by an automaton with an overflow cell, in both byte orders. -/
example (doSwap : Bool) : ∃ file f, writeFile doSwap demoSymbols demoStates = some file ∧ loadFile file = some (some f) :=
  loads demo_good demo_loadable doSwap

/-- The automaton has an accepting run for "ba": state 0 by its last transition back to state 0, then to the final state. -/
example (f : Fst) (h : f.firstNormal = 2) :
    AAccepting f demoStates [3, 2] false [(0, 259), (0, 5), (1, 0)] 2 := by
  refine ⟨[(0, 259), (0, 5)], ⟨1, 2, List.replicate f.featureCount 0⟩, 0, [⟨0xFFFFFFFF, 0, 0⟩], ⟨0xFFFFFFFF, 0, 0⟩, rfl, ?_, rfl,
    rfl, rfl, rfl, fun _ => rfl⟩
  refine .cons _ ⟨0, 1, List.replicate f.featureCount 0⟩ _ _ _ ?_ (.cons _ _ _ _ _ ?_ (.nil _))
  · exact .symbol ⟨0, 0, _⟩ _ 259 ⟨3, 2, 0⟩ rfl (by decide +kernel) (by decide) (by rw [h]; decide) rfl
  · exact .symbol ⟨0, 1, _⟩ _ 5 ⟨2, 3, 1⟩ rfl (by decide +kernel) (by decide) (by rw [h]; decide) rfl

end Verif.Props
