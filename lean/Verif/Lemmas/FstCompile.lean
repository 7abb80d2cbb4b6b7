import Verif.Lemmas.FstFile
import Verif.Spec.FstCompile
/-!
# Lemmas on compiled transition tables
-/

set_option linter.unusedSimpArgs false
set_option linter.unusedVariables false

namespace Verif.Props
open Verif

/-! ## Offsets -/

/-- Number of cells of states. -/
def sizeOf' (states : List (List CTrans)) : Nat := (states.map fun s => stateSize s.length).sum

/-- Offset of a state in the table. -/
def offsetOf (states : List (List CTrans)) (i : Nat) : Nat := sizeOf' (states.take i)

theorem stateOffsets_eq (states : List (List CTrans)) (off : Nat) (hne : ∀ s ∈ states, s ≠ [])
    (hsz : off + sizeOf' states < 2 ^ 32) :
    stateOffsets off states = some ((List.range states.length).map fun i => off + offsetOf states i) := by
  induction states generalizing off with
  | nil => rfl
  | cons s ss ih =>
    have hs : s.length ≠ 0 := by
      have := hne s List.mem_cons_self
      rw [Ne, List.length_eq_zero_iff]; exact this
    have h1 : sizeOf' (s :: ss) = stateSize s.length + sizeOf' ss := by simp [sizeOf']
    rw [h1] at hsz
    simp only [stateOffsets, if_neg hs]
    rw [Nat.mod_eq_of_lt (by omega), ih _ (fun x hx => hne x (List.mem_cons_of_mem _ hx)) (by omega)]
    simp only [Option.map_some, List.length_cons, List.range_succ_eq_map, List.map_cons, List.map_map, Option.some.injEq,
      List.cons.injEq]
    refine ⟨by simp [offsetOf, sizeOf'], ?_⟩
    apply List.map_congr_left
    intro i _
    simp only [offsetOf, Function.comp, List.take_succ_cons, sizeOf', List.map_cons, List.sum_cons]
    omega

theorem mapM_some {α β : Type} {f : α → Option β} {g : α → β} {l : List α} (h : ∀ x ∈ l, f x = some (g x)) :
    l.mapM f = some (l.map g) := by
  induction l with
  | nil => rfl
  | cons x l ih =>
    rw [List.mapM_cons, h x List.mem_cons_self, ih (fun y hy => h y (List.mem_cons_of_mem _ hy))]
    rfl

/-- The cells of one state. -/
def cellsOf (states : List (List CTrans)) (s : List CTrans) : List OutCell :=
  stateCells (s.map fun t => (t, offsetOf states t.targetOrd))

theorem tableCells_eq {states : List (List CTrans)} (hne : ∀ s ∈ states, s ≠ [])
    (ht : ∀ s ∈ states, ∀ t ∈ s, t.targetOrd < states.length) (hsz : sizeOf' states < 2 ^ 32) :
    tableCells states = some (states.flatMap (cellsOf states)) := by
  unfold tableCells
  rw [stateOffsets_eq states 0 hne (by omega)]
  have hm : states.mapM (setTargets ((List.range states.length).map fun i => 0 + offsetOf states i)) =
      some (states.map fun s => s.map fun t => (t, offsetOf states t.targetOrd)) := by
    apply mapM_some
    intro s hs
    unfold setTargets
    apply mapM_some
    intro t htm
    have := ht s hs t htm
    simp [List.getElem?_map, List.getElem?_range this]
  simp only [Option.bind_eq_bind, Option.bind_some, hm, Option.pure_def, List.flatMap_map]
  rfl

theorem stateCells_length (s : List (CTrans × Nat)) : (stateCells s).length = stateSize s.length := by
  cases s with
  | nil => rfl
  | cons x s =>
    unfold stateCells stateSize
    simp only [List.length_cons, List.length_append, List.length_map]
    split <;> split <;> simp only [List.length_cons, List.length_nil] <;> omega

theorem placed_trans_zero (xs : List (CTrans × Nat)) {rest : List OutCell} (h : Placed false rest) :
    Placed false ((xs.map fun x => OutCell.trans (transCell x.2 0 x.1)) ++ rest) := by
  induction xs with
  | nil => exact h
  | cons x xs ih =>
    show Placed ((transCell x.2 0 x.1).more == 0xFF) _
    exact ih

theorem placed_state (s : List (CTrans × Nat)) {rest : List OutCell} (h : Placed false rest) :
    Placed false (stateCells s ++ rest) := by
  cases s with
  | nil => exact h
  | cons x s =>
    unfold stateCells
    by_cases hl : 255 < (x :: s).length
    · simp only [if_pos hl]
      show Placed (_ == 0xFF) _
      rw [show ((transCell x.2 255 x.1).more == 0xFF) = true from rfl]
      show Placed false _
      exact placed_trans_zero s h
    · simp only [if_neg hl]
      show Placed (_ == 0xFF) _
      have hlen : (x :: s).length - 1 < 255 := by omega
      have : ((transCell x.2 ((x :: s).length - 1) x.1).more == 0xFF) = false := by
        simp only [transCell, beq_eq_false_iff_ne, ne_eq]
        omega
      rw [this]
      show Placed false ([] ++ _ ++ _)
      exact placed_trans_zero s h

theorem placed_table (states : List (List CTrans)) (g : List CTrans → List (CTrans × Nat)) :
    Placed false (states.flatMap fun s => stateCells (g s)) := by
  induction states with
  | nil => trivial
  | cons s ss ih => rw [List.flatMap_cons]; exact placed_state _ ih

theorem placed_cells (states : List (List CTrans)) : Placed false (states.flatMap (cellsOf states)) := placed_table _ _

theorem cellFits_trans (a b : Nat) (t : CTrans) : CellFits (transCell a b t) :=
  ⟨Nat.mod_lt _ (by decide), Nat.mod_lt _ (by decide), Nat.mod_lt _ (by decide), Nat.mod_lt _ (by decide)⟩

theorem fits_state (s : List (CTrans × Nat)) (hl : s.length < 2 ^ 32) : ∀ c ∈ stateCells s, OutFits c := by
  intro c hc
  cases s with
  | nil => exact absurd hc (List.not_mem_nil)
  | cons x s =>
    unfold stateCells at hc
    simp only [List.mem_cons, List.mem_append, List.mem_map] at hc
    rcases hc with hc | hc | ⟨y, _, hc⟩
    · subst hc; exact cellFits_trans _ _ _
    · split at hc
      · simp only [List.mem_singleton] at hc
        subst hc
        show _ < 4294967296
        omega
      · exact absurd hc (List.not_mem_nil)
    · subst hc; exact cellFits_trans _ _ _

theorem stateSize_ge (n : Nat) : n ≤ stateSize n := by unfold stateSize; split <;> omega

theorem length_le_size {states : List (List CTrans)} {s : List CTrans} (h : s ∈ states) : s.length ≤ sizeOf' states := by
  induction states with
  | nil => exact absurd h List.not_mem_nil
  | cons x xs ih =>
    have e : sizeOf' (x :: xs) = stateSize x.length + sizeOf' xs := by simp [sizeOf']
    rw [e]
    rcases List.mem_cons.1 h with rfl | h
    · have := stateSize_ge s.length
      omega
    · have := ih h
      omega

theorem fits_table {states : List (List CTrans)} (hsz : sizeOf' states < 2 ^ 32) :
    ∀ c ∈ states.flatMap (cellsOf states), OutFits c := by
  intro c hc
  obtain ⟨s, hs, hc⟩ := List.mem_flatMap.1 hc
  exact fits_state _ (by have := length_le_size hs; rw [List.length_map]; omega) c hc

/-! ## Reading the symbols -/

/-- `UnweightedTransducer.cpp:160-176` for the symbols from number `i` on. -/
def foldSymbols : Nat → SymTab → List (List Nat) → UB (Option SymTab)
  | _, st, [] => some (some st)
  | i, st, s :: ss =>
    (addSymbol st i s).bind fun
      | none => some none
      | some st => foldSymbols (i + 1) st ss

theorem readSymbols_fold {ss : List (List Nat)} (hz : ∀ s ∈ ss, 0 ∉ s) (i : Nat) (hi : i ≠ 0) (st : SymTab) (rest : List Nat) :
    readSymbols ss.length i st (symBytes ss ++ rest) =
      (foldSymbols i st ss).map fun o => o.map fun st => (st, (symBytes ss).length, rest) := by
  induction ss generalizing i st with
  | nil => rfl
  | cons s ss ih =>
    have e : symBytes (s :: ss) ++ rest = s ++ 0 :: (symBytes ss ++ rest) := by simp [symBytes]
    have e2 : (symBytes (s :: ss)).length = (symBytes ss).length + s.length + 1 := by
      simp only [symBytes, List.flatMap_cons, List.length_append, List.length_cons, List.length_nil]; omega
    rw [e, e2, List.length_cons, readSymbols, cstring_append (hz s List.mem_cons_self)]
    simp only [Option.bind_eq_bind, Option.bind_some, if_neg hi, foldSymbols]
    cases h1 : addSymbol st i s with
    | none => rfl
    | some o =>
      cases o with
      | none => rfl
      | some st' =>
        simp only [Option.bind_some]
        rw [ih (fun x hx => hz x (List.mem_cons_of_mem _ hx)) (i + 1) (by omega) st']
        cases h2 : foldSymbols (i + 1) st' ss with
        | none => rfl
        | some o2 => cases o2 <;> rfl

/-- The symbol table after epsilon has been read. -/
def initTab : SymTab := { ({} : SymTab) with symbols := [[]], diacritics := [⟨.P, 0, 0⟩] }

/-- The transducer made of a symbol table and cells. -/
def fstOf (st : SymTab) (cells : List Cell) : Fst :=
  { cells, symbols := st.symbols, firstNormal := st.firstNormal, diacritics := st.diacritics,
    featureCount := st.features.length % 65536, charToSym := st.charToSym }

theorem readBody_layout {ss : List (List Nat)} {cells : List OutCell} (hs : ss.length + 1 < 65536) (hz : ∀ s ∈ ss, 0 ∉ s)
    (hf : ∀ c ∈ cells, OutFits c) :
    readBody (layoutBody false ([] :: ss) cells) =
      (foldSymbols 1 initTab ss).map fun o => o.map fun st => fstOf st (cells.map OutCell.toCell) := by
  have l1 : load16 ((ss.length + 1) % 256) ((ss.length + 1) / 256 % 256) = ss.length + 1 := by unfold load16; omega
  have e : ∀ rest, symBytes ([] :: ss) ++ rest = 0 :: (symBytes ss ++ rest) := by intro rest; simp [symBytes]
  have e2 : (symBytes ([] :: ss)).length = (symBytes ss).length + 1 := by simp [symBytes, Nat.add_comm]
  unfold layoutBody readBody
  simp only [Bool.false_eq_true, if_false, store16, List.cons_append, List.nil_append, List.append_assoc, List.length_cons, l1]
  rw [e, e2, readSymbols]
  have u : ucs4FromUtf8 [] = some (some []) := by decide
  simp only [cstring, Option.bind_eq_bind, Option.bind_some, Option.pure_def, if_true, u, List.drop_succ_cons, List.drop_zero]
  have := readSymbols_fold hz 1 (by decide) initTab
    (List.replicate (if 0 < (18 + ((symBytes ss).length + 1)) % 8 then 8 - (18 + ((symBytes ss).length + 1)) % 8 else 0) 0 ++
      cells.flatMap (writeCell false))
  rw [show ({ symbols := [[]], diacritics := [⟨.P, 0, 0⟩] } : SymTab) = initTab from rfl, this]
  cases h : foldSymbols 1 initTab ss with
  | none => rfl
  | some o =>
    cases o with
    | none => rfl
    | some st =>
      simp only [Option.map_some, Option.bind_some, Option.some.injEq, fstOf]
      have e3 : 16 + 2 + ((symBytes ss).length + 1) = 18 + ((symBytes ss).length + 1) := by omega
      rw [e3]
      by_cases hp : 0 < (18 + ((symBytes ss).length + 1)) % 8
      · rw [if_pos hp, if_pos hp, List.drop_left' (by simp), loadCells_write hf]
      · rw [if_neg hp, if_neg hp]
        simp only [List.replicate_zero, List.nil_append, loadCells_write hf]

/-! ## The symbol table -/

/-- What holds for the symbol table after `i` symbols. -/
structure SymInv (st : SymTab) (i : Nat) : Prop where
  len : st.symbols.length = i
  eps : st.symbols[0]? = some []
  dia0 : st.firstNormal = 0 → st.diacritics.length = i
  dia1 : st.firstNormal ≠ 0 → st.diacritics.length = st.firstNormal ∧ st.firstNormal < i
  feat : ∀ k, k ≠ 0 → ∀ ofv, st.diacritics[k]? = some ofv → ofv.feature < st.features.length
  keys : ∀ e ∈ st.features, e.2 < st.features.length
  flen : st.features.length < i
  chars : ∀ e ∈ st.charToSym, st.firstNormal ≤ e.2 ∧ e.2 < i
  chars0 : st.firstNormal = 0 → st.charToSym = []

theorem internKey_spec {m : List (List Nat × Nat)} {key : List Nat} (hk : ∀ e ∈ m, e.2 < m.length) (hl : m.length < 65536) :
    (internKey m key).1 < (internKey m key).2.length ∧ (∀ e ∈ (internKey m key).2, e.2 < (internKey m key).2.length) ∧
    m.length ≤ (internKey m key).2.length ∧ (internKey m key).2.length ≤ m.length + 1 := by
  unfold internKey
  cases h : m.lookup key with
  | some v =>
    have : (key, v) ∈ m := by
      clear hk hl
      induction m with
      | nil => simp at h
      | cons x m ih =>
        obtain ⟨x1, x2⟩ := x
        rw [List.lookup_cons] at h
        split at h
        · rename_i hx
          simp only [beq_iff_eq] at hx
          cases h
          rw [hx]
          exact List.mem_cons_self
        · exact List.mem_cons_of_mem _ (ih h)
    exact ⟨hk _ this, hk, Nat.le_refl _, Nat.le_succ _⟩
  | none =>
    simp only [List.length_append, List.length_cons, List.length_nil, List.mem_append, List.mem_singleton,
      Nat.mod_eq_of_lt hl]
    refine ⟨by omega, ?_, by omega, by omega⟩
    rintro e (he | rfl)
    · have := hk e he; omega
    · simp

theorem diacritic_spec {symbol : List Nat} {fs vs fs' vs' : List (List Nat × Nat)} {o : Ofv}
    (h : getDiacriticOperation symbol fs vs = some (o, fs', vs')) (hk : ∀ e ∈ fs, e.2 < fs.length) (hl : fs.length < 65536) :
    o.feature < fs'.length ∧ (∀ e ∈ fs', e.2 < fs'.length) ∧ fs.length ≤ fs'.length ∧ fs'.length ≤ fs.length + 1 := by
  unfold getDiacriticOperation at h
  extract_lets op fav at h
  split at h
  · cases h
  · cases hfd : findDot fav <;>
    · simp only [hfd, Option.some.injEq, Prod.mk.injEq] at h
      obtain ⟨rfl, rfl, rfl⟩ := h
      exact internKey_spec hk hl

theorem addSymbol_inv {st st' : SymTab} {i : Nat} {symbol : List Nat} (inv : SymInv st i) (hi : 0 < i) (hlt : i < 65536)
    (h : addSymbol st i symbol = some (some st')) : SymInv st' (i + 1) := by
  unfold addSymbol at h
  cases hu : ucs4FromUtf8 symbol with
  | none => rw [hu] at h; cases h
  | some o =>
    rw [hu] at h
    cases o with
    | none =>
      simp only [Option.bind_eq_bind, Option.bind_some] at h
      split at h
      · split at h <;> cases h
      · cases h
    | some text =>
      simp only [Option.bind_eq_bind, Option.bind_some] at h
      have key : ∀ st1 : SymTab, st1.symbols = st.symbols → st1.charToSym = st.charToSym →
          (st1.firstNormal = 0 → st1.diacritics.length = i + 1) →
          (st1.firstNormal ≠ 0 → st1.diacritics.length = st1.firstNormal ∧ st1.firstNormal < i + 1) →
          (∀ k, k ≠ 0 → ∀ ofv, st1.diacritics[k]? = some ofv → ofv.feature < st1.features.length) →
          (∀ e ∈ st1.features, e.2 < st1.features.length) → st1.features.length < i + 1 →
          (∀ e ∈ st.charToSym, st1.firstNormal ≤ e.2 ∧ e.2 < i) → (st1.firstNormal = 0 → st.firstNormal = 0) →
          SymInv { st1 with symbols := st1.symbols ++ [text], charToSym := if 0 < st1.firstNormal ∧ st1.firstMulti = 0 then
            st1.charToSym ++ [(text.headD 0, i)] else st1.charToSym } (i + 1) := by
        intro st1 h1 h2 h3 h4 h5 h6 h7 h8 h9
        refine ⟨by simp [h1, inv.len], ?_, h3, h4, h5, h6, h7, ?_, ?_⟩
        · have : (st1.symbols ++ [text])[0]? = st1.symbols[0]? := by
            rw [List.getElem?_append_left]; rw [h1, inv.len]; exact hi
          show (st1.symbols ++ [text])[0]? = _
          rw [this, h1, inv.eps]
        · intro e he
          simp only at he
          have hfn : st1.firstNormal ≤ i := by
            by_cases h0 : st1.firstNormal = 0
            · omega
            · have := (h4 h0).2; omega
          split at he
          · rw [h2] at he
            rcases List.mem_append.1 he with he | he
            · have := h8 e he; exact ⟨this.1, by omega⟩
            · rw [List.mem_singleton] at he; subst he; exact ⟨hfn, by simp⟩
          · rw [h2] at he
            have := h8 e he; exact ⟨this.1, by omega⟩
        · intro hz
          simp only at hz ⊢
          rw [if_neg (by omega), h2]
          exact inv.chars0 (h9 hz)
      by_cases h0 : st.firstNormal = 0
      · simp only [if_pos h0] at h
        by_cases hat : symbol[0]? = some 64
        · simp only [if_pos hat] at h
          cases hd : getDiacriticOperation symbol st.features st.values with
          | none => rw [hd] at h; cases h
          | some r =>
            obtain ⟨o, f, v⟩ := r
            rw [hd] at h
            simp only [Option.map_some, Option.pure_def, Option.some.injEq] at h
            subst h
            obtain ⟨d1, d2, d3, d4⟩ := diacritic_spec hd inv.keys (by have := inv.flen; omega)
            refine key { st with diacritics := st.diacritics ++ [o], features := f, values := v } rfl rfl
              (fun _ => by simp [inv.dia0 h0]) (fun hn => absurd h0 hn) ?_ d2
              (by have := inv.flen; show f.length < i + 1; omega) inv.chars (fun _ => h0)
            intro k hk ofv hofv
            simp only at hofv
            by_cases hlt' : k < st.diacritics.length
            · rw [List.getElem?_append_left hlt'] at hofv
              have := inv.feat k hk ofv hofv
              show ofv.feature < f.length
              omega
            · rw [List.getElem?_append_right (by omega)] at hofv
              have : ofv = o := by
                have := List.mem_of_getElem? hofv
                exact List.mem_singleton.1 this
              rw [this]
              exact d1
        · simp only [if_neg hat, Option.pure_def, Option.some.injEq] at h
          subst h
          refine key { st with firstNormal := i } rfl rfl (fun hz => absurd hz (by simp only; omega))
            (fun _ => ⟨inv.dia0 h0, by simp⟩) inv.feat inv.keys (by have := inv.flen; show st.features.length < i + 1; omega) ?_ (fun _ => h0)
          have hnone : ∀ e ∈ st.charToSym, False := by
            intro e he; rw [inv.chars0 h0] at he; cases he
          intro e he
          exact (hnone e he).elim
      · simp only [if_neg h0] at h
        have hfin : ∀ st1 : SymTab, st1.symbols = st.symbols → st1.charToSym = st.charToSym →
            st1.firstNormal = st.firstNormal → st1.diacritics = st.diacritics → st1.features = st.features →
            SymInv { st1 with symbols := st1.symbols ++ [text], charToSym := if 0 < st1.firstNormal ∧ st1.firstMulti = 0 then
              st1.charToSym ++ [(text.headD 0, i)] else st1.charToSym } (i + 1) := by
          intro st1 h1 h2 h3 h4 h5
          refine key st1 h1 h2 ?_ ?_ ?_ ?_ ?_ ?_ (fun hz => h3 ▸ hz)
          · rw [h3]; exact fun h => absurd h h0
          · rw [h3, h4]; intro _; have := inv.dia1 h0; exact ⟨this.1, by omega⟩
          · rw [h4, h5]; exact inv.feat
          · rw [h5]; exact inv.keys
          · rw [h5]; have := inv.flen; omega
          · rw [h3]; exact inv.chars
        by_cases hm : st.firstMulti = 0 ∧ symbol[0]? = some 91
        · simp only [if_pos hm, Option.pure_def, Option.some.injEq] at h
          subst h
          exact hfin { st with firstMulti := i } rfl rfl rfl rfl rfl
        · simp only [if_neg hm, Option.pure_def, Option.some.injEq] at h
          subst h
          exact hfin st rfl rfl rfl rfl rfl

theorem foldSymbols_inv {ss : List (List Nat)} {st st' : SymTab} {i : Nat} (inv : SymInv st i) (hi : 0 < i)
    (hlt : i + ss.length < 65536) (h : foldSymbols i st ss = some (some st')) : SymInv st' (i + ss.length) := by
  induction ss generalizing i st with
  | nil => cases h; exact inv
  | cons s ss ih =>
    rw [List.length_cons] at hlt
    unfold foldSymbols at h
    cases h1 : addSymbol st i s with
    | none => rw [h1] at h; cases h
    | some o =>
      rw [h1] at h
      cases o with
      | none => cases h
      | some st1 =>
        have := ih (addSymbol_inv inv hi (by omega) h1) (by omega) (by omega) h
        rw [List.length_cons]
        rw [show i + (ss.length + 1) = i + 1 + ss.length by omega]
        exact this

/-- Symbols that can be loaded: decodable, and flag diacritics are long enough. -/
def LoadableSymbol (s : List Nat) : Prop := (∃ text, ucs4FromUtf8 s = some (some text)) ∧ (s[0]? = some 64 → 4 < s.length)

theorem addSymbol_loads {st : SymTab} {i : Nat} {s : List Nat} (h : LoadableSymbol s) :
    ∃ st', addSymbol st i s = some (some st') := by
  obtain ⟨⟨text, hu⟩, hl⟩ := h
  unfold addSymbol
  rw [hu]
  simp only [Option.bind_eq_bind, Option.bind_some]
  by_cases h0 : st.firstNormal = 0
  · by_cases hat : s[0]? = some 64
    · have : ∃ r, getDiacriticOperation s st.features st.values = some r := by
        unfold getDiacriticOperation
        extract_lets op fav
        rw [if_neg (by have := hl hat; omega)]
        cases findDot fav <;> exact ⟨_, rfl⟩
      obtain ⟨r, hr⟩ := this
      rw [if_pos h0, if_pos hat, hr]
      exact ⟨_, rfl⟩
    · rw [if_pos h0, if_neg hat]
      exact ⟨_, rfl⟩
  · by_cases hm : st.firstMulti = 0 ∧ s[0]? = some 91
    · rw [if_neg h0, if_pos hm]
      exact ⟨_, rfl⟩
    · rw [if_neg h0, if_neg hm]
      exact ⟨_, rfl⟩

theorem foldSymbols_loads {ss : List (List Nat)} (h : ∀ s ∈ ss, LoadableSymbol s) (i : Nat) (st : SymTab) :
    ∃ st', foldSymbols i st ss = some (some st') := by
  induction ss generalizing i st with
  | nil => exact ⟨st, rfl⟩
  | cons s ss ih =>
    obtain ⟨st1, h1⟩ := addSymbol_loads (st := st) (i := i) (h s List.mem_cons_self)
    obtain ⟨st2, h2⟩ := ih (fun x hx => h x (List.mem_cons_of_mem _ hx)) (i + 1) st1
    exact ⟨st2, by rw [foldSymbols, h1]; exact h2⟩

theorem addSymbol_text {st st' : SymTab} {i : Nat} {s : List Nat} (h : addSymbol st i s = some (some st')) :
    ∃ text, ucs4FromUtf8 s = some (some text) ∧ st'.symbols = st.symbols ++ [text] := by
  unfold addSymbol at h
  cases hu : ucs4FromUtf8 s with
  | none => rw [hu] at h; cases h
  | some o =>
    rw [hu] at h
    cases o with
    | none =>
      simp only [Option.bind_eq_bind, Option.bind_some] at h
      split at h
      · split at h <;> cases h
      · cases h
    | some text =>
      refine ⟨text, rfl, ?_⟩
      simp only [Option.bind_eq_bind, Option.bind_some] at h
      split at h
      · cases h
      · rename_i st1 h1
        simp only [Option.pure_def, Option.some.injEq] at h
        subst h
        have : st1.symbols = st.symbols := by
          split at h1
          · split at h1
            · cases hd : getDiacriticOperation s st.features st.values with
              | none => rw [hd] at h1; cases h1
              | some r => rw [hd] at h1; cases h1; rfl
            · cases h1; rfl
          · split at h1 <;> · cases h1; rfl
        simp only [this]

theorem foldSymbols_texts {ss : List (List Nat)} {st st' : SymTab} {i : Nat} (h : foldSymbols i st ss = some (some st')) :
    ∃ texts : List (List Wc), st'.symbols = st.symbols ++ texts ∧ ss.map ucs4FromUtf8 = texts.map fun t => some (some t) := by
  induction ss generalizing i st with
  | nil => cases h; exact ⟨[], by simp, rfl⟩
  | cons s ss ih =>
    unfold foldSymbols at h
    cases h1 : addSymbol st i s with
    | none => rw [h1] at h; cases h
    | some o =>
      rw [h1] at h
      cases o with
      | none => cases h
      | some st1 =>
        obtain ⟨texts, h2, h3⟩ := ih h
        obtain ⟨text, h4, h5⟩ := addSymbol_text h1
        exact ⟨text :: texts, by rw [h2, h5]; simp, by rw [List.map_cons, List.map_cons, h4, h3]⟩

theorem initTab_inv : SymInv initTab 1 := by
  refine ⟨rfl, rfl, fun _ => rfl, fun h => absurd rfl h, ?_, ?_, by decide, ?_, fun _ => rfl⟩
  · intro k hk ofv h
    cases k with
    | zero => exact absurd rfl hk
    | succ k => cases h
  · intro e he; cases he
  · intro e he; cases he

end Verif.Props
