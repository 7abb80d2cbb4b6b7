import Verif.Lemmas.FstTextCompile
/-!
# Lemmas on loading the symbols of a compiled text
-/

set_option linter.unusedSimpArgs false
set_option linter.unusedVariables false

namespace Verif.Att
open Verif Verif.Props

/-- All characters are valid. -/
def Valid (s : List Wc) : Prop := ∀ c ∈ s, ValidCp c

theorem decode_text {s : List Wc} (h : Valid s) : ucs4FromUtf8 (encodeStr s) = some (some s) := by
  refine (C15_decoder_exact _ s ?_).2 ⟨h, rfl⟩
  intro b hb
  obtain ⟨c, hc, hb⟩ := List.mem_flatMap.1 hb
  exact enc_lt c (h c hc) b hb

theorem encode_inj {a b : List Wc} (ha : Valid a) (hb : Valid b) (h : encodeStr a = encodeStr b) : a = b := by
  have h1 := decode_text ha
  rw [h, decode_text hb] at h1
  exact (Option.some.inj (Option.some.inj h1)).symm

theorem encode_zero {s : List Wc} {b : Nat} (hb : b < 128) : (encodeStr s)[0]? = some b ↔ s.head? = some b := by
  rw [← List.head?_eq_getElem?]; exact encode_head hb

/-! ### Keys -/

theorem lookup_zipIdx (L : List (List Nat)) (key : List Nat) (n : Nat) :
    (L.zipIdx n).lookup key = if key ∈ L then some (n + L.idxOf key) else none := by
  induction L generalizing n with
  | nil => rfl
  | cons x L ih =>
    rw [List.zipIdx_cons, List.lookup_cons]
    by_cases h : key = x
    · subst h; simp
    · have h' : (key == x) = false := by simpa using h
      have h'' : (x == key) = false := by simpa using fun e : x = key => h e.symm
      simp only [h', ih, List.mem_cons]
      by_cases hm : key ∈ L
      · rw [if_pos hm, if_pos (Or.inr hm), List.idxOf_cons, h'']
        simp only [cond_false, Option.some.injEq]
        omega
      · rw [if_neg hm, if_neg]
        rintro (e | e)
        · exact h e
        · exact hm e

/-- A table of texts, numbered in order. -/
structure Keys (m : List (List Nat × Nat)) (F : List (List Wc)) : Prop where
  eq : m = (F.map encodeStr).zipIdx
  nodup : F.Nodup
  valid : ∀ x ∈ F, Valid x

theorem internKey_keys {m : List (List Nat × Nat)} {F : List (List Wc)} (k : Keys m F) {x : List Wc} (hx : Valid x) (hl : F.length < 65536) :
    ∃ n E, (internKey m (encodeStr x)).1 = n ∧ Keys (internKey m (encodeStr x)).2 (F ++ E) ∧ (F ++ E)[n]? = some x ∧ E.length ≤ 1 := by
  unfold internKey
  rw [k.eq, lookup_zipIdx]
  by_cases hm : encodeStr x ∈ F.map encodeStr
  · rw [if_pos hm]
    obtain ⟨y, hy, e⟩ := List.mem_map.1 hm
    refine ⟨_, [], rfl, by rw [List.append_nil]; exact ⟨rfl, k.nodup, k.valid⟩, ?_, by simp⟩
    have h1 : (F.map encodeStr)[(F.map encodeStr).idxOf (encodeStr x)]? = some (encodeStr x) := by
      rw [List.getElem?_eq_getElem (List.idxOf_lt_length_of_mem hm), List.getElem_idxOf]
    rw [List.getElem?_map, Option.map_eq_some_iff] at h1
    obtain ⟨z, hz, ez⟩ := h1
    have : z = x := encode_inj (k.valid z (List.mem_of_getElem? hz)) hx ez
    simp only [List.append_nil, Nat.zero_add]
    rw [hz, this]
  · rw [if_neg hm]
    refine ⟨_, [x], rfl, ⟨?_, ?_, ?_⟩, ?_, by simp⟩
    · simp only [List.map_append, List.map_singleton, List.zipIdx_append, List.length_zipIdx, List.length_map, Nat.mod_eq_of_lt hl]
      simp
    · rw [List.nodup_append]
      refine ⟨k.nodup, by simp, ?_⟩
      intro a ha b hb e
      rw [List.mem_singleton] at hb
      subst hb
      subst e
      exact hm (List.mem_map.2 ⟨a, ha, rfl⟩)
    · intro y hy
      rcases List.mem_append.1 hy with hy | hy
      · exact k.valid y hy
      · rw [List.mem_singleton] at hy; subst hy; exact hx
    · simp only [List.length_zipIdx, List.length_map, Nat.mod_eq_of_lt hl]
      simp

theorem findDot_text {a b : List Nat} (h : 46 ∉ a) : findDot (a ++ 46 :: b) = some a.length := by
  unfold findDot
  induction a with
  | nil => simp [List.findIdx?_cons]
  | cons x a ih =>
    rw [List.cons_append, List.findIdx?_cons]
    have : (x == 46) = false := by
      have : x ≠ 46 := fun e => h (by rw [e]; exact List.mem_cons_self)
      simpa using this
    rw [this, ih fun hm => h (List.mem_cons_of_mem _ hm)]
    rfl

theorem findDot_none {a : List Nat} (h : 46 ∉ a) : findDot a = none := by
  unfold findDot
  rw [List.findIdx?_eq_none_iff]
  intro x hx
  have : x ≠ 46 := fun e => h (e ▸ hx)
  simpa using this

theorem opLetter_lt (op : FlagOp) : opLetter op < 128 := by cases op <;> decide

theorem encode_flag (op : FlagOp) (mid : List Wc) :
    encodeStr ([64, opLetter op, 46] ++ mid ++ [64]) = 64 :: opLetter op :: 46 :: (encodeStr mid ++ [64]) := by
  rw [encodeStr_append, encodeStr_append]
  simp only [encodeStr, List.flatMap_cons, List.flatMap_nil, enc_ascii (opLetter_lt op), List.append_nil]
  rw [enc_ascii (show 64 < 128 by decide), enc_ascii (show 46 < 128 by decide)]
  rfl

theorem middle (op : FlagOp) (x : List Nat) :
    ((64 :: opLetter op :: 46 :: (x ++ [64])).drop 3).take ((64 :: opLetter op :: 46 :: (x ++ [64])).length - 4) = x := by
  simp only [List.drop_succ_cons, List.drop_zero, List.length_cons, List.length_append, List.length_nil]
  rw [show x.length + (0 + 1) + 1 + 1 + 1 - 4 = x.length by omega, List.take_left]

/-- Feature and value of the inner part of a flag diacritic. -/
def splitDot (x : List Nat) : List Nat × List Nat :=
  match findDot x with
  | none => (x, [64])
  | some i => (x.take i, x.drop (i + 1))

theorem diacritic_aux (op : FlagOp) {x a b : List Nat} (hx : x ≠ []) (h : splitDot x = (a, b)) (fs vs : List (List Nat × Nat)) :
    getDiacriticOperation (64 :: opLetter op :: 46 :: (x ++ [64])) fs vs =
      some (⟨op, (internKey fs a).1, (internKey vs b).1⟩, (internKey fs a).2, (internKey vs b).2) := by
  unfold getDiacriticOperation
  extract_lets op1 fav
  have hop : op1 = op := by cases op <;> rfl
  have hfav : fav = x := middle op x
  have hpos := List.length_pos_iff.2 hx
  rw [if_neg (by simp only [List.length_cons, List.length_append, List.length_nil]; omega), hop, hfav]
  unfold splitDot at h
  cases hfd : findDot x with
  | none => rw [hfd] at h; cases h; rfl
  | some i => rw [hfd] at h; cases h; rfl

/-- A flag diacritic is taken apart as it is written. -/
theorem diacritic_text {s x v : List Wc} {op : FlagOp} (h : FlagText s op x v) (fs vs : List (List Nat × Nat)) :
    getDiacriticOperation (encodeStr s) fs vs =
      some (⟨op, (internKey fs (encodeStr x)).1, (internKey vs (encodeStr v)).1⟩, (internKey fs (encodeStr x)).2, (internKey vs (encodeStr v)).2) := by
  cases h with
  | valued hx =>
    rw [encode_flag, encodeStr_append, encodeStr_cons, enc_ascii (show 46 < 128 by decide), List.singleton_append]
    refine diacritic_aux op (by simp) ?_ fs vs
    unfold splitDot
    rw [findDot_text (encode_notMem (by decide) hx)]
    simp only [List.take_left]
    rw [List.drop_append, List.drop_eq_nil_of_le (by omega)]
    simp
  | plain hx hne =>
    rw [encode_flag]
    refine diacritic_aux op (by rw [Ne, encode_nil]; exact hne) ?_ fs vs
    unfold splitDot
    rw [findDot_none (encode_notMem (by decide) hx)]
    rfl

theorem flag_valid {s x v : List Wc} {op : FlagOp} (h : FlagText s op x v) (hs : Valid s) : Valid x ∧ Valid v := by
  cases h with
  | valued hx =>
    refine ⟨fun c hc => hs c ?_, fun c hc => hs c ?_⟩ <;> simp [hc]
  | plain hx hne =>
    refine ⟨fun c hc => hs c ?_, fun c hc => hs c ?_⟩
    · simp [hc]
    · rw [List.mem_singleton] at hc; subst hc; simp

/-! ### The three kinds of symbols -/

/-- What is known about flag diacritics after some symbols. -/
structure FlagInv (st : SymTab) (Ss : List (List Wc)) (F V : List (List Wc)) : Prop where
  symbols : st.symbols = Ss
  normal : st.firstNormal = 0
  multi : st.firstMulti = 0
  chars : st.charToSym = []
  feats : Keys st.features F
  vals : Keys st.values V
  zero : V[0]? = some []
  one : V[1]? = some [64]
  flen : F.length ≤ Ss.length
  vlen : V.length ≤ Ss.length + 1
  dlen : st.diacritics.length = Ss.length
  dia : ∀ (k : Nat) s op x v, Ss[k]? = some s → FlagText s op x v →
    ∃ n m, st.diacritics[k]? = some ⟨op, n, m⟩ ∧ F[n]? = some x ∧ V[m]? = some v
  used : F ≠ [] → ∃ s ∈ Ss, s.head? = some 64

theorem addSymbol_flag {st : SymTab} {Ss F V : List (List Wc)} (inv : FlagInv st Ss F V) (hl : Ss.length + 1 < 65536) {s : List Wc} (hv : Valid s)
    {op : FlagOp} {x v : List Wc} (hf : FlagText s op x v) (i : Nat) :
    ∃ st' F' V', addSymbol st i (encodeStr s) = some (some st') ∧ FlagInv st' (Ss ++ [s]) F' V' := by
  obtain ⟨vx, vv⟩ := flag_valid hf hv
  obtain ⟨n, E, hn, kf, gn, le⟩ := internKey_keys inv.feats vx (by have := inv.flen; omega)
  obtain ⟨m, E', hm, kv, gm, le'⟩ := internKey_keys inv.vals vv (by have := inv.vlen; omega)
  refine ⟨{ st with diacritics := st.diacritics ++ [⟨op, n, m⟩], features := (internKey st.features (encodeStr x)).2, values := (internKey st.values (encodeStr v)).2, symbols := st.symbols ++ [s] }, F ++ E, V ++ E', ?_, ?_⟩
  · unfold addSymbol
    rw [decode_text hv]
    simp only [Option.bind_eq_bind, Option.bind_some]
    rw [if_pos inv.normal, if_pos ((encode_zero (by decide)).2 (flag_head hf)), diacritic_text hf, hn, hm]
    simp only [Option.map_some, Option.pure_def]
    rw [if_neg (by rw [inv.normal]; omega)]
  · have hz : ∀ (k : Nat) y (A B : List (List Wc)), A[k]? = some y → (A ++ B)[k]? = some y := by
      intro k y A B h
      rw [List.getElem?_append_left (List.getElem?_eq_some_iff.1 h).1]
      exact h
    refine ⟨by simp [inv.symbols], inv.normal, inv.multi, inv.chars, kf, kv, hz _ _ _ _ inv.zero, hz _ _ _ _ inv.one, ?_, ?_, ?_, ?_,
      fun _ => ⟨s, by simp, flag_head hf⟩⟩
    · have := inv.flen; simp only [List.length_append, List.length_cons, List.length_nil]; omega
    · have := inv.vlen; simp only [List.length_append, List.length_cons, List.length_nil]; omega
    · simp [inv.dlen]
    · intro k s' op' x' v' hk hf'
      by_cases hlt : k < Ss.length
      · rw [List.getElem?_append_left hlt] at hk
        obtain ⟨n', m', h1, h2, h3⟩ := inv.dia k s' op' x' v' hk hf'
        refine ⟨n', m', ?_, hz _ _ _ _ h2, hz _ _ _ _ h3⟩
        show (st.diacritics ++ _)[k]? = _
        rw [List.getElem?_append_left (by rw [inv.dlen]; exact hlt)]
        exact h1
      · have hke : k = Ss.length := by
          have := (List.getElem?_eq_some_iff.1 hk).1
          rw [List.length_append, List.length_singleton] at this
          omega
        subst hke
        simp only [List.getElem?_concat_length, Option.some.injEq] at hk
        subst hk
        have e := diacritic_text hf' st.features st.values
        rw [diacritic_text hf] at e
        simp only [Option.some.injEq, Prod.mk.injEq, Ofv.mk.injEq] at e
        obtain ⟨⟨e1, e2, e3⟩, e4, e5⟩ := e
        obtain ⟨vx', vv'⟩ := flag_valid hf' hv
        subst e1
        refine ⟨n, m, ?_, ?_, ?_⟩
        · show (st.diacritics ++ _)[Ss.length]? = _
          rw [← inv.dlen]; simp
        · obtain ⟨n', E2, hn', kf', gn', _⟩ := internKey_keys inv.feats vx' (by have := inv.flen; omega)
          have : (F ++ E).map encodeStr = (F ++ E2).map encodeStr := by
            have h1 := kf.eq
            have h2 := kf'.eq
            rw [e4, h2] at h1
            have := congrArg (List.map Prod.fst) h1
            rw [List.zipIdx_map_fst, List.zipIdx_map_fst] at this
            exact this.symm
          rw [← hn', ← e2, hn] at gn'
          have h3 : ((F ++ E).map encodeStr)[n]? = some (encodeStr x') := by rw [this, List.getElem?_map, gn']; rfl
          rw [List.getElem?_map, gn, Option.map_some, Option.some.injEq] at h3
          rw [gn, encode_inj vx vx' h3]
        · obtain ⟨n', E2, hn', kf', gn', _⟩ := internKey_keys inv.vals vv' (by have := inv.vlen; omega)
          have : (V ++ E').map encodeStr = (V ++ E2).map encodeStr := by
            have h1 := kv.eq
            have h2 := kf'.eq
            rw [e5, h2] at h1
            have := congrArg (List.map Prod.fst) h1
            rw [List.zipIdx_map_fst, List.zipIdx_map_fst] at this
            exact this.symm
          rw [← hn', ← e3, hm] at gn'
          have h3 : ((V ++ E').map encodeStr)[m]? = some (encodeStr v') := by rw [this, List.getElem?_map, gn']; rfl
          rw [List.getElem?_map, gm, Option.map_some, Option.some.injEq] at h3
          rw [gm, encode_inj vv vv' h3]

theorem fold_flags {A : List (List Wc)} (hA : ∀ s ∈ A, Valid s ∧ ∃ op x v, FlagText s op x v) (rest : List (List Nat)) {st : SymTab}
    {Ss F V : List (List Wc)} (inv : FlagInv st Ss F V) (hl : Ss.length + A.length < 65536) (i : Nat) :
    ∃ st' F' V', foldSymbols i st (A.map encodeStr ++ rest) = foldSymbols (i + A.length) st' rest ∧ FlagInv st' (Ss ++ A) F' V' := by
  induction A generalizing st Ss F V i with
  | nil => exact ⟨st, F, V, rfl, by rw [List.append_nil]; exact inv⟩
  | cons s A ih =>
    obtain ⟨hv, op, x, v, hf⟩ := hA s List.mem_cons_self
    rw [List.length_cons] at hl
    obtain ⟨st1, F1, V1, h1, inv1⟩ := addSymbol_flag inv (by omega) hv hf i
    obtain ⟨st2, F2, V2, h2, inv2⟩ := ih (fun y hy => hA y (List.mem_cons_of_mem _ hy)) inv1 (by simp only [List.length_append, List.length_cons, List.length_nil]; omega) (i + 1)
    refine ⟨st2, F2, V2, ?_, by simpa using inv2⟩
    rw [List.map_cons, List.cons_append, foldSymbols, h1, List.length_cons, show i + (A.length + 1) = i + 1 + A.length by omega]
    exact h2

/-- A letter. -/
def Letter (s : List Wc) : Prop := Valid s ∧ ∃ c, s = [c] ∧ c ≠ 64 ∧ c ≠ 91

/-- The characters of letters with their numbers. -/
def charsOf (i : Nat) (B : List (List Wc)) : List (Wc × Nat) := (B.zipIdx i).map fun x => (x.1.headD 0, x.2)

theorem letter_head {s : List Wc} (h : Letter s) : s.head? ≠ some 64 ∧ s.head? ≠ some 91 := by
  obtain ⟨_, c, rfl, h1, h2⟩ := h
  simp [h1, h2]

theorem fold_letters {B : List (List Wc)} (hB : ∀ s ∈ B, Letter s) (rest : List (List Nat)) {st : SymTab} (h0 : st.firstNormal ≠ 0)
    (hm : st.firstMulti = 0) (i : Nat) :
    foldSymbols i st (B.map encodeStr ++ rest) =
      foldSymbols (i + B.length) { st with symbols := st.symbols ++ B, charToSym := st.charToSym ++ charsOf i B } rest := by
  induction B generalizing st i with
  | nil => simp [charsOf]
  | cons s B ih =>
    have hs := hB s List.mem_cons_self
    have h1 : addSymbol st i (encodeStr s) = some (some { st with symbols := st.symbols ++ [s], charToSym := st.charToSym ++ [(s.headD 0, i)] }) := by
      unfold addSymbol
      rw [decode_text hs.1]
      simp only [Option.bind_eq_bind, Option.bind_some]
      rw [if_neg h0, if_neg (fun h => (letter_head hs).2 ((encode_zero (by decide)).1 h.2))]
      simp only [Option.pure_def]
      rw [if_pos ⟨by omega, hm⟩]
    rw [List.map_cons, List.cons_append, foldSymbols, h1, Option.bind_some]
    simp only
    rw [ih (fun y hy => hB y (List.mem_cons_of_mem _ hy)) (by exact h0) (by exact hm) (i + 1), List.length_cons,
      show i + 1 + B.length = i + (B.length + 1) by omega]
    simp [charsOf]

theorem add_firstLetter {s : List Wc} (hs : Letter s) {st : SymTab} (h0 : st.firstNormal = 0) (hm : st.firstMulti = 0) {i : Nat} (hi : 0 < i) :
    addSymbol st i (encodeStr s) =
      some (some { st with firstNormal := i, symbols := st.symbols ++ [s], charToSym := st.charToSym ++ [(s.headD 0, i)] }) := by
  unfold addSymbol
  rw [decode_text hs.1]
  simp only [Option.bind_eq_bind, Option.bind_some]
  rw [if_pos h0, if_neg (fun h => (letter_head hs).1 ((encode_zero (by decide)).1 h))]
  simp only [Option.pure_def]
  rw [if_pos ⟨hi, hm⟩]

theorem fold_tags {C : List (List Wc)} (hC : ∀ s ∈ C, Valid s ∧ s.head? = some 91) {st : SymTab} (h0 : st.firstNormal ≠ 0) {i : Nat} (hi : 0 < i) :
    ∃ k, foldSymbols i st (C.map encodeStr) = some (some { st with symbols := st.symbols ++ C, firstMulti := k }) := by
  induction C generalizing st i with
  | nil => exact ⟨st.firstMulti, by simp [foldSymbols]⟩
  | cons s C ih =>
    obtain ⟨hv, hh⟩ := hC s List.mem_cons_self
    have h91 : (encodeStr s)[0]? = some 91 := (encode_zero (by decide)).2 hh
    have h1 : ∃ k, addSymbol st i (encodeStr s) = some (some { st with symbols := st.symbols ++ [s], firstMulti := k }) := by
      unfold addSymbol
      rw [decode_text hv]
      simp only [Option.bind_eq_bind, Option.bind_some]
      rw [if_neg h0]
      by_cases hm : st.firstMulti = 0
      · rw [if_pos ⟨hm, h91⟩]
        simp only [Option.pure_def]
        rw [if_neg (by omega)]
        exact ⟨i, rfl⟩
      · rw [if_neg (fun h => hm h.1)]
        simp only [Option.pure_def]
        rw [if_neg (fun h => hm h.2)]
        exact ⟨st.firstMulti, rfl⟩
    obtain ⟨k, h1⟩ := h1
    obtain ⟨k', h2⟩ := ih (st := { st with symbols := st.symbols ++ [s], firstMulti := k }) (fun y hy => hC y (List.mem_cons_of_mem _ hy)) (by exact h0) (i := i + 1) (by omega)
    refine ⟨k', ?_⟩
    rw [List.map_cons, foldSymbols, h1, Option.bind_some]
    simp only
    rw [h2]
    simp

theorem lookup_chars {B : List (List Wc)} (hB : ∀ s ∈ B, Letter s) (c : Wc) (i : Nat) :
    (charsOf i B).lookup c = if [c] ∈ B then some (i + B.idxOf [c]) else none := by
  induction B generalizing i with
  | nil => rfl
  | cons s B ih =>
    obtain ⟨_, d, rfl, _, _⟩ := hB s List.mem_cons_self
    have e : charsOf i ([d] :: B) = (d, i) :: charsOf (i + 1) B := rfl
    rw [e, List.lookup_cons]
    by_cases h : c = d
    · subst h; simp
    · have h' : (c == d) = false := by simpa using h
      have h'' : (([d] : List Wc) == [c]) = false := by simpa using fun e : d = c => h e.symm
      simp only [h', ih (fun y hy => hB y (List.mem_cons_of_mem _ hy)), List.mem_cons]
      by_cases hm : [c] ∈ B
      · rw [if_pos hm, if_pos (Or.inr hm), List.idxOf_cons, h'']
        simp only [cond_false, Option.some.injEq]
        omega
      · rw [if_neg hm, if_neg]
        rintro (e | e)
        · exact h (by simpa using e)
        · exact hm e

/-! ### The loaded tables -/

/-- What the loaded symbol tables say. -/
structure Tables (Ss : List (List Wc)) (f : Fst) (F V : List (List Wc)) : Prop where
  symbols : f.symbols = Ss
  normal : ∀ (k : Nat) s, Ss[k]? = some s → (f.firstNormal ≤ k ↔ s ≠ [] ∧ s.head? ≠ some 64)
  chars : ∀ c k, k < Ss.length → (f.symOf c = k ↔ Ss[k]? = some [c] ∧ c ≠ 64 ∧ c ≠ 91)
  dia : ∀ (k : Nat) s op x v, Ss[k]? = some s → FlagText s op x v →
    ∃ n m, f.diacritics[k]? = some ⟨op, n, m⟩ ∧ F[n]? = some x ∧ V[m]? = some v
  fnodup : F.Nodup
  vnodup : V.Nodup
  zero : V[0]? = some []
  one : V[1]? = some [64]
  count : f.featureCount = F.length
  used : F ≠ [] → ∃ s ∈ Ss, s.head? = some 64

theorem tables_of {A B C : List (List Wc)} {cells : List Cell} {st : SymTab} (hA : ∀ s ∈ A, Valid s ∧ ∃ op x v, FlagText s op x v)
    (hB : ∀ s ∈ B, Letter s) (hC : ∀ s ∈ C, Valid s ∧ s.head? = some 91 ∧ 2 ≤ s.length) (hBn : B ≠ []) (hnd : ([] :: (A ++ (B ++ C))).Nodup)
    (hl : A.length + B.length + C.length + 1 < 65536)
    (h : foldSymbols 1 initTab ((A ++ (B ++ C)).map encodeStr) = some (some st)) :
    ∃ F V, Tables ([] :: (A ++ (B ++ C))) (fstOf st cells) F V := by
  have inv0 : FlagInv initTab [[]] [] [[], [64]] := by
    refine ⟨rfl, rfl, rfl, rfl, ⟨rfl, by simp, by intro x hx; cases hx⟩, ⟨rfl, by decide, ?_⟩, rfl, rfl, by simp, by simp, rfl, ?_, fun h => absurd rfl h⟩
    · intro x hx
      simp only [List.mem_cons, List.not_mem_nil, or_false] at hx
      rcases hx with rfl | rfl
      · intro c hc; cases hc
      · intro c hc
        rw [List.mem_singleton] at hc
        subst hc
        unfold ValidCp; decide
    · intro k s op x v hk hf
      have := List.mem_singleton.1 (List.mem_of_getElem? hk)
      subst this
      have := flag_head hf
      cases this
  rw [List.map_append, List.map_append] at h
  obtain ⟨st1, F, V, h1, inv⟩ := fold_flags hA (B.map encodeStr ++ C.map encodeStr) inv0 (by simp only [List.length_singleton]; omega) 1
  rw [h1] at h
  cases B with
  | nil => exact absurd rfl hBn
  | cons b B =>
    rw [List.map_cons, List.cons_append, foldSymbols, add_firstLetter (hB b List.mem_cons_self) inv.normal inv.multi (by omega), Option.bind_some] at h
    simp only at h
    rw [fold_letters (fun s hs => hB s (List.mem_cons_of_mem _ hs)) _ (by show 1 + A.length ≠ 0; omega) (by exact inv.multi)] at h
    obtain ⟨k, h2⟩ := fold_tags (C := C) (fun s hs => ⟨(hC s hs).1, (hC s hs).2.1⟩)
      (st := { st1 with firstNormal := 1 + A.length, symbols := st1.symbols ++ [b] ++ B, charToSym := st1.charToSym ++ [(b.headD 0, 1 + A.length)] ++ charsOf (1 + A.length + 1) B })
      (by show 1 + A.length ≠ 0; omega) (i := 1 + A.length + 1 + B.length) (by omega)
    rw [h2] at h
    simp only [Option.some.injEq] at h
    subst h
    have hchars : st1.charToSym ++ [(b.headD 0, 1 + A.length)] ++ charsOf (1 + A.length + 1) B = charsOf (1 + A.length) (b :: B) := by
      rw [inv.chars]; rfl
    have hsym : st1.symbols ++ [b] ++ B ++ C = [] :: (A ++ (b :: B ++ C)) := by rw [inv.symbols]; simp
    have hkind : ∀ (k : Nat) s, ([] :: (A ++ (b :: B ++ C)))[k]? = some s → (k < 1 + A.length ∧ ([] :: A)[k]? = some s) ∨
        (1 + A.length ≤ k ∧ (b :: B ++ C)[k - (1 + A.length)]? = some s) := by
      intro k s hk
      rw [← List.cons_append] at hk
      by_cases hlt : k < ([] :: A).length
      · rw [List.getElem?_append_left hlt] at hk
        exact .inl ⟨by rw [List.length_cons] at hlt; omega, hk⟩
      · rw [List.getElem?_append_right (by omega)] at hk
        rw [List.length_cons] at hlt hk
        exact .inr ⟨by omega, by rw [show k - (1 + A.length) = k - (A.length + 1) by omega]; exact hk⟩
    refine ⟨F, V, hsym, ?_, ?_, ?_, inv.feats.nodup, inv.vals.nodup, inv.zero, inv.one, ?_, ?_⟩
    · intro k s hk
      show 1 + A.length ≤ k ↔ _
      rcases hkind k s hk with ⟨hlt, hs⟩ | ⟨hge, hs⟩
      · constructor
        · intro h; omega
        · rintro ⟨h1, h2⟩
          rcases List.mem_cons.1 (List.mem_of_getElem? hs) with e | e
          · exact absurd e h1
          · obtain ⟨_, op, x, v, hf⟩ := hA s e
            exact absurd (flag_head hf) h2
      · refine ⟨fun _ => ?_, fun _ => hge⟩
        rcases List.mem_append.1 (List.mem_of_getElem? hs) with e | e
        · have hL := hB s e
          obtain ⟨_, c, rfl, h1, h2⟩ := hL
          exact ⟨by simp, by simp [h1]⟩
        · have hh := (hC s e).2.1
          refine ⟨?_, by rw [hh]; decide⟩
          rintro rfl
          cases hh
    · intro c k hk
      unfold Fst.symOf
      show ((st1.charToSym ++ [(b.headD 0, 1 + A.length)] ++ charsOf (1 + A.length + 1) B).lookup c).getD (st1.symbols ++ [b] ++ B ++ C).length = k ↔ _
      rw [hchars, lookup_chars hB, hsym]
      by_cases hm : [c] ∈ b :: B
      · rw [if_pos hm, Option.getD_some]
        have hg : (b :: B)[(b :: B).idxOf [c]]? = some [c] := by
          rw [List.getElem?_eq_getElem (List.idxOf_lt_length_of_mem hm), List.getElem_idxOf]
        have hlt := List.idxOf_lt_length_of_mem hm
        have hpos : ([] :: (A ++ (b :: B ++ C)))[1 + A.length + (b :: B).idxOf [c]]? = some [c] := by
          rw [← List.cons_append, List.getElem?_append_right (by rw [List.length_cons]; omega), List.length_cons,
            show 1 + A.length + (b :: B).idxOf [c] - (A.length + 1) = (b :: B).idxOf [c] by omega, List.getElem?_append_left hlt]
          exact hg
        obtain ⟨_, d, e, h1, h2⟩ := hB _ hm
        rw [List.cons.injEq] at e
        obtain ⟨rfl, _⟩ := e
        constructor
        · intro h; subst h
          exact ⟨hpos, h1, h2⟩
        · rintro ⟨h, _, _⟩
          have hi := (List.getElem?_eq_some_iff.1 hpos).1
          exact (List.getElem?_inj (l := ([] :: (A ++ (b :: B ++ C)))) hi hnd).1 (hpos.trans h.symm)
      · rw [if_neg hm, Option.getD_none]
        constructor
        · intro h; omega
        · rintro ⟨h, h64, h91⟩
          rcases hkind k _ h with ⟨hlt, hs⟩ | ⟨hge, hs⟩
          · rcases List.mem_cons.1 (List.mem_of_getElem? hs) with e | e
            · cases e
            · obtain ⟨_, op, x, v, hf⟩ := hA _ e
              exact absurd (by simpa using flag_head hf) h64
          · rcases List.mem_append.1 (List.mem_of_getElem? hs) with e | e
            · exact absurd e hm
            · exact absurd (by simpa using (hC _ e).2.1) h91
    · intro k s op x v hk hf
      rcases hkind k s hk with ⟨hlt, hs⟩ | ⟨hge, hs⟩
      · exact inv.dia k s op x v hs hf
      · rcases List.mem_append.1 (List.mem_of_getElem? hs) with e | e
        · exact absurd (flag_head hf) (letter_head (hB s e)).1
        · have := (hC s e).2.1
          rw [flag_head hf] at this
          cases this
    · show st1.features.length % 65536 = F.length
      rw [inv.feats.eq, List.length_zipIdx, List.length_map]
      have := inv.flen
      simp only [List.length_append, List.length_cons, List.length_nil] at this
      exact Nat.mod_eq_of_lt (by omega)
    · intro h
      obtain ⟨s, hs, h64⟩ := inv.used h
      rcases List.mem_append.1 hs with hs | hs
      · rw [List.mem_singleton.1 hs] at h64
        cases h64
      · exact ⟨s, by simp [hs], h64⟩

end Verif.Att
