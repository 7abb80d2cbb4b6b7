import Verif.Lemmas.FstTextTable
import Verif.Props.FstFile
/-!
# Lemmas on the tables made from the text of an automaton
-/

set_option linter.unusedSimpArgs false
set_option linter.unusedVariables false

namespace Verif.Att
open Verif Verif.Props

/-- What the compiler makes of lines: symbols and states. -/
structure Compiled (ls : List Line) (symbols : List (List Nat)) (states : List (List CTrans)) : Prop where
  nodup : symbols.Nodup
  count : symbols.length < 65536
  from' : ∀ t ∈ symbols, t = [] ∨ ∃ l ∈ ls, t ∈ lineSyms (bline l)
  all : ∀ l ∈ ls, ∀ t ∈ lineSyms (bline l), t ∈ symbols
  first : symbols[0]? = some []
  sorted : symbols.Pairwise fun a b => attSymLt b a = false
  lists : ∀ (i : Nat) s, states[i]? = some s → s.Perm (((ls.map bline).filter fun l => lineSrc l = i).map (lineTrans symbols))
  order : ∀ s ∈ states, s.Pairwise fun a b => fileOrderLt b a = false
  srcs : ∀ i, i < states.length ↔ ∃ l ∈ ls, l.src = i

theorem src_bline (l : Line) : lineSrc (bline l) = l.src := by cases l <;> rfl

theorem mem_lineSyms {l : Line} {t : List Nat} (h : t ∈ lineSyms (bline l)) : ∃ s ∈ l.symbols, t = encodeStr s := by
  cases l with
  | final s => cases h
  | arc a =>
    simp only [bline, lineSyms, List.mem_cons, List.not_mem_nil, or_false] at h
    rcases h with rfl | rfl
    · exact ⟨a.inp, by simp [Line.symbols], rfl⟩
    · exact ⟨a.out, by simp [Line.symbols], rfl⟩

theorem lineSyms_mem {l : Line} {s : List Wc} (h : s ∈ l.symbols) : encodeStr s ∈ lineSyms (bline l) := by
  cases l with
  | final _ => cases h
  | arc a =>
    simp only [Line.symbols, List.mem_cons, List.not_mem_nil, or_false] at h
    rcases h with rfl | rfl <;> simp [bline, lineSyms]

/-! ### Symbols -/

theorem enc_ascii {c : Nat} (h : c < 128) : enc c = [c] := by unfold enc; rw [if_pos h]

theorem enc_bytes {c b : Nat} (hb : b ∈ enc c) (h : b < 128) : b = c := by
  unfold enc at hb
  split at hb
  · simpa using hb
  · split at hb
    · simp only [List.mem_cons, List.not_mem_nil, or_false] at hb; omega
    · split at hb
      · simp only [List.mem_cons, List.not_mem_nil, or_false] at hb; omega
      · simp only [List.mem_cons, List.not_mem_nil, or_false] at hb; omega

theorem enc_head {c : Nat} : ∃ b r, enc c = b :: r ∧ (b < 128 → b = c) := by
  unfold enc
  split
  · exact ⟨c, [], rfl, fun _ => rfl⟩
  · split
    · exact ⟨_, _, rfl, by omega⟩
    · split
      · exact ⟨_, _, rfl, by omega⟩
      · exact ⟨_, _, rfl, by omega⟩

theorem encodeStr_cons (c : Nat) (s : List Nat) : encodeStr (c :: s) = enc c ++ encodeStr s := by simp [encodeStr]

theorem encodeStr_append (a b : List Nat) : encodeStr (a ++ b) = encodeStr a ++ encodeStr b := by simp [encodeStr]

theorem encode_nil {s : List Nat} : encodeStr s = [] ↔ s = [] := by
  cases s with
  | nil => simp [encodeStr]
  | cons c s => simp [encodeStr_cons, enc_ne_nil]

/-- The first byte of a symbol is ASCII only if its first character is. -/
theorem encode_head {s : List Nat} {b : Nat} (hb : b < 128) : (encodeStr s).head? = some b ↔ s.head? = some b := by
  cases s with
  | nil => simp [encodeStr]
  | cons c s =>
    obtain ⟨x, r, e, hx⟩ := enc_head (c := c)
    rw [encodeStr_cons, e]
    simp only [List.cons_append, List.head?_cons, Option.some.injEq]
    constructor
    · intro h; subst h; exact (hx hb).symm
    · intro h
      subst h
      rw [enc_ascii hb] at e
      cases e; rfl

theorem encode_notMem {s : List Nat} {b : Nat} (hb : b < 128) (h : b ∉ s) : b ∉ encodeStr s := by
  intro hm
  obtain ⟨c, hc, hm⟩ := List.mem_flatMap.1 hm
  rw [enc_bytes hm hb] at h
  exact h hc

theorem enc_lt (c : Nat) (h : ValidCp c) : ∀ b ∈ enc c, b < 256 := by
  intro b hb
  unfold ValidCp at h
  unfold enc at hb
  split at hb
  · simp only [List.mem_cons, List.not_mem_nil, or_false] at hb; omega
  · split at hb
    · simp only [List.mem_cons, List.not_mem_nil, or_false] at hb; omega
    · split at hb
      · simp only [List.mem_cons, List.not_mem_nil, or_false] at hb; omega
      · simp only [List.mem_cons, List.not_mem_nil, or_false] at hb; omega

theorem flag_head {s : List Wc} {op : FlagOp} {f v : List Wc} (h : FlagText s op f v) : s.head? = some 64 := by cases h <;> rfl

theorem flag_long {s : List Wc} {op : FlagOp} {f v : List Wc} (h : FlagText s op f v) : 4 < s.length := by
  cases h with
  | valued => simp only [List.length_append, List.length_cons, List.length_nil]; omega
  | plain _ hf =>
    have := List.length_pos_iff.2 hf
    simp only [List.length_append, List.length_cons, List.length_nil]; omega

theorem length_encode (s : List Nat) : s.length ≤ (encodeStr s).length := by
  induction s with
  | nil => simp
  | cons c s ih =>
    have := (enc_length c).1
    rw [encodeStr_cons, List.length_cons, List.length_append]
    omega

theorem proper_not_bracket {s : List Wc} (h : ProperSymbol s) : encodeStr s ≠ [91] := by
  intro e
  have hh : (encodeStr s).head? = some 91 := by rw [e]; rfl
  rw [encode_head (by decide)] at hh
  have hl := length_encode s
  rw [e] at hl
  rcases h.2 with rfl | ⟨op, f, v, hf⟩ | ⟨r, hr, rfl⟩ | ⟨c, rfl, h1, h2⟩
  · cases hh
  · rw [flag_head hf] at hh; cases hh
  · cases r with
    | nil => exact hr rfl
    | cons x r => simp at hl
  · exact h2 (by simpa using hh)

theorem proper_loadable {s : List Wc} (h : ProperSymbol s) : LoadableSymbol (encodeStr s) := by
  refine ⟨⟨s, (C15_decoder_exact _ s ?_).2 ⟨fun c hc => (h.1 c hc).1, rfl⟩⟩, ?_⟩
  · intro b hb
    obtain ⟨c, hc, hb⟩ := List.mem_flatMap.1 hb
    exact enc_lt c (h.1 c hc).1 b hb
  · intro h64
    rw [← List.head?_eq_getElem?, encode_head (by decide)] at h64
    have hl := length_encode s
    rcases h.2 with rfl | ⟨op, f, v, hf⟩ | ⟨r, hr, rfl⟩ | ⟨c, rfl, h1, h2⟩
    · cases h64
    · have := flag_long hf; omega
    · cases h64
    · exact absurd (by simpa using h64) h1

theorem proper_noNul {s : List Wc} (h : ProperSymbol s) : 0 ∉ encodeStr s :=
  encode_notMem (by decide) fun h0 => (h.1 0 h0).2 rfl

/-! ### The compiler -/

theorem in_order {ls : List Line} (h : Proper ls) : InOrder [] (ls.map bline) := by
  intro a l b e s hs
  have hk : (ls.map bline)[a.length]? = some l := by rw [e]; simp
  rw [List.getElem?_map, Option.map_eq_some_iff] at hk
  obtain ⟨l0, hk, rfl⟩ := hk
  rw [src_bline] at hs
  obtain ⟨j, l', hj, hl', he⟩ := h.order _ _ hk s hs
  refine ⟨bline l', ?_, by rw [src_bline]; exact he⟩
  rw [List.nil_append]
  have : (ls.map bline)[j]? = some (bline l') := by rw [List.getElem?_map, hl']; rfl
  rw [e, List.getElem?_append_left hj] at this
  exact List.mem_of_getElem? this

theorem few_symbols {ls : List Line} (h : Proper ls) {T : List (List Nat)} (hn : T.Nodup)
    (hf : ∀ t ∈ T, t = [] ∨ ∃ x ∈ [] ++ ls.map bline, t ∈ lineSyms x) : T.length < 65536 := by
  obtain ⟨all, hl, ha⟩ := h.count
  have hsub : T ⊆ [] :: all.map encodeStr := by
    intro t ht
    rcases hf t ht with rfl | ⟨x, hx, hm⟩
    · exact List.mem_cons_self
    · rw [List.nil_append] at hx
      obtain ⟨l, hl', rfl⟩ := List.mem_map.1 hx
      obtain ⟨s, hs, rfl⟩ := mem_lineSyms hm
      exact List.mem_cons_of_mem _ (List.mem_map.2 ⟨s, ha l hl' s hs, rfl⟩)
  have := (List.Nodup.subperm hn hsub).length_le
  rw [List.length_cons, List.length_map] at this
  omega

theorem sorted_first {symbols : List (List Nat)} (hm : [] ∈ symbols) (hs : symbols.Pairwise fun a b => attSymLt b a = false) :
    symbols[0]? = some [] := by
  cases symbols with
  | nil => cases hm
  | cons x l =>
    rw [List.getElem?_cons_zero, Option.some.injEq]
    rcases List.mem_cons.1 hm with h | h
    · exact h.symm
    · have := (List.pairwise_cons.1 hs).1 [] h
      by_cases hx : x = []
      · exact hx
      · unfold attSymLt at this
        rw [if_neg (fun e => hx e.symm), if_pos rfl] at this
        cases this

theorem mapM_mapM {α β : Type} {f : α → Option β} {g : α → β} {l : List (List α)} (h : ∀ s ∈ l, ∀ x ∈ s, f x = some (g x)) :
    (l.mapM fun s => s.mapM f) = some (l.map fun s => s.map g) := by
  apply mapM_some
  intro s hs
  exact mapM_some (h s hs)

/-- The compiler writes the file of the tables for the lines that the text describes. -/
theorem compile_tables {text : List Nat} {ls : List Line} (hd : Describes text ls) (hp : Proper ls)
    {srtS : List (Nat × List Nat) → List (Nat × List Nat)} {srtT : List CTrans → List CTrans}
    (hS : SortsBy (fun a b => attSymLt a.2 b.2) srtS) (hT : SortsBy fileOrderLt srtT) (sw : Bool) :
    ∃ symbols states, attCompile srtS srtT sw text = some (writeFile sw symbols states) ∧ Compiled ls symbols states := by
  obtain ⟨st, T, m, h1, b⟩ := addLines_spec built_nil (in_order hp) (by
      intro l hl t ht
      obtain ⟨l0, hl0, rfl⟩ := List.mem_map.1 hl
      obtain ⟨s, hs, rfl⟩ := mem_lineSyms ht
      exact proper_not_bracket (hp.symbols l0 hl0 s hs)) (fun T' hn hf => few_symbols hp hn hf)
  rw [List.nil_append] at b
  have hlen := few_symbols hp b.nodup (by
    intro t ht
    exact b.from' t ht)
  obtain ⟨hperm, hsort⟩ := hS st.syms
  rw [b.syms] at hperm hsort
  let symbols := (srtS (coded T)).map (·.2)
  have hsp : symbols.Perm T := sorted_perm hperm
  have hmem : ∀ t, t ∈ symbols ↔ t ∈ T := fun t => hsp.mem_iff
  have hsorted : symbols.Pairwise fun a b => attSymLt b a = false := by
    show ((srtS (coded T)).map (·.2)).Pairwise _
    rw [List.pairwise_map]
    exact hsort
  refine ⟨symbols, (stateLists symbols m (ls.map bline)).map srtT, ?_, ?_⟩
  · unfold attCompile
    rw [addAll_spec hd, h1]
    simp only [b.syms, b.states]
    have : (stateLists T m (ls.map bline)).mapM (fun s => s.mapM (attRenumber (attPairs (srtS (coded T))))) =
        some (stateLists symbols m (ls.map bline)) := by
      unfold stateLists
      rw [List.mapM_map]
      apply mapM_some
      intro i _
      simp only [Function.comp]
      rw [List.mapM_map]
      apply mapM_some
      intro l hl
      exact renumber_spec hperm b.nodup hlen (b.all l (List.mem_filter.1 hl).1)
    simp only [this, Option.bind_eq_bind, Option.bind_some, Option.pure_def]
    rfl
  · refine ⟨hsp.nodup_iff.2 b.nodup, by rw [hsp.length_eq]; exact hlen, ?_, ?_, ?_, hsorted, ?_, ?_, ?_⟩
    · intro t ht
      rcases b.from' t ((hmem t).1 ht) with h | ⟨x, hx, h⟩
      · exact .inl h
      · obtain ⟨l, hl, rfl⟩ := List.mem_map.1 hx
        exact .inr ⟨l, hl, h⟩
    · intro l hl t ht
      exact (hmem t).2 (b.all _ (List.mem_map.2 ⟨l, hl, rfl⟩) t ht)
    · exact sorted_first ((hmem _).2 (List.mem_of_getElem? b.first)) hsorted
    · intro i s hs
      rw [List.getElem?_map] at hs
      obtain ⟨s0, hs0, rfl⟩ := Option.map_eq_some_iff.1 hs
      unfold stateLists at hs0
      rw [List.getElem?_map] at hs0
      obtain ⟨j, hj, rfl⟩ := Option.map_eq_some_iff.1 hs0
      have hij : j = i := by
        have := List.getElem?_eq_some_iff.1 hj
        obtain ⟨_, h⟩ := this
        rw [List.getElem_range] at h
        exact h.symm
      rw [hij]
      exact (hT _).1
    · intro s hs
      obtain ⟨s0, _, rfl⟩ := List.mem_map.1 hs
      exact (hT _).2
    · intro i
      rw [List.length_map, stateLists_length, b.srcs i]
      constructor
      · rintro ⟨x, hx, e⟩
        obtain ⟨l, hl, rfl⟩ := List.mem_map.1 hx
        exact ⟨l, hl, by rw [← src_bline]; exact e⟩
      · rintro ⟨l, hl, e⟩
        exact ⟨bline l, List.mem_map.2 ⟨l, hl, rfl⟩, by rw [src_bline]; exact e⟩

/-! ### The input of the output part -/

theorem count_split (ls : List AttLine) (m : Nat) :
    (ls.filter fun l => decide (lineSrc l < m + 1)).length = (ls.filter fun l => decide (lineSrc l < m)).length + (ls.filter fun l => decide (lineSrc l = m)).length := by
  induction ls with
  | nil => rfl
  | cons l ls ih =>
    simp only [List.filter_cons, decide_eq_true_eq]
    by_cases h1 : lineSrc l < m
    · rw [if_pos (by omega), if_pos h1, if_neg (by omega), List.length_cons, List.length_cons, ih]; omega
    · by_cases h2 : lineSrc l = m
      · rw [if_pos (by omega), if_neg h1, if_pos h2, List.length_cons, List.length_cons, ih]; omega
      · rw [if_neg (by omega), if_neg h1, if_neg h2, ih]

theorem count_sum (ls : List AttLine) (m : Nat) :
    ((List.range m).map fun i => (ls.filter fun l => decide (lineSrc l = i)).length).sum = (ls.filter fun l => decide (lineSrc l < m)).length := by
  induction m with
  | zero => simp
  | succ m ih => rw [List.range_succ, List.map_append, List.sum_append, ih, count_split]; simp

theorem sum_sizes (l : List Nat) : (l.map fun n => if n ≤ 255 then n else n + 1).sum ≤ l.sum + l.sum / 256 := by
  induction l with
  | nil => simp
  | cons n l ih =>
    rw [List.map_cons, List.sum_cons, List.sum_cons]
    split <;> omega

theorem compiled_good {ls : List Line} {symbols : List (List Nat)} {states : List (List CTrans)}
    (hp : Proper ls) (c : Compiled ls symbols states) : GoodInput symbols states := by
  have hst : ∀ s ∈ states, ∃ i, i < states.length ∧ s.Perm (((ls.map bline).filter fun l => lineSrc l = i).map (lineTrans symbols)) := by
    intro s hs
    obtain ⟨i, hi, e⟩ := List.mem_iff_getElem.1 hs
    exact ⟨i, hi, c.lists i s (by rw [List.getElem?_eq_getElem hi, e])⟩
  have htr : ∀ s ∈ states, ∀ t ∈ s, ∃ l ∈ ls, t = lineTrans symbols (bline l) := by
    intro s hs t ht
    obtain ⟨i, hi, hperm⟩ := hst s hs
    have := (hperm.mem_iff).1 ht
    obtain ⟨x, hx, rfl⟩ := List.mem_map.1 this
    obtain ⟨l, hl, rfl⟩ := List.mem_map.1 (List.mem_filter.1 hx).1
    exact ⟨l, hl, rfl⟩
  obtain ⟨l0, hl0, _⟩ := hp.letter
  have hpos : 0 < states.length := by
    have := (c.srcs l0.src).2 ⟨l0, hl0, rfl⟩
    omega
  refine ⟨c.first, c.count, ?_, ?_, ?_, ?_, ?_, ?_⟩
  · intro t ht
    rcases c.from' t ht with rfl | ⟨l, hl, h⟩
    · simp
    · obtain ⟨s, hs, rfl⟩ := mem_lineSyms h
      exact proper_noNul (hp.symbols l hl s hs)
  · exact List.length_pos_iff.1 hpos
  · intro s hs e
    obtain ⟨i, hi, hperm⟩ := hst s hs
    obtain ⟨l, hl, hli⟩ := (c.srcs i).1 hi
    have : lineTrans symbols (bline l) ∈ s := by
      rw [hperm.mem_iff]
      refine List.mem_map.2 ⟨bline l, List.mem_filter.2 ⟨List.mem_map.2 ⟨l, hl, rfl⟩, ?_⟩, rfl⟩
      rw [decide_eq_true_eq, src_bline]; exact hli
    rw [e] at this
    cases this
  · intro s hs t ht
    obtain ⟨l, hl, rfl⟩ := htr s hs t ht
    cases l with
    | final _ => exact .inl ⟨rfl, rfl⟩
    | arc a =>
      exact .inr ⟨List.idxOf_lt_length_of_mem (c.all _ hl _ (by simp [bline, lineSyms])),
        List.idxOf_lt_length_of_mem (c.all _ hl _ (by simp [bline, lineSyms]))⟩
  · intro s hs t ht
    obtain ⟨l, hl, rfl⟩ := htr s hs t ht
    cases l with
    | final _ => exact hpos
    | arc a => exact (c.srcs a.tgt).2 (hp.targets a hl)
  · have e : (states.map fun s => if s.length ≤ 255 then s.length else s.length + 1) =
        ((List.range states.length).map fun i => ((ls.map bline).filter fun l => decide (lineSrc l = i)).length).map
          fun n => if n ≤ 255 then n else n + 1 := by
      apply List.ext_getElem?
      intro i
      rw [List.getElem?_map, List.getElem?_map, List.getElem?_map]
      by_cases hi : i < states.length
      · rw [List.getElem?_range hi, List.getElem?_eq_getElem hi]
        have := (c.lists i _ (List.getElem?_eq_getElem hi)).length_eq
        rw [List.length_map] at this
        simp only [Option.map_some, this]
      · rw [List.getElem?_eq_none (by omega), List.getElem?_eq_none (by simpa using hi)]
        rfl
    rw [e]
    refine Nat.le_trans (sum_sizes _) ?_
    rw [count_sum]
    have h1 := List.length_filter_le (fun l => decide (lineSrc l < states.length)) (ls.map bline)
    rw [List.length_map] at h1
    have := hp.size
    omega

/-! ### Line numbers -/

theorem perm_lift {α β : Type} {f : α → β} {a b : List β} (h : a.Perm b) :
    ∀ l : List α, b = l.map f → ∃ l' : List α, l'.Perm l ∧ a = l'.map f := by
  induction h with
  | nil => intro l e; exact ⟨l, .refl _, e⟩
  | cons x _ ih =>
    intro l e
    cases l with
    | nil => cases e
    | cons y l =>
      rw [List.map_cons, List.cons.injEq] at e
      obtain ⟨l', h1, h2⟩ := ih l e.2
      exact ⟨y :: l', h1.cons y, by rw [List.map_cons, ← e.1, h2]⟩
  | swap x y r =>
    intro l e
    match l, e with
    | p :: q :: l, e =>
      simp only [List.map_cons, List.cons.injEq] at e
      exact ⟨q :: p :: l, .swap p q l, by simp only [List.map_cons, ← e.1, ← e.2.1, ← e.2.2]⟩
  | trans _ _ ih1 ih2 =>
    intro l e
    obtain ⟨l1, h1, e1⟩ := ih2 l e
    obtain ⟨l2, h2, e2⟩ := ih1 l1 e1
    exact ⟨l2, h2.trans h1, e2⟩

/-- The numbers of the lines of a state. -/
def lineNumbers (ls : List AttLine) (i : Nat) : List Nat := (List.range ls.length).filter fun k => (ls[k]?).map lineSrc = some i

theorem filter_numbers (ls : List AttLine) (i : Nat) : ((lineNumbers ls i).map fun k => ls[k]?) = (ls.filter fun l => lineSrc l = i).map some := by
  unfold lineNumbers
  induction ls with
  | nil => rfl
  | cons l ls ih =>
    have hr : ∀ k : Nat, (l :: ls)[k + 1]? = ls[k]? := fun k => rfl
    rw [List.length_cons, List.range_succ_eq_map, List.filter_cons, List.filter_map]
    have e : ((List.range ls.length).filter ((fun k => decide (((l :: ls)[k]?).map lineSrc = some i)) ∘ Nat.succ)) =
        (List.range ls.length).filter fun k => decide ((ls[k]?).map lineSrc = some i) := by
      apply List.filter_congr
      intro k _
      rfl
    rw [e]
    by_cases h : lineSrc l = i
    · rw [if_pos (by simp [h]), List.filter_cons, if_pos (by simp [h]), List.map_cons, List.map_cons, List.map_map, ← ih]
      rfl
    · rw [if_neg (by simp [h]), List.filter_cons, if_neg (by simp [h]), List.map_map, ← ih]
      rfl

/-- Elements of the states that come from the lines are the lines in another order. -/
theorem arrange {α : Type} {ls : List Line} {tr : Nat → Line → α} {states : List (List α)}
    (h : ∀ (i : Nat) s, states[i]? = some s → (s.map some).Perm ((lineNumbers (ls.map bline) i).map fun k => (ls[k]?).map (tr k))) :
    ∃ K : Nat → List Nat, (∀ i, (K i).Nodup) ∧ (∀ i k, k ∈ K i ↔ ∃ l, ls[k]? = some l ∧ l.src = i) ∧
      ∀ (i : Nat) s, states[i]? = some s → s.map some = (K i).map fun k => (ls[k]?).map (tr k) := by
  have hK : ∀ i, ∃ K : List Nat, K.Perm (lineNumbers (ls.map bline) i) ∧
      ∀ s, states[i]? = some s → s.map some = K.map fun k => (ls[k]?).map (tr k) := by
    intro i
    cases hs : states[i]? with
    | none => exact ⟨_, .refl _, fun s h => by cases h⟩
    | some s =>
      obtain ⟨K, h1, h2⟩ := perm_lift (h i s hs) _ rfl
      exact ⟨K, h1, fun s' e => by cases e; exact h2⟩
  refine ⟨fun i => Classical.choose (hK i), ?_, ?_, ?_⟩
  · intro i
    rw [(Classical.choose_spec (hK i)).1.nodup_iff]
    exact List.Nodup.filter _ List.nodup_range
  · intro i k
    rw [(Classical.choose_spec (hK i)).1.mem_iff]
    unfold lineNumbers
    rw [List.mem_filter, decide_eq_true_eq, List.getElem?_map, List.mem_range, List.length_map, Option.map_map]
    constructor
    · rintro ⟨_, h⟩
      obtain ⟨l, hl, e⟩ := Option.map_eq_some_iff.1 h
      exact ⟨l, hl, by rw [← src_bline]; exact e⟩
    · rintro ⟨l, hl, e⟩
      refine ⟨(List.getElem?_eq_some_iff.1 hl).1, ?_⟩
      rw [hl, Option.map_some, Function.comp, src_bline, e]
  · intro i s hs
    exact (Classical.choose_spec (hK i)).2 s hs

/-- The transitions of the states are the lines in another order. -/
theorem arranged {ls : List Line} {symbols : List (List Nat)} {states : List (List CTrans)} (c : Compiled ls symbols states) :
    ∃ K : Nat → List Nat, (∀ i, (K i).Nodup) ∧ (∀ i k, k ∈ K i ↔ ∃ l, ls[k]? = some l ∧ l.src = i) ∧
      ∀ (i : Nat) s, states[i]? = some s → s.map some = (K i).map fun k => (ls[k]?).map fun l => lineTrans symbols (bline l) := by
  refine arrange (tr := fun _ l => lineTrans symbols (bline l)) ?_
  intro i s hs
  have hperm := (c.lists i s hs).map some
  have := congrArg (List.map (Option.map (lineTrans symbols))) (filter_numbers (ls.map bline) i)
  rw [List.map_map, List.map_map] at this
  rw [List.map_map] at hperm
  have e1 : List.map (some ∘ lineTrans symbols) (List.filter (fun l => decide (lineSrc l = i)) (List.map bline ls)) =
      List.map (Option.map (lineTrans symbols) ∘ some) (List.filter (fun l => decide (lineSrc l = i)) (List.map bline ls)) := rfl
  rw [e1, ← this] at hperm
  refine hperm.trans (List.Perm.of_eq ?_)
  apply List.map_congr_left
  intro k _
  simp only [Function.comp, List.getElem?_map, Option.map_map]
  rfl

end Verif.Att
