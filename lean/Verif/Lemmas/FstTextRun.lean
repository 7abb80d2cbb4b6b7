import Verif.Lemmas.FstTextLoad
/-!
# Lemmas on runs of a compiled text
-/

set_option linter.unusedSimpArgs false
set_option linter.unusedVariables false

namespace Verif.Att
open Verif Verif.Props

/-! ### The order of the symbols -/

theorem order_flag {a b : List Nat} (ha : a ≠ []) (hb : b ≠ []) (h : attSymLt b a = false) (h64 : b.head? = some 64) : a.head? = some 64 := by
  by_cases hn : a.head? = some 64
  · exact hn
  · unfold attSymLt at h
    rw [if_neg (fun e => hn (by rw [← e]; exact h64)), if_neg hb, if_neg ha, if_pos ⟨h64, hn⟩] at h
    cases h

theorem order_tag {a b : List Nat} (ha : a ≠ []) (hb : b ≠ []) (h : attSymLt b a = false) (h91 : a.head? = some 91) : b.head? = some 91 := by
  by_cases hn : b.head? = some 91
  · exact hn
  · have h64 : ¬ a.head? = some 64 := by rw [h91]; decide
    unfold attSymLt at h
    rw [if_neg (fun e => hn (by rw [e]; exact h91)), if_neg hb, if_neg ha] at h
    split at h
    · cases h
    · rw [if_neg (fun e => h64 e.1), if_neg (fun e => hn e.1), if_pos ⟨h91, hn⟩] at h
      cases h

theorem split3 {α : Type} {p q : α → Bool} (hpq : ∀ x, p x = true → q x = false) {l : List α}
    (h : l.Pairwise fun a b => (p b = true → p a = true) ∧ (q a = true → q b = true)) :
    l = l.filter p ++ (l.filter (fun x => !p x && !q x) ++ l.filter q) := by
  induction l with
  | nil => rfl
  | cons x l ih =>
    rw [List.pairwise_cons] at h
    have ih := ih h.2
    cases hp : p x with
    | true =>
      have hq := hpq x hp
      simp only [List.filter_cons, hp, hq, Bool.not_true, Bool.not_false, Bool.false_and, if_true, if_false, Bool.false_eq_true, List.cons_append]
      rw [← ih]
    | false =>
      have hnp : l.filter p = [] := by
        rw [List.filter_eq_nil_iff]
        intro y hy hpy
        rw [(h.1 y hy).1 hpy] at hp
        cases hp
      cases hq : q x with
      | false =>
        simp only [List.filter_cons, hp, hq, Bool.not_true, Bool.not_false, Bool.true_and, if_true, if_false, Bool.false_eq_true, List.cons_append, hnp,
          List.nil_append]
        rw [hnp, List.nil_append] at ih
        rw [← ih]
      | true =>
        have hall : ∀ y ∈ l, q y = true := fun y hy => (h.1 y hy).2 hq
        have h2 : l.filter (fun x => !p x && !q x) = [] := by
          rw [List.filter_eq_nil_iff]
          intro y hy
          simp [hall y hy]
        have h3 : l.filter q = l := by
          rw [List.filter_eq_self]; exact hall
        simp only [List.filter_cons, hp, hq, Bool.not_true, Bool.not_false, Bool.and_false, if_true, if_false, Bool.false_eq_true, hnp, h2, h3,
          List.nil_append]

theorem lift_symbols {symbols : List (List Nat)} (h : ∀ t ∈ symbols, ∃ s, ProperSymbol s ∧ t = encodeStr s) :
    ∃ Ss : List (List Wc), symbols = Ss.map encodeStr ∧ ∀ s ∈ Ss, ProperSymbol s := by
  induction symbols with
  | nil => exact ⟨[], rfl, by intro s hs; cases hs⟩
  | cons t ts ih =>
    obtain ⟨Ss, h1, h2⟩ := ih fun x hx => h x (List.mem_cons_of_mem _ hx)
    obtain ⟨s, h3, h4⟩ := h t List.mem_cons_self
    refine ⟨s :: Ss, by rw [List.map_cons, h1, h4], ?_⟩
    intro x hx
    rcases List.mem_cons.1 hx with rfl | hx
    · exact h3
    · exact h2 x hx

/-- A loaded file, with its symbol table. -/
theorem loaded_fold {ss : List (List Nat)} {states : List (List CTrans)} (g : GoodInput ([] :: ss) states) {doSwap : Bool}
    {file : List Nat} {f : Fst} (hw : writeFile doSwap ([] :: ss) states = some file) (hl : loadFile file = some (some f)) :
    ∃ st, foldSymbols 1 initTab ss = some (some st) ∧ f = fstOf st (tableOf states) := by
  rw [writeFile_eq g doSwap] at hw
  cases hw
  rw [loadFile_layout doSwap g.symCount g.noNul (placed_cells _) (fits_table (sizeOf_lt g))] at hl
  have hc := g.symCount
  rw [List.length_cons] at hc
  rw [readBody_layout hc (fun s hs => g.noNul s (List.mem_cons_of_mem _ hs)) (fits_table (sizeOf_lt g))] at hl
  cases h1 : foldSymbols 1 initTab ss with
  | none => rw [h1] at hl; cases hl
  | some o =>
    rw [h1] at hl
    cases o with
    | none => cases hl
    | some st =>
      simp only [Option.map_some, Option.some.injEq] at hl
      exact ⟨st, rfl, hl.symm⟩

theorem proper_valid {s : List Wc} (h : ProperSymbol s) : Valid s := fun c hc => (h.1 c hc).1

/-- The symbol tables of a compiled and loaded file. -/
theorem symbol_tables {ls : List Line} {symbols : List (List Nat)} {states : List (List CTrans)}
    (hp : Proper ls) (c : Compiled ls symbols states) {f : Fst}
    (hload : ∀ ss, symbols = [] :: ss → ∃ st cells, foldSymbols 1 initTab ss = some (some st) ∧ f = fstOf st cells) :
    ∃ Ss F V, symbols = Ss.map encodeStr ∧ (∀ s ∈ Ss, ProperSymbol s) ∧ Tables Ss f F V := by
  have g := compiled_good hp c
  obtain ⟨Ss, hSs, hprop⟩ := lift_symbols (symbols := symbols) (by
    intro t ht
    rcases c.from' t ht with rfl | ⟨l, hl, h⟩
    · exact ⟨[], ⟨by intro c hc; (cases hc), .inl rfl⟩, rfl⟩
    · obtain ⟨s, hs, rfl⟩ := mem_lineSyms h
      exact ⟨s, hp.symbols l hl s hs, rfl⟩)
  have hnd : Ss.Nodup := by
    have := c.nodup
    rw [hSs] at this
    exact List.Nodup.of_map _ this
  refine ⟨Ss, ?_⟩
  cases Ss with
  | nil => rw [hSs] at g; cases g.epsilon
  | cons s0 ss =>
    have h0 : s0 = [] := by
      have := g.epsilon
      rw [hSs, List.map_cons, List.getElem?_cons_zero, Option.some.injEq, encode_nil] at this
      exact this
    subst h0
    have hne : ∀ s ∈ ss, s ≠ [] := fun s hs e => (List.nodup_cons.1 hnd).1 (e ▸ hs)
    have hpw : ss.Pairwise fun a b => ((b.head? == some 64) = true → (a.head? == some 64) = true) ∧ ((a.head? == some 91) = true → (b.head? == some 91) = true) := by
      have h1 := c.sorted
      rw [hSs, List.map_cons, List.pairwise_cons, List.pairwise_map] at h1
      refine h1.2.imp_of_mem ?_
      intro a b ha hb hab
      have ha' : encodeStr a ≠ [] := fun e => hne a ha (encode_nil.1 e)
      have hb' : encodeStr b ≠ [] := fun e => hne b hb (encode_nil.1 e)
      simp only [beq_iff_eq]
      refine ⟨fun h => ?_, fun h => ?_⟩
      · exact (encode_head (by decide)).1 (order_flag ha' hb' hab ((encode_head (by decide)).2 h))
      · exact (encode_head (by decide)).1 (order_tag ha' hb' hab ((encode_head (by decide)).2 h))
    have hsplit := split3 (p := fun s : List Wc => s.head? == some 64) (q := fun s => s.head? == some 91) (by
      intro x hx
      simp only [beq_iff_eq] at hx
      rw [hx]; rfl) hpw
    obtain ⟨st, cells, hst, hf⟩ := hload (ss.map encodeStr) (by rw [hSs]; rfl)
    rw [hSs, List.map_cons, show encodeStr [] = [] from rfl] at g
    have hcount := g.symCount
    rw [List.length_cons, List.length_map] at hcount
    have hlen := congrArg List.length hsplit
    rw [List.length_append, List.length_append] at hlen
    rw [hsplit] at hst
    have hA : ∀ s ∈ ss.filter (fun s => s.head? == some 64), Valid s ∧ ∃ op x v, FlagText s op x v := by
      intro s hs
      obtain ⟨hm, hh⟩ := List.mem_filter.1 hs
      simp only [beq_iff_eq] at hh
      have hps := hprop s (List.mem_cons_of_mem _ hm)
      refine ⟨proper_valid hps, ?_⟩
      rcases hps.2 with rfl | h | ⟨r, hr, rfl⟩ | ⟨c, rfl, h1, h2⟩
      · cases hh
      · exact h
      · cases hh
      · exact absurd (by simpa using hh) h1
    have hB : ∀ s ∈ ss.filter (fun s => !(s.head? == some 64) && !(s.head? == some 91)), Letter s := by
      intro s hs
      obtain ⟨hm, hh⟩ := List.mem_filter.1 hs
      simp only [Bool.and_eq_true, Bool.not_eq_true', beq_eq_false_iff_ne] at hh
      have hps := hprop s (List.mem_cons_of_mem _ hm)
      refine ⟨proper_valid hps, ?_⟩
      rcases hps.2 with rfl | ⟨op, x, v, h⟩ | ⟨r, hr, rfl⟩ | h
      · exact absurd rfl (hne _ hm)
      · exact absurd (flag_head h) hh.1
      · exact absurd rfl hh.2
      · exact h
    have hC : ∀ s ∈ ss.filter (fun s => s.head? == some 91), Valid s ∧ s.head? = some 91 ∧ 2 ≤ s.length := by
      intro s hs
      obtain ⟨hm, hh⟩ := List.mem_filter.1 hs
      simp only [beq_iff_eq] at hh
      have hps := hprop s (List.mem_cons_of_mem _ hm)
      refine ⟨proper_valid hps, hh, ?_⟩
      rcases hps.2 with rfl | ⟨op, x, v, h⟩ | ⟨r, hr, rfl⟩ | ⟨c, rfl, h1, h2⟩
      · cases hh
      · rw [flag_head h] at hh; cases hh
      · have := List.length_pos_iff.2 hr; rw [List.length_cons]; omega
      · exact absurd (by simpa using hh) h2
    have hBn : ss.filter (fun s => !(s.head? == some 64) && !(s.head? == some 91)) ≠ [] := by
      obtain ⟨l, hl, ch, h64, h91, hm⟩ := hp.letter
      have h1 := c.all l hl _ (lineSyms_mem hm)
      rw [hSs, List.mem_map] at h1
      obtain ⟨s, hs, e⟩ := h1
      have hs1 : s = [ch] := encode_inj (proper_valid (hprop s hs)) (proper_valid (hp.symbols l hl _ hm)) e
      subst hs1
      have : [ch] ∈ ss := by
        rcases List.mem_cons.1 hs with h | h
        · cases h
        · exact h
      intro he
      have : [ch] ∈ ss.filter (fun s => !(s.head? == some 64) && !(s.head? == some 91)) := by
        refine List.mem_filter.2 ⟨this, ?_⟩
        simp [h64, h91]
      rw [he] at this
      cases this
    obtain ⟨F, V, ht⟩ := tables_of (cells := cells) hA hB hC hBn (by rw [← hsplit]; exact hnd) (by omega) hst
    rw [← hsplit, ← hf] at ht
    exact ⟨F, V, hSs, hprop, ht⟩

theorem compiled_tables {ls : List Line} {symbols : List (List Nat)} {states : List (List CTrans)}
    (hp : Proper ls) (c : Compiled ls symbols states) {sw : Bool} {file : List Nat} {f : Fst}
    (hw : writeFile sw symbols states = some file) (hl : loadFile file = some (some f)) :
    ∃ Ss F V, symbols = Ss.map encodeStr ∧ (∀ s ∈ Ss, ProperSymbol s) ∧ Tables Ss f F V := by
  refine symbol_tables hp c ?_
  intro ss e
  have g := compiled_good hp c
  rw [e] at g hw
  obtain ⟨st, h1, h2⟩ := loaded_fold g hw hl
  exact ⟨st, _, h1, h2⟩

/-! ### Flags -/

/-- The values of the features as numbers and as texts. -/
def SameFlags (F V : List (List Wc)) (flags : List Nat) (texts : List Wc → List Wc) : Prop :=
  flags.length = F.length ∧ ∀ (n : Nat) x, F[n]? = some x → ∃ v, flags[n]? = some v ∧ V[v]? = some (texts x)

theorem get_inj {V : List (List Wc)} (hn : V.Nodup) {i j : Nat} {a b : List Wc} (hi : V[i]? = some a) (hj : V[j]? = some b) : i = j ↔ a = b := by
  constructor
  · rintro rfl
    rw [hi] at hj
    exact Option.some.inj hj
  · rintro rfl
    exact (List.getElem?_inj (List.getElem?_eq_some_iff.1 hi).1 hn).1 (hi.trans hj.symm)

theorem effect_of_rel {V : List (List Wc)} (hn : V.Nodup) (h0 : V[0]? = some []) (h1 : V[1]? = some [64]) {op : FlagOp} {value old new : Nat}
    {v o : List Wc} (hv : V[value]? = some v) (ho : V[old]? = some o) (h : FlagRel op value old new) :
    ∃ w, V[new]? = some w ∧ Effect op v o w := by
  have e1 := get_inj hn ho h0
  have e2 := get_inj hn hv h1
  have e3 := get_inj hn ho hv
  cases op with
  | P => cases h; exact ⟨v, hv, rfl⟩
  | C => cases h; exact ⟨[], h0, rfl⟩
  | U =>
    rcases h with ⟨h, rfl⟩ | ⟨h2, h3, rfl⟩
    · exact ⟨v, hv, .inl ⟨e1.1 h, rfl⟩⟩
    · exact ⟨o, ho, .inr ⟨fun e => h2 (e1.2 e), e3.1 h3, rfl⟩⟩
  | R =>
    obtain ⟨rfl, h⟩ := h
    refine ⟨o, ho, rfl, ?_⟩
    split at h
    · rename_i hx; exact .inl ⟨e2.1 hx, fun e => h (e1.2 e)⟩
    · rename_i hx; exact .inr ⟨fun e => hx (e2.2 e), e3.1 h⟩
  | D =>
    obtain ⟨rfl, h⟩ := h
    refine ⟨o, ho, rfl, ?_⟩
    split at h
    · rename_i hx; exact .inl ⟨e2.1 hx, e1.1 h⟩
    · rename_i hx; exact .inr ⟨fun e => hx (e2.2 e), fun e => h (e3.2 e)⟩

theorem rel_of_effect {V : List (List Wc)} (hn : V.Nodup) (h0 : V[0]? = some []) (h1 : V[1]? = some [64]) {op : FlagOp} {value old : Nat}
    {v o w : List Wc} (hv : V[value]? = some v) (ho : V[old]? = some o) (h : Effect op v o w) :
    ∃ new, FlagRel op value old new ∧ V[new]? = some w := by
  have e1 := get_inj hn ho h0
  have e2 := get_inj hn hv h1
  have e3 := get_inj hn ho hv
  cases op with
  | P => cases h; exact ⟨value, rfl, hv⟩
  | C => cases h; exact ⟨0, rfl, h0⟩
  | U =>
    rcases h with ⟨h, rfl⟩ | ⟨h2, h3, rfl⟩
    · exact ⟨value, .inl ⟨e1.2 h, rfl⟩, hv⟩
    · exact ⟨old, .inr ⟨fun e => h2 (e1.1 e), e3.2 h3, rfl⟩, ho⟩
  | R =>
    obtain ⟨rfl, h⟩ := h
    refine ⟨old, ⟨rfl, ?_⟩, ho⟩
    rcases h with ⟨hx, h⟩ | ⟨hx, h⟩
    · rw [if_pos (e2.2 hx)]; exact fun e => h (e1.1 e)
    · rw [if_neg (fun e => hx (e2.1 e))]; exact e3.2 h
  | D =>
    obtain ⟨rfl, h⟩ := h
    refine ⟨old, ⟨rfl, ?_⟩, ho⟩
    rcases h with ⟨hx, h⟩ | ⟨hx, h⟩
    · rw [if_pos (e2.2 hx)]; exact e1.2 h
    · rw [if_neg (fun e => hx (e2.1 e))]; exact fun e => h (e3.1 e)

theorem sameFlags_set {F V : List (List Wc)} (hn : F.Nodup) {flags : List Nat} {texts : List Wc → List Wc} (h : SameFlags F V flags texts) {n new : Nat}
    {x w : List Wc} (hx : F[n]? = some x) (hw : V[new]? = some w) :
    SameFlags F V (flags.set n new) (fun y => if y = x then w else texts y) := by
  refine ⟨by rw [List.length_set]; exact h.1, ?_⟩
  intro m y hy
  have hlt : n < flags.length := by rw [h.1]; exact (List.getElem?_eq_some_iff.1 hx).1
  by_cases he : y = x
  · subst he
    have : m = n := (get_inj hn hy hx).2 rfl
    subst this
    exact ⟨new, by rw [List.getElem?_set_self hlt], by simpa using hw⟩
  · have hne : n ≠ m := fun e => he ((get_inj hn hy hx).1 e.symm)
    obtain ⟨v, h1, h2⟩ := h.2 m y hy
    exact ⟨v, by rw [List.getElem?_set_ne hne]; exact h1, by simp only [if_neg he]; exact h2⟩

end Verif.Att
