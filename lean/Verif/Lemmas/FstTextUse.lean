import Verif.Lemmas.FstTextStored
import Verif.Spec.FstTextUse
import Verif.Props.VfstSpell
/-!
# Readings of a loaded weighted file are runs of its text
-/

set_option linter.unusedSimpArgs false
set_option linter.unusedVariables false

namespace Verif.Att
open Verif Verif.Props

section
variable {wls : List (Line × Nat)} {f : WFst} {symbols : List (List Nat)} {states : List (List WTrans)} {reserved : Nat → Nat}
  {Ss F V : List (List Wc)} {K : Nat → List Nat} (st : Stored wls f symbols states reserved Ss F V K)
include st

theorem stored_good : GoodFst f := by
  obtain ⟨T, wf, h⟩ := st.wf
  exact ⟨⟨T, wf⟩, st.normal.1, st.normal.2, T, wf, h⟩

theorem stored_paths {word : List Wc} {q : List Nat} {e : Point}
    (hq : Path (plainFst f) (word.map (plainFst f).symOf) (startPoint (plainFst f)) q e) :
    ∃ bs p, q = bs.map (addrOf (bare states)) ∧ Linked K bs ∧ TakesAll (wls.map (·.1)) word ⟨0, 0, fun _ => []⟩ (bs.map (numberOf K)) p := by
  have h0 : startPoint (plainFst f) = atOffset (bare states) ⟨0, 0, List.replicate (plainFst f).featureCount 0⟩ := by
    simp [startPoint, atOffset, offsetOf, sizeOf']
  obtain ⟨bs, Q, h1, _, h3, _⟩ := apath_of_path st.gb st.holds hq _ (List.length_pos_iff.2 st.gb.initial) h0
  obtain ⟨p, h4, _, h5⟩ := takes_of_apath st.S h3 _ (start_same st.S)
  exact ⟨bs, p, h1, h5, h4⟩

theorem reading_run {word : List Wc} {q : List Nat} (h : Reading f word q) :
    ∃ run : List (Nat × Nat), q = run.map (addrOf (bare states)) ∧ Linked K run ∧
      Accepts (wls.map (·.1)) word false (run.map (numberOf K)) word.length ∧
      outputOf (plainFst f) q = runOutput (wls.map (·.1)) (run.map (numberOf K)) ∧ pathWeight f q = runWeight wls (run.map (numberOf K)) := by
  obtain ⟨run, rfl, hr⟩ := (accepting_iff st.gb st.holds).1 h
  obtain ⟨ha, hl⟩ := accepts_of st.S hr
  exact ⟨run, rfl, hl, ha, by rw [output_eq st.gb st.holds hr, output_of st.S hr], weight_of st.lines st.S.kmem st.g st.cells hl (run_ords st.S hr)⟩

theorem run_reading {word : List Wc} {ks : List Nat} {n : Nat} (h : Accepts (wls.map (·.1)) word false ks n) :
    ∃ q, Reading f word q ∧ outputOf (plainFst f) q = runOutput (wls.map (·.1)) ks ∧ pathWeight f q = runWeight wls ks := by
  have hn : n = word.length := by obtain ⟨_, _, _, _, _, _, _, h⟩ := h; exact h rfl
  subst hn
  obtain ⟨run, hr, rfl⟩ := of_accepts st.S h
  obtain ⟨ha, hl⟩ := accepts_of st.S hr
  exact ⟨_, (accepting_iff st.gb st.holds).2 ⟨run, rfl, hr⟩, by rw [output_eq st.gb st.holds hr, output_of st.S hr],
    weight_of st.lines st.S.kmem st.g st.cells hl (run_ords st.S hr)⟩

theorem stored_word {word : List Wc} : Props.Accepts f word ↔ IsWord (wls.map (·.1)) word := by
  constructor
  · rintro ⟨q, hq⟩
    obtain ⟨run, _, _, ha, _⟩ := reading_run st hq
    exact ⟨_, ha⟩
  · rintro ⟨run, hr⟩
    obtain ⟨q, hq, _⟩ := run_reading st hr
    exact ⟨q, hq⟩

theorem stored_unique {word : List Wc} (h : ∀ r r', Accepts (wls.map (·.1)) word false r word.length → Accepts (wls.map (·.1)) word false r' word.length → r = r')
    {q q' : List Nat} (hq : Reading f word q) (hq' : Reading f word q') : q = q' := by
  obtain ⟨run, rfl, hl, ha, _⟩ := reading_run st hq
  obtain ⟨run', rfl, hl', ha', _⟩ := reading_run st hq'
  rw [numbers_inj st.S hl hl' (h _ _ ha ha')]

theorem stored_within {word : List Wc} (h : Fits (wls.map (·.1)) word) : Within f word := by
  refine ⟨noMasked_of st.S st.gb st.holds st.fn h.mask, ?_, ?_, ?_⟩
  · intro q e hq
    obtain ⟨bs, p, rfl, _, ht⟩ := stored_paths st hq
    have := h.depth _ p ht
    rw [List.length_map] at this ⊢
    exact this
  · intro q hq
    obtain ⟨run, _, _, ha, ho, _⟩ := reading_run st hq
    rw [ho]
    exact h.out _ _ ha
  · intro L hL hp
    have hB : ∃ B : List (List (Nat × Nat)), L = B.map (List.map (addrOf (bare states))) ∧
        ∀ bs ∈ B, Linked K bs ∧ ∃ p, TakesAll (wls.map (·.1)) word ⟨0, 0, fun _ => []⟩ (bs.map (numberOf K)) p := by
      clear hL
      induction L with
      | nil => exact ⟨[], rfl, by intro b hb; cases hb⟩
      | cons q L ih =>
        obtain ⟨B, h1, h2⟩ := ih fun x hx => hp x (List.mem_cons_of_mem _ hx)
        obtain ⟨e, he⟩ := hp q List.mem_cons_self
        obtain ⟨bs, p, h3, h4, h5⟩ := stored_paths st he
        refine ⟨bs :: B, by rw [List.map_cons, ← h1, ← h3], ?_⟩
        intro b hb
        rcases List.mem_cons.1 hb with rfl | hb
        · exact ⟨h4, p, h5⟩
        · exact h2 b hb
    obtain ⟨B, rfl, hB⟩ := hB
    have hBn : B.Nodup := List.Nodup.of_map _ hL
    have := h.runs (B.map (List.map (numberOf K))) (by
      rw [List.nodup_iff_pairwise_ne, List.pairwise_map]
      refine (List.nodup_iff_pairwise_ne.1 hBn).imp_of_mem ?_
      intro a b ha hb hab e
      exact hab (numbers_inj st.S (hB a ha).1 (hB b hb).1 e)) (by
      intro ks hks
      obtain ⟨bs, hbs, rfl⟩ := List.mem_map.1 hks
      exact (hB bs hbs).2)
    rw [List.length_map] at this ⊢
    exact this

/-- A text without flag diacritics is an error model. -/
theorem stored_errors (h : ∀ l ∈ wls.map (·.1), ∀ s ∈ l.symbols, s.head? ≠ some 64) : GoodErrorModel f := by
  have hsym : f.symbols = Ss := st.S.tables.symbols
  refine { toGoodFst := stored_good st, noFlags := ?_, symCount := ?_, visible := ?_ }
  · have e : f.featureCount = F.length := st.S.tables.count
    rw [e]
    cases F with
    | nil => rfl
    | cons x F =>
      obtain ⟨s, hs, h64⟩ := st.S.tables.used (by simp)
      rcases st.from' s hs with rfl | ⟨l, hl, hm⟩
      · cases h64
      · exact absurd h64 (h l hl s hm)
  · have := st.S.count
    rw [hsym]
    omega
  · intro i s hi hs
    rw [hsym] at hs
    refine ⟨((st.S.tables.normal i s hs).1 hi).1, fun h0 => ?_⟩
    exact ((st.S.symbolsProper s (List.mem_of_getElem? hs)).1 0 h0).2 rfl

end

/-! ### Graphs of words -/

section
variable {ls : List Line} (hg : WordGraph ls)
include hg

theorem graph_takes {word : List Wc} {p q : Place} {k : Nat} (h : Takes ls word p k q) :
    ∃ a c, ls[k]? = some (.arc a) ∧ a.src = p.state ∧ a.inp = [c] ∧ word[p.pos]? = some c ∧ q = ⟨a.tgt, p.pos + 1, p.flags⟩ := by
  cases h with
  | @letter a c hl hsrc hinp hc => exact ⟨a, c, hl, hsrc, hinp, hc, rfl⟩
  | @epsilon a hl hsrc hinp =>
    obtain ⟨c, hc⟩ := hg.letters a (List.mem_of_getElem? hl)
    rw [hinp] at hc
    cases hc
  | @flag a op x v new hl hsrc hf he =>
    obtain ⟨c, hc⟩ := hg.letters a (List.mem_of_getElem? hl)
    have := flag_long hf
    rw [hc] at this
    simp at this

theorem graph_pos {word : List Wc} {p q : Place} {ks : List Nat} (h : TakesAll ls word p ks q) :
    q.pos = p.pos + ks.length ∧ (p.pos ≤ word.length → q.pos ≤ word.length) := by
  induction h with
  | nil => exact ⟨rfl, fun h => h⟩
  | cons hs _ ih =>
    obtain ⟨a, c, _, _, _, hc, rfl⟩ := graph_takes hg hs
    simp only [List.length_cons] at ih ⊢
    exact ⟨by omega, fun _ => ih.2 (List.getElem?_eq_some_iff.1 hc).1⟩

theorem graph_same {word : List Wc} {p q : Place} {ks : List Nat} (h : TakesAll ls word p ks q) :
    ∀ {ks' q'}, TakesAll ls word p ks' q' → ks.length = ks'.length → ks = ks' ∧ q = q' := by
  induction h with
  | nil =>
    intro ks' q' h' hl
    have e := List.length_eq_zero_iff.1 hl.symm
    subst e
    cases h'
    exact ⟨rfl, rfl⟩
  | cons hs _ ih =>
    intro ks' q' h' hl
    cases h' with
    | nil => simp at hl
    | cons hs' h' =>
      obtain ⟨a, c, h1, h2, h3, h4, rfl⟩ := graph_takes hg hs
      obtain ⟨b, d, g1, g2, g3, g4, rfl⟩ := graph_takes hg hs'
      rw [h4] at g4
      cases g4
      have := hg.deterministic _ _ a b h1 g1 (h2.trans g2.symm) (h3.trans g3.symm)
      subst this
      rw [h1] at g1
      cases g1
      obtain ⟨e1, e2⟩ := ih h' (by simpa using hl)
      exact ⟨by rw [e1], e2⟩

theorem graph_unique {word : List Wc} {r r' : List Nat} (h : Accepts ls word false r word.length) (h' : Accepts ls word false r' word.length) : r = r' := by
  obtain ⟨ks, k, p, rfl, h1, h2, h3, h4⟩ := h
  obtain ⟨ks', k', p', rfl, g1, g2, g3, g4⟩ := h'
  have e1 := (graph_pos hg h1).1
  have e2 := (graph_pos hg g1).1
  simp only at e1 e2
  obtain ⟨e, e'⟩ := graph_same hg h1 g1 (by omega)
  subst e e'
  rw [hg.final k k' _ h2 g2]

theorem graph_fits {word : List Wc} (hlen : word.length ≤ 280) : Fits ls word := by
  have hd : ∀ ks p, TakesAll ls word ⟨0, 0, fun _ => []⟩ ks p → ks.length ≤ word.length := by
    intro ks p h
    have h1 := graph_pos hg h
    have h2 := h1.2 (Nat.zero_le _)
    have h3 := h1.1
    simp only at h3
    omega
  refine ⟨⟨?_, ?_, ?_⟩, ?_⟩
  · intro ks p h
    have := hd ks p h
    omega
  · rintro run n ⟨ks, k, p, rfl, h1, h2, _, _⟩
    have h3 := hd ks p h1
    have key : ∀ l : List Nat, (runOutput ls l).length ≤ 7 * l.length := by
      intro l
      induction l with
      | nil => simp [runOutput]
      | cons x l ih =>
        have : (lineOutput ls x).length ≤ 7 := by
          unfold lineOutput
          split
          · rename_i a ha
            split
            · simp
            · exact hg.short a (List.mem_of_getElem? ha)
          · simp
        simp only [runOutput, List.flatMap_cons, List.length_append, List.length_cons] at ih ⊢
        omega
    have := key (ks ++ [k])
    simp only [List.length_append, List.length_singleton] at this
    omega
  · intro L hL hp
    have hlens : (L.map List.length).Nodup := by
      rw [List.Nodup, List.pairwise_map]
      refine List.Pairwise.imp_of_mem ?_ hL
      intro a b ha hb hne hl
      obtain ⟨e, he⟩ := hp a ha
      obtain ⟨e', he'⟩ := hp b hb
      exact hne (graph_same hg he he' hl).1
    have hsub : L.map List.length ⊆ List.range (word.length + 1) := by
      intro n hn
      obtain ⟨q, hq, rfl⟩ := List.mem_map.1 hn
      obtain ⟨e, he⟩ := hp q hq
      have := hd q e he
      exact List.mem_range.2 (by omega)
    have := (List.subperm_of_subset hlens hsub).length_le
    rw [List.length_map, List.length_range] at this
    omega
  · intro ks p _ _ k k' a b ha _ _ _ h64
    obtain ⟨c, hc⟩ := hg.letters a (List.mem_of_getElem? ha)
    intro _ _ hno q hq
    obtain ⟨b', d, h1, h2, h3, h4, _⟩ := graph_takes hg hq
    have := (List.getElem?_eq_some_iff.1 h4).1
    omega

end

end Verif.Att
