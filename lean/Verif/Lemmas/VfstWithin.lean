import Mathlib.Data.List.Perm.Subperm
import Verif.Lemmas.FstWReach
import Verif.Spec.VfstSpell
/-!
# Transducers whose searches stay within the limits
-/

set_option linter.unusedSimpArgs false
set_option linter.unusedVariables false

namespace Verif.Props
open Verif

/-! ## A check of a table without overflow cells -/

/-- `WWellFormed` for the states `states`, none of which has more than 255 transitions. -/
def wfCheck (f : WFst) (states : List Nat) : Bool :=
  states.contains 0 && decide (f.cells.length < 2 ^ 32) && decide (f.symbols[0]? = some []) && decide (0 < f.firstNormal) &&
  states.all fun s =>
    (match f.cells[s]? with
      | none => false
      | some h => decide (h.more < 255) && decide (s + h.more < f.cells.length)) &&
    (stateAddrs (plainFst f) s).all fun a =>
      match f.cells[a]? with
      | none => false
      | some t =>
        (decide (t.symIn = 0xFFFFFFFF) ||
          (decide (t.symIn < 0xFFFF) && states.contains t.target && decide (t.symOut < f.symbols.length) &&
            (decide (f.firstNormal ≤ t.symIn) || decide (f.featureCount = 0) || decide (t.symIn = 0) ||
              match f.diacritics[t.symIn]? with
              | none => false
              | some ofv => decide (ofv.feature < f.featureCount)))) &&
        (stateAddrs (plainFst f) s).all fun b =>
          match f.cells[b]? with
          | none => false
          | some u => decide (b ≤ a) || decide (fileRank t.symIn ≤ fileRank u.symIn)

theorem wfCheck_spec {f : WFst} {states : List Nat} (h : wfCheck f states = true) : WWellFormed f (· ∈ states) := by
  unfold wfCheck at h
  simp only [Bool.and_eq_true, List.contains_iff_mem, decide_eq_true_eq, List.all_eq_true] at h
  obtain ⟨⟨⟨⟨h1, h2⟩, h3⟩, h4⟩, h5⟩ := h
  have hhead : ∀ s ∈ states, ∃ h, f.cells[s]? = some h ∧ h.more < 255 ∧ s + h.more < f.cells.length := by
    intro s hs
    have := (h5 s hs).1
    split at this
    · cases this
    · rename_i h hh
      simp only [Bool.and_eq_true, decide_eq_true_eq] at this
      exact ⟨h, hh, this⟩
  have hcell : ∀ s ∈ states, ∀ a ∈ stateAddrs (plainFst f) s, ∀ t, f.cells[a]? = some t →
      (t.symIn = 0xFFFFFFFF ∨ t.symIn < 0xFFFF ∧ t.target ∈ states ∧ t.symOut < f.symbols.length ∧
        (t.symIn < f.firstNormal → f.featureCount ≠ 0 → t.symIn ≠ 0 →
          ∃ ofv, f.diacritics[t.symIn]? = some ofv ∧ ofv.feature < f.featureCount)) ∧
      ∀ b ∈ stateAddrs (plainFst f) s, ∀ u, f.cells[b]? = some u → b ≤ a ∨ fileRank t.symIn ≤ fileRank u.symIn := by
    intro s hs a ha t ht
    have := (h5 s hs).2 a ha
    simp only [ht, Bool.and_eq_true, Bool.or_eq_true, decide_eq_true_eq, List.contains_iff_mem, List.all_eq_true] at this
    obtain ⟨g1, g2⟩ := this
    refine ⟨?_, fun b hb u hu => ?_⟩
    · rcases g1 with g1 | ⟨⟨⟨g1, g3⟩, g4⟩, g5⟩
      · exact .inl g1
      · refine .inr ⟨g1, g3, g4, fun k1 k2 k3 => ?_⟩
        rcases g5 with ((g5 | g5) | g5) | g5
        · omega
        · exact absurd g5 k2
        · exact absurd g5 k3
        · split at g5
          · cases g5
          · rename_i ofv ho
            exact ⟨ofv, ho, by simpa using g5⟩
    · have := g2 b hb
      simp only [hu, Bool.or_eq_true, decide_eq_true_eq] at this
      exact this
  refine ⟨⟨h1, by rw [plain_length]; exact h2, h3, ?_, ?_⟩, h4, ?_, ?_, ?_⟩
  · intro s hs
    obtain ⟨h, hh, g1, g2⟩ := hhead s hs
    exact ⟨WCell.plain h, plain_get hh, .inl ⟨g1, by rw [plain_length]; exact g2⟩⟩
  · intro s hs a ha t ht hne
    obtain ⟨t', ht', rfl⟩ := plain_of_get ht
    obtain ⟨g1, _⟩ := hcell s hs a ha t' ht'
    rcases g1 with g1 | ⟨g1, g2, g3, g4⟩
    · exact absurd (by simp [WCell.plain, g1]) hne
    · have e1 : (WCell.plain t').symIn = t'.symIn := by simp only [WCell.plain]; rw [if_neg (by omega)]
      rw [e1]
      exact ⟨g2, g3, g4⟩
  · intro s hs h hh hm
    obtain ⟨h', hh', g1, g2⟩ := hhead s hs
    rw [hh] at hh'
    cases hh'
    omega
  · intro s hs a ha t ht
    rcases (hcell s hs a ha t ht).1 with g | g
    · exact .inl g
    · exact .inr g.1
  · intro s hs a ha b hb hab t u ht hu
    rcases (hcell s hs a ha t ht).2 b hb u hu with g | g
    · omega
    · exact g

/-- `GoodFst` for such a table. -/
def goodCheck (f : WFst) (states : List Nat) : Bool :=
  wfCheck f states && (f.charToSym.all fun e => decide (f.firstNormal ≤ e.2)) && decide (f.firstNormal ≤ f.symbols.length) &&
  f.cells.all fun t => decide (t.symIn = 0xFFFFFFFF) || decide (t.symIn < f.symbols.length)

theorem goodCheck_spec {f : WFst} {states : List Nat} (h : goodCheck f states = true) : GoodFst f := by
  unfold goodCheck at h
  simp only [Bool.and_eq_true, Bool.or_eq_true, decide_eq_true_eq, List.all_eq_true] at h
  obtain ⟨⟨⟨h1, h2⟩, h3⟩, h4⟩ := h
  exact ⟨⟨_, wfCheck_spec h1⟩, h2, h3, _, wfCheck_spec h1, fun s _ a _ t ht => h4 t (List.mem_of_getElem? ht)⟩

/-! ## Transducers without epsilon and flags on the input side -/

/-- Every transition reads a character. -/
def ReadsInput (f : WFst) : Prop := ∀ (a : Nat) (t : WCell), f.cells[a]? = some t → t.symIn = 0xFFFFFFFF ∨ f.firstNormal ≤ t.symIn

/-- Every output symbol is at most one character. -/
def ShortOutput (f : WFst) : Prop := ∀ s ∈ f.symbols.drop f.firstNormal, s.length ≤ 1

section
variable {f : WFst} {input : List Nat}

theorem readsInput_step (hf : ReadsInput f) {p q : Point} {a : Nat} (h : Step (plainFst f) input p a q) :
    ∃ t, (plainFst f).cells[a]? = some t ∧ a ∈ stateAddrs (plainFst f) p.state ∧ t.symIn ≠ 0xFFFF ∧
      input[p.pos]? = some t.symIn ∧ q = ⟨t.target, p.pos + 1, p.flags⟩ := by
  cases h with
  | symbol t m c n s i => exact ⟨t, c, m, n, i, rfl⟩
  | flag t F m c n s i =>
    exfalso
    obtain ⟨t', ht', rfl⟩ := plain_of_get c
    have hs : (WCell.plain t').symIn < f.firstNormal := s
    rcases hf a t' ht' with h | h
    · exact n (by simp [WCell.plain, h])
    · simp only [WCell.plain] at hs n
      split at hs
      · rename_i h'
        rw [if_pos h'] at n
        exact n rfl
      · omega

theorem readsInput_length (hf : ReadsInput f) {p e : Point} {q : List Nat} (h : Path (plainFst f) input p q e) :
    e.pos = p.pos + q.length ∧ (p.pos ≤ input.length → e.pos ≤ input.length) := by
  induction h with
  | nil p => exact ⟨rfl, fun h => h⟩
  | cons p x r a as s _ ih =>
    obtain ⟨t, _, _, _, h4, rfl⟩ := readsInput_step hf s
    simp only [List.length_cons] at ih ⊢
    refine ⟨by omega, fun _ => ih.2 ?_⟩
    exact (List.getElem?_eq_some_iff.1 h4).1

theorem shortOutput_text (hs : ShortOutput f) (a : Nat) : (outText (plainFst f) a).length ≤ 1 := by
  unfold outText
  split
  · simp
  · rename_i t _
    split
    · rename_i hn
      cases h : (plainFst f).symbols[t.symOut]? with
      | none => simp
      | some s =>
        refine hs s ?_
        have hn' : f.firstNormal ≤ t.symOut := hn
        have h' : f.symbols[t.symOut]? = some s := h
        refine List.mem_of_getElem? (i := t.symOut - f.firstNormal) ?_
        rw [List.getElem?_drop, Nat.add_sub_cancel' hn', h']
    · simp

theorem shortOutput_output (hs : ShortOutput f) (q : List Nat) : (outputOf (plainFst f) q).length ≤ q.length := by
  have key : ∀ l : List Nat, (l.flatMap (outText (plainFst f))).length ≤ l.length := by
    intro l
    induction l with
    | nil => simp
    | cons a l ih =>
      have := shortOutput_text hs a
      simp only [List.flatMap_cons, List.length_append, List.length_cons]
      omega
  refine Nat.le_trans (key _) ?_
  rw [List.length_dropLast]
  omega

theorem readsInput_mask (hf : ReadsInput f) (hfn : f.firstNormal ≤ 0xFFFF) : NoMaskedFlag (plainFst f) input := by
  intro path p _ _ a ha b hb hab t u ht hu h1 h2
  exfalso
  obtain ⟨t', ht', rfl⟩ := plain_of_get ht
  have h2' : (WCell.plain t').symIn < f.firstNormal := h2
  simp only [WCell.plain] at h2'
  rcases hf a t' ht' with h | h
  · rw [if_pos h] at h2'
    omega
  · split at h2' <;> omega

theorem within_of_readsInput (hf : ReadsInput f) (hs : ShortOutput f) (hfn : f.firstNormal ≤ 0xFFFF) {word : List Wc}
    (hlen : word.length ≤ 1990) (hcount : ∀ L : List (List Nat), L.Nodup →
      (∀ p ∈ L, ∃ e, Path (plainFst f) (word.map (plainFst f).symOf) (startPoint (plainFst f)) p e) → 2 * L.length < 100000) :
    Within f word := by
  have hd : ∀ q e, Path (plainFst f) (word.map (plainFst f).symOf) (startPoint (plainFst f)) q e → q.length ≤ word.length := by
    intro q e h
    obtain ⟨h1, h2⟩ := readsInput_length hf h
    have h3 := h2 (Nat.zero_le _)
    have h4 : (startPoint (plainFst f)).pos = 0 := rfl
    rw [List.length_map] at h3
    omega
  refine ⟨readsInput_mask hf hfn, fun q e h => ?_, fun q h => ?_, hcount⟩
  · have := hd q e h
    omega
  · obtain ⟨as, a, p, t, rfl, hp, _⟩ := h
    have h1 := hd as p hp
    have h2 := shortOutput_output hs (as ++ [a])
    simp only [List.length_append, List.length_singleton] at h2
    omega

/-- The transitions of a state read different symbols. -/
def Deterministic (f : WFst) : Prop := ∀ s, ∀ a ∈ stateAddrs (plainFst f) s, ∀ b ∈ stateAddrs (plainFst f) s,
  ∀ t u, (plainFst f).cells[a]? = some t → (plainFst f).cells[b]? = some u → t.symIn = u.symIn → a = b

theorem deterministic_path (hf : ReadsInput f) (hd : Deterministic f) {p e : Point} {q : List Nat}
    (h : Path (plainFst f) input p q e) : ∀ {q' : List Nat} {e' : Point}, Path (plainFst f) input p q' e' → q.length = q'.length →
    q = q' := by
  induction h with
  | nil p => intro q' e' _ hl; exact (List.length_eq_zero_iff.1 hl.symm).symm
  | cons p x r a as s _ ih =>
    intro q' e' h' hl
    cases h' with
    | nil => simp at hl
    | cons _ x' _ a' as' s' h' =>
      obtain ⟨t, h1, h2, h3, h4, h5⟩ := readsInput_step hf s
      obtain ⟨t', g1, g2, g3, g4, g5⟩ := readsInput_step hf s'
      rw [h4] at g4
      have := hd _ a h2 a' g2 t t' h1 g1 (Option.some.inj g4)
      subst this
      have := step_det s s'
      subst this
      rw [ih h' (by simpa using hl)]

/-- A deterministic acceptor keeps the limits for all words that are not longer than 1990 characters. -/
theorem within_of_deterministic (hf : ReadsInput f) (hs : ShortOutput f) (hfn : f.firstNormal ≤ 0xFFFF) (hd : Deterministic f)
    {word : List Wc} (hlen : word.length ≤ 1990) : Within f word := by
  refine within_of_readsInput hf hs hfn hlen fun L hL hp => ?_
  have hlens : (L.map List.length).Nodup := by
    rw [List.Nodup, List.pairwise_map]
    refine List.Pairwise.imp_of_mem ?_ hL
    intro a b ha hb hne hl
    obtain ⟨e, he⟩ := hp a ha
    obtain ⟨e', he'⟩ := hp b hb
    exact hne (deterministic_path hf hd he he' hl)
  have hsub : L.map List.length ⊆ List.range (word.length + 1) := by
    intro n hn
    obtain ⟨q, hq, rfl⟩ := List.mem_map.1 hn
    obtain ⟨e, he⟩ := hp q hq
    obtain ⟨h1, h2⟩ := readsInput_length hf he
    have h3 := h2 (Nat.zero_le _)
    have h4 : (startPoint (plainFst f)).pos = 0 := rfl
    rw [List.length_map] at h3
    exact List.mem_range.2 (by omega)
  have := (List.subperm_of_subset hlens hsub).length_le
  rw [List.length_map, List.length_range] at this
  omega

/-- Within the limits a word has finitely many readings. -/
theorem readings_finite {word : List Wc} (hw : Within f word) : ∃ all : List (List Nat), ∀ q, Reading f word q → q ∈ all := by
  have key : ∀ k, ∃ L : List (List Nat), L.Nodup ∧
      (∀ p ∈ L, ∃ e, Path (plainFst f) (word.map (plainFst f).symOf) (startPoint (plainFst f)) p e) ∧
      (L.length = k ∨ ∀ p e, Path (plainFst f) (word.map (plainFst f).symOf) (startPoint (plainFst f)) p e → p ∈ L) := by
    intro k
    induction k with
    | zero => exact ⟨[], .nil, by simp, .inl rfl⟩
    | succ k ih =>
      obtain ⟨L, h1, h2, h3⟩ := ih
      by_cases hall : ∀ p e, Path (plainFst f) (word.map (plainFst f).symOf) (startPoint (plainFst f)) p e → p ∈ L
      · exact ⟨L, h1, h2, .inr hall⟩
      · rcases h3 with h3 | h3
        · have : ∃ p e, Path (plainFst f) (word.map (plainFst f).symOf) (startPoint (plainFst f)) p e ∧ p ∉ L := by
            refine Classical.byContradiction fun hno => hall fun p e hp => ?_
            exact Classical.byContradiction fun hm => hno ⟨p, e, hp, hm⟩
          obtain ⟨p, e, hp, hm⟩ := this
          refine ⟨p :: L, List.nodup_cons.2 ⟨hm, h1⟩, fun x hx => ?_, .inl (by rw [List.length_cons, h3])⟩
          rcases List.mem_cons.1 hx with rfl | hx
          · exact ⟨e, hp⟩
          · exact h2 x hx
        · exact absurd h3 hall
  obtain ⟨L, h1, h2, h3⟩ := key 50000
  rcases h3 with h3 | h3
  · have := hw.paths L h1 h2
    omega
  · refine ⟨L.flatMap fun as => (List.range f.cells.length).map fun a => as ++ [a], ?_⟩
    rintro q ⟨as, a, p, t, rfl, hp, _, ht, _⟩
    refine List.mem_flatMap.2 ⟨as, h3 as p hp, List.mem_map.2 ⟨a, List.mem_range.2 ?_, rfl⟩⟩
    have := (List.getElem?_eq_some_iff.1 ht).1
    rwa [plain_length] at this

end

end Verif.Props
