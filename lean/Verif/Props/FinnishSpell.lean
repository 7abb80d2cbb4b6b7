import Verif.Props.HyphInsert
import Verif.Props.Tweaks
/-! C27, C28 for the Finnish speller together with its own hyphenator. -/

namespace Verif.Props
open Verif
set_option linter.unusedSimpArgs false

theorem wcsncpy_noNul {src : List Wc} {n : Nat} (h0 : 0 ∉ src) (hn : n ≤ src.length) : wcsncpy src n = src.take n := by
  unfold wcsncpy
  have : (src.take n).takeWhile (· ≠ 0) = src.take n := by
    rw [List.takeWhile_eq_self_iff]
    intro c hc
    simp only [ne_eq, decide_eq_true_eq]
    rintro rfl
    exact h0 (List.mem_of_mem_take hc)
  rw [this]
  simp only [List.length_take, Nat.min_eq_left hn]
  simp

theorem withoutHyphen_noNul {word : List Wc} {l : Nat} (h0 : 0 ∉ word) (hl : l < word.length) : 0 ∉ withoutHyphen word l := by
  unfold withoutHyphen
  rw [wcsncpy_noNul h0 (by omega), wcsncpy_noNul (fun h => h0 (List.mem_of_mem_drop h)) (by simp; omega), List.mem_append]
  rintro (h | h)
  · exact h0 (List.mem_of_mem_take h)
  · exact h0 (List.mem_of_mem_drop (List.mem_of_mem_take h))

/-- The speller asks its hyphenator only about words without NUL, if the word has none. -/
theorem spellTweaked_congr (hyph hyph' : List Wc → UB (Option (List Wc))) (hh : ∀ w, 0 ∉ w → hyph w = hyph' w) (extra : Bool)
    (an : Analyzer) (n : Nat) : ∀ w : List Wc, w.length ≤ n → 0 ∉ w →
      spellNoShy hyph extra an w = spellNoShy hyph' extra an w ∧ spellTweaked hyph extra an w = spellTweaked hyph' extra an w := by
  induction n using Nat.strongRecOn with
  | ind n ih =>
    have hN : ∀ w : List Wc, w.length ≤ n → 0 ∉ w → spellNoShy hyph extra an w = spellNoShy hyph' extra an w := by
      intro w hw h0
      rw [spellNoShy_eq, spellNoShy_eq]
      unfold noShyBody
      congr 1; funext result
      by_cases h : result = .ok ∨ w.length ≤ 3
      · rw [if_pos h, if_pos h]
      · rw [if_neg h, if_neg h]
        cases hf : firstInnerHyphen w with
        | none => rfl
        | some l =>
          obtain ⟨l1, l2⟩ := firstInnerHyphen_lt hf
          have hlen := withoutHyphen_length (word := w) (l := l) (by omega)
          simp only
          rw [(ih (withoutHyphen w l).length (by omega) _ (Nat.le_refl _) (withoutHyphen_noNul h0 (by omega))).1]
          congr 1; funext atl
          congr 1; funext early
          congr 1
          congr 1; funext vc
          congr 1; funext spres
          congr 1
          cases hl : lastInnerHyphen w (w.length - 2) with
          | none => rfl
          | some o =>
            cases o with
            | none => rfl
            | some i =>
              simp only
              obtain ⟨i1, i2⟩ := lastInnerHyphen_le hl
              rw [(ih (w.take i).length (by simp; omega) _ (Nat.le_refl _) (fun h => h0 (List.mem_of_mem_take h))).2]
    intro w hw h0
    refine ⟨hN w hw h0, ?_⟩
    rw [spellTweaked_eq, spellTweaked_eq]
    by_cases hs : 0xAD ∈ w
    · rw [if_pos hs, if_pos hs, shyBody, shyBody, shyLoop_eq w [] [] (by simp) true (by simp)]
      by_cases hp : restPlaced true w = true
      · rw [if_pos hp]
        simp only [List.nil_append]
        have h0' : 0 ∉ stripShy w := fun h => h0 (List.mem_filter.1 h).1
        rw [hN (stripShy w) (Nat.le_trans (List.length_filter_le _ _) hw) h0', hh _ h0']
      · rw [if_neg hp]
    · rw [if_neg hs, if_neg hs]; exact hN w hw h0

/-- The hyphenator of the speller, made total on words with NUL. -/
def ownHyph (an : Analyzer) (w : List Wc) : UB (Option (List Wc)) :=
  if 0 ∈ w then some none else allPositions tweaksHyphOpts an w

theorem ownHyph_ok (an : Analyzer) (ha : StructuresOk an) : HyphOk (ownHyph an) := by
  intro w
  unfold ownHyph
  by_cases h0 : 0 ∈ w
  · rw [if_pos h0]; exact ⟨none, rfl, by simp⟩
  · rw [if_neg h0]; exact C36_all_positions_partial tweaksHyphOpts an ha w h0

theorem finnishSpell_eq (extra : Bool) (an : Analyzer) (w : List Wc) (h0 : 0 ∉ w) :
    finnishSpell extra an w = spellTweaked (ownHyph an) extra an w :=
  (spellTweaked_congr _ _ (fun v hv => by unfold ownHyph; rw [if_neg hv]) extra an w.length w (Nat.le_refl _) h0).2

theorem structuresOk_analyzerOk {an : Analyzer} (ha : StructuresOk an) : AnalyzerOk an := by
  intro w a h
  obtain ⟨s, hs, _⟩ := ha w a h
  exact ⟨s, hs⟩

/-- C28 (safety) for the complete Finnish speller: with STRUCTURE strings that do not end in `=` it terminates, stays inside
its buffers and those of its hyphenator, and dereferences no null pointer. -/
theorem C28_finnish_total (extra : Bool) (an : Analyzer) (ha : StructuresOk an) (w : List Wc) (h0 : 0 ∉ w) :
    ∃ r, finnishSpell extra an w = some r := by
  rw [finnishSpell_eq extra an w h0]
  exact C28_total _ (ownHyph_ok an ha) extra an (structuresOk_analyzerOk ha) w

/-- C27 for the complete Finnish speller: a word with soft hyphens gets a verdict other than "unknown" exactly if no soft
hyphen stands at an end of the word or next to another one, the word without soft hyphens gets this verdict, and at each soft
hyphen some reading of the word has a hyphenation point. -/
theorem C27_finnish (extra : Bool) (an : Analyzer) (ha : StructuresOk an) (w : List Wc) (h0 : 0 ∉ w) (hw : 0xAD ∈ w)
    (r : SpellRes) (hr : r ≠ .failed) :
    finnishSpell extra an w = some r ↔
      ShyPlaced w ∧ finnishSpell extra an (stripShy w) = some r ∧
      ∃ p, allPositions tweaksHyphOpts an (stripShy w) = some (some p) ∧ ShyAllowed w p := by
  have h0' : 0 ∉ stripShy w := fun h => h0 (List.mem_filter.1 h).1
  rw [finnishSpell_eq extra an w h0, finnishSpell_eq extra an _ h0',
    C27_soft_hyphens _ (ownHyph_ok an ha) extra an (structuresOk_analyzerOk ha) w hw r hr]
  rw [show ownHyph an (stripShy w) = allPositions tweaksHyphOpts an (stripShy w) from if_neg h0']

/-- C28 for the complete Finnish speller: ACCEPT_EXTRA_HYPHENS leaves the verdict unchanged or turns it into OK. -/
theorem C28_finnish_verdict (an : Analyzer) (ha : StructuresOk an) (w : List Wc) (h0 : 0 ∉ w) :
    ∃ r r', finnishSpell false an w = some r ∧ finnishSpell true an w = some r' ∧ (r' = r ∨ r' = .ok) := by
  rw [finnishSpell_eq false an w h0, finnishSpell_eq true an w h0]
  exact C28_verdict _ (ownHyph_ok an ha) an (structuresOk_analyzerOk ha) w

/-- The private hyphenator permits a hyphen in "puu|talo". -/
example : StructuresOk demoHyphAn ∧ allPositions tweaksHyphOpts demoHyphAn (lit "puutalo") = some (some (lit "   - - ")) :=
  ⟨demoHyphAn_ok, by decide +kernel⟩

end Verif.Props
