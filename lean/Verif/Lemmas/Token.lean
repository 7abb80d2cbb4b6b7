import Verif.Spec.Token
import Verif.Lemmas.Tokenizer
/-!
# The scanning loops of the tokenizer find the words of `Spec/Token`
-/

set_option linter.unusedSimpArgs false
set_option linter.unusedVariables false

namespace Verif.Tokens
open Verif

theorem at_iff {text : List Wc} {i : Nat} {c : Wc} (h : text[i]? = some c) (P : Wc → Prop) : At text i P ↔ P c := by
  unfold At
  rw [h]
  constructor
  · rintro ⟨d, hd, hp⟩
    cases hd
    exact hp
  · exact fun hp => ⟨c, rfl, hp⟩

theorem not_at_end {text : List Wc} {i : Nat} (h : text.length ≤ i) (P : Wc → Prop) : ¬ At text i P := by
  rintro ⟨c, hc, _⟩
  rw [List.getElem?_eq_none h] at hc
  cases hc

theorem ub_bind {α β : Type} (a : α) (g : α → UB β) : (some a : UB α) >>= g = g a := rfl

theorem rd_eq (text : List Wc) (i : Nat) : rd text i = text[i]? := rfl

theorem first_unique {P : Nat → Prop} {m n : Nat} (hm : FirstAt P m) (hn : FirstAt P n) : m = n := by
  rcases Nat.lt_trichotomy m n with h | h | h
  · exact absurd hm.1 (hn.2 m h)
  · exact h
  · exact absurd hn.1 (hm.2 n h)

theorem plainWord_unique {text : List Wc} {dot : Bool} {m n : Nat} (hm : PlainWord text dot m) (hn : PlainWord text dot n) :
    m = n := by
  obtain ⟨a, ha, ha'⟩ := hm
  obtain ⟨b, hb, hb'⟩ := hn
  have := first_unique ha hb
  subst this
  rcases ha' with ⟨h1, h2⟩ | ⟨h1, h2⟩ <;> rcases hb' with ⟨h3, h4⟩ | ⟨h3, h4⟩
  · omega
  · exact absurd h1 h3
  · exact absurd h3 h1
  · omega

/-- What the loop knows about the previous character. -/
def NumInv (text : List Wc) (w : Nat) (pn : Bool) : Prop :=
  (w = 0 ∧ pn = false) ∨ (0 < w ∧ ∃ e, text[w - 1]? = some e ∧
    ((Letter e ∧ pn = false) ∨ (Digit e ∧ pn = true) ∨ (¬ Digit e ∧ At text w fun d => Letter d ∨ Digit d)))

theorem letter_cls {d : Wc} (h : getCharType d = .letter) : Letter d ∧ ¬ Digit d ∧ ¬ Space d ∧ ¬ Unknown d := by
  unfold Letter Digit Space Unknown
  rw [h]
  simp

theorem quote_cls {d : Wc} (h : isFinnishQuotationMark d = true) : d ∈ ([0x22, 0xBB, 0x201D, 0] : List Wc) := by
  simp only [isFinnishQuotationMark, wcschr, List.contains_cons, List.contains_nil, Bool.or_eq_true, beq_iff_eq, Bool.or_false,
    decide_eq_true_eq, List.elem_eq_mem] at h
  simp only [List.mem_cons, List.not_mem_nil, or_false] at h ⊢
  omega

theorem quote_cls' {d : Wc} (h : d ∈ ([0x2C, 0x22, 0xBB, 0x201D, 0] : List Wc)) (hc : d ≠ 0x2C) :
    isFinnishQuotationMark d = true := by
  simp only [List.mem_cons, List.not_mem_nil, or_false] at h
  rcases h with rfl | rfl | rfl | rfl | rfl
  · exact absurd rfl hc
  all_goals decide

theorem quote_punct {d : Wc} (h : d ∈ ([0x2C, 0x22, 0xBB, 0x201D, 0] : List Wc)) : getCharType d = .punctuation := by
  simp only [List.mem_cons, List.not_mem_nil, or_false] at h
  rcases h with rfl | rfl | rfl | rfl | rfl <;> decide

/-- The decision about a punctuation character. -/
theorem wordPunct_exact {text : List Wc} {dot : Bool} {w : Nat} {c : Wc} {pn sl : Bool} (hc : text[w]? = some c)
    (hp : getCharType c = .punctuation) (hnum : NumInv text w pn) (hsl : sl = true ↔ ∃ j < w, At text j Letter) :
    (wordPunct text (if dot then 1 else 0) w c pn sl = some .more ∧ Inner text w ∧ At text (w + 1) fun d => Letter d ∨ Digit d) ∨
    (¬ Inner text w ∧ ((Closing text dot w ∧ wordPunct text (if dot then 1 else 0) w c pn sl = some (.stop (w + 1))) ∨
      (¬ Closing text dot w ∧ wordPunct text (if dot then 1 else 0) w c pn sl = some (.stop w)))) := by
  have hlt : w < text.length := (List.getElem?_eq_some_iff.1 hc).1
  have hnl : ¬ Letter c := by unfold Letter; rw [hp]; simp
  have hnd : ¬ Digit c := by unfold Digit; rw [hp]; simp
  have hin : Inner text w ↔ ((c ∈ apostrophes ∧ At text (w + 1) Letter) ∨
    (c ∈ hyphens ∧ At text (w + 1) fun d => Letter d ∨ Digit d) ∨
    (c = 0x2E ∧ At text (w + 1) fun d => Letter d ∨ Digit d ∧ ∀ j < w, ¬ At text j Letter) ∨
    (c = 0x2C ∧ 0 < w ∧ At text (w - 1) Digit ∧ At text (w + 1) Digit)) := by
    unfold Inner
    rw [at_iff hc]
    simp only [hnl, hnd, false_or]
  have hcl : Closing text dot w ↔ ((c ∈ hyphens ∧ (w + 1 = text.length ∨
      At text (w + 1) fun d => d ∈ [0x2C, 0x22, 0xBB, 0x201D, 0] ∨ Space d ∨ Unknown d)) ∨ (c = 0x2E ∧ dot = true)) := by
    unfold Closing
    rw [at_iff hc]
  have hnext : w + 1 = text.length ∨ ∃ d, text[w + 1]? = some d := by
    by_cases h : w + 1 = text.length
    · exact .inl h
    · exact .inr ⟨_, List.getElem?_eq_getElem (show w + 1 < text.length by omega)⟩
  have hlast : w + 1 = text.length → ∀ P, ¬ At text (w + 1) P := fun h P => not_at_end (by omega) P
  unfold wordPunct
  by_cases h1 : c = 0x27 ∨ c = 0x2019 ∨ c = 0x3A
  · rw [if_pos h1]
    have ha : c ∈ apostrophes := by simpa [apostrophes] using h1
    have hh : c ∉ hyphens := by rcases h1 with rfl | rfl | rfl <;> decide
    have hd : c ≠ 0x2E := by rcases h1 with rfl | rfl | rfl <;> decide
    have hk : c ≠ 0x2C := by rcases h1 with rfl | rfl | rfl <;> decide
    simp only [ha, hh, hd, hk, true_and, false_and, or_false] at hin hcl
    rcases hnext with he | ⟨d, hd'⟩
    · rw [if_pos he]
      exact .inr ⟨fun h => hlast he _ (hin.1 h), .inr ⟨hcl.1, rfl⟩⟩
    · have hne : w + 1 ≠ text.length := by have := (List.getElem?_eq_some_iff.1 hd').1; omega
      rw [if_neg hne, rd_eq, hd', ub_bind]
      rw [at_iff hd'] at hin
      by_cases hl : getCharType d = .letter
      · rw [if_pos hl]
        exact .inl ⟨rfl, hin.2 hl, (at_iff hd' _).2 (.inl hl)⟩
      · rw [if_neg hl]
        exact .inr ⟨fun h => hl (hin.1 h), .inr ⟨hcl.1, rfl⟩⟩
  · rw [if_neg h1]
    have ha : c ∉ apostrophes := by simpa [apostrophes] using h1
    by_cases h2 : c = 0x2D ∨ c = 0xAD ∨ c = 0x2010 ∨ c = 0x2011
    · rw [if_pos h2]
      have hh : c ∈ hyphens := by simpa [hyphens] using h2
      have hd : c ≠ 0x2E := by rcases h2 with rfl | rfl | rfl | rfl <;> decide
      have hk : c ≠ 0x2C := by rcases h2 with rfl | rfl | rfl | rfl <;> decide
      simp only [ha, hh, hd, hk, true_and, false_and, or_false, false_or] at hin hcl
      rcases hnext with he | ⟨d, hd'⟩
      · rw [if_pos he]
        exact .inr ⟨fun h => hlast he _ (hin.1 h), .inl ⟨hcl.2 (.inl he), rfl⟩⟩
      · have hne : w + 1 ≠ text.length := by have := (List.getElem?_eq_some_iff.1 hd').1; omega
        rw [if_neg hne, rd_eq, hd', ub_bind]
        rw [at_iff hd'] at hin hcl
        by_cases hq : isFinnishQuotationMark d = true
        · rw [if_pos hq]
          have hm := quote_cls hq
          have hm' : d ∈ ([0x2C, 0x22, 0xBB, 0x201D, 0] : List Wc) := List.mem_cons_of_mem _ hm
          have hpd := quote_punct hm'
          refine .inr ⟨fun h => ?_, .inl ⟨hcl.2 (.inr (.inl hm')), rfl⟩⟩
          rcases hin.1 h with h | h
          · rw [Letter, hpd] at h; cases h
          · rw [Digit, hpd] at h; cases h
        · rw [if_neg hq]
          cases hcd : getCharType d with
          | letter => exact .inl ⟨rfl, hin.2 (.inl hcd), (at_iff hd' _).2 (.inl hcd)⟩
          | digit => exact .inl ⟨rfl, hin.2 (.inr hcd), (at_iff hd' _).2 (.inr hcd)⟩
          | whitespace =>
            refine .inr ⟨fun h => ?_, .inl ⟨hcl.2 (.inr (.inr (.inl hcd))), rfl⟩⟩
            rcases hin.1 h with h | h
            · rw [Letter, hcd] at h; cases h
            · rw [Digit, hcd] at h; cases h
          | unknown =>
            refine .inr ⟨fun h => ?_, .inl ⟨hcl.2 (.inr (.inr (.inr hcd))), rfl⟩⟩
            rcases hin.1 h with h | h
            · rw [Letter, hcd] at h; cases h
            · rw [Digit, hcd] at h; cases h
          | punctuation =>
            have hni : ¬ Inner text w := fun h => by
              rcases hin.1 h with h | h
              · rw [Letter, hcd] at h; cases h
              · rw [Digit, hcd] at h; cases h
            refine .inr ⟨hni, ?_⟩
            simp only
            by_cases hcm : d = 0x2C
            · rw [if_pos hcm]
              exact .inl ⟨hcl.2 (.inr (.inl (by rw [hcm]; decide))), rfl⟩
            · rw [if_neg hcm]
              refine .inr ⟨fun h => ?_, rfl⟩
              rcases hcl.1 h with h | h | h | h
              · exact hne h
              · exact hq (quote_cls' h hcm)
              · rw [Space, hcd] at h; cases h
              · rw [Unknown, hcd] at h; cases h
    · rw [if_neg h2]
      have hh : c ∉ hyphens := by simpa [hyphens] using h2
      by_cases h3 : c = 0x2E
      · rw [if_pos h3]
        have hk : c ≠ 0x2C := by rw [h3]; decide
        simp only [ha, hh, hk, false_and, or_false, false_or] at hin hcl
        simp only [h3, true_and] at hin hcl
        have stop : ¬ Inner text w → ∀ r, r = some (WordStep.stop (w + if dot then 1 else 0)) →
            (¬ Inner text w ∧ ((Closing text dot w ∧ r = some (.stop (w + 1))) ∨ (¬ Closing text dot w ∧ r = some (.stop w)))) := by
          intro hni r hr
          refine ⟨hni, ?_⟩
          cases dot with
          | true => exact .inl ⟨hcl.2 rfl, hr⟩
          | false => exact .inr ⟨fun h => (by cases hcl.1 h), hr⟩
        rcases hnext with he | ⟨d, hd'⟩
        · rw [if_pos he]
          refine .inr (stop (fun h => ?_) _ rfl)
          exact hlast he _ (hin.1 h)
        · have hne : w + 1 ≠ text.length := by have := (List.getElem?_eq_some_iff.1 hd').1; omega
          rw [if_neg hne, rd_eq, hd', ub_bind]
          rw [at_iff hd'] at hin
          have hno : getCharType d ≠ .letter → getCharType d ≠ .digit → ¬ Inner text w := by
            intro n1 n2 h
            rcases hin.1 h with h | h
            · exact n1 h
            · exact n2 h.1
          cases hcd : getCharType d with
          | letter => exact .inl ⟨rfl, hin.2 (.inl hcd), (at_iff hd' _).2 (.inl hcd)⟩
          | digit =>
            cases hs : sl with
            | true =>
              obtain ⟨j, hj1, hj2⟩ := hsl.1 hs
              refine .inr (stop (fun h => ?_) _ rfl)
              rcases hin.1 h with h | h
              · rw [Letter, hcd] at h; cases h
              · exact h.2 j hj1 hj2
            | false =>
              refine .inl ⟨rfl, hin.2 (.inr ⟨hcd, fun j hj hl => ?_⟩), (at_iff hd' _).2 (.inr hcd)⟩
              have := hsl.2 ⟨j, hj, hl⟩
              rw [hs] at this
              cases this
          | whitespace => exact .inr (stop (hno (by rw [hcd]; simp) (by rw [hcd]; simp)) _ rfl)
          | unknown => exact .inr (stop (hno (by rw [hcd]; simp) (by rw [hcd]; simp)) _ rfl)
          | punctuation => exact .inr (stop (hno (by rw [hcd]; simp) (by rw [hcd]; simp)) _ rfl)
      · rw [if_neg h3]
        simp only [ha, hh, h3, false_and, or_false, false_or] at hin hcl
        by_cases h4 : c = 0x2C
        · rw [if_pos h4]
          simp only [h4, true_and] at hin
          have hcomma : ¬ At text w fun d => Letter d ∨ Digit d := by
            rw [at_iff hc, h4]
            unfold Letter Digit
            decide
          cases hpn : pn with
          | false =>
            refine .inr ⟨fun h => ?_, .inr ⟨hcl.1, rfl⟩⟩
            obtain ⟨k1, k2, k3⟩ := hin.1 h
            rcases hnum with ⟨h, _⟩ | ⟨_, e, he, h⟩
            · omega
            · rw [at_iff he] at k2
              rcases h with ⟨h, _⟩ | ⟨_, h⟩ | ⟨h, _⟩
              · exact (letter_cls h).2.1 k2
              · rw [hpn] at h; cases h
              · exact h k2
          | true =>
            rw [hpn] at hnum
            have hprev : 0 < w ∧ At text (w - 1) Digit := by
              rcases hnum with ⟨_, h⟩ | ⟨h0, e, he, h⟩
              · cases h
              · rcases h with ⟨_, h⟩ | ⟨h, _⟩ | ⟨_, h⟩
                · cases h
                · exact ⟨h0, e, he, h⟩
                · exact absurd h hcomma
            simp only [hprev.1, hprev.2, true_and] at hin
            rcases hnext with he | ⟨d, hd'⟩
            · simp only [Bool.not_true, Bool.false_eq_true, if_false]
              rw [if_pos he]
              exact .inr ⟨fun h => hlast he _ (hin.1 h), .inr ⟨hcl.1, rfl⟩⟩
            · have hne : w + 1 ≠ text.length := by have := (List.getElem?_eq_some_iff.1 hd').1; omega
              simp only [Bool.not_true, Bool.false_eq_true, if_false]
              rw [if_neg hne, rd_eq, hd', ub_bind]
              rw [at_iff hd'] at hin
              by_cases hl : getCharType d = .digit
              · rw [if_pos hl]
                exact .inl ⟨rfl, hin.2 hl, (at_iff hd' _).2 (.inr hl)⟩
              · rw [if_neg hl]
                exact .inr ⟨fun h => hl (hin.1 h), .inr ⟨hcl.1, rfl⟩⟩
        · rw [if_neg h4]
          simp only [h4, false_and] at hin
          exact .inr ⟨fun h => hin.1 h, .inr ⟨hcl.1, rfl⟩⟩

theorem wordLoop_exact (text : List Wc) (dot : Bool) : ∀ (k w : Nat) (pn sl : Bool), text.length - w = k → w ≤ text.length →
    (∀ i < w, Inner text i) → NumInv text w pn → (sl = true ↔ ∃ j < w, At text j Letter) →
    ∃ n, wordLoop text (if dot then 1 else 0) w pn sl = some n ∧ PlainWord text dot n := by
  intro k
  induction k with
  | zero =>
    intro w pn sl hk hw hin hnum hsl
    have : w = text.length := by omega
    subst this
    rw [wordLoop.eq_def, dif_neg (by omega)]
    exact ⟨_, rfl, text.length, ⟨not_at_end (Nat.le_refl _) _, fun i hi h => h (hin i hi)⟩,
      .inr ⟨not_at_end (Nat.le_refl _) _, rfl⟩⟩
  | succ k ih =>
    intro w pn sl hk hw hin hnum hsl
    have hlt : w < text.length := by omega
    have hk1 : text.length - (w + 1) = k := by clear hsl hnum hin; omega
    have hw1 : w + 1 ≤ text.length := hlt
    obtain ⟨c, hc⟩ : ∃ c, text[w]? = some c := ⟨_, List.getElem?_eq_getElem hlt⟩
    have hsl' : ∀ b : Bool, (b = true ↔ sl = true ∨ Letter c) → (b = true ↔ ∃ j < w + 1, At text j Letter) := by
      intro b hb
      rw [hb, hsl]
      constructor
      · rintro (⟨j, h1, h2⟩ | h)
        · exact ⟨j, by omega, h2⟩
        · exact ⟨w, by omega, c, hc, h⟩
      · rintro ⟨j, h1, h2⟩
        by_cases hj : j = w
        · subst hj
          exact .inr ((at_iff hc _).1 h2)
        · exact .inl ⟨j, by omega, h2⟩
    have step : Inner text w → ∀ i < w + 1, Inner text i := by
      intro h i hi
      by_cases hj : i = w
      · subst hj; exact h
      · exact hin i (by omega)
    rw [wordLoop.eq_def, dif_pos hlt, rd_eq, hc, ub_bind]
    cases hcd : getCharType c with
    | letter =>
      simp only
      refine ih (w + 1) false true hk1 hw1 (step ⟨c, hc, .inl hcd⟩) ?_ (hsl' true (by simp [Letter, hcd]))
      exact .inr ⟨Nat.succ_pos w, c, hc, .inl ⟨hcd, rfl⟩⟩
    | digit =>
      simp only
      refine ih (w + 1) true sl hk1 hw1 (step ⟨c, hc, .inr (.inl hcd)⟩) ?_ (hsl' sl (by simp [Letter, hcd]))
      exact .inr ⟨Nat.succ_pos w, c, hc, .inr (.inl ⟨hcd, rfl⟩)⟩
    | punctuation =>
      simp only
      rcases wordPunct_exact (dot := dot) (pn := pn) (sl := sl) hc hcd hnum hsl with ⟨h1, h2, h3⟩ | ⟨h1, ⟨h2, h3⟩ | ⟨h2, h3⟩⟩
      · rw [h1, ub_bind]
        refine ih (w + 1) pn sl hk1 hw1 (step h2) ?_ (hsl' sl (by simp [Letter, hcd]))
        exact .inr ⟨Nat.succ_pos w, c, hc, .inr (.inr ⟨by unfold Digit; rw [hcd]; simp, h3⟩)⟩
      · rw [h3, ub_bind]
        exact ⟨w + 1, rfl, w, ⟨h1, fun i hi h => h (hin i hi)⟩, .inl ⟨h2, rfl⟩⟩
      · rw [h3, ub_bind]
        exact ⟨w, rfl, w, ⟨h1, fun i hi h => h (hin i hi)⟩, .inr ⟨h2, rfl⟩⟩
    | _ =>
      have hnot : ¬ Inner text w ∧ ¬ Closing text dot w := by
        unfold Inner Closing
        rw [at_iff hc, at_iff hc]
        have hm : ∀ l : List Wc, (∀ x ∈ l, getCharType x = .punctuation) → c ∉ l := by
          intro l hl h
          rw [hl c h] at hcd
          cases hcd
        have h1 : c ∉ apostrophes := hm _ (by decide)
        have h2 : c ∉ hyphens := hm _ (by decide)
        have h3 : c ≠ 0x2E := fun h => hm [0x2E] (by decide) (by simp [h])
        have h4 : c ≠ 0x2C := fun h => hm [0x2C] (by decide) (by simp [h])
        simp only [Letter, Digit, hcd, h1, h2, h3, h4, reduceCtorEq, false_and, or_false, not_false_eq_true, and_self]
      exact ⟨w, rfl, w, ⟨hnot.1, fun i hi h => h (hin i hi)⟩, .inr ⟨hnot.2, rfl⟩⟩

/-- The test for a last dot. -/
theorem lastDot_test {text : List Wc} {i : Nat} (hi : text[i]? = some 0x2E) :
    ∃ b, ((if i + 1 = text.length then pure true else do let d ← rd text (i + 1); pure (getCharType d == .whitespace)) : UB Bool) = some b ∧
      (b = true ↔ LastDot text i) := by
  have hd : LastDot text i ↔ (i + 1 = text.length ∨ At text (i + 1) Space) := by
    unfold LastDot
    rw [at_iff hi]
    simp
  have hlt := (List.getElem?_eq_some_iff.1 hi).1
  by_cases he : i + 1 = text.length
  · rw [if_pos he]
    exact ⟨true, rfl, by rw [hd]; simp [he]⟩
  · rw [if_neg he, rd_eq]
    have hlt2 : i + 1 < text.length := by omega
    rw [List.getElem?_eq_getElem hlt2, ub_bind]
    refine ⟨_, rfl, ?_⟩
    rw [hd, at_iff (List.getElem?_eq_getElem hlt2)]
    simp [he, Space]

theorem lastDot_bind {text : List Wc} {i : Nat} {b : Bool}
    (h : ((if i + 1 = text.length then pure true else do let d ← rd text (i + 1); pure (getCharType d == .whitespace)) : UB Bool) = some b)
    (K : Bool → UB Nat) :
    (if i + 1 = text.length then (do let stop ← (pure true : UB Bool); K stop)
      else do let d ← rd text (i + 1); let stop ← (pure (getCharType d == .whitespace) : UB Bool); K stop) = K b := by
  by_cases he : i + 1 = text.length
  · rw [if_pos he] at h ⊢
    cases h
    rfl
  · rw [if_neg he] at h ⊢
    obtain ⟨d, h1, h2⟩ := Option.bind_eq_some_iff.1 h
    cases h2
    rw [h1]
    rfl

theorem urlLoop_exact (text : List Wc) (s : Nat) (hs : s = if text[4]? = some 0x73 then 8 else 7) : ∀ (k i : Nat),
    text.length - i = k → i ≤ text.length → s ≤ i → (∀ j < i, ¬ UrlEnd text j) →
    ∃ n, urlLoop text i = some n ∧ FirstAt (UrlEnd text) n := by
  intro k
  induction k with
  | zero =>
    intro i hk hi hsi hno
    have : i = text.length := by omega
    subst this
    rw [urlLoop.eq_def, dif_neg (by omega)]
    exact ⟨_, rfl, ⟨by rw [← hs]; exact hsi, .inl rfl⟩, hno⟩
  | succ k ih =>
    intro i hk hi hsi hno
    have hlt : i < text.length := by omega
    obtain ⟨c, hc⟩ : ∃ c, text[i]? = some c := ⟨_, List.getElem?_eq_getElem hlt⟩
    have hend : UrlEnd text i ↔ ((Space c ∨ Unknown c ∧ c ∉ "=#%".toList.map Char.toNat) ∨ LastDot text i) := by
      unfold UrlEnd
      rw [← hs, at_iff hc]
      simp only [hsi, true_and, show i ≠ text.length by omega, false_or]
    have hld : c ≠ 0x2E → ¬ LastDot text i := by
      intro hne h
      exact hne ((at_iff hc _).1 h.1)
    have more : ¬ UrlEnd text i → ∃ n, urlLoop text (i + 1) = some n ∧ FirstAt (UrlEnd text) n := by
      intro h
      refine ih (i + 1) (by omega) (by omega) (by omega) fun j hj => ?_
      by_cases hji : j = i
      · subst hji; exact h
      · exact hno j (by omega)
    have hcls : ∀ x : Wc, getCharType x ≠ .punctuation → x ≠ 0x2E := by
      rintro x hx rfl
      exact hx (by decide)
    rw [urlLoop.eq_def, dif_pos hlt, rd_eq, hc, ub_bind]
    cases hcd : getCharType c with
    | letter =>
      refine more fun h => ?_
      rcases hend.1 h with (h | h) | h
      · rw [Space, hcd] at h; cases h
      · rw [Unknown, hcd] at h; cases h.1
      · exact hld (hcls c (by rw [hcd]; simp)) h
    | digit =>
      refine more fun h => ?_
      rcases hend.1 h with (h | h) | h
      · rw [Space, hcd] at h; cases h
      · rw [Unknown, hcd] at h; cases h.1
      · exact hld (hcls c (by rw [hcd]; simp)) h
    | whitespace => exact ⟨i, rfl, hend.2 (.inl (.inl hcd)), hno⟩
    | unknown =>
      simp only
      have hw : wcschr [0x3D, 0x23, 0x25] c = true ↔ c ∈ "=#%".toList.map Char.toNat := by
        have h0 : c ≠ 0 := by rintro rfl; exact absurd hcd (by decide)
        have hl : "=#%".toList.map Char.toNat = [0x3D, 0x23, 0x25] := by decide
        rw [hl]
        simp only [wcschr, List.contains_cons, List.contains_nil, Bool.or_eq_true, beq_iff_eq, Bool.or_false, decide_eq_true_eq,
          List.elem_eq_mem, List.mem_cons, List.not_mem_nil, or_false, h0, false_or, or_self]
      by_cases hin : wcschr [0x3D, 0x23, 0x25] c = true
      · rw [hin]
        refine more fun h => ?_
        rcases hend.1 h with (h | h) | h
        · rw [Space, hcd] at h; cases h
        · exact h.2 (hw.1 hin)
        · exact hld (hcls c (by rw [hcd]; simp)) h
      · have hf : wcschr [0x3D, 0x23, 0x25] c = false := by simpa using hin
        rw [hf]
        exact ⟨i, rfl, hend.2 (.inl (.inr ⟨hcd, fun h => hin (hw.2 h)⟩)), hno⟩
    | punctuation =>
      simp only
      by_cases hdot : c = 0x2E
      · rw [if_pos hdot]
        subst hdot
        obtain ⟨b, h1, h2⟩ := lastDot_test hc
        rw [h1, ub_bind]
        cases b with
        | true => exact ⟨i, rfl, hend.2 (.inr (h2.1 rfl)), hno⟩
        | false =>
          refine more fun h => ?_
          rcases hend.1 h with (h | h) | h
          · rw [Space, hcd] at h; cases h
          · rw [Unknown, hcd] at h; cases h.1
          · cases h2.2 h
      · rw [if_neg hdot]
        refine more fun h => ?_
        rcases hend.1 h with (h | h) | h
        · rw [Space, hcd] at h; cases h
        · rw [Unknown, hcd] at h; cases h.1
        · exact hld hdot h

/-- `Mail` without the condition on the length of the text. -/
def MailBody (text : List Wc) (n : Nat) : Prop :=
  FirstAt (MailEnd text) n ∧ (∃ j < n, At text j (· = 0x40) ∧ ∀ k < n, At text k (· = 0x40) → k = j) ∧
    ∃ j < n, At text j (· = 0x2E) ∧ AtSignBefore text j

/-- What the loop for e-mail addresses knows at position `i`. -/
structure MailInv (text : List Wc) (i : Nat) (foundAt foundDot : Bool) : Prop where
  sign : foundAt = true ↔ AtSignBefore text i
  one : ∀ j k, j < i → k < i → At text j (· = 0x40) → At text k (· = 0x40) → j = k
  dot : foundDot = true ↔ ∃ j < i, At text j (· = 0x2E) ∧ AtSignBefore text j
  before : ∀ j < i, ¬ MailEnd text j

def MailResult (text : List Wc) (r : UB Nat) : Prop :=
  ∃ n, r = some n ∧ ((n ≠ 0 ∧ MailBody text n) ∨ (n = 0 ∧ ¬ ∃ m, MailBody text m))

theorem mail_stop {text : List Wc} {i : Nat} {a d : Bool} (h : MailInv text i a d) (he : MailEnd text i) :
    MailResult text (if (a && d) = true then some i else some 0) := by
  have hfirst : FirstAt (MailEnd text) i := ⟨he, h.before⟩
  by_cases hb : (a && d) = true
  · rw [if_pos hb]
    rw [Bool.and_eq_true] at hb
    obtain ⟨j, hj1, hj2⟩ := h.sign.1 hb.1
    refine ⟨i, rfl, .inl ⟨by omega, hfirst, ⟨j, hj1, hj2, fun k hk hk2 => h.one k j hk hj1 hk2 hj2⟩, h.dot.1 hb.2⟩⟩
  · rw [if_neg hb]
    refine ⟨0, rfl, .inr ⟨rfl, ?_⟩⟩
    rintro ⟨m, h1, ⟨j, hj1, hj2, _⟩, h3⟩
    have := first_unique h1 hfirst
    subst this
    apply hb
    rw [Bool.and_eq_true]
    exact ⟨h.sign.2 ⟨j, hj1, hj2⟩, h.dot.2 h3⟩

theorem mail_step {text : List Wc} {i : Nat} {a d a' d' : Bool} {c : Wc} (h : MailInv text i a d) (hc : text[i]? = some c)
    (hne : ¬ MailEnd text i) (hone : c = 0x40 → a = false) (ha : a' = true ↔ a = true ∨ c = 0x40)
    (hd : d' = true ↔ d = true ∨ (c = 0x2E ∧ a = true)) : MailInv text (i + 1) a' d' where
  sign := by
    rw [ha, h.sign]
    constructor
    · rintro (⟨j, h1, h2⟩ | h)
      · exact ⟨j, by omega, h2⟩
      · exact ⟨i, by omega, c, hc, h⟩
    · rintro ⟨j, h1, h2⟩
      by_cases hj : j = i
      · subst hj; exact .inr ((at_iff hc _).1 h2)
      · exact .inl ⟨j, by omega, h2⟩
  one := by
    intro j k hj hk h1 h2
    have no : c = 0x40 → ∀ j < i, ¬ At text j (· = 0x40) := by
      intro hx j hj hat
      have := h.sign.2 ⟨j, hj, hat⟩
      rw [hone hx] at this
      cases this
    by_cases hji : j = i
    · by_cases hki : k = i
      · omega
      · subst hji
        exact absurd h2 (no ((at_iff hc _).1 h1) k (by omega))
    · by_cases hki : k = i
      · subst hki
        exact absurd h1 (no ((at_iff hc _).1 h2) j (by omega))
      · exact h.one j k (by omega) (by omega) h1 h2
  dot := by
    rw [hd, h.dot, h.sign]
    constructor
    · rintro (⟨j, h1, h2⟩ | ⟨h1, h2⟩)
      · exact ⟨j, by omega, h2⟩
      · exact ⟨i, by omega, ⟨c, hc, h1⟩, h2⟩
    · rintro ⟨j, h1, h2, h3⟩
      by_cases hj : j = i
      · subst hj; exact .inr ⟨(at_iff hc _).1 h2, h3⟩
      · exact .inl ⟨j, by omega, h2, h3⟩
  before := by
    intro j hj
    by_cases hji : j = i
    · subst hji; exact hne
    · exact h.before j (by omega)

theorem unknownOk_iff {c : Wc} (h0 : c ≠ 0) : wcschr emailUnknownOk c = true ↔ c ∈ "#$%*+=^_`|~".toList.map Char.toNat := by
  have hl : "#$%*+=^_`|~".toList.map Char.toNat = emailUnknownOk := by decide
  rw [hl]
  simp [wcschr, h0]

theorem punctOk_iff {c : Wc} : wcschr emailPunctOk c = true ↔ c = 0 ∨ c ∈ "!&'-/?{}.".toList.map Char.toNat := by
  have hl : "!&'-/?{}.".toList.map Char.toNat = emailPunctOk := by decide
  rw [hl]
  simp [wcschr, or_comm]

theorem emailLoop_exact (text : List Wc) : ∀ (k i : Nat) (a d : Bool), text.length - i = k → i ≤ text.length → MailInv text i a d →
    MailResult text (emailLoop text i a d) := by
  intro k
  induction k with
  | zero =>
    intro i a d hk hi h
    have : i = text.length := by omega
    subst this
    rw [emailLoop.eq_def, dif_neg (by omega)]
    have := mail_stop h (.inl rfl)
    simpa using this
  | succ k ih =>
    intro i a d hk hi h
    have hlt : i < text.length := by omega
    have hk1 : text.length - (i + 1) = k := by omega
    obtain ⟨c, hc⟩ : ∃ c, text[i]? = some c := ⟨_, List.getElem?_eq_getElem hlt⟩
    have hend : MailEnd text i ↔ ((Space c ∨ (Unknown c ∧ c ≠ 0x40 ∧ c ∉ "#$%*+=^_`|~".toList.map Char.toNat) ∨
      (getCharType c = .punctuation ∧ c ≠ 0 ∧ c ∉ "!&'-/?{}.".toList.map Char.toNat)) ∨ (AtSignBefore text i ∧ LastDot text i)) := by
      unfold MailEnd
      rw [at_iff hc]
      simp only [show i ≠ text.length by omega, false_or]
    have hld : c ≠ 0x2E → ¬ LastDot text i := by
      intro hne hd
      exact hne ((at_iff hc _).1 hd.1)
    have hnp : getCharType c ≠ .punctuation → c ≠ 0x2E ∧ c ≠ 0 := by
      intro hx
      refine ⟨?_, ?_⟩
      · rintro rfl; exact hx (by decide)
      · rintro rfl; exact hx (by decide)
    have h40 : getCharType c ≠ .unknown → c ≠ 0x40 := by
      rintro hx rfl
      exact hx (by decide)
    rw [emailLoop.eq_def, dif_pos hlt, rd_eq, hc, ub_bind]
    have plain : getCharType c ≠ .punctuation → ¬ MailEnd text i → c ≠ 0x40 → MailResult text (emailLoop text (i + 1) a d) := by
      intro h1 h2 h3
      exact ih (i + 1) a d hk1 hlt (mail_step h hc h2 (fun e => absurd e h3) (by simp [h3]) (by simp [(hnp h1).1]))
    cases hcd : getCharType c with
    | letter =>
      refine plain (by rw [hcd]; simp) (fun he => ?_) (h40 (by rw [hcd]; simp))
      rcases hend.1 he with (h | h | h) | h
      · rw [Space, hcd] at h; cases h
      · rw [Unknown, hcd] at h; cases h.1
      · rw [hcd] at h; cases h.1
      · exact hld (hnp (by rw [hcd]; simp)).1 h.2
    | digit =>
      refine plain (by rw [hcd]; simp) (fun he => ?_) (h40 (by rw [hcd]; simp))
      rcases hend.1 he with (h | h | h) | h
      · rw [Space, hcd] at h; cases h
      · rw [Unknown, hcd] at h; cases h.1
      · rw [hcd] at h; cases h.1
      · exact hld (hnp (by rw [hcd]; simp)).1 h.2
    | whitespace => simpa using mail_stop h (hend.2 (.inl (.inl hcd)))
    | unknown =>
      simp only
      have hn := hnp (by rw [hcd]; simp)
      by_cases hat : c = 0x40
      · rw [if_pos hat]
        have hne : ¬ MailEnd text i := fun he => by
          rcases hend.1 he with (h | h | h) | h
          · rw [Space, hcd] at h; cases h
          · exact h.2.1 hat
          · rw [hcd] at h; cases h.1
          · exact hld hn.1 h.2
        cases ha : a with
        | true =>
          refine ⟨0, rfl, .inr ⟨rfl, ?_⟩⟩
          rintro ⟨m, h1, ⟨j, hj1, hj2, hj3⟩, _⟩
          obtain ⟨j', hj', hj'2⟩ := h.sign.1 ha
          have hm : i < m := by
            rcases Nat.lt_trichotomy i m with hx | hx | hx
            · exact hx
            · exact absurd (hx ▸ h1.1) hne
            · exact absurd h1.1 (h.before m hx)
          have e1 := hj3 i hm ⟨c, hc, hat⟩
          have e2 := hj3 j' (by omega) hj'2
          omega
        | false =>
          refine ih (i + 1) true d hk1 hlt (mail_step h hc hne (fun _ => ha) (by simp [hat]) (by simp [hn.1]))
      · rw [if_neg hat]
        by_cases hok : wcschr emailUnknownOk c = true
        · rw [hok]
          refine plain (by rw [hcd]; simp) (fun he => ?_) hat
          rcases hend.1 he with (h | h | h) | h
          · rw [Space, hcd] at h; cases h
          · exact h.2.2 ((unknownOk_iff hn.2).1 hok)
          · rw [hcd] at h; cases h.1
          · exact hld hn.1 h.2
        · have hf : wcschr emailUnknownOk c = false := by simpa using hok
          rw [hf]
          simpa using mail_stop h (hend.2 (.inl (.inr (.inl ⟨hcd, hat, fun hm => hok ((unknownOk_iff hn.2).2 hm)⟩))))
    | punctuation =>
      simp only
      have hat : c ≠ 0x40 := h40 (by rw [hcd]; simp)
      by_cases hdot : (decide (c = 0x2E) && a) = true
      · rw [if_pos hdot]
        simp only [Bool.and_eq_true, decide_eq_true_eq] at hdot
        obtain ⟨rfl, ha⟩ := hdot
        obtain ⟨b, h1, h2⟩ := lastDot_test hc
        rw [lastDot_bind h1 (fun stop => if stop = true then if d = true then pure i else pure 0 else emailLoop text (i + 1) a true)]
        cases b with
        | true =>
          have := mail_stop h (hend.2 (.inr ⟨h.sign.1 ha, h2.1 rfl⟩))
          rw [ha] at this
          simpa using this
        | false =>
          have hne : ¬ MailEnd text i := fun he => by
            rcases hend.1 he with (h | h | h) | h
            · rw [Space, hcd] at h; cases h
            · rw [Unknown, hcd] at h; cases h.1
            · exact h.2.2 (by decide)
            · cases h2.2 h.2
          exact ih (i + 1) a true hk1 hlt (mail_step h hc hne (fun e => absurd e hat) (by simp) (by simp [ha]))
      · rw [if_neg hdot]
        have hdot' : ¬ (c = 0x2E ∧ a = true) := by simpa using hdot
        by_cases hok : wcschr emailPunctOk c = true
        · rw [hok]
          have hne : ¬ MailEnd text i := fun he => by
            rcases hend.1 he with (h' | h' | h') | h'
            · rw [Space, hcd] at h'; cases h'
            · rw [Unknown, hcd] at h'; cases h'.1
            · rcases punctOk_iff.1 hok with h0 | h0
              · exact h'.2.1 h0
              · exact h'.2.2 h0
            · exact hdot' ⟨(at_iff hc _).1 h'.2.1, h.sign.2 h'.1⟩
          exact ih (i + 1) a d hk1 hlt (mail_step h hc hne (fun e => absurd e hat) (by simp [hat]) (by simp only [hdot', or_false]))
        · have hf : wcschr emailPunctOk c = false := by simpa using hok
          rw [hf]
          have hnm : c ≠ 0 ∧ c ∉ "!&'-/?{}.".toList.map Char.toNat :=
            ⟨fun e => hok (punctOk_iff.2 (.inl e)), fun e => hok (punctOk_iff.2 (.inr e))⟩
          simpa using mail_stop h (hend.2 (.inl (.inr (.inr ⟨hcd, hnm⟩))))

theorem prefix_iff_cmp (l text : List Wc) : ∀ off, off + l.length ≤ text.length →
    ∃ b, wcsncmpEq l text off = some b ∧ (b = true ↔ l <+: text.drop off) := by
  induction l with
  | nil => exact fun off _ => ⟨true, rfl, by simp⟩
  | cons x l ih =>
    intro off h
    simp only [List.length_cons] at h
    have hlt : off < text.length := by omega
    rw [wcsncmpEq, rd_eq, List.getElem?_eq_getElem hlt, ub_bind, List.drop_eq_getElem_cons hlt, List.cons_prefix_cons]
    by_cases hx : text[off] = x
    · rw [if_pos hx]
      obtain ⟨b, h1, h2⟩ := ih (off + 1) (by omega)
      exact ⟨b, h1, by rw [h2]; simp [hx]⟩
    · rw [if_neg hx]
      exact ⟨false, rfl, by simp [Ne.symm hx]⟩

/-- The recogniser of addresses: the length of the address, or zero when there is none. -/
theorem findUrlOrEmail_exact (text : List Wc) : ∃ n, findUrlOrEmail text = some n ∧
    ((StartsUrl text ∧ n ≠ 0 ∧ FirstAt (UrlEnd text) n) ∨ (¬ StartsUrl text ∧ n ≠ 0 ∧ Mail text n) ∨
      (¬ StartsUrl text ∧ n = 0 ∧ ¬ ∃ m, Mail text m)) := by
  have email : ¬ StartsUrl text → ∃ n, (if text.length < 6 then (pure 0 : UB Nat) else emailLoop text 0 false false) = some n ∧
    ((StartsUrl text ∧ n ≠ 0 ∧ FirstAt (UrlEnd text) n) ∨ (¬ StartsUrl text ∧ n ≠ 0 ∧ Mail text n) ∨
      (¬ StartsUrl text ∧ n = 0 ∧ ¬ ∃ m, Mail text m)) := by
    intro hs
    by_cases h6 : text.length < 6
    · rw [if_pos h6]
      refine ⟨0, rfl, .inr (.inr ⟨hs, rfl, ?_⟩)⟩
      rintro ⟨m, hm, _⟩
      omega
    · rw [if_neg h6]
      have inv : MailInv text 0 false false := by
        refine ⟨?_, fun j k hj => absurd hj (by omega), ?_, fun j hj => absurd hj (by omega)⟩
        · constructor
          · intro h; cases h
          · rintro ⟨j, hj, _⟩; omega
        · constructor
          · intro h; cases h
          · rintro ⟨j, hj, _⟩; omega
      obtain ⟨n, h1, h2⟩ := emailLoop_exact text _ 0 false false rfl (by omega) inv
      refine ⟨n, h1, .inr ?_⟩
      rcases h2 with ⟨h2, h3⟩ | ⟨h2, h3⟩
      · exact .inl ⟨hs, h2, by omega, h3⟩
      · exact .inr ⟨hs, h2, fun ⟨m, hm⟩ => h3 ⟨m, hm.2⟩⟩
  unfold findUrlOrEmail
  by_cases hl : text.length < 12
  · rw [if_pos hl]
    exact email fun h => by have := h.1; omega
  · rw [if_neg hl]
    obtain ⟨a, ha, ha'⟩ := prefix_iff_cmp httpPrefix text 0 (by simp [httpPrefix]; omega)
    obtain ⟨b, hb, hb'⟩ := prefix_iff_cmp httpsPrefix text 0 (by simp [httpsPrefix]; omega)
    have e1 : "http://".toList.map Char.toNat = httpPrefix := by decide
    have e2 : "https://".toList.map Char.toNat = httpsPrefix := by decide
    have hs : StartsUrl text ↔ a = true ∨ b = true := by
      unfold StartsUrl
      rw [e1, e2, ha', hb', List.drop_zero]
      exact ⟨fun h => h.2, fun h => ⟨by omega, h⟩⟩
    have h4 : 4 < text.length := by omega
    have url : StartsUrl text → ∃ n, (do let c4 ← rd text 4; urlLoop text (if c4 = 0x73 then 8 else 7)) = some n ∧
      ((StartsUrl text ∧ n ≠ 0 ∧ FirstAt (UrlEnd text) n) ∨ (¬ StartsUrl text ∧ n ≠ 0 ∧ Mail text n) ∨
      (¬ StartsUrl text ∧ n = 0 ∧ ¬ ∃ m, Mail text m)) := by
      intro hst
      rw [rd_eq, List.getElem?_eq_getElem h4, ub_bind]
      have hsz : (if text[4] = 0x73 then 8 else 7) = (if text[4]? = some 0x73 then 8 else 7) := by
        rw [List.getElem?_eq_getElem h4]; simp
      rw [hsz]
      have hle : (if text[4]? = some 0x73 then 8 else 7) ≤ text.length := by split <;> omega
      obtain ⟨n, h1, h2⟩ := urlLoop_exact text _ rfl _ _ rfl hle (Nat.le_refl _)
        (fun j hj he => absurd he.1 (by omega))
      refine ⟨n, h1, .inl ⟨hst, ?_, h2⟩⟩
      have := h2.1.1
      split at this <;> omega
    simp only [ha, hb]
    cases a with
    | true => exact url (hs.2 (.inl rfl))
    | false =>
      cases b with
      | true => exact url (hs.2 (.inr rfl))
      | false => exact email fun h => by simpa using hs.1 h

theorem mail_unique {text : List Wc} {m n : Nat} (hm : Mail text m) (hn : Mail text n) : m = n := first_unique hm.2.1 hn.2.1

/-- The scanner for words finds exactly the word. -/
theorem wordLength_exact (text : List Wc) (dot : Bool) : ∃ n, wordLength text dot = some n ∧ Word text dot n := by
  obtain ⟨n, h1, h2⟩ := findUrlOrEmail_exact text
  unfold wordLength
  rw [h1, ub_bind]
  rcases h2 with ⟨hs, hn, h⟩ | ⟨hs, hn, h⟩ | ⟨hs, hn, h⟩
  · rw [if_pos hn]
    exact ⟨n, rfl, .inl ⟨hs, h⟩⟩
  · rw [if_pos hn]
    exact ⟨n, rfl, .inr (.inl ⟨hs, h⟩)⟩
  · rw [if_neg (by simpa using hn)]
    obtain ⟨m, h3, h4⟩ := wordLoop_exact text dot _ 0 false false rfl (by omega) (fun i hi => absurd hi (by omega)) (.inl ⟨rfl, rfl⟩)
      ⟨fun h => (by cases h), fun ⟨j, hj, _⟩ => (by omega)⟩
    exact ⟨m, h3, .inr (.inr ⟨hs, h, h4⟩)⟩

theorem word_unique {text : List Wc} {dot : Bool} {m n : Nat} (hm : Word text dot m) (hn : Word text dot n) : m = n := by
  rcases hm with ⟨h1, h2⟩ | ⟨h1, h2⟩ | ⟨h1, h2, h3⟩ <;> rcases hn with ⟨g1, g2⟩ | ⟨g1, g2⟩ | ⟨g1, g2, g3⟩
  · exact first_unique h2 g2
  · exact absurd h1 g1
  · exact absurd h1 g1
  · exact absurd g1 h1
  · exact mail_unique h2 g2
  · exact absurd ⟨_, h2⟩ g2
  · exact absurd g1 h1
  · exact absurd ⟨_, g2⟩ h2
  · exact plainWord_unique h3 g3

theorem whitespaceLoop_exact (text : List Wc) : ∀ (k i : Nat), text.length - i = k → i ≤ text.length → (∀ j < i, At text j Space) →
    ∃ n, whitespaceLoop text i = some n ∧ i ≤ n ∧ (∀ j < n, At text j Space) ∧ ¬ At text n Space := by
  intro k
  induction k with
  | zero =>
    intro i hk hi hall
    have : i = text.length := by omega
    subst this
    rw [whitespaceLoop.eq_def, dif_neg (by omega)]
    exact ⟨_, rfl, Nat.le_refl _, hall, not_at_end (Nat.le_refl _) _⟩
  | succ k ih =>
    intro i hk hi hall
    have hlt : i < text.length := by omega
    have hk1 : text.length - (i + 1) = k := by omega
    have hc := List.getElem?_eq_getElem hlt
    rw [whitespaceLoop.eq_def, dif_pos hlt, rd_eq, hc, ub_bind]
    by_cases hw : getCharType text[i] = .whitespace
    · rw [if_neg (by simpa using hw)]
      obtain ⟨n, h1, h2, h3⟩ := ih (i + 1) hk1 hlt (fun j hj => by
        by_cases hji : j = i
        · subst hji; exact (at_iff hc _).2 hw
        · exact hall j (by omega))
      exact ⟨n, h1, by omega, h3⟩
    · rw [if_pos hw]
      exact ⟨i, rfl, Nat.le_refl _, hall, fun h => hw ((at_iff hc _).1 h)⟩

theorem word_nil (dot : Bool) : Word [] dot 0 := by
  obtain ⟨n, h1, h2⟩ := wordLength_exact [] dot
  have : wordLength [] dot = some 0 := by
    cases dot <;> simp [wordLength, findUrlOrEmail, wordLoop.eq_def, ub_bind] <;> rfl
  rw [this] at h1
  cases h1
  exact h2

theorem leading_iff {c : Wc} : wcschr [0x2D, 0x2010, 0x2011] c = true ↔ c ∈ leading := by
  simp only [wcschr, leading, List.contains_cons, List.contains_nil, Bool.or_eq_true, beq_iff_eq, Bool.or_false,
    decide_eq_true_eq, List.elem_eq_mem, List.mem_cons, List.not_mem_nil, or_false]
  omega

theorem leading_punct {c : Wc} (h : c ∈ leading) : getCharType c = .punctuation := by
  simp only [leading, List.mem_cons, List.not_mem_nil, or_false] at h
  rcases h with rfl | rfl | rfl | rfl <;> decide

/-- The scanner finds a token. -/
theorem nextToken_sound (text : List Wc) (dot : Bool) : ∃ t n, nextToken text dot = some (t, n) ∧ Token dot text t n := by
  cases text with
  | nil => exact ⟨.none, 0, rfl, .none⟩
  | cons c rest =>
    unfold nextToken
    rw [if_neg (by simp), rd_eq, List.getElem?_cons_zero, ub_bind]
    cases hc : getCharType c with
    | letter =>
      obtain ⟨n, h1, h2⟩ := wordLength_exact (c :: rest) dot
      simp only [h1, ub_bind]
      exact ⟨_, _, rfl, .word (.inl hc) h2⟩
    | digit =>
      obtain ⟨n, h1, h2⟩ := wordLength_exact (c :: rest) dot
      simp only [h1, ub_bind]
      exact ⟨_, _, rfl, .word (.inr hc) h2⟩
    | whitespace =>
      obtain ⟨n, h1, h2, h3, h4⟩ := whitespaceLoop_exact (c :: rest) _ 1 rfl (by simp) (fun j hj => by
        have : j = 0 := by omega
        subst this
        exact ⟨c, rfl, hc⟩)
      simp only [h1, ub_bind]
      exact ⟨_, _, rfl, .space (by omega) h3 h4⟩
    | unknown => exact ⟨_, _, rfl, .unknown hc⟩
    | punctuation =>
      simp only
      by_cases hl : wcschr [0x2D, 0x2010, 0x2011] c = true
      · rw [if_pos hl]
        have hlead := leading_iff.1 hl
        by_cases h1 : (c :: rest).length = 1
        · rw [if_pos h1]
          have : rest = [] := by simpa using h1
          subst this
          exact ⟨_, _, rfl, .hyphen hlead (word_nil dot)⟩
        · rw [if_neg h1]
          obtain ⟨n, h2, h3⟩ := wordLength_exact rest dot
          simp only [List.drop_succ_cons, List.drop_zero, h2, ub_bind]
          by_cases hn : n = 0
          · subst hn
            exact ⟨_, _, rfl, .hyphen hlead h3⟩
          · rw [if_neg hn]
            exact ⟨_, _, rfl, .hyphenWord hlead h3 (by omega)⟩
      · rw [if_neg hl]
        have hlead : c ∉ leading := fun h => hl (leading_iff.2 h)
        by_cases h3 : (c :: rest).length ≥ 3
        · obtain ⟨b, h1, h2⟩ := prefix_iff_cmp [0x2E, 0x2E, 0x2E] (c :: rest) 0 (by simpa using h3)
          rw [if_pos h3, h1, ub_bind]
          cases b with
          | true =>
            obtain ⟨r, hr⟩ := h2.1 rfl
            rw [List.drop_zero] at hr
            rw [← hr]
            exact ⟨_, _, rfl, .ellipsis⟩
          | false =>
            refine ⟨_, _, rfl, .punctuation hc hlead ?_⟩
            rintro ⟨r, hr⟩
            have := h2.2 ⟨r, by rw [List.drop_zero, hr]; rfl⟩
            cases this
        · rw [if_neg h3]
          refine ⟨_, _, rfl, .punctuation hc hlead ?_⟩
          rintro ⟨r, hr⟩
          rw [hr] at h3
          simp at h3

/-- What the class of the first character says about the token. -/
def ByClass (dot : Bool) (c : Wc) (rest : List Wc) (t : TokenType) (n : Nat) : Prop :=
  match getCharType c with
  | .letter => t = .word ∧ Word (c :: rest) dot n
  | .digit => t = .word ∧ Word (c :: rest) dot n
  | .unknown => t = .unknown ∧ n = 1
  | .whitespace => t = .whitespace ∧ FirstAt (fun i => ¬ At (c :: rest) i Space) n
  | .punctuation =>
    (c ∈ leading ∧ ((t = .word ∧ ∃ m, n = m + 1 ∧ 0 < m ∧ Word rest dot m) ∨ (t = .punctuation ∧ n = 1 ∧ Word rest dot 0))) ∨
    (c ∉ leading ∧ (((∃ r, c :: rest = 0x2E :: 0x2E :: 0x2E :: r) ∧ t = .punctuation ∧ n = 3) ∨
      (¬ (∃ r, c :: rest = 0x2E :: 0x2E :: 0x2E :: r) ∧ t = .punctuation ∧ n = 1)))

theorem byClass {dot : Bool} {c : Wc} {rest : List Wc} {t : TokenType} {n : Nat} (h : Token dot (c :: rest) t n) :
    ByClass dot c rest t n := by
  unfold ByClass
  cases h with
  | word h1 h2 =>
    rcases h1 with h1 | h1 <;> rw [h1] <;> exact ⟨rfl, h2⟩
  | hyphenWord h1 h2 h3 =>
    rw [leading_punct h1]
    exact .inl ⟨h1, .inl ⟨rfl, _, rfl, h3, h2⟩⟩
  | hyphen h1 h2 =>
    rw [leading_punct h1]
    exact .inl ⟨h1, .inr ⟨rfl, rfl, h2⟩⟩
  | ellipsis =>
    rw [show getCharType 0x2E = .punctuation by decide]
    exact .inr ⟨by decide, .inl ⟨⟨_, rfl⟩, rfl, rfl⟩⟩
  | punctuation h1 h2 h3 =>
    rw [h1]
    exact .inr ⟨h2, .inr ⟨h3, rfl, rfl⟩⟩
  | space h1 h2 h3 =>
    obtain ⟨d, hd, hd2⟩ := h2 0 h1
    rw [List.getElem?_cons_zero] at hd
    cases hd
    rw [hd2]
    exact ⟨rfl, h3, fun i hi hn => hn (h2 i hi)⟩
  | unknown h1 =>
    rw [h1]
    exact ⟨rfl, rfl⟩

/-- A text has one first token. -/
theorem token_unique {dot : Bool} {text : List Wc} {t t' : TokenType} {n n' : Nat} (h : Token dot text t n)
    (h' : Token dot text t' n') : t = t' ∧ n = n' := by
  cases text with
  | nil =>
    have nil : ∀ {t n}, Token dot [] t n → t = .none ∧ n = 0 := by
      intro t n h
      cases h with
      | none => exact ⟨rfl, rfl⟩
      | space h1 h2 _ => exact absurd (h2 0 h1) (not_at_end (by simp) _)
    rw [(nil h).1, (nil h).2, (nil h').1, (nil h').2]
    exact ⟨rfl, rfl⟩
  | cons c rest =>
    have h := byClass h
    have h' := byClass h'
    unfold ByClass at h h'
    cases hc : getCharType c <;> rw [hc] at h h' <;> simp only at h h'
    · exact ⟨h.1.trans h'.1.symm, word_unique h.2 h'.2⟩
    · exact ⟨h.1.trans h'.1.symm, word_unique h.2 h'.2⟩
    · exact ⟨h.1.trans h'.1.symm, first_unique h.2 h'.2⟩
    · rcases h with ⟨hl, h⟩ | ⟨hl, h⟩ <;> rcases h' with ⟨hl', h'⟩ | ⟨hl', h'⟩
      · rcases h with ⟨h1, m, h2, h3, h4⟩ | ⟨h1, h2, h3⟩ <;> rcases h' with ⟨g1, m', g2, g3, g4⟩ | ⟨g1, g2, g3⟩
        · have := word_unique h4 g4
          exact ⟨h1.trans g1.symm, by omega⟩
        · have := word_unique h4 g3
          omega
        · have := word_unique h3 g4
          omega
        · exact ⟨h1.trans g1.symm, by omega⟩
      · exact absurd hl hl'
      · exact absurd hl' hl
      · rcases h with ⟨h1, h2, h3⟩ | ⟨h1, h2, h3⟩ <;> rcases h' with ⟨g1, g2, g3⟩ | ⟨g1, g2, g3⟩
        · exact ⟨h2.trans g2.symm, by omega⟩
        · exact absurd h1 g1
        · exact absurd g1 h1
        · exact ⟨h2.trans g2.symm, by omega⟩
    · exact ⟨h.1.trans h'.1.symm, by omega⟩

end Verif.Tokens
