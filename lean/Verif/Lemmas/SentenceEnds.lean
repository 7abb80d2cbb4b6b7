import Verif.Spec.Sentence
import Verif.Lemmas.Sentence
/-! Helper lemmas for the exact ends of sentences. -/

set_option linter.unusedSimpArgs false
set_option linter.unusedVariables false

namespace Verif.Sentences
open Verif Verif.Props

theorem snoc_tk {α : Type} {w x y : List α} {e a : α} : w ++ [e] = x ++ a :: y ↔ (y = [] ∧ x = w ∧ a = e) ∨ ∃ y', y = y' ++ [e] ∧ w = x ++ a :: y' := by
  constructor
  · intro h
    rcases List.eq_nil_or_concat y with rfl | ⟨y', b, rfl⟩
    · left
      have := List.append_inj' h rfl
      exact ⟨rfl, this.1.symm, by simpa using this.2.symm⟩
    · right
      rw [List.concat_eq_append] at h ⊢
      have h' : w ++ [e] = (x ++ a :: y') ++ [b] := by simpa using h
      have := List.append_inj' h' rfl
      exact ⟨y', by simpa using this.2.symm, this.1⟩
  · rintro (⟨rfl, rfl, rfl⟩ | ⟨y', rfl, rfl⟩) <;> simp

theorem sinceTk_snoc {on : List Tk → Tk → Prop} {x y : List Tk} {e : Tk} :
    SinceTk on (x ++ [e]) y ↔ on x e ∨ (SinceTk on x (e :: y) ∧ ¬ GoesOn x e y) := by
  constructor
  · rintro ⟨u, m, t, h, ho, ht⟩
    rcases snoc_tk.1 h with ⟨_, rfl, rfl⟩ | ⟨y', rfl, h'⟩
    · exact .inl ho
    · refine .inr ⟨⟨u, m, y', h', ho, fun a q b hab => ?_⟩, ?_⟩
      · have := ht a q (b ++ [e]) (by rw [hab]; simp)
        simpa using this
      · have := ht y' e [] rfl
        rw [h']
        simpa using this
  · rintro (h | ⟨⟨u, m, t, rfl, ho, ht⟩, hg⟩)
    · exact ⟨x, e, [], rfl, h, fun a q b hab => by simp at hab⟩
    · refine ⟨u, m, t ++ [e], by simp, ho, fun a q b hab => ?_⟩
      rcases snoc_tk.1 hab with ⟨rfl, rfl, rfl⟩ | ⟨b', rfl, h'⟩
      · simpa using hg
      · have := ht a q b' h'
        simpa using this

theorem sinceTk_nil {on : List Tk → Tk → Prop} {y : List Tk} : ¬ SinceTk on [] y := by
  rintro ⟨u, m, t, h, _⟩
  simp at h

theorem inQuotation_snoc {x : List Tk} {e : Tk} : InQuotation (x ++ [e]) ↔ (if QuoteTk e then ¬ InQuotation x else InQuotation x) := by
  unfold InQuotation
  rw [List.filter_append, List.length_append]
  by_cases h : QuoteTk e
  · rw [if_pos h]
    simp [h]; omega
  · rw [if_neg h]
    simp [h]

theorem dotWord_snoc {spellOk : List Wc → Bool} {x : List Tk} {e : Tk} :
    DotWord spellOk (x ++ [e]) ↔ DotWord spellOk x ∨ (e = (.punctuation, [0x2E]) ∧ ∃ u w, x = u ++ [w] ∧ w.1 = .word ∧ OwnDot spellOk w.2) := by
  constructor
  · rintro ⟨u, w, d, t, h, hw, hd, ho⟩
    have h' : x ++ [e] = (u ++ [w]) ++ d :: t := by simpa using h
    rcases snoc_tk.1 h' with ⟨_, h1, h2⟩ | ⟨y', rfl, h1⟩
    · exact .inr ⟨by rw [← h2, hd], u, w, h1.symm, hw, ho⟩
    · exact .inl ⟨u, w, d, y', by simpa using h1, hw, hd, ho⟩
  · rintro (⟨u, w, d, t, rfl, hw, hd, ho⟩ | ⟨he, u, w, rfl, hw, ho⟩)
    · exact ⟨u, w, d, t ++ [e], by simp, hw, hd, ho⟩
    · exact ⟨u, w, e, [], by simp, hw, he, ho⟩

theorem flat_append (a b : List Tk) : flat (a ++ b) = flat a ++ flat b := by simp [flat]

/-- The numbers and dots of a word. -/
theorem onlyNumbers_exact (w rest : List Wc) (hw : w ≠ []) :
    ∃ b, onlyNumbersOrDots (w ++ 0x2E :: rest) (w.length + 1) = some b ∧ (b = true ↔ ∀ c ∈ w, c = 0x2E ∨ c = 0x2D ∨ isDigit c = true) := by
  unfold onlyNumbersOrDots
  have key : ∀ m i, w.length - i = m → i ≤ w.length → ∃ b, onlyNumbersOrDots.go (w ++ 0x2E :: rest) (w.length + 1) i = some b
      ∧ (b = true ↔ ∀ c ∈ w.drop i, c = 0x2E ∨ c = 0x2D ∨ isDigit c = true) := by
    intro m
    induction m with
    | zero =>
      intro i hi hle
      have : ¬ i < w.length + 1 - 1 := by omega
      unfold onlyNumbersOrDots.go
      rw [dif_neg this]
      refine ⟨true, rfl, ?_⟩
      rw [List.drop_eq_nil_of_le (by omega)]
      simp
    | succ m ih =>
      intro i hi hle
      have h1 : i < w.length := by omega
      unfold onlyNumbersOrDots.go
      rw [dif_pos (by omega), rd_eq_some (show i < (w ++ 0x2E :: rest).length by simp; omega)]
      simp only [Option.bind_eq_bind, Option.bind_some]
      rw [List.getElem_append_left h1]
      rw [List.drop_eq_getElem_cons h1]
      by_cases hc : w[i] ≠ 0x2E ∧ w[i] ≠ 0x2D ∧ isDigit w[i] = false
      · rw [if_pos hc]
        refine ⟨false, rfl, ?_⟩
        simp only [Bool.false_eq_true, false_iff]
        intro h
        rcases h w[i] List.mem_cons_self with h | h | h
        · exact hc.1 h
        · exact hc.2.1 h
        · rw [hc.2.2] at h; cases h
      · rw [if_neg hc]
        obtain ⟨b, hb, hiff⟩ := ih (i + 1) (by omega) (by omega)
        refine ⟨b, hb, ?_⟩
        rw [hiff]
        have : w[i] = 0x2E ∨ w[i] = 0x2D ∨ isDigit w[i] = true := by
          cases hd : isDigit w[i] with
          | true => exact .inr (.inr rfl)
          | false =>
            by_cases h1 : w[i] = 0x2E
            · exact .inl h1
            · by_cases h2 : w[i] = 0x2D
              · exact .inr (.inl h2)
              · exact absurd ⟨h1, h2, hd⟩ hc
        simp only [List.mem_cons, forall_eq_or_imp, this, true_and]
  obtain ⟨b, hb, hiff⟩ := key _ 0 rfl (by omega)
  exact ⟨b, hb, by simpa using hiff⟩

theorem dotPart_exact (spellOk : List Wc → Bool) (w rest : List Wc) (hw : w ≠ []) :
    ∃ b, dotPartOfWord spellOk (w ++ 0x2E :: rest) (w.length + 1) = some b ∧ (b = true ↔ OwnDot spellOk w) := by
  have hl : 0 < w.length := List.length_pos_iff.2 hw
  unfold dotPartOfWord
  rw [if_neg (by omega), rd_eq_some (show 0 < (w ++ 0x2E :: rest).length by simp; omega)]
  simp only [Option.bind_eq_bind, Option.bind_some]
  rw [List.getElem_append_left hl]
  by_cases h1 : w.length + 1 = 2 ∧ isUpper w[0] = true
  · rw [if_pos h1]
    refine ⟨true, rfl, iff_of_true rfl (.inl ⟨w[0], ?_, h1.2⟩)⟩
    match w, h1.1 with
    | [c], _ => rfl
  · rw [if_neg h1]
    obtain ⟨b, hb, hiff⟩ := onlyNumbers_exact w rest hw
    rw [hb]
    have hnot : ¬ ∃ c, w = [c] ∧ isUpper c = true := by
      rintro ⟨c, rfl, hc⟩
      exact h1 ⟨rfl, hc⟩
    simp only [Option.bind_some]
    cases b with
    | true => exact ⟨true, rfl, iff_of_true rfl (.inr (.inl (hiff.1 rfl)))⟩
    | false =>
      rw [if_neg (by simp), if_neg (by simp)]
      refine ⟨_, rfl, ?_⟩
      have e : (w ++ 0x2E :: rest).take (w.length + 1) = w ++ [0x2E] := by
        rw [List.take_append, List.take_of_length_le (by omega)]; simp
      rw [e]
      unfold OwnDot
      constructor
      · intro h; exact .inr (.inr h)
      · rintro (h | h | h)
        · exact absurd h hnot
        · have := hiff.2 h; cases this
        · exact h

/-- What the variables of the search mean after the tokens `x`. -/
structure SMeans (spellOk : List Wc → Bool) (x y : List Tk) (s : SentSt) : Prop where
  slen : s.slen = (flat x).length
  prev : ∀ u p, x = u ++ [p] → s.prevStart = (flat u).length ∧ s.prevType = p.1
  start : x = [] → s.prevType = .none
  ended : s.endFound = true ↔ Ended x y
  quote : s.inQuotation = true ↔ InQuotation x
  dotword : s.endDotword = true ↔ DotWord spellOk x
  doubt : s.possibleEnd = true ↔ Doubt x y

theorem smeans_nil (spellOk : List Wc → Bool) (y : List Tk) (d : Bool) : SMeans spellOk [] y { ignoreDot := d } := by
  refine ⟨rfl, fun u p h => by simp at h, fun _ => rfl, ?_, ?_, ?_, ?_⟩
  · exact iff_of_false (by simp) sinceTk_nil
  · exact iff_of_false (by simp) (by simp [InQuotation])
  · refine iff_of_false (by simp) ?_
    rintro ⟨u, w, d, t, h, _⟩
    simp at h
  · exact iff_of_false (by simp) sinceTk_nil

/-- A token that is no mark and no quotation mark changes nothing. -/
theorem smeans_plain {spellOk : List Wc → Bool} {x y : List Tk} {s : SentSt} {t : Tk} (m : SMeans spellOk x (t :: y) s)
    (h1 : ¬ Mark t) (h2 : ¬ QuoteTk t) :
    SMeans spellOk (x ++ [t]) y { s with prevStart := s.slen, prevType := t.1, slen := s.slen + t.2.length } := by
  have h3 : ¬ DoubtfulMark t := fun h => h1 ⟨h.1, by
    have := h.2
    simp only [List.mem_cons, List.not_mem_nil, or_false] at this ⊢
    rcases this with h | h | h <;> simp [h]⟩
  have h4 : ¬ Exclamation t := fun h => h1 ⟨h.1, by
    have := h.2
    simp only [List.mem_cons, List.not_mem_nil, or_false] at this ⊢
    rcases this with h | h <;> simp [h]⟩
  have hg : ¬ GoesOn x t y := fun h => h2 h.1
  refine ⟨?_, ?_, ?_, ?_, ?_, ?_, ?_⟩
  · simp [flat_append, m.slen, flat]
  · intro u p h
    have := List.append_inj' h rfl
    refine ⟨by rw [← this.1]; exact m.slen, ?_⟩
    have e : t = p := by simpa using this.2
    rw [← e]
  · intro h; simp at h
  · unfold Ended
    rw [sinceTk_snoc]
    simp only [h1, false_or, hg, not_false_iff, and_true]
    exact m.ended
  · rw [inQuotation_snoc, if_neg h2]; exact m.quote
  · rw [dotWord_snoc, ← m.dotword]
    constructor
    · exact .inl
    · rintro (h | ⟨he, _⟩)
      · exact h
      · exact absurd ⟨by rw [he], by rw [he]; simp⟩ h1
  · unfold Doubt
    rw [sinceTk_snoc]
    simp only [h3, h4, false_or, false_and, hg, not_false_iff, and_true]
    exact m.doubt

theorem smeans_of {spellOk : List Wc → Bool} {x y : List Tk} {s s' : SentSt} {t : Tk} (m : SMeans spellOk x (t :: y) s)
    (hs : s'.slen = s.slen) (he : s'.endFound = true ↔ Ended (x ++ [t]) y) (hq : s'.inQuotation = true ↔ InQuotation (x ++ [t]))
    (hd : s'.endDotword = true ↔ DotWord spellOk (x ++ [t])) (hp : s'.possibleEnd = true ↔ Doubt (x ++ [t]) y) :
    SMeans spellOk (x ++ [t]) y { s' with prevStart := s'.slen, prevType := t.1, slen := s'.slen + t.2.length } := by
  refine ⟨?_, ?_, ?_, he, hq, hd, hp⟩
  · simp [flat_append, hs, m.slen, flat]
  · intro u p h
    have := List.append_inj' h rfl
    refine ⟨by rw [← this.1]; exact hs.trans m.slen, ?_⟩
    have e : t = p := by simpa using this.2
    rw [← e]
  · intro h; simp at h

theorem dotWord_same {spellOk : List Wc → Bool} {x : List Tk} {e : Tk} (h : e.2 ≠ [0x2E]) : DotWord spellOk (x ++ [e]) ↔ DotWord spellOk x := by
  rw [dotWord_snoc]
  constructor
  · rintro (h' | ⟨he, _⟩)
    · exact h'
    · exact absurd (by rw [he]) h
  · exact .inl

theorem sentPunct_exact {spellOk : List Wc → Bool} {x y : List Tk} {s : SentSt} {t : Tk} (m : SMeans spellOk x (t :: y) s)
    (ht : t.1 = .punctuation) (hsh : (∃ c, t.2 = [c] ∧ c ≠ 0) ∨ t.2 = [0x2E, 0x2E, 0x2E]) (hx : ∀ p ∈ x, p.2 ≠ []) :
    ∃ s', sentPunct spellOk (flat x ++ (t.2 ++ flat y)) s t.2.length = some s' ∧ s'.ignoreDot = s.ignoreDot
      ∧ SMeans spellOk (x ++ [t]) y { s' with prevStart := s'.slen, prevType := t.1, slen := s'.slen + t.2.length } := by
  obtain ⟨ty, w⟩ := t
  simp only at ht hsh ⊢
  subst ht
  rcases hsh with ⟨c, rfl, hc0⟩ | rfl
  · have hr : rd (flat x ++ ([c] ++ flat y)) s.slen = some c := by
      rw [rd_eq_some (by rw [m.slen]; simp)]
      congr 1
      simp only [m.slen, List.singleton_append]
      rw [List.getElem_append_right (Nat.le_refl _)]
      simp
    unfold sentPunct
    rw [hr]
    simp only [Option.bind_eq_bind, Option.bind_some]
    have hw : ∀ l : List Wc, wcschr l c = true ↔ c ∈ l := by intro l; simp [wcschr, hc0]
    by_cases h1 : c = 0x21 ∨ c = 0x3F
    · rw [if_pos ((hw _).2 (by simpa using h1))]
      have hM : Mark (.punctuation, [c]) := ⟨rfl, by rcases h1 with rfl | rfl <;> simp⟩
      have hE : Exclamation (.punctuation, [c]) := ⟨rfl, by rcases h1 with rfl | rfl <;> simp⟩
      have hD : ¬ DoubtfulMark (.punctuation, [c]) := by rintro ⟨_, h⟩; rcases h1 with rfl | rfl <;> simp at h
      have hQ : ¬ QuoteTk (.punctuation, [c]) := by rintro ⟨_, h⟩; rcases h1 with rfl | rfl <;> simp at h
      have hG : ¬ GoesOn x (.punctuation, [c]) y := fun h => hQ h.1
      refine ⟨_, rfl, rfl, smeans_of m rfl ?_ ?_ ?_ ?_⟩
      · exact iff_of_true rfl (sinceTk_snoc.2 (.inl hM))
      · rw [inQuotation_snoc, if_neg hQ]; exact m.quote
      · rw [dotWord_same (by rcases h1 with rfl | rfl <;> simp)]; exact m.dotword
      · unfold Doubt
        rw [sinceTk_snoc]
        simp only [hD, hE, hG, false_or, true_and, not_false_iff, and_true, Bool.or_eq_true, m.quote, m.doubt, Doubt]
        exact or_comm
    · rw [if_neg (fun h => h1 (by simpa using (hw _).1 h))]
      by_cases h2 : c = 0x2026
      · subst h2
        rw [if_pos (.inr rfl)]
        have hM : Mark (.punctuation, [0x2026]) := ⟨rfl, by simp⟩
        have hD : DoubtfulMark (.punctuation, [0x2026]) := ⟨rfl, by simp⟩
        have hQ : ¬ QuoteTk (.punctuation, [0x2026]) := by rintro ⟨_, h⟩; simp at h
        refine ⟨_, rfl, rfl, smeans_of m rfl ?_ ?_ ?_ ?_⟩
        · exact iff_of_true rfl (sinceTk_snoc.2 (.inl hM))
        · rw [inQuotation_snoc, if_neg hQ]; exact m.quote
        · rw [dotWord_same (by simp)]; exact m.dotword
        · exact iff_of_true rfl (sinceTk_snoc.2 (.inl (.inl hD)))
      · rw [if_neg (by rintro (⟨_, h⟩ | h); · simp at h
                       · exact h2 h)]
        by_cases h3 : c = 0x2E
        · subst h3
          rw [if_pos rfl]
          have hM : Mark (.punctuation, [0x2E]) := ⟨rfl, by simp⟩
          have hD : ¬ DoubtfulMark (.punctuation, [0x2E]) := by rintro ⟨_, h⟩; simp at h
          have hE : ¬ Exclamation (.punctuation, [0x2E]) := by rintro ⟨_, h⟩; simp at h
          have hQ : ¬ QuoteTk (.punctuation, [0x2E]) := by rintro ⟨_, h⟩; simp at h
          have hG : ¬ GoesOn x (.punctuation, [0x2E]) y := fun h => hQ h.1
          have hdo : ∀ s' : SentSt, s'.possibleEnd = s.possibleEnd → (s'.possibleEnd = true ↔ Doubt (x ++ [(.punctuation, [0x2E])]) y) := by
            intro s' hs'
            unfold Doubt
            rw [sinceTk_snoc, hs']
            simp only [hD, hE, hG, false_or, false_and, not_false_iff, and_true]
            exact m.doubt
          rcases List.eq_nil_or_concat x with rfl | ⟨u, p, rfl⟩
          · rw [if_neg (fun h => by have := m.start rfl; rw [this] at h; exact absurd h.2 (by simp))]
            refine ⟨_, rfl, rfl, smeans_of m rfl ?_ ?_ ?_ (hdo _ rfl)⟩
            · exact iff_of_true rfl (sinceTk_snoc.2 (.inl hM))
            · rw [inQuotation_snoc, if_neg hQ]; exact m.quote
            · rw [dotWord_snoc, ← m.dotword]
              simp
          · rw [List.concat_eq_append] at m hx hr hG hdo ⊢
            obtain ⟨hp1, hp2⟩ := m.prev u p rfl
            have hpe : p.2 ≠ [] := hx p (by simp)
            have hpl : 0 < p.2.length := List.length_pos_iff.2 hpe
            have hsl : s.slen = (flat u).length + p.2.length := by rw [m.slen, flat_append]; simp [flat]
            by_cases hword : p.1 = .word
            · rw [if_pos ⟨by omega, by rw [hp2, hword]⟩]
              have e : (flat (u ++ [p]) ++ ([0x2E] ++ flat y)).drop s.prevStart = p.2 ++ 0x2E :: flat y := by
                rw [hp1, flat_append, List.append_assoc, List.drop_left]
                simp [flat]
              obtain ⟨b, hb, hiff⟩ := dotPart_exact spellOk p.2 (flat y) hpe
              have e2 : s.slen - s.prevStart + 1 = p.2.length + 1 := by omega
              rw [e, e2, hb]
              refine ⟨_, rfl, rfl, smeans_of m rfl ?_ ?_ ?_ (hdo _ rfl)⟩
              · exact iff_of_true rfl (sinceTk_snoc.2 (.inl hM))
              · rw [inQuotation_snoc, if_neg hQ]; exact m.quote
              · rw [dotWord_snoc]
                simp only [Bool.or_eq_true, m.dotword, hiff, true_and]
                refine or_congr Iff.rfl ⟨fun h => ⟨u, p, rfl, hword, h⟩, ?_⟩
                rintro ⟨u', w, h, _, ho⟩
                have := List.append_inj' h rfl
                have e3 : p = w := by simpa using this.2
                rw [e3]; exact ho
            · rw [if_neg (fun h => hword (by rw [← hp2]; exact h.2))]
              refine ⟨_, rfl, rfl, smeans_of m rfl ?_ ?_ ?_ (hdo _ rfl)⟩
              · exact iff_of_true rfl (sinceTk_snoc.2 (.inl hM))
              · rw [inQuotation_snoc, if_neg hQ]; exact m.quote
              · rw [dotWord_snoc]
                simp only [m.dotword, true_and]
                constructor
                · exact .inl
                · rintro (h | ⟨u', w, h, hw', _⟩)
                  · exact h
                  · have := List.append_inj' h rfl
                    have e3 : p = w := by simpa using this.2
                    exact absurd (by rw [e3]; exact hw') hword
        · rw [if_neg h3]
          by_cases h4 : c = 0x3A
          · subst h4
            rw [if_pos rfl]
            have hM : Mark (.punctuation, [0x3A]) := ⟨rfl, by simp⟩
            have hD : DoubtfulMark (.punctuation, [0x3A]) := ⟨rfl, by simp⟩
            have hQ : ¬ QuoteTk (.punctuation, [0x3A]) := by rintro ⟨_, h⟩; simp at h
            refine ⟨_, rfl, rfl, smeans_of m rfl ?_ ?_ ?_ ?_⟩
            · exact iff_of_true rfl (sinceTk_snoc.2 (.inl hM))
            · rw [inQuotation_snoc, if_neg hQ]; exact m.quote
            · rw [dotWord_same (by simp)]; exact m.dotword
            · exact iff_of_true rfl (sinceTk_snoc.2 (.inl (.inl hD)))
          · rw [if_neg h4]
            have hM : ¬ Mark (.punctuation, [c]) := by
              rintro ⟨_, h⟩
              simp at h
              rcases h with h | h | h | h | h
              · exact h1 (.inl h)
              · exact h1 (.inr h)
              · exact h3 h
              · exact h2 h
              · exact h4 h
            by_cases h5 : QuoteTk (.punctuation, [c])
            · have hqm : (isFinnishQuotationMark c || c == 0x201C) = true := by
                have := h5.2
                simp at this
                rcases this with rfl | rfl | rfl | rfl <;> decide
              rw [if_pos hqm]
              have hD : ¬ DoubtfulMark (.punctuation, [c]) := by
                rintro ⟨_, h⟩
                simp at h
                rcases h with h | h
                · exact h2 h
                · exact h4 h
              have hE : ¬ Exclamation (.punctuation, [c]) := by
                rintro ⟨_, h⟩
                exact h1 (by simpa using h)
              have hnext : ∀ d, (flat y).head? = some d ↔ s.slen + 1 < (flat x ++ ([c] ++ flat y)).length ∧ rd (flat x ++ ([c] ++ flat y)) (s.slen + 1) = some d := by
                intro d
                have e : rd (flat x ++ ([c] ++ flat y)) (s.slen + 1) = (flat y)[0]? := by
                  unfold rd
                  rw [m.slen, List.getElem?_append_right (by omega)]
                  have : (flat x).length + 1 - (flat x).length = 1 := by omega
                  rw [this]; rfl
                rw [e, List.head?_eq_getElem?]
                constructor
                · intro h
                  refine ⟨?_, h⟩
                  obtain ⟨h', _⟩ := List.getElem?_eq_some_iff.1 h
                  rw [m.slen]; simp; omega
                · exact fun h => h.2
              have hend : ∀ on : List Tk → Tk → Prop, ¬ on x (.punctuation, [c]) → (SinceTk on (x ++ [(.punctuation, [c])]) y ↔
                  SinceTk on x ((.punctuation, [c]) :: y) ∧ ¬ (InQuotation x ∧ (flat y).head? = some 0x2C)) := by
                intro on hon
                rw [sinceTk_snoc]
                simp only [hon, false_or, GoesOn, h5, true_and]
              have hdd : ¬ (DoubtfulMark (.punctuation, [c]) ∨ Exclamation (.punctuation, [c]) ∧ InQuotation x) := by
                rintro (h | h)
                · exact hD h
                · exact hE h.1
              have hnd : ([c] : List Wc) ≠ [0x2E] := by simpa using h3
              cases hq : s.inQuotation with
              | false =>
                have hnq : ¬ InQuotation x := fun h => by rw [m.quote.2 h] at hq; cases hq
                simp only [Bool.not_false]
                rw [if_neg (by simp)]
                refine ⟨_, rfl, rfl, smeans_of m rfl ?_ ?_ ?_ ?_⟩
                · unfold Ended; rw [hend _ hM]; simp only [hnq, false_and, not_false_iff, and_true]; exact m.ended
                · rw [inQuotation_snoc, if_pos h5]; exact iff_of_true rfl hnq
                · rw [dotWord_same hnd]; exact m.dotword
                · unfold Doubt; rw [hend _ hdd]; simp only [hnq, false_and, not_false_iff, and_true]; exact m.doubt
              | true =>
                have hiq : InQuotation x := m.quote.1 hq
                simp only [Bool.not_true, Bool.not_false, true_and]
                by_cases hl : s.slen + 1 < (flat x ++ ([c] ++ flat y)).length
                · rw [if_pos hl]
                  obtain ⟨d, hd⟩ : ∃ d, rd (flat x ++ ([c] ++ flat y)) (s.slen + 1) = some d := ⟨_, rd_eq_some hl⟩
                  rw [hd]
                  simp only [Option.bind_some]
                  have hh : (flat y).head? = some d := (hnext d).2 ⟨hl, hd⟩
                  by_cases hdc : d = 0x2C
                  · rw [if_pos hdc]
                    have hh' : (flat y).head? = some 0x2C := by rw [hh, hdc]
                    refine ⟨_, rfl, rfl, smeans_of m rfl ?_ ?_ ?_ ?_⟩
                    · unfold Ended; rw [hend _ hM]; exact iff_of_false (by simp) (fun h => h.2 ⟨hiq, hh'⟩)
                    · rw [inQuotation_snoc, if_pos h5]; exact iff_of_false (by simp) (fun h => h hiq)
                    · rw [dotWord_same hnd]; exact m.dotword
                    · unfold Doubt; rw [hend _ hdd]; exact iff_of_false (by simp) (fun h => h.2 ⟨hiq, hh'⟩)
                  · rw [if_neg hdc]
                    have hh' : ¬ (InQuotation x ∧ (flat y).head? = some 0x2C) := by
                      rintro ⟨_, h⟩; rw [hh] at h; exact hdc (Option.some.inj h)
                    refine ⟨_, rfl, rfl, smeans_of m rfl ?_ ?_ ?_ ?_⟩
                    · unfold Ended; rw [hend _ hM]; simp only [hh', not_false_iff, and_true]; exact m.ended
                    · rw [inQuotation_snoc, if_pos h5]; exact iff_of_false (by simp) (fun h => h hiq)
                    · rw [dotWord_same hnd]; exact m.dotword
                    · unfold Doubt; rw [hend _ hdd]; simp only [hh', not_false_iff, and_true]; exact m.doubt
                · rw [if_neg hl]
                  have hh' : ¬ (InQuotation x ∧ (flat y).head? = some 0x2C) := by
                    rintro ⟨_, h⟩; exact hl ((hnext _).1 h).1
                  refine ⟨_, rfl, rfl, smeans_of m rfl ?_ ?_ ?_ ?_⟩
                  · unfold Ended; rw [hend _ hM]; simp only [hh', not_false_iff, and_true]; exact m.ended
                  · rw [inQuotation_snoc, if_pos h5]; exact iff_of_false (by simp) (fun h => h hiq)
                  · rw [dotWord_same hnd]; exact m.dotword
                  · unfold Doubt; rw [hend _ hdd]; simp only [hh', not_false_iff, and_true]; exact m.doubt
            · have hqm : (isFinnishQuotationMark c || c == 0x201C) ≠ true := by
                intro h
                apply h5
                refine ⟨rfl, ?_⟩
                simp only [isFinnishQuotationMark, Bool.or_eq_true, hw, beq_iff_eq] at h
                simp at h ⊢
                rcases h with (h | h | h) | h <;> simp [h]
              rw [if_neg hqm]
              exact ⟨_, rfl, rfl, smeans_plain m hM h5⟩
  · have hr : rd (flat x ++ ([0x2E, 0x2E, 0x2E] ++ flat y)) s.slen = some 0x2E := by
      rw [rd_eq_some (by rw [m.slen]; simp)]
      congr 1
      simp only [m.slen]
      rw [List.getElem_append_right (Nat.le_refl _)]
      simp
    unfold sentPunct
    rw [hr]
    simp only [Option.bind_eq_bind, Option.bind_some]
    rw [if_neg (by decide), if_pos (.inl ⟨by trivial, by trivial⟩)]
    have hM : Mark (.punctuation, [0x2E, 0x2E, 0x2E]) := ⟨rfl, by simp⟩
    have hD : DoubtfulMark (.punctuation, [0x2E, 0x2E, 0x2E]) := ⟨rfl, by simp⟩
    have hQ : ¬ QuoteTk (.punctuation, [0x2E, 0x2E, 0x2E]) := by rintro ⟨_, h⟩; simp at h
    refine ⟨_, rfl, rfl, smeans_of m rfl ?_ ?_ ?_ ?_⟩
    · exact iff_of_true rfl (sinceTk_snoc.2 (.inl hM))
    · rw [inQuotation_snoc, if_neg hQ]; exact m.quote
    · rw [dotWord_same (by simp)]; exact m.dotword
    · exact iff_of_true rfl (sinceTk_snoc.2 (.inl (.inl hD)))

theorem tokenStream_cons {dot : Bool} {g : Nat} {text : List Wc} {t : Tk} {y : List Tk} (h : tokenStream dot g text = some (t :: y)) :
    ∃ g', nextToken text dot = some (t.1, t.2.length) ∧ t.1 ≠ .none ∧ t.2 ≠ [] ∧ text = t.2 ++ flat y ∧ TokenShape t.1 t.2 (flat y)
      ∧ tokenStream dot g' (flat y) = some y := by
  have flat_of : ∀ (g : Nat) (text : List Wc) (ts : List Tk), tokenStream dot g text = some ts → flat ts = text := by
    intro g
    induction g with
    | zero => intro text ts h; cases h
    | succ g ih =>
      intro text ts h
      by_cases hne : text = []
      · subst hne
        rw [tokenStream, C01_empty] at h
        simp only [Option.some.injEq] at h
        rw [← h]; rfl
      · obtain ⟨t, n, hn, ht, h1, h2⟩ := C01_progress text dot hne
        rw [tokenStream, hn] at h
        have h' : (tokenStream dot g (text.drop n)).map ((t, text.take n) :: ·) = some ts := by
          cases t with
          | none => exact absurd rfl ht
          | _ => exact h
        obtain ⟨y, hy, rfl⟩ := Option.map_eq_some_iff.1 h'
        have := ih _ _ hy
        show text.take n ++ flat y = text
        rw [this, List.take_append_drop]
  cases g with
  | zero => cases h
  | succ g =>
    by_cases hne : text = []
    · subst hne
      rw [tokenStream, C01_empty] at h
      cases h
    · obtain ⟨t', n, hn, ht, h1, h2⟩ := C01_progress text dot hne
      rw [tokenStream, hn] at h
      have h' : (tokenStream dot g (text.drop n)).map ((t', text.take n) :: ·) = some (t :: y) := by
        cases t' with
        | none => exact absurd rfl ht
        | _ => exact h
      obtain ⟨y', hy, he⟩ := Option.map_eq_some_iff.1 h'
      cases he
      have hf := flat_of _ _ _ hy
      refine ⟨g, ?_, ht, ?_, ?_, ?_, ?_⟩
      · rw [hn]; simp; omega
      · simp; exact ⟨by omega, hne⟩
      · rw [hf, List.take_append_drop]
      · rw [hf]; exact C03_shapes text dot t' n hne hn
      · rw [hf]; exact hy

/-- The search finds the first token that starts a sentence. -/
theorem sentLoop_exact (spellOk : List Wc → Bool) : ∀ (y x : List Tk) (s : SentSt) (f g : Nat) (tok : TokenType), SMeans spellOk x y s →
    tokenStream false g (flat y) = some y → y.length < f → tok ≠ .none → 0 ∉ flat (x ++ y) → (∀ p ∈ x, p.2 ≠ []) →
    (∃ a t b ty, y = a ++ t :: b ∧ Starts (x ++ a) t b ∧ (∀ a' t' b', y = a' ++ t' :: b' → a'.length < a.length → ¬ Starts (x ++ a') t' b')
      ∧ sentLoop spellOk (flat (x ++ y)) f tok s = some (ty, (flat (x ++ a)).length, s.ignoreDot)
      ∧ (ty = .probable ∨ ty = .possible) ∧ (ty = .possible ↔ Uncertain spellOk (x ++ a) t b)) ∨
    ((∀ a t b, y = a ++ t :: b → ¬ Starts (x ++ a) t b)
      ∧ sentLoop spellOk (flat (x ++ y)) f tok s = some (.none, (flat (x ++ y)).length, s.ignoreDot)) := by
  intro y
  induction y with
  | nil =>
    intro x s f g tok m hts hf htok h0 hx
    obtain ⟨f, rfl⟩ : ∃ k, f = k + 1 := ⟨f - 1, by simp at hf; omega⟩
    refine .inr ⟨fun a t b h => by simp at h, ?_⟩
    rw [sentLoop, if_neg (by rw [m.slen, List.append_nil]; omega)]; rfl
  | cons t y ih =>
    intro x s f g tok m hts hf htok h0 hx
    obtain ⟨f, rfl⟩ : ∃ k, f = k + 1 := ⟨f - 1, by simp at hf; omega⟩
    obtain ⟨g', hn, htn, hte, hflat, hshape, hts'⟩ := tokenStream_cons hts
    have htext : flat (x ++ t :: y) = flat x ++ (t.2 ++ flat y) := by rw [flat_append]; simp [flat]
    have hassoc : x ++ t :: y = (x ++ [t]) ++ y := by simp
    have htl : 0 < t.2.length := List.length_pos_iff.2 hte
    have hdrop : (flat (x ++ t :: y)).drop s.slen = flat (t :: y) := by
      rw [flat_append, m.slen, List.drop_left]
    have hnt : nextToken ((flat (x ++ t :: y)).drop s.slen) false = some (t.1, t.2.length) := by rw [hdrop]; exact hn
    have hlt : s.slen < (flat (x ++ t :: y)).length := by rw [htext, m.slen]; simp; omega
    have hx' : ∀ p ∈ x ++ [t], p.2 ≠ [] := by
      intro p hp
      rcases List.mem_append.1 hp with h | h
      · exact hx p h
      · simp at h; rw [h]; exact hte
    -- going on after the token
    have cont : ∀ s' : SentSt, ¬ Starts x t y → sentStep spellOk (flat (x ++ t :: y)) s = some (.inr (s', t.1)) → s'.ignoreDot = s.ignoreDot →
        SMeans spellOk (x ++ [t]) y s' →
        (∃ a t' b ty, t :: y = a ++ t' :: b ∧ Starts (x ++ a) t' b
          ∧ (∀ a' t'' b', t :: y = a' ++ t'' :: b' → a'.length < a.length → ¬ Starts (x ++ a') t'' b')
          ∧ sentLoop spellOk (flat (x ++ t :: y)) (f + 1) tok s = some (ty, (flat (x ++ a)).length, s.ignoreDot)
          ∧ (ty = .probable ∨ ty = .possible) ∧ (ty = .possible ↔ Uncertain spellOk (x ++ a) t' b)) ∨
        ((∀ a t' b, t :: y = a ++ t' :: b → ¬ Starts (x ++ a) t' b)
          ∧ sentLoop spellOk (flat (x ++ t :: y)) (f + 1) tok s = some (.none, (flat (x ++ t :: y)).length, s.ignoreDot)) := by
      intro s' hns hstep hdot m'
      have hl : sentLoop spellOk (flat (x ++ t :: y)) (f + 1) tok s = sentLoop spellOk (flat ((x ++ [t]) ++ y)) f t.1 s' := by
        rw [sentLoop, if_pos ⟨htok, hlt⟩, hstep, hassoc]; rfl
      rw [hl]
      rcases ih (x ++ [t]) s' f g' t.1 m' hts' (by simp at hf; omega) htn (by rw [← hassoc]; exact h0) hx' with
        ⟨a, t', b, ty, h1, h2, h3, h4, h5, h6⟩ | ⟨h1, h2⟩
      · refine .inl ⟨t :: a, t', b, ty, by rw [h1]; rfl, by simpa using h2, ?_, ?_, h5, by simpa using h6⟩
        · intro a' t'' b' he hlen
          cases a' with
          | nil => cases he; simpa using hns
          | cons z a' =>
            cases he
            have := h3 a' t'' b' rfl (by simpa using hlen)
            simpa using this
        · rw [h4, hdot]; simp
      · refine .inr ⟨?_, ?_⟩
        · intro a' t'' b' he
          cases a' with
          | nil => cases he; simpa using hns
          | cons z a' =>
            cases he
            have := h1 a' t'' b' rfl
            simpa using this
        · rw [h2, hdot, hassoc]
    have hstep0 : sentStep spellOk (flat (x ++ t :: y)) s =
        (if s.endFound ∧ s.inQuotation = false then
          if t.1 ≠ .whitespace then
            if s.endDotword ∨ s.possibleEnd ∨ (s.prevType ≠ .whitespace ∧ t.1 = .word) then some (.inl (.possible, s.slen, s.ignoreDot))
            else some (.inl (.probable, s.slen, s.ignoreDot))
          else some (.inr ({ s with prevStart := s.slen, prevType := t.1, slen := s.slen + t.2.length }, t.1))
        else do
          let s ← if t.1 = .punctuation then sentPunct spellOk (flat (x ++ t :: y)) s t.2.length else pure s
          return .inr ({ s with prevStart := s.slen, prevType := t.1, slen := s.slen + t.2.length }, t.1)) := by
      unfold sentStep
      simp only [hnt, Option.bind_eq_bind, Option.bind_some]
      rfl
    have notMark : t.1 ≠ .punctuation → ¬ Mark t ∧ ¬ QuoteTk t := fun h => ⟨fun h' => h h'.1, fun h' => h h'.1⟩
    by_cases he : s.endFound = true ∧ s.inQuotation = false
    · rw [if_pos he] at hstep0
      have hE : Ended x (t :: y) := m.ended.1 he.1
      have hQ : ¬ InQuotation x := fun h => by rw [m.quote.2 h] at he; cases he.2
      by_cases hws : t.1 = .whitespace
      · rw [if_neg (by simpa using hws)] at hstep0
        have := notMark (by rw [hws]; simp)
        exact cont _ (fun h => h.2.2 hws) hstep0 rfl (smeans_plain m this.1 this.2)
      · rw [if_pos hws] at hstep0
        left
        have hxne : ∃ u p, x = u ++ [p] := by
          rcases List.eq_nil_or_concat x with rfl | ⟨u, p, rfl⟩
          · exact absurd hE sinceTk_nil
          · exact ⟨u, p, by rw [List.concat_eq_append]⟩
        have hU : Uncertain spellOk x t y ↔ (s.endDotword = true ∨ s.possibleEnd = true ∨ (s.prevType ≠ .whitespace ∧ t.1 = .word)) := by
          unfold Uncertain
          rw [m.dotword, m.doubt]
          refine or_congr Iff.rfl (or_congr Iff.rfl ?_)
          obtain ⟨u, p, hup⟩ := hxne
          rw [(m.prev u p hup).2]
          constructor
          · rintro ⟨h1, u', p', h2, h3⟩
            have e := List.append_inj' (hup.symm.trans h2) rfl
            have e' : p = p' := by simpa using e.2
            exact ⟨by rw [e']; exact h3, h1⟩
          · rintro ⟨h1, h2⟩
            exact ⟨h2, u, p, hup, h1⟩
        by_cases hp : s.endDotword = true ∨ s.possibleEnd = true ∨ (s.prevType ≠ .whitespace ∧ t.1 = .word)
        · rw [if_pos hp] at hstep0
          refine ⟨[], t, y, .possible, rfl, by simpa using ⟨hE, hQ, hws⟩, fun a' _ _ _ h => by simp at h, ?_, .inr rfl, ?_⟩
          · rw [sentLoop, if_pos ⟨htok, hlt⟩, hstep0, List.append_nil, ← m.slen]; rfl
          · rw [List.append_nil]; exact iff_of_true rfl (hU.2 hp)
        · rw [if_neg hp] at hstep0
          refine ⟨[], t, y, .probable, rfl, by simpa using ⟨hE, hQ, hws⟩, fun a' _ _ _ h => by simp at h, ?_, .inl rfl, ?_⟩
          · rw [sentLoop, if_pos ⟨htok, hlt⟩, hstep0, List.append_nil, ← m.slen]; rfl
          · rw [List.append_nil]; exact iff_of_false (by simp) (fun h => hp (hU.1 h))
    · rw [if_neg he] at hstep0
      have hns : ¬ Starts x t y := by
        rintro ⟨h1, h2, _⟩
        apply he
        refine ⟨m.ended.2 h1, ?_⟩
        cases hq : s.inQuotation with
        | false => rfl
        | true => exact absurd (m.quote.1 hq) h2
      by_cases hpu : t.1 = .punctuation
      · rw [if_pos hpu] at hstep0
        have h00 : 0 ∉ t.2 := fun h => h0 (by rw [htext]; simp [h])
        have hsh : (∃ c, t.2 = [c] ∧ c ≠ 0) ∨ t.2 = [0x2E, 0x2E, 0x2E] := by
          rw [hpu] at hshape
          rcases hshape with ⟨c, hc, _⟩ | h
          · exact .inl ⟨c, hc, fun e => h00 (by rw [hc, e]; simp)⟩
          · exact .inr h
        obtain ⟨s', hs', hd', m'⟩ := sentPunct_exact m hpu hsh hx
        rw [htext, hs', ← htext] at hstep0
        exact cont _ hns hstep0 hd' m'
      · rw [if_neg hpu] at hstep0
        have := notMark hpu
        exact cont _ hns hstep0 rfl (smeans_plain m this.1 this.2)

end Verif.Sentences
