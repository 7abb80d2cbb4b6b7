import Verif.Model.Sentence
import Verif.Props.Tokenizer
/-! Helper lemmas about sentence detection. -/

set_option linter.unusedSimpArgs false

namespace Verif
open Verif.Props

theorem onlyNumbersOrDots_some (text : List Wc) (len : Nat) (h : len ≤ text.length) :
    ∃ b, onlyNumbersOrDots text len = some b := by
  unfold onlyNumbersOrDots
  have key : ∀ m i, len - 1 - i = m → ∃ b, onlyNumbersOrDots.go text len i = some b := by
    intro m
    induction m with
    | zero =>
      intro i hi
      have : ¬ i < len - 1 := by omega
      unfold onlyNumbersOrDots.go
      simp [this]
    | succ m ih =>
      intro i hi
      have h1 : i < len - 1 := by omega
      unfold onlyNumbersOrDots.go
      simp only [h1, dite_true, rd_eq_some (show i < text.length by omega), Option.bind_eq_bind,
        Option.bind_some]
      split
      · exact ⟨_, rfl⟩
      · exact ih (i + 1) (by omega)
  exact key _ 0 rfl

theorem dotPartOfWord_some (spellOk : List Wc → Bool) (text : List Wc) (len : Nat)
    (h : len ≤ text.length) : ∃ b, dotPartOfWord spellOk text len = some b := by
  unfold dotPartOfWord
  split
  · exact ⟨_, rfl⟩
  · obtain ⟨b, hb⟩ := onlyNumbersOrDots_some text len h
    simp only [rd_eq_some (show 0 < text.length by omega), Option.bind_eq_bind, Option.bind_some, hb]
    have : ¬ text.length < len := by omega
    simp only [this, if_false]
    repeat' split
    all_goals exact ⟨_, rfl⟩

/-- Characters that can end a sentence (specification): `! ? . : …`. -/
def endChars : List Nat := [0x21, 0x3F, 0x2E, 0x3A, 0x2026]

theorem sentPunct_spec (spellOk : List Wc → Bool) (text : List Wc) (s : SentSt) (k : Nat)
    (h : s.slen < text.length) (hp : s.prevStart ≤ s.slen) :
    ∃ s', sentPunct spellOk text s k = some s' ∧ s'.slen = s.slen ∧ s'.prevStart = s.prevStart ∧
      s'.prevType = s.prevType ∧ s'.ignoreDot = s.ignoreDot ∧
      (s'.endFound = true → s.endFound = true ∨ text[s.slen] = 0 ∨ text[s.slen] ∈ endChars) := by
  unfold sentPunct
  simp only [rd_eq_some h, Option.bind_eq_bind, Option.bind_some, Option.pure_def]
  split
  · rename_i hc
    simp only [wcschr, Bool.or_eq_true, beq_iff_eq, List.contains_iff_mem, List.mem_cons,
      List.not_mem_nil, or_false] at hc
    refine ⟨_, rfl, rfl, rfl, rfl, rfl, fun _ => Or.inr (hc.imp id (fun hc => ?_))⟩
    rcases hc with hc | hc <;> simp [endChars, hc]
  · split
    · rename_i hc
      refine ⟨_, rfl, rfl, rfl, rfl, rfl, fun _ => Or.inr (Or.inr ?_)⟩
      rcases hc with ⟨hc, _⟩ | hc <;> simp [endChars, hc]
    · split
      · rename_i hc
        split
        · obtain ⟨b, hb⟩ := dotPartOfWord_some spellOk (text.drop s.prevStart) (s.slen - s.prevStart + 1)
            (by rw [List.length_drop]; omega)
          rw [hb]
          exact ⟨_, rfl, rfl, rfl, rfl, rfl, fun _ => Or.inr (Or.inr (by simp [endChars, hc]))⟩
        · exact ⟨_, rfl, rfl, rfl, rfl, rfl, fun _ => Or.inr (Or.inr (by simp [endChars, hc]))⟩
      · split
        · rename_i hc
          exact ⟨_, rfl, rfl, rfl, rfl, rfl, fun _ => Or.inr (Or.inr (by simp [endChars, hc]))⟩
        · split
          · split
            · rename_i hl
              rw [rd_eq_some hl.2, Option.bind_some]
              split
              · exact ⟨_, rfl, rfl, rfl, rfl, rfl, fun h => by simp at h⟩
              · exact ⟨_, rfl, rfl, rfl, rfl, rfl, Or.inl⟩
            · exact ⟨_, rfl, rfl, rfl, rfl, rfl, Or.inl⟩
          · exact ⟨_, rfl, rfl, rfl, rfl, rfl, Or.inl⟩

/-- Token boundaries of a text when tokenised without `IGNORE_DOT` (specification). -/
inductive TokBoundary (text : List Wc) : Nat → Prop
  | zero : TokBoundary text 0
  | step {n k : Nat} {t : TokenType} : TokBoundary text n → n < text.length →
      nextToken (text.drop n) false = some (t, k) → TokBoundary text (n + k)

/-- Loop invariant of `Sentence::next`. -/
structure SentInv (text : List Wc) (s : SentSt) : Prop where
  bnd : TokBoundary text s.slen
  le : s.slen ≤ text.length
  prev : s.prevStart ≤ s.slen
  endc : s.endFound = true → 0 < s.slen ∧ ∃ c ∈ text.take s.slen, c = 0 ∨ c ∈ endChars

theorem mem_take_of_getElem {text : List Wc} {i n : Nat} (hi : i < text.length) (hn : i < n) :
    text[i] ∈ text.take n := by
  rw [List.mem_take_iff_getElem]
  exact ⟨i, by omega, rfl⟩

theorem sentStep_spec (spellOk : List Wc → Bool) (text : List Wc) (s : SentSt) (inv : SentInv text s)
    (h : s.slen < text.length) :
    (∃ ty, sentStep spellOk text s = some (.inl (ty, s.slen, s.ignoreDot)) ∧
      (ty = .probable ∨ ty = .possible) ∧ s.endFound = true ∧ text[s.slen] ∉ unicodeSpaces) ∨
    (∃ s' t, sentStep spellOk text s = some (.inr (s', t)) ∧ t ≠ .none ∧ SentInv text s' ∧
      s.slen < s'.slen ∧ s'.ignoreDot = s.ignoreDot) := by
  have hne : text.drop s.slen ≠ [] := by
    intro e
    have := congrArg List.length e
    rw [List.length_drop, List.length_nil] at this; omega
  obtain ⟨t, k, h1, h2, h3, hsh⟩ := nextToken_spec (text.drop s.slen) false hne
  have ht : t ≠ .none := by rintro rfl; exact hsh
  rw [List.length_drop] at h3
  have hb : TokBoundary text (s.slen + k) := TokBoundary.step inv.bnd h h1
  unfold sentStep
  simp only [h1, Option.bind_eq_bind, Option.bind_some, Option.pure_def]
  split
  · rename_i he
    split
    · rename_i hw
      have : text[s.slen] ∉ unicodeSpaces := by
        rw [← charType_whitespace_iff]
        intro hc
        apply hw
        have h4 := h1
        unfold nextToken at h4
        have hl : 0 < (text.drop s.slen).length := by rw [List.length_drop]; omega
        simp only [rd_eq_some hl, Option.bind_eq_bind, Option.bind_some, List.getElem_drop,
          Nat.add_zero, hc] at h4
        have hz : ¬ (text.drop s.slen).length = 0 := by omega
        simp only [hz, if_false] at h4
        obtain ⟨m, hm, _⟩ := whitespaceLoop_spec (text.drop s.slen) 1 hl
        simp only [hm, Option.bind_some, Option.pure_def, Option.some.injEq, Prod.mk.injEq] at h4
        exact h4.1.symm
      left
      split
      · exact ⟨.possible, rfl, Or.inr rfl, he.1, this⟩
      · exact ⟨.probable, rfl, Or.inl rfl, he.1, this⟩
    · right
      refine ⟨_, t, rfl, ht, ⟨hb, ?_, ?_, ?_⟩, ?_, rfl⟩
      · show s.slen + k ≤ text.length; omega
      · show s.slen ≤ s.slen + k; omega
      · intro he
        obtain ⟨_, c, hc, hc'⟩ := inv.endc he
        exact ⟨by show 0 < s.slen + k; omega, c, List.take_subset_take_left text (Nat.le_add_right _ _) hc, hc'⟩
      · show s.slen < s.slen + k; omega
  · right
    by_cases hp : t = .punctuation
    · obtain ⟨s', g1, g2, g3, g4, g5, g6⟩ := sentPunct_spec spellOk text s k h inv.prev
      have : ({ s with ignoreDot := s.ignoreDot } : SentSt) = s := rfl
      simp only [hp, if_true, this, g1, Option.bind_some]
      refine ⟨_, _, rfl, by simp, ⟨?_, ?_, ?_, ?_⟩, ?_, g5⟩
      · show TokBoundary text (s'.slen + k); rw [g2]; exact hb
      · show s'.slen + k ≤ text.length; omega
      · show s'.slen ≤ s'.slen + k; omega
      · intro he
        refine ⟨by show 0 < s'.slen + k; omega, ?_⟩
        show ∃ c ∈ text.take (s'.slen + k), _
        rw [g2]
        rcases g6 he with hf | hf
        · obtain ⟨_, c, hc, hc'⟩ := inv.endc hf
          exact ⟨c, List.take_subset_take_left text (Nat.le_add_right _ _) hc, hc'⟩
        · exact ⟨_, mem_take_of_getElem h (by omega), hf⟩
      · show s.slen < s'.slen + k; omega
    · simp only [hp, if_false, Option.bind_some]
      refine ⟨_, t, rfl, ht, ⟨hb, ?_, ?_, ?_⟩, ?_, rfl⟩
      · show s.slen + k ≤ text.length; omega
      · show s.slen ≤ s.slen + k; omega
      · intro he
        obtain ⟨_, c, hc, hc'⟩ := inv.endc he
        exact ⟨by show 0 < s.slen + k; omega, c, List.take_subset_take_left text (Nat.le_add_right _ _) hc, hc'⟩
      · show s.slen < s.slen + k; omega

/-- What a call of `Sentence::next` may return. -/
def SentResult (text : List Wc) (dot : Bool) (r : SentenceType × Nat × Bool) : Prop :=
  r.2.2 = dot ∧
  ((r.1 = .none ∧ r.2.1 = text.length) ∨
   ((r.1 = .probable ∨ r.1 = .possible) ∧ 0 < r.2.1 ∧ r.2.1 < text.length ∧ TokBoundary text r.2.1 ∧
    (∃ c, text[r.2.1]? = some c ∧ c ∉ unicodeSpaces) ∧
    ∃ c ∈ text.take r.2.1, c = 0 ∨ c ∈ endChars))

theorem sentLoop_spec (spellOk : List Wc → Bool) (text : List Wc) (fuel : Nat) (t : TokenType) (s : SentSt)
    (inv : SentInv text s) (hf : text.length - s.slen < fuel) :
    ∃ r, sentLoop spellOk text fuel t s = some r ∧ SentResult text s.ignoreDot r := by
  induction fuel generalizing t s with
  | zero => omega
  | succ fuel ih =>
    unfold sentLoop
    split
    · rename_i hh
      rcases sentStep_spec spellOk text s inv hh.2 with ⟨ty, h1, h2, h3, h4⟩ | ⟨s', t', h1, h2, h3, h4, h5⟩
      · obtain ⟨e1, e2⟩ := inv.endc h3
        refine ⟨_, by simp only [h1, Option.bind_eq_bind, Option.bind_some]; rfl, rfl, Or.inr ⟨h2, e1, hh.2, inv.bnd, ?_, e2⟩⟩
        exact ⟨_, List.getElem?_eq_getElem hh.2, h4⟩
      · obtain ⟨r, g1, g2⟩ := ih t' s' h3 (by omega)
        refine ⟨r, by simp only [h1, Option.bind_eq_bind, Option.bind_some]; exact g1, ?_⟩
        rw [← h5]; exact g2
    · exact ⟨_, rfl, rfl, Or.inl ⟨rfl, rfl⟩⟩

/-- The value of `ignore_dot` in the state never influences the other components. -/
def SentSt.withDot (s : SentSt) (d : Bool) : SentSt := { s with ignoreDot := d }

theorem sentPunct_withDot (spellOk : List Wc → Bool) (text : List Wc) (s : SentSt) (k : Nat) (d : Bool) :
    sentPunct spellOk text (s.withDot d) k = (sentPunct spellOk text s k).map (·.withDot d) := by
  unfold sentPunct SentSt.withDot
  simp only []
  cases rd text s.slen with
  | none => rfl
  | some c =>
    simp only [Option.bind_eq_bind, Option.bind_some, Option.pure_def]
    repeat' split
    all_goals first
      | rfl
      | (cases dotPartOfWord spellOk (List.drop s.prevStart text) (s.slen - s.prevStart + 1) <;> rfl)
      | (cases rd text (s.slen + 1) with
         | none => rfl
         | some d => simp only [Option.bind_some]; split <;> rfl)

theorem sentLoop_withDot (spellOk : List Wc → Bool) (text : List Wc) (fuel : Nat) (t : TokenType) (s : SentSt)
    (d : Bool) : sentLoop spellOk text fuel t (s.withDot d) =
      (sentLoop spellOk text fuel t s).map (fun r => (r.1, r.2.1, d)) := by
  induction fuel generalizing t s with
  | zero => rfl
  | succ fuel ih =>
    unfold sentLoop
    have e1 : (s.withDot d).slen = s.slen := rfl
    rw [e1]
    split
    · rename_i hh
      have hstep : sentStep spellOk text (s.withDot d) = (sentStep spellOk text s).map (fun x =>
          match x with
          | .inl r => .inl (r.1, r.2.1, d)
          | .inr (s', t') => .inr (s'.withDot d, t')) := by
        unfold sentStep
        simp only [SentSt.withDot]
        cases nextToken (text.drop s.slen) false with
        | none => rfl
        | some tk =>
          obtain ⟨tok, k⟩ := tk
          simp only [Option.bind_eq_bind, Option.bind_some, Option.pure_def]
          split
          · split
            · split
              · rename_i hq; exact (if_pos hq).trans rfl
              · rename_i hq; exact (if_neg hq).trans rfl
            · rfl
          · split
            · have := sentPunct_withDot spellOk text s k d
              unfold SentSt.withDot at this
              rw [this]
              cases sentPunct spellOk text s k <;> rfl
            · rfl
      rw [hstep]
      cases sentStep spellOk text s with
      | none => rfl
      | some x =>
        cases x with
        | inl r => rfl
        | inr p => exact ih p.2 p.1
    · rfl

end Verif
