import Verif.Lemmas.SentenceEnds
import Verif.Props.Sentence
/-!
# C78: where sentences start

`Verif.Spec.Sentence` says which tokens start a sentence and when that is uncertain.
-/

set_option linter.unusedSimpArgs false
set_option linter.unusedVariables false

namespace Verif.Props
open Verif Verif.Sentences

theorem stream_flat (text : List Wc) : ∃ ts, tokenStream false (text.length + 1) text = some ts ∧ flat ts = text ∧ ts.length ≤ text.length := by
  obtain ⟨ts, h1, h2, h3⟩ := C01_tiling text false
  refine ⟨ts, h1, h2, ?_⟩
  rw [← h2]
  clear h1 h2
  induction ts with
  | nil => simp
  | cons t ts ih =>
    have := List.length_pos_iff.2 (h3 t (by simp))
    have := ih (fun x hx => h3 x (by simp [hx]))
    simp at this ⊢
    omega

/-- The answer for a text, from its tokens. -/
theorem sentence_exact (spellOk : List Wc → Bool) (text : List Wc) (dot : Bool) (h0 : 0 ∉ text) (ts : List Tk)
    (hts : tokenStream false (text.length + 1) text = some ts) :
    (∃ x t y ty, ts = x ++ t :: y ∧ Starts x t y ∧ (∀ x' t' y', ts = x' ++ t' :: y' → x'.length < x.length → ¬ Starts x' t' y')
      ∧ sentenceNext spellOk text dot = some (ty, (flat x).length, dot)
      ∧ (ty = .probable ∨ ty = .possible) ∧ (ty = .possible ↔ Uncertain spellOk x t y)) ∨
    ((∀ x t y, ts = x ++ t :: y → ¬ Starts x t y) ∧ sentenceNext spellOk text dot = some (.none, text.length, dot)) := by
  obtain ⟨ts', h1, h2, h3⟩ := stream_flat text
  rw [hts] at h1
  cases h1
  have := sentLoop_exact spellOk ts [] { ignoreDot := dot } (text.length + 1) (text.length + 1) .word (smeans_nil spellOk ts dot)
    (by rw [h2]; exact hts) (by omega) (by simp) (by rw [List.nil_append, h2]; exact h0) (by simp)
  simp only [List.nil_append, h2] at this
  exact this

/-- **C78** (a start): a sentence is reported to start at the first token that starts one, and the answer is `SENTENCE_POSSIBLE` exactly if that
is uncertain. -/
theorem C78_start (spellOk : List Wc → Bool) (text : List Wc) (dot : Bool) (h0 : 0 ∉ text) (ts x y : List Tk) (t : Tk)
    (hts : tokenStream false (text.length + 1) text = some ts) (hx : ts = x ++ t :: y) (hs : Starts x t y)
    (hfirst : ∀ x' t' y', ts = x' ++ t' :: y' → x'.length < x.length → ¬ Starts x' t' y') :
    ∃ ty, sentenceNext spellOk text dot = some (ty, (flat x).length, dot) ∧ (ty = .probable ∨ ty = .possible)
      ∧ (ty = .possible ↔ Uncertain spellOk x t y) := by
  rcases sentence_exact spellOk text dot h0 ts hts with ⟨x1, t1, y1, ty, h1, h2, h3, h4, h5, h6⟩ | ⟨h1, _⟩
  · have hl : x.length = x1.length := by
      rcases Nat.lt_trichotomy x.length x1.length with h | h | h
      · exact absurd hs (h3 x t y hx h)
      · exact h
      · exact absurd h2 (hfirst x1 t1 y1 h1 h)
    have := List.append_inj (hx.symm.trans h1) hl
    obtain ⟨e1, e2⟩ := this
    cases e2
    subst e1
    exact ⟨ty, h4, h5, h6⟩
  · exact absurd hs (h1 x t y hx)

/-- **C78** (no start): the whole text is one sentence exactly if no token starts another. -/
theorem C78_none (spellOk : List Wc → Bool) (text : List Wc) (dot : Bool) (h0 : 0 ∉ text) (ts : List Tk)
    (hts : tokenStream false (text.length + 1) text = some ts) :
    sentenceNext spellOk text dot = some (.none, text.length, dot) ↔ ∀ x t y, ts = x ++ t :: y → ¬ Starts x t y := by
  rcases sentence_exact spellOk text dot h0 ts hts with ⟨x1, t1, y1, ty, h1, h2, h3, h4, h5, h6⟩ | ⟨h1, h2⟩
  · refine iff_of_false (fun h => ?_) (fun h => h x1 t1 y1 h1 h2)
    rw [h4] at h
    have e : ty = .none := congrArg Prod.fst (Option.some.inj h)
    rcases h5 with h5 | h5 <;> (rw [h5] at e; cases e)
  · exact iff_of_true h2 h1

/-- **C78** (without quotation marks): in such a text a sentence starts at the first token other than whitespace after the first mark. -/
theorem C78_simple (spellOk : List Wc → Bool) (text : List Wc) (dot : Bool) (h0 : 0 ∉ text) (u y : List Tk) (m t : Tk) (w : List Tk)
    (hts : tokenStream false (text.length + 1) text = some (u ++ m :: (w ++ t :: y))) (hq : ∀ p ∈ u ++ m :: w, ¬ QuoteTk p)
    (hu : ∀ p ∈ u, ¬ Mark p) (hm : Mark m) (hw : ∀ p ∈ w, p.1 = .whitespace) (ht : t.1 ≠ .whitespace) :
    ∃ ty, sentenceNext spellOk text dot = some (ty, (flat (u ++ m :: w)).length, dot) ∧ (ty = .probable ∨ ty = .possible)
      ∧ (ty = .possible ↔ (∃ v p, u = v ++ [p] ∧ p.1 = .word ∧ m.2 = [0x2E] ∧ OwnDot spellOk p.2) ∨ DoubtfulMark m ∨ (w = [] ∧ t.1 = .word)) := by
  have noq : ∀ l : List Tk, (∀ p ∈ l, ¬ QuoteTk p) → ¬ InQuotation l := by
    intro l hl
    unfold InQuotation
    rw [List.filter_eq_nil_iff.2 (by intro p hp; simpa using hl p hp)]
    simp
  have nogo : ∀ (a : List Tk) (q : Tk) (b : List Tk), ¬ QuoteTk q → ¬ GoesOn a q b := fun a q b h h' => h h'.1
  have hs : Starts (u ++ m :: w) t y := by
    refine ⟨⟨u, m, w, rfl, hm, fun a q b hab => nogo _ _ _ (hq q (by rw [hab]; simp))⟩, noq _ hq, ht⟩
  have hwm : ∀ p ∈ w, ¬ Mark p := fun p hp h => by have := hw p hp; rw [h.1] at this; cases this
  obtain ⟨ty, h1, h2, h3⟩ := C78_start spellOk text dot h0 _ (u ++ m :: w) y t hts (by simp) hs (by
    intro x' t' y' he hl hs'
    rcases List.append_eq_append_iff.1 he with ⟨c, h1, h2⟩ | ⟨c, h1, h2⟩
    · cases c with
      | nil =>
        obtain ⟨⟨a, m', b, hab, hmm, _⟩, _⟩ := hs'
        have : m' ∈ u := by
          have : m' ∈ x' := by rw [hab]; simp
          rw [h1] at this; simpa using this
        exact hu m' this hmm
      | cons z c =>
        have h2' : w ++ t :: y = c ++ t' :: y' := (List.cons.inj h2).2
        have hlc : c.length < w.length := by rw [h1] at hl; simp at hl; omega
        have : t' ∈ w := by
          have e := congrArg (fun l => l[c.length]?) h2'
          simp only [List.getElem?_append_left hlc] at e
          rw [List.getElem?_append_right (Nat.le_refl _)] at e
          simp at e
          exact List.mem_of_getElem? e
        exact hs'.2.2 (hw t' this)
    · obtain ⟨⟨a, m', b, hab, hmm, _⟩, _⟩ := hs'
      have : m' ∈ u := by rw [h1, hab]; simp
      exact hu m' this hmm)
  refine ⟨ty, h1, h2, ?_⟩
  rw [h3]
  have hlist : ∀ (p d : Tk) (v z : List Tk), u ++ m :: w = v ++ p :: d :: z → p.1 = .word → d = (.punctuation, [0x2E]) → u = v ++ [p] ∧ m = d := by
    intro p d v z he hp hd
    have hdm : Mark d := by rw [hd]; exact ⟨rfl, by simp⟩
    have he' : u ++ m :: w = (v ++ [p]) ++ d :: z := by simpa using he
    rcases List.append_eq_append_iff.1 he' with ⟨c, h1, h2⟩ | ⟨c, h1, h2⟩
    · cases c with
      | nil => cases h2; exact ⟨by simpa using h1.symm, rfl⟩
      | cons q c =>
        have h2' : w = c ++ d :: z := (List.cons.inj h2).2
        exact absurd hdm (hwm d (by rw [h2']; simp))
    · cases c with
      | nil => cases h2; exact ⟨by simpa using h1, rfl⟩
      | cons q c =>
        cases h2
        exact absurd hdm (hu d (by rw [h1]; simp))
  unfold Uncertain
  constructor
  · rintro (⟨v, p, d, z, he, hp, hd, ho⟩ | ⟨a, m', b, hab, hmm, _⟩ | ⟨h1, v, p, he, hp⟩)
    · obtain ⟨e1, e2⟩ := hlist p d v z he hp hd
      exact .inl ⟨v, p, e1, hp, by rw [e2, hd], ho⟩
    · have hmk : Mark m' := by
        rcases hmm with h | ⟨h, _⟩
        · refine ⟨h.1, ?_⟩
          have := h.2
          simp only [List.mem_cons, List.not_mem_nil, or_false] at this ⊢
          rcases this with h | h | h <;> simp [h]
        · refine ⟨h.1, ?_⟩
          have := h.2
          simp only [List.mem_cons, List.not_mem_nil, or_false] at this ⊢
          rcases this with h | h <;> simp [h]
      have hin : m' ∈ u ++ m :: w := by rw [hab]; simp
      have hmm' : m' = m := by
        rcases List.mem_append.1 hin with h | h
        · exact absurd hmk (hu _ h)
        · rcases List.mem_cons.1 h with h | h
          · exact h
          · exact absurd hmk (hwm _ h)
      rcases hmm with h | ⟨_, h⟩
      · exact .inr (.inl (by rw [← hmm']; exact h))
      · exact absurd h (noq a (fun p hp => hq p (by rw [hab]; simp [hp])))
    · refine .inr (.inr ⟨?_, h1⟩)
      rcases List.eq_nil_or_concat w with h | ⟨w', z, rfl⟩
      · exact h
      · rw [List.concat_eq_append] at he hw
        have he' : (u ++ m :: w') ++ [z] = v ++ [p] := by simpa using he
        have := List.append_inj' he' rfl
        have e : z = p := by simpa using this.2
        exact absurd (hw z (by simp)) (by rw [e]; exact hp)
  · rintro (⟨v, p, rfl, hp, hd, ho⟩ | h | ⟨rfl, h⟩)
    · exact .inl ⟨v, p, m, w, by simp, hp, Prod.ext hm.1 hd, ho⟩
    · exact .inr (.inl ⟨u, m, w, rfl, .inl h, fun a q b hab => nogo _ _ _ (hq q (by rw [hab]; simp))⟩)
    · exact .inr (.inr ⟨h, u, m, rfl, by rw [hm.1]; simp⟩)

/-- An abbreviation inside a quotation that the sentence goes on after makes a later start uncertain, because that it ended in a word
with its own dot is not forgotten at the comma. -/
theorem C78_witness_dotword :
    sentenceNext (fun w => decide (w = [0x65, 0x73, 0x69, 0x6D, 0x2E])) ([0x22, 0x65, 0x73, 0x69, 0x6D, 0x2E, 0x22, 0x2C, 0x20, 0x61, 0x21, 0x20, 0x42]) false = some (.possible, 12, false)
    ∧ sentenceNext (fun _ => false) ([0x22, 0x65, 0x73, 0x69, 0x6D, 0x2E, 0x22, 0x2C, 0x20, 0x61, 0x21, 0x20, 0x42]) false = some (.probable, 12, false) := by
  decide +kernel

/-- A text that meets the hypotheses of `C78_simple`: "a. B". -/
example : ∃ u m w t y, tokenStream false 5 [0x61, 0x2E, 0x20, 0x42] = some (u ++ m :: (w ++ t :: y)) ∧ (∀ p ∈ u ++ m :: w, ¬ QuoteTk p)
    ∧ (∀ p ∈ u, ¬ Mark p) ∧ Mark m ∧ (∀ p ∈ w, p.1 = .whitespace) ∧ t.1 ≠ .whitespace := by
  refine ⟨[(.word, [0x61])], (.punctuation, [0x2E]), [(.whitespace, [0x20])], (.word, [0x42]), [], by decide +kernel, ?_, ?_, ⟨rfl, by simp⟩, ?_, by simp⟩
  · intro p hp; simp at hp; rcases hp with rfl | rfl | rfl <;> decide
  · intro p hp; simp at hp; subst hp; rintro ⟨h, _⟩; cases h
  · intro p hp; simp at hp; subst hp; rfl

end Verif.Props
