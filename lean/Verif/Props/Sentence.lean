import Verif.Lemmas.Sentence
/-! C06–C08: sentence detection (`voikkoNextSentenceStartUcs4`). The specification predicates
`TokBoundary`, `endChars` and `SentResult` are defined in `Verif/Lemmas/Sentence.lean`
(they mention the model only through `nextToken`). -/

namespace Verif.Props
open Verif

/-- All facts about one call. -/
theorem sentenceNext_spec (spellOk : List Wc → Bool) (text : List Wc) (dot : Bool) :
    ∃ r, sentenceNext spellOk text dot = some r ∧ SentResult text dot r :=
  sentLoop_spec spellOk text _ _ { ignoreDot := dot }
    ⟨TokBoundary.zero, Nat.zero_le _, Nat.le_refl _, fun h => by simp at h⟩ (by simp)

/-- C06: the call terminates without undefined behaviour, the length is usable, `NONE` covers the whole
text, a reported start lies strictly inside the text, `SENTENCE_NO_START` is never returned. -/
theorem C06_usable_length (spellOk : List Wc → Bool) (text : List Wc) (dot : Bool) :
    ∃ ty n d, sentenceNext spellOk text dot = some (ty, n, d) ∧
      ((ty = .none ∧ n = text.length) ∨ ((ty = .probable ∨ ty = .possible) ∧ 0 < n ∧ n < text.length)) := by
  obtain ⟨⟨ty, n, d⟩, h1, _, h2⟩ := sentenceNext_spec spellOk text dot
  exact ⟨ty, n, d, h1, h2.imp id (fun h => ⟨h.1, h.2.1, h.2.2.1⟩)⟩

/-- The client loop: skip `sentencelen` characters until `SENTENCE_NONE`. -/
def sentenceStream (spellOk : List Wc → Bool) : Nat → Bool → List Wc → Option (List (List Wc))
  | 0, _, _ => none
  | fuel + 1, dot, text =>
    match sentenceNext spellOk text dot with
    | none => none
    | some (.none, n, _) => some [text.take n]
    | some (_, n, d) => (sentenceStream spellOk fuel d (text.drop n)).map (text.take n :: ·)

/-- C06: repeated calls split any text into consecutive sentences whose concatenation is the text. -/
theorem C06_tiling (spellOk : List Wc → Bool) (text : List Wc) (dot : Bool) :
    ∃ ss, sentenceStream spellOk (text.length + 1) dot text = some ss ∧ ss.flatten = text := by
  have key : ∀ (fuel : Nat) (text : List Wc) (dot : Bool), text.length < fuel →
      ∃ ss, sentenceStream spellOk fuel dot text = some ss ∧ ss.flatten = text := by
    intro fuel
    induction fuel with
    | zero => intro text _ h; omega
    | succ fuel ih =>
      intro text dot h
      obtain ⟨ty, n, d, h1, h2⟩ := C06_usable_length spellOk text dot
      unfold sentenceStream
      rw [h1]
      rcases h2 with ⟨rfl, rfl⟩ | ⟨h2, h3, h4⟩
      · exact ⟨[text], by simp, by simp⟩
      · obtain ⟨ss, g1, g2⟩ := ih (text.drop n) d (by rw [List.length_drop]; omega)
        refine ⟨text.take n :: ss, ?_, ?_⟩
        · rcases h2 with rfl | rfl <;> simp [g1]
        · simp [g2]
  exact key _ text dot (by omega)

/-- C07: a reported sentence start is a token boundary (tokens found without `IGNORE_DOT`), not
whitespace, and preceded by sentence-ending punctuation (or a NUL character). -/
theorem C07_boundary (spellOk : List Wc → Bool) (text : List Wc) (dot : Bool) (ty : SentenceType) (n : Nat)
    (d : Bool) (h : sentenceNext spellOk text dot = some (ty, n, d)) (hty : ty ≠ .none) :
    TokBoundary text n ∧ (∃ c, text[n]? = some c ∧ c ∉ unicodeSpaces) ∧
      ∃ c ∈ text.take n, c = 0 ∨ c ∈ endChars := by
  obtain ⟨r, h1, _, h2⟩ := sentenceNext_spec spellOk text dot
  rw [h, Option.some.injEq] at h1
  subst h1
  rcases h2 with ⟨e, _⟩ | ⟨_, _, _, h3, h4, h5⟩
  · exact absurd e hty
  · exact ⟨h3, h4, h5⟩

/-- C08: `ignore_dot` is left unchanged and the answer does not depend on it. -/
theorem C08_ignore_dot (spellOk : List Wc → Bool) (text : List Wc) :
    ∃ ty n, ∀ dot, sentenceNext spellOk text dot = some (ty, n, dot) := by
  obtain ⟨⟨ty, n, d⟩, h1, _⟩ := sentenceNext_spec spellOk text false
  refine ⟨ty, n, fun dot => ?_⟩
  have := sentLoop_withDot spellOk text (text.length + 1) .word { ignoreDot := false } dot
  unfold sentenceNext at h1
  rw [h1] at this
  exact this

/-- "Ok. Joo" has a sentence start at 4; "K. Joo" only a possible one. -/
example : sentenceNext (fun _ => false) [0x4F, 0x6B, 0x2E, 0x20, 0x4A, 0x6F, 0x6F] true =
    some (.probable, 4, true) := by decide +kernel
example : sentenceNext (fun _ => false) [0x4B, 0x2E, 0x20, 0x4A, 0x6F, 0x6F] true =
    some (.possible, 3, true) := by decide +kernel
example : sentenceNext (fun _ => false) [0x4B, 0x20, 0x4A, 0x6F, 0x6F, 0x2E] true =
    some (.none, 6, true) := by decide +kernel

end Verif.Props
