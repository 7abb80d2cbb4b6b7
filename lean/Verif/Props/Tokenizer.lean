import Verif.Lemmas.Tokenizer
/-! C01–C04: the wide character tokenizer (`voikkoNextTokenUcs4`). -/

namespace Verif.Props

open Verif

/-! ### Specification -/

/-- Specification of "whitespace": Unicode `White_Space` (plus U+180E, as of Unicode 6.2),
as an explicit list. -/
def unicodeSpaces : List Nat :=
  [9, 10, 11, 12, 13, 0x20, 0x85, 0xA0, 0x1680, 0x180E, 0x2000, 0x2001, 0x2002, 0x2003, 0x2004, 0x2005,
   0x2006, 0x2007, 0x2008, 0x2009, 0x200A, 0x2028, 0x2029, 0x202F, 0x205F, 0x3000]

/-- Hyphens that may begin a word token. -/
def wordHyphens : List Nat := [0x2D, 0x2010, 0x2011]

/-- The whole-text loop every API client runs: take a token, advance by its length, until
`TOKEN_NONE`. `none` = undefined behaviour or more than `fuel` tokens. -/
def tokenStream (dot : Bool) : Nat → List Wc → Option (List (TokenType × List Wc))
  | 0, _ => none
  | fuel + 1, text =>
    match nextToken text dot with
    | none => none
    | some (.none, _) => some []
    | some (t, n) => (tokenStream dot fuel (text.drop n)).map ((t, text.take n) :: ·)

/-- Acceptable shape of one token `tok` of type `t` followed by `rest`. -/
def TokenShape (t : TokenType) (tok rest : List Wc) : Prop :=
  match t with
  | .none => False
  | .whitespace => tok ≠ [] ∧ (∀ c ∈ tok, c ∈ unicodeSpaces) ∧ (∀ c, rest.head? = some c → c ∉ unicodeSpaces)
  | .word => (∀ c ∈ tok, c ∉ unicodeSpaces) ∧
      ∃ c, tok.head? = some c ∧
        (getCharType c = .letter ∨ (0x30 ≤ c ∧ c ≤ 0x39) ∨
          -- a hyphen (or NUL, which `wcschr` finds in any literal) followed by something
          ((c ∈ wordHyphens ∨ c = 0) ∧ 2 ≤ tok.length))
  | .punctuation => (∃ c, tok = [c] ∧ (c = 0 ∨ c ∈ punctuationChars ∨ c ∈ [0x22, 0xBB, 0x201D])) ∨
      tok = [0x2E, 0x2E, 0x2E]
  | .unknown => ∃ c, tok = [c] ∧ c ∉ unicodeSpaces ∧ getCharType c ≠ .letter ∧ ¬ (0x30 ≤ c ∧ c ≤ 0x39) ∧
      c ∉ punctuationChars ∧ c ∉ [0x22, 0xBB, 0x201D] ∧ c ≠ 0

/-! ### Character classes versus the specification -/

theorem charType_whitespace_iff (c : Wc) : getCharType c = .whitespace ↔ c ∈ unicodeSpaces := by
  constructor
  · intro h
    unfold getCharType at h
    split at h
    · contradiction
    · split at h
      · rename_i hw
        simp only [isWhitespace, Bool.or_eq_true, Bool.and_eq_true, decide_eq_true_eq, beq_iff_eq] at hw
        have : c ≤ 0x3000 := by omega
        simp only [unicodeSpaces, List.mem_cons, List.not_mem_nil, or_false]
        omega
      · repeat' split at h
        all_goals contradiction
  · intro h
    simp only [unicodeSpaces, List.mem_cons, List.not_mem_nil, or_false] at h
    rcases h with h|h|h|h|h|h|h|h|h|h|h|h|h|h|h|h|h|h|h|h|h|h|h|h|h|h <;> subst h <;> decide

theorem charType_digit_iff (c : Wc) : getCharType c = .digit ↔ (0x30 ≤ c ∧ c ≤ 0x39) := by
  constructor
  · intro h
    unfold getCharType at h
    split at h
    · contradiction
    · split at h
      · contradiction
      · split at h
        · contradiction
        · rename_i hp
          split at h
          · contradiction
          · split at h
            · rename_i hd
              simp only [wcschr, List.contains_cons, List.contains_nil, Bool.or_eq_true, beq_iff_eq] at hd
              have : c ≠ 0 := by rintro rfl; simp [wcschr] at hp
              simp only [this, Bool.false_eq_true, or_false, false_or] at hd
              omega
            · contradiction
  · rintro ⟨h1, h2⟩
    have : c = 0x30 ∨ c = 0x31 ∨ c = 0x32 ∨ c = 0x33 ∨ c = 0x34 ∨ c = 0x35 ∨ c = 0x36 ∨ c = 0x37 ∨
      c = 0x38 ∨ c = 0x39 := by omega
    rcases this with h|h|h|h|h|h|h|h|h|h <;> subst h <;> decide

theorem charType_punctuation_of (c : Wc) (h : getCharType c = .punctuation) :
    c = 0 ∨ c ∈ punctuationChars ∨ c ∈ [0x22, 0xBB, 0x201D] := by
  unfold getCharType at h
  split at h
  · contradiction
  · split at h
    · contradiction
    · split at h
      · rename_i hp
        simp only [wcschr, Bool.or_eq_true, beq_iff_eq, List.contains_iff_mem] at hp
        exact hp.imp id Or.inl
      · split at h
        · rename_i hp
          simp only [isFinnishQuotationMark, wcschr, Bool.or_eq_true, beq_iff_eq, List.contains_iff_mem] at hp
          exact hp.imp id Or.inr
        · split at h <;> contradiction

theorem charType_unknown_of (c : Wc) (h : getCharType c = .unknown) :
    c ∉ punctuationChars ∧ c ∉ [0x22, 0xBB, 0x201D] ∧ c ≠ 0 := by
  unfold getCharType at h
  split at h
  · contradiction
  · split at h
    · contradiction
    · split at h
      · contradiction
      · split at h
        · contradiction
        · rename_i hp hq
          simp only [wcschr, Bool.or_eq_true, beq_iff_eq, List.contains_iff_mem, not_or] at hp
          simp only [isFinnishQuotationMark, wcschr, Bool.or_eq_true, beq_iff_eq, List.contains_iff_mem,
            not_or] at hq
          exact ⟨hp.2, hq.2, hp.1⟩

theorem ScanOk.notSpace {text : List Wc} {n : Nat} (h : ScanOk text 0 n) :
    ∀ c ∈ text.take n, c ∉ unicodeSpaces := by
  intro c hc
  obtain ⟨k, hk, rfl⟩ := List.getElem_of_mem hc
  simp only [List.length_take] at hk
  rw [List.getElem_take, ← charType_whitespace_iff]
  exact h.2.2 k (by omega) (Nat.zero_le _) (by omega)

/-- Everything about one call, from which C01–C03 follow. -/
theorem nextToken_spec (text : List Wc) (dot : Bool) (h0 : text ≠ []) :
    ∃ t n, nextToken text dot = some (t, n) ∧ 1 ≤ n ∧ n ≤ text.length ∧
      TokenShape t (text.take n) (text.drop n) := by
  obtain ⟨c, cs, rfl⟩ := List.exists_cons_of_ne_nil h0
  have hl : 0 < (c :: cs).length := by simp
  unfold nextToken
  have hne : ¬ ((c :: cs).length = 0) := by omega
  simp only [hne, if_false, rd_eq_some hl, Option.bind_eq_bind, Option.bind_some, Option.pure_def,
    List.getElem_cons_zero]
  cases hc : getCharType c
  · obtain ⟨n, h1, h2⟩ := wordLength_spec (c :: cs) dot
    have h3 := wordLength_pos (c :: cs) dot hl (Or.inl hc) n h1
    refine ⟨.word, n, by simp [h1], h3, h2.2.1, ScanOk.notSpace h2, c, ?_, Or.inl hc⟩
    cases n with
    | zero => omega
    | succ n => rfl
  · obtain ⟨n, h1, h2⟩ := wordLength_spec (c :: cs) dot
    have h3 := wordLength_pos (c :: cs) dot hl (Or.inr hc) n h1
    refine ⟨.word, n, by simp [h1], h3, h2.2.1, ScanOk.notSpace h2, c, ?_,
      Or.inr (Or.inl ((charType_digit_iff c).1 hc))⟩
    cases n with
    | zero => omega
    | succ n => rfl
  · obtain ⟨n, h1, h2, h3, h4, h5⟩ := whitespaceLoop_spec (c :: cs) 1 (by omega)
    refine ⟨.whitespace, n, by simp [h1], h2, h3, ?_, ?_, ?_⟩
    · cases n with
      | zero => omega
      | succ n => simp
    · intro d hd
      obtain ⟨k, hk, rfl⟩ := List.getElem_of_mem hd
      simp only [List.length_take] at hk
      rw [List.getElem_take, ← charType_whitespace_iff]
      cases k with
      | zero => exact hc
      | succ k => exact h4 (k + 1) (by omega) (by omega) (by omega)
    · intro d hd
      rw [List.head?_drop] at hd
      have hn : n < (c :: cs).length := by
        rcases Nat.lt_or_ge n (c :: cs).length with h | h
        · exact h
        · rw [List.getElem?_eq_none h] at hd; contradiction
      rw [List.getElem?_eq_getElem hn, Option.some.injEq] at hd
      rw [← hd, ← charType_whitespace_iff]
      exact h5 hn
  · have single : TokenShape .punctuation ((c :: cs).take 1) ((c :: cs).drop 1) :=
      Or.inl ⟨c, rfl, charType_punctuation_of c hc⟩
    simp only []
    split
    · rename_i hh
      split
      · exact ⟨_, 1, rfl, Nat.le_refl _, by omega, single⟩
      · obtain ⟨n, h1, h2⟩ := wordLength_spec cs dot
        simp only [List.drop_succ_cons, List.drop_zero, h1, Option.bind_some]
        split
        · exact ⟨_, 1, rfl, Nat.le_refl _, by omega, single⟩
        · have hn2 := h2.2.1
          refine ⟨.word, n + 1, rfl, by omega, by simp; omega, ?_, c, rfl, Or.inr (Or.inr ⟨?_, ?_⟩)⟩
          · intro d hd
            rw [List.take_succ_cons, List.mem_cons] at hd
            rcases hd with rfl | hd
            · rw [← charType_whitespace_iff, hc]; simp
            · exact ScanOk.notSpace h2 d hd
          · simp only [wcschr, Bool.or_eq_true, beq_iff_eq, List.contains_iff_mem] at hh
            exact hh.symm
          · simp only [List.take_succ_cons, List.length_cons, List.length_take]; omega
    · by_cases h3 : (c :: cs).length ≥ 3
      · obtain ⟨b, hb, hb'⟩ := wcsncmpEq_some [0x2E, 0x2E, 0x2E] (c :: cs) 0 (by simpa using h3)
        simp only [h3, if_true, hb, Option.bind_some]
        cases b
        · exact ⟨_, 1, rfl, Nat.le_refl _, by omega, single⟩
        · refine ⟨_, 3, rfl, by omega, h3, Or.inr ?_⟩
          have e0 := hb' rfl 0 (by simp)
          have e1 := hb' rfl 1 (by simp)
          have e2 := hb' rfl 2 (by simp)
          match cs, h3 with
          | d :: e :: _, _ => simp at e0 e1 e2; simp [e0, e1, e2]
          | [], h => simp at h
          | [_], h => simp at h
      · simp only [h3, if_false]
        exact ⟨_, 1, rfl, Nat.le_refl _, by omega, single⟩
  · refine ⟨.unknown, 1, rfl, Nat.le_refl _, by omega, c, rfl, ?_, ?_, ?_, charType_unknown_of c hc⟩
    · rw [← charType_whitespace_iff, hc]; simp
    · rw [hc]; simp
    · rw [← charType_digit_iff, hc]; simp

/-! ### C01 -/

/-- C01: a call on non-empty text makes progress and stays inside the buffer. -/
theorem C01_progress (text : List Wc) (dot : Bool) (h : text ≠ []) :
    ∃ t n, nextToken text dot = some (t, n) ∧ t ≠ .none ∧ 1 ≤ n ∧ n ≤ text.length := by
  obtain ⟨t, n, h1, h2, h3, h4⟩ := nextToken_spec text dot h
  refine ⟨t, n, h1, ?_, h2, h3⟩
  rintro rfl
  exact h4

/-- C01: empty text. -/
theorem C01_empty (dot : Bool) : nextToken [] dot = some (.none, 0) := rfl

/-- C01: the client loop ends after at most `length + 1` calls and the tokens tile the text. -/
theorem C01_tiling (text : List Wc) (dot : Bool) :
    ∃ toks, tokenStream dot (text.length + 1) text = some toks ∧
      (toks.map (·.2)).flatten = text ∧ ∀ tok ∈ toks, tok.2 ≠ [] := by
  have key : ∀ (fuel : Nat) (text : List Wc), text.length < fuel →
      ∃ toks, tokenStream dot fuel text = some toks ∧
        (toks.map (·.2)).flatten = text ∧ ∀ tok ∈ toks, tok.2 ≠ [] := by
    intro fuel
    induction fuel with
    | zero => intro text h; omega
    | succ fuel ih =>
      intro text h
      by_cases h0 : text = []
      · subst h0
        exact ⟨[], rfl, rfl, by simp⟩
      · obtain ⟨t, n, h1, h2, h3, h4⟩ := C01_progress text dot h0
        obtain ⟨toks, g1, g2, g3⟩ := ih (text.drop n) (by rw [List.length_drop]; omega)
        refine ⟨(t, text.take n) :: toks, ?_, ?_, ?_⟩
        · unfold tokenStream
          rw [h1]
          cases t <;> simp_all
        · simp [g2]
        · intro tok ht
          rw [List.mem_cons] at ht
          rcases ht with rfl | ht
          · intro he
            have := congrArg List.length he
            simp only [List.length_take, List.length_nil] at this
            omega
          · exact g3 tok ht
  exact key _ text (by omega)

/-- "Kissa, 2." tokenises into five tokens (also a non-vacuity check of the loop). -/
example : tokenStream false 10 [0x4B, 0x69, 0x73, 0x73, 0x61, 0x2C, 0x20, 0x32, 0x2E] =
    some [(.word, [0x4B, 0x69, 0x73, 0x73, 0x61]), (.punctuation, [0x2C]), (.whitespace, [0x20]),
      (.word, [0x32]), (.punctuation, [0x2E])] := by decide +kernel

/-! ### C02 -/

/-- C02: no call reads outside the buffer (an out-of-bounds read is the outcome `none`). -/
theorem C02_in_bounds (text : List Wc) (dot : Bool) : nextToken text dot ≠ none := by
  by_cases h : text = []
  · subst h; simp [C01_empty]
  · obtain ⟨t, n, h1, _⟩ := nextToken_spec text dot h
    simp [h1]

/-- The model does have an undefined outcome: reading one past the end is `none`. -/
example : rd [0x61] 1 = none ∧ urlLoop [0x61] 0 = some 1 := by decide +kernel

/-! ### C03 -/

/-- C03: shape of every token. -/
theorem C03_shapes (text : List Wc) (dot : Bool) (t : TokenType) (n : Nat) (h : text ≠ [])
    (hn : nextToken text dot = some (t, n)) : TokenShape t (text.take n) (text.drop n) := by
  obtain ⟨t', n', h1, _, _, h4⟩ := nextToken_spec text dot h
  rw [hn, Option.some.injEq, Prod.mk.injEq] at h1
  obtain ⟨rfl, rfl⟩ := h1
  exact h4

/-- C03: two neighbouring tokens are never both whitespace. -/
theorem C03_no_adjacent_whitespace (text : List Wc) (dot dot' : Bool) (n m : Nat)
    (h1 : nextToken text dot = some (.whitespace, n))
    (h2 : nextToken (text.drop n) dot' = some (.whitespace, m)) : False := by
  have h0 : text ≠ [] := by rintro rfl; simp [C01_empty] at h1
  have h0' : text.drop n ≠ [] := by intro e; rw [e] at h2; simp [C01_empty] at h2
  obtain ⟨_, _, s1⟩ := C03_shapes text dot _ n h0 h1
  obtain ⟨s2, s3, _⟩ := C03_shapes (text.drop n) dot' _ m h0' h2
  cases hd : text.drop n with
  | nil => exact h0' hd
  | cons c cs =>
    rw [hd] at s2 s3 s1
    have : c ∈ (c :: cs).take m := by
      cases m with
      | zero => simp at s2
      | succ m => simp
    exact s1 c rfl (s3 c this)

example : nextToken [0x20, 0x09, 0x61] true = some (.whitespace, 2) := by decide +kernel
example : nextToken [0x2D, 0x61] true = some (.word, 2) := by decide +kernel

/-! ### C04 -/

/-- C04: turning `IGNORE_DOT` on lengthens the first token by at most one character, a `.`. -/
theorem C04_ignore_dot (text : List Wc) (t t' : TokenType) (n n' : Nat)
    (h : nextToken text false = some (t, n)) (h' : nextToken text true = some (t', n')) :
    (n' = n ∧ t' = t) ∨ (n' = n + 1 ∧ text[n]? = some 0x2E ∧ t' = .word) := by
  cases text with
  | nil => simp only [C01_empty, Option.some.injEq, Prod.mk.injEq] at h h'; left; exact ⟨h'.2 ▸ h.2 ▸ rfl, h'.1 ▸ h.1 ▸ rfl⟩
  | cons c cs =>
    have hl : 0 < (c :: cs).length := by simp
    have hne : ¬ ((c :: cs).length = 0) := by omega
    unfold nextToken at h h'
    simp only [hne, if_false, rd_eq_some hl, Option.bind_eq_bind, Option.bind_some, Option.pure_def,
      List.getElem_cons_zero] at h h'
    have plain : ∀ (x : UB (TokenType × Nat)), x = some (t, n) → x = some (t', n') →
        (n' = n ∧ t' = t) ∨ (n' = n + 1 ∧ (c :: cs)[n]? = some 0x2E ∧ t' = .word) := by
      intro x hx hx'
      rw [hx, Option.some.injEq, Prod.mk.injEq] at hx'
      exact Or.inl ⟨hx'.2.symm, hx'.1.symm⟩
    have word : ∀ (m m' : Nat), DotRel (c :: cs) m m' → (TokenType.word, m) = (t, n) →
        (TokenType.word, m') = (t', n') →
        (n' = n ∧ t' = t) ∨ (n' = n + 1 ∧ (c :: cs)[n]? = some 0x2E ∧ t' = .word) := by
      intro m m' hd h1 h2
      rw [Prod.mk.injEq] at h1 h2
      obtain ⟨rfl, rfl⟩ := h1
      obtain ⟨rfl, rfl⟩ := h2
      exact hd.imp (fun e => ⟨e, rfl⟩) (fun e => ⟨e.1, e.2, rfl⟩)
    cases hc : getCharType c <;> simp only [hc] at h h'
    · obtain ⟨m, m', h1, h2, h3⟩ := wordLength_dot (c :: cs)
      rw [h1, Option.bind_some, Option.some.injEq] at h
      rw [h2, Option.bind_some, Option.some.injEq] at h'
      exact word m m' h3 h h'
    · obtain ⟨m, m', h1, h2, h3⟩ := wordLength_dot (c :: cs)
      rw [h1, Option.bind_some, Option.some.injEq] at h
      rw [h2, Option.bind_some, Option.some.injEq] at h'
      exact word m m' h3 h h'
    · exact plain _ h h'
    · split at h
      · rename_i hh
        simp only [hh, if_true] at h'
        split at h
        · rename_i h1
          simp only [h1, if_true] at h'
          exact plain _ h h'
        · rename_i h1
          simp only [h1, if_false, List.drop_succ_cons, List.drop_zero] at h h'
          obtain ⟨m, m', g1, g2, g3⟩ := wordLength_dot cs
          rw [g1, Option.bind_some] at h
          rw [g2, Option.bind_some] at h'
          rcases g3 with g3 | ⟨g3, g4⟩
          · subst g3; exact plain _ h h'
          · subst g3
            simp only [Nat.add_one_ne_zero, if_false, Option.some.injEq] at h'
            split at h
            · rename_i hm
              subst hm
              rw [Option.some.injEq, Prod.mk.injEq] at h
              rw [Prod.mk.injEq] at h'
              obtain ⟨rfl, rfl⟩ := h
              obtain ⟨rfl, rfl⟩ := h'
              exact Or.inr ⟨rfl, by simpa using g4, rfl⟩
            · rw [Option.some.injEq] at h
              exact word (m + 1) (m + 1 + 1) (Or.inr ⟨rfl, by simpa using g4⟩) h h'
      · rename_i hh
        simp only [hh] at h'
        exact plain _ h h'
    · exact plain _ h h'

/-- Both outcomes of C04 occur: "esim. a" versus "kissa". -/
example : nextToken [0x61, 0x2E, 0x20] false = some (.word, 1) ∧
    nextToken [0x61, 0x2E, 0x20] true = some (.word, 2) := by decide +kernel
example : nextToken [0x2D, 0x2E] false = some (.punctuation, 1) ∧
    nextToken [0x2D, 0x2E] true = some (.word, 2) := by decide +kernel

end Verif.Props
