import Verif.Lemmas.Tokenizer
/-! Tokenising a prefix of a text: the scanners are local except the e-mail scanner. -/

set_option linter.unusedSimpArgs false

namespace Verif

theorem rd_take (T : List Wc) (M i : Nat) (h : i < M) : rd (T.take M) i = rd T i := by
  simp [rd, List.getElem?_take, h]

/-- Both scans ended at (or past) the last character of the prefix. -/
def BothFar (M : Nat) (x y : UB Nat) : Prop := ∃ a b, x = some a ∧ y = some b ∧ M ≤ a + 1 ∧ M ≤ b + 1

theorem length_take_le {T : List Wc} {M : Nat} (hM : M ≤ T.length) : (T.take M).length = M := by
  rw [List.length_take]; omega

theorem wordPunct_take (T : List Wc) (M adot i : Nat) (c : Wc) (p s : Bool) (hM : M ≤ T.length) (h : i + 1 < M) :
    wordPunct (T.take M) adot i c p s = wordPunct T adot i c p s := by
  unfold wordPunct
  rw [length_take_le hM, rd_take T M (i+1) h]
  have e1 : ¬ (i + 1 = M) := by omega
  have e2 : ¬ (i + 1 = T.length) := by omega
  simp only [e1, e2, if_false]

theorem wordLoop_take (T : List Wc) (M adot i : Nat) (p s : Bool) (hM : M ≤ T.length) (hi : i ≤ M) (ha : adot ≤ 1) :
    wordLoop (T.take M) adot i p s = wordLoop T adot i p s ∨
      BothFar M (wordLoop (T.take M) adot i p s) (wordLoop T adot i p s) := by
  generalize hm : M - i = m
  induction m generalizing i p s with
  | zero =>
    right
    obtain ⟨n, h1, h2, _⟩ := wordLoop_spec (T.take M) adot i p s (by rw [length_take_le hM]; exact hi) ha
    obtain ⟨n', h1', h2', _⟩ := wordLoop_spec T adot i p s (by omega) ha
    exact ⟨n, n', h1, h1', by omega, by omega⟩
  | succ m ih =>
    by_cases hlast : M ≤ i + 1
    · right
      obtain ⟨n, h1, h2, _⟩ := wordLoop_spec (T.take M) adot i p s (by rw [length_take_le hM]; exact hi) ha
      obtain ⟨n', h1', h2', _⟩ := wordLoop_spec T adot i p s (by omega) ha
      exact ⟨n, n', h1, h1', by omega, by omega⟩
    · have hiT : i < T.length := by omega
      have hiM : i < M := by omega
      have step := fun p' s' => ih (i+1) p' s' (by omega) (by omega)
      rw [wordLoop.eq_def (T.take M) adot i p s, wordLoop.eq_def T adot i p s]
      simp only [length_take_le hM, hiM, hiT, dite_true, rd_take T M i hiM, rd_eq_some hiT, Option.bind_eq_bind,
        Option.bind_some, wordPunct_take T M adot i T[i] p s hM (by omega)]
      cases hc : getCharType T[i] <;> simp only [hc]
      · exact step _ _
      · exact step _ _
      · exact Or.inl trivial
      · obtain ⟨st, h1, h2⟩ := wordPunct_spec T adot i T[i] p s hiT ha
        rw [h1]
        cases st with
        | stop n => exact Or.inl rfl
        | more => exact step _ _
      · exact Or.inl trivial

theorem urlLoop_take (T : List Wc) (M i : Nat) (hM : M ≤ T.length) (hi : i ≤ M) :
    urlLoop (T.take M) i = urlLoop T i ∨ BothFar M (urlLoop (T.take M) i) (urlLoop T i) := by
  generalize hm : M - i = m
  induction m generalizing i with
  | zero =>
    right
    obtain ⟨n, h1, h2, _⟩ := urlLoop_spec (T.take M) i (by rw [length_take_le hM]; exact hi)
    obtain ⟨n', h1', h2', _⟩ := urlLoop_spec T i (by omega)
    exact ⟨n, n', h1, h1', by omega, by omega⟩
  | succ m ih =>
    by_cases hlast : M ≤ i + 1
    · right
      obtain ⟨n, h1, h2, _⟩ := urlLoop_spec (T.take M) i (by rw [length_take_le hM]; exact hi)
      obtain ⟨n', h1', h2', _⟩ := urlLoop_spec T i (by omega)
      exact ⟨n, n', h1, h1', by omega, by omega⟩
    · have hiT : i < T.length := by omega
      have hiM : i < M := by omega
      have hiT1 : i + 1 < T.length := by omega
      have step := ih (i+1) (by omega) (by omega)
      rw [urlLoop.eq_def (T.take M) i, urlLoop.eq_def T i]
      have e1 : ¬ (i + 1 = M) := by omega
      have e2 : ¬ (i + 1 = T.length) := by omega
      simp only [length_take_le hM, hiM, hiT, dite_true, rd_take T M i hiM, rd_take T M (i+1) (by omega),
        rd_eq_some hiT, rd_eq_some hiT1, Option.bind_eq_bind, Option.bind_some, e1, e2, if_false, Option.pure_def]
      cases hc : getCharType T[i] <;> simp only [hc]
      · exact step
      · exact step
      · exact Or.inl trivial
      · by_cases hd : T[i] = 0x2E
        · simp only [hd, if_true, Option.bind_some]
          cases getCharType T[i+1] == CharType.whitespace
          · exact step
          · exact Or.inl rfl
        · simp only [hd, if_false, Option.bind_some, Bool.false_eq_true]
          exact step
      · split
        · exact Or.inl rfl
        · exact step

/-- Both e-mail scans found nothing or ran to the end of the prefix. -/
def BothFarOrZero (M : Nat) (x y : UB Nat) : Prop :=
  ∃ a b, x = some a ∧ y = some b ∧ (a = 0 ∨ M ≤ a + 1) ∧ (b = 0 ∨ M ≤ b + 1)

theorem emailLoop_take (T : List Wc) (M i : Nat) (a d : Bool) (hM : M ≤ T.length) (hi : i ≤ M) :
    emailLoop (T.take M) i a d = emailLoop T i a d ∨
      BothFarOrZero M (emailLoop (T.take M) i a d) (emailLoop T i a d) := by
  have far : M ≤ i + 1 → BothFarOrZero M (emailLoop (T.take M) i a d) (emailLoop T i a d) := by
    intro h
    obtain ⟨n, h1, h2⟩ := emailLoop_spec (T.take M) i a d (by rw [length_take_le hM]; exact hi)
    obtain ⟨n', h1', h2'⟩ := emailLoop_spec T i a d (by omega)
    refine ⟨n, n', h1, h1', h2.imp id (fun h => ?_), h2'.imp id (fun h => ?_)⟩
    · have := h.1; omega
    · have := h.1; omega
  generalize hm : M - i = m
  induction m generalizing i a d with
  | zero => exact Or.inr (far (by omega))
  | succ m ih =>
    by_cases hlast : M ≤ i + 1
    · exact Or.inr (far hlast)
    · have hiT : i < T.length := by omega
      have hiM : i < M := by omega
      have hiT1 : i + 1 < T.length := by omega
      have step := fun a' d' => ih (i+1) a' d' (by omega) (fun h => by
        obtain ⟨n, h1, h2⟩ := emailLoop_spec (T.take M) (i+1) a' d' (by rw [length_take_le hM]; omega)
        obtain ⟨n', h1', h2'⟩ := emailLoop_spec T (i+1) a' d' (by omega)
        refine ⟨n, n', h1, h1', h2.imp id (fun h => ?_), h2'.imp id (fun h => ?_)⟩
        · have := h.1; omega
        · have := h.1; omega) (by omega)
      clear far
      rw [emailLoop.eq_def (T.take M) i a d, emailLoop.eq_def T i a d]
      have e1 : ¬ (i + 1 = M) := by omega
      have e2 : ¬ (i + 1 = T.length) := by omega
      simp only [length_take_le hM, hiM, hiT, dite_true, rd_take T M i hiM, rd_take T M (i+1) (by omega),
        rd_eq_some hiT, rd_eq_some hiT1, Option.bind_eq_bind, Option.bind_some, e1, e2, if_false, Option.pure_def]
      cases hc : getCharType T[i] <;> simp only [hc]
      · exact step _ _
      · exact step _ _
      · exact Or.inl trivial
      · repeat' split
        all_goals first | exact Or.inl rfl | exact step _ _
      · repeat' split
        all_goals first | exact Or.inl rfl | exact step _ _

/-- A successful e-mail scan has passed an at sign. -/
theorem emailLoop_at (T : List Wc) (i n : Nat) (a d : Bool) (hle : i ≤ T.length)
    (h : emailLoop T i a d = some n) (hn : n ≠ 0) : a = true ∨ ∃ k, i ≤ k ∧ k < n ∧ T[k]? = some 0x40 := by
  generalize hm : T.length - i = m
  induction m generalizing i a d with
  | zero =>
    have hi : ¬ i < T.length := by omega
    unfold emailLoop at h
    simp only [hi, dite_false, Option.pure_def] at h
    cases a
    · simp at h; omega
    · exact Or.inl rfl
  | succ m ih =>
    have hi : i < T.length := by omega
    cases a with
    | true => exact Or.inl rfl
    | false =>
      right
      have step : ∀ d', emailLoop T (i+1) false d' = some n → ∃ k, i ≤ k ∧ k < n ∧ T[k]? = some 0x40 := by
        intro d' h'
        rcases ih (i+1) false d' (by omega) h' (by omega) with h'' | ⟨k, h1, h2, h3⟩
        · simp at h''
        · exact ⟨k, by omega, h2, h3⟩
      have stepA : ∀ d', T[i] = 0x40 → emailLoop T (i+1) true d' = some n → ∃ k, i ≤ k ∧ k < n ∧ T[k]? = some 0x40 := by
        intro d' hc h'
        obtain ⟨n', h1', h2'⟩ := emailLoop_spec T (i+1) true d' (by omega)
        rw [h'] at h1'
        simp only [Option.some.injEq] at h1'
        rcases h2' with h2' | h2'
        · omega
        · have := h2'.1
          exact ⟨i, by omega, by omega, by simp [hi, hc]⟩
      unfold emailLoop at h
      simp only [hi, dite_true, rd_eq_some hi, Option.bind_eq_bind, Option.bind_some, Option.pure_def,
        Bool.false_and, Bool.and_false, Bool.false_eq_true, if_false] at h
      cases hc : getCharType T[i] <;> simp only [hc] at h
      · exact step _ h
      · exact step _ h
      · simp at h; omega
      · split at h
        · simp at h; omega
        · exact step _ h
      · split at h
        · rename_i hat
          exact stepA _ hat h
        · split at h
          · simp at h; omega
          · exact step _ h

theorem wcsncmpEq_take (lit T : List Wc) (M off : Nat) (h : off + lit.length ≤ M) :
    wcsncmpEq lit (T.take M) off = wcsncmpEq lit T off := by
  induction lit generalizing off with
  | nil => rfl
  | cons l ls ih =>
    simp only [List.length_cons] at h
    unfold wcsncmpEq
    rw [rd_take T M off (by omega), ih (off + 1) (by omega)]

theorem findUrlOrEmail_take (T : List Wc) (M : Nat) (hM : M ≤ T.length) (h12 : 12 ≤ M) :
    findUrlOrEmail (T.take M) = findUrlOrEmail T ∨
      BothFar M (findUrlOrEmail (T.take M)) (findUrlOrEmail T) ∨
      (BothFarOrZero M (findUrlOrEmail (T.take M)) (findUrlOrEmail T) ∧
       findUrlOrEmail T = emailLoop T 0 false false) := by
  have e1 : ¬ (M < 12) := by omega
  have e2 : ¬ (T.length < 12) := by omega
  have e3 : ¬ (M < 6) := by omega
  have e4 : ¬ (T.length < 6) := by omega
  unfold findUrlOrEmail
  obtain ⟨a, ha, ha'⟩ := wcsncmpEq_some httpPrefix T 0 (by simp [httpPrefix]; omega)
  obtain ⟨b, hb, hb'⟩ := wcsncmpEq_some httpsPrefix T 0 (by simp [httpsPrefix]; omega)
  rw [wcsncmpEq_take httpPrefix T M 0 (by simp [httpPrefix]; omega),
    wcsncmpEq_take httpsPrefix T M 0 (by simp [httpsPrefix]; omega), rd_take T M 4 (by omega)]
  simp only [length_take_le hM, e1, e2, e3, e4, if_false, ha, hb, Option.bind_eq_bind, Option.bind_some,
    Option.pure_def, rd_eq_some (show 4 < T.length by omega)]
  have email : (emailLoop (T.take M) 0 false false = emailLoop T 0 false false) ∨
      BothFar M (emailLoop (T.take M) 0 false false) (emailLoop T 0 false false) ∨
      (BothFarOrZero M (emailLoop (T.take M) 0 false false) (emailLoop T 0 false false) ∧
       emailLoop T 0 false false = emailLoop T 0 false false) := by
    rcases emailLoop_take T M 0 false false hM (by omega) with h | h
    · exact Or.inl h
    · exact Or.inr (Or.inr ⟨h, rfl⟩)
  have url : ∀ i, i ≤ M → (urlLoop (T.take M) i = urlLoop T i) ∨ BothFar M (urlLoop (T.take M) i) (urlLoop T i) ∨
      (BothFarOrZero M (urlLoop (T.take M) i) (urlLoop T i) ∧ urlLoop T i = emailLoop T 0 false false) := by
    intro i hi
    rcases urlLoop_take T M i hM hi with h | h
    · exact Or.inl h
    · exact Or.inr (Or.inl h)
  cases a
  · cases b
    · simpa only [if_true, if_false, Bool.false_eq_true, Option.bind_some, Bool.not_false] using email
    · simp only [if_true, if_false, Bool.false_eq_true, Option.bind_some, Bool.not_true]
      exact url _ (by split <;> omega)
  · simp only [if_true, if_false, Bool.false_eq_true, Option.bind_some]
    exact url _ (by split <;> omega)

/-- `word_length` on a prefix: same, or the prefix was too short, or the whole text starts with an e-mail
address longer than the prefix. -/
theorem wordLength_take (T : List Wc) (M : Nat) (dot : Bool) (hM : M ≤ T.length) (h12 : 12 ≤ M) :
    wordLength (T.take M) dot = wordLength T dot ∨
    (∃ a, wordLength (T.take M) dot = some a ∧ M ≤ a + 1) ∨
    (∃ b, wordLength T dot = some b ∧ M ≤ b + 1 ∧ 0x40 ∈ T.take b) := by
  obtain ⟨u, hu, _⟩ := findUrlOrEmail_spec (T.take M)
  obtain ⟨v, hv, _⟩ := findUrlOrEmail_spec T
  have hl := wordLoop_take T M (if dot then 1 else 0) 0 false false hM (by omega) (by split <;> omega)
  have samecase : u = v → wordLength (T.take M) dot = wordLength T dot ∨
      (∃ a, wordLength (T.take M) dot = some a ∧ M ≤ a + 1) ∨
      (∃ b, wordLength T dot = some b ∧ M ≤ b + 1 ∧ 0x40 ∈ T.take b) := by
    rintro rfl
    unfold wordLength
    simp only [hu, hv, Option.bind_eq_bind, Option.bind_some, Option.pure_def]
    split
    · exact Or.inl rfl
    · rcases hl with h | ⟨a, b, h1, h2, h3, h4⟩
      · exact Or.inl h
      · exact Or.inr (Or.inl ⟨a, h1, h3⟩)
  rcases findUrlOrEmail_take T M hM h12 with h | ⟨a, b, h1, h2, h3, h4⟩ | ⟨⟨a, b, h1, h2, h3, h4⟩, h5⟩
  · rw [hu, hv] at h
    exact samecase (by simpa using h)
  · right; left
    refine ⟨a, ?_, h3⟩
    unfold wordLength
    simp only [h1, Option.bind_eq_bind, Option.bind_some, Option.pure_def]
    rw [if_pos (by omega)]
  · rw [hu, Option.some.injEq] at h1
    rw [hv, Option.some.injEq] at h2
    subst h1 h2
    rcases h3 with h3 | h3
    · rcases h4 with h4 | h4
      · exact samecase (by omega)
      · right; right
        refine ⟨v, ?_, h4, ?_⟩
        · unfold wordLength
          simp only [hv, Option.bind_eq_bind, Option.bind_some, Option.pure_def]
          rw [if_pos (by omega)]
        · rw [hv] at h5
          rcases emailLoop_at T 0 v false false (by omega) h5.symm (by omega) with h | ⟨k, _, h7, h8⟩
          · simp at h
          · exact List.mem_iff_getElem?.2 ⟨k, by rw [List.getElem?_take, if_pos h7, h8]⟩
    · right; left
      refine ⟨u, ?_, h3⟩
      unfold wordLength
      simp only [hu, Option.bind_eq_bind, Option.bind_some, Option.pure_def]
      rw [if_pos (by omega)]

theorem whitespaceLoop_take (T : List Wc) (M i : Nat) (hM : M ≤ T.length) (hi : i ≤ M) :
    whitespaceLoop (T.take M) i = whitespaceLoop T i ∨ ∃ a, whitespaceLoop (T.take M) i = some a ∧ M ≤ a + 1 := by
  generalize hm : M - i = m
  induction m generalizing i with
  | zero =>
    right
    obtain ⟨n, h1, h2, _⟩ := whitespaceLoop_spec (T.take M) i (by rw [length_take_le hM]; exact hi)
    exact ⟨n, h1, by omega⟩
  | succ m ih =>
    have hiT : i < T.length := by omega
    have hiM : i < M := by omega
    rw [whitespaceLoop.eq_def (T.take M) i, whitespaceLoop.eq_def T i]
    simp only [length_take_le hM, hiM, hiT, dite_true, rd_take T M i hiM, rd_eq_some hiT, Option.bind_eq_bind,
      Option.bind_some]
    split
    · exact Or.inl rfl
    · exact ih (i+1) (by omega) (by omega)

/-- `nextToken` on a prefix of at least 13 characters. -/
theorem nextToken_take (T : List Wc) (M : Nat) (dot : Bool) (hM : M ≤ T.length) (h13 : 13 ≤ M) :
    nextToken (T.take M) dot = nextToken T dot ∨
    (∃ t a, nextToken (T.take M) dot = some (t, a) ∧ M ≤ a + 2) ∨
    (∃ t b, nextToken T dot = some (t, b) ∧ M ≤ b + 1 ∧ 0x40 ∈ T.take b) := by
  have h0 : 0 < T.length := by omega
  have e1 : ¬ M = 0 := by omega
  have e2 : ¬ T.length = 0 := by omega
  have e3 : ¬ M = 1 := by omega
  have e4 : ¬ T.length = 1 := by omega
  have e5 : M ≥ 3 := by omega
  have e6 : T.length ≥ 3 := by omega
  unfold nextToken
  simp only [length_take_le hM, e1, e2, e3, e4, e5, e6, if_true, if_false, rd_take T M 0 (by omega), rd_eq_some h0,
    Option.bind_eq_bind, Option.bind_some, Option.pure_def]
  have word : (wordLength (T.take M) dot).bind (fun n => some (TokenType.word, n)) =
        (wordLength T dot).bind (fun n => some (TokenType.word, n)) ∨
      (∃ t a, (wordLength (T.take M) dot).bind (fun n => some (TokenType.word, n)) = some (t, a) ∧ M ≤ a + 2) ∨
      (∃ t b, (wordLength T dot).bind (fun n => some (TokenType.word, n)) = some (t, b) ∧ M ≤ b + 1 ∧
        0x40 ∈ T.take b) := by
    rcases wordLength_take T M dot hM (by omega) with h | ⟨a, h1, h2⟩ | ⟨b, h1, h2, h3⟩
    · left; rw [h]
    · right; left; exact ⟨.word, a, by rw [h1]; rfl, by omega⟩
    · right; right; exact ⟨.word, b, by rw [h1]; rfl, h2, h3⟩
  cases hc : getCharType T[0] <;> simp only [hc]
  · exact word
  · exact word
  · rcases whitespaceLoop_take T M 1 hM (by omega) with h | ⟨a, h1, h2⟩
    · left; rw [h]
    · right; left; exact ⟨_, a, by rw [h1]; rfl, by omega⟩
  · split
    · have ed : (T.take M).drop 1 = (T.drop 1).take (M - 1) := by rw [List.drop_take]
      rw [ed]
      rcases wordLength_take (T.drop 1) (M - 1) dot (by rw [List.length_drop]; omega) (by omega) with
        h | ⟨a, h1, h2⟩ | ⟨b, h1, h2, h3⟩
      · left; rw [h]
      · right; left
        exact ⟨.word, a + 1, by rw [h1, Option.bind_some, if_neg (by omega)], by omega⟩
      · right; right
        refine ⟨.word, b + 1, by rw [h1, Option.bind_some, if_neg (by omega)], by omega, ?_⟩
        cases T with
        | nil => simp at h0
        | cons x xs =>
          rw [List.take_succ_cons]
          exact List.mem_cons_of_mem _ (by simpa using h3)
    · rw [wcsncmpEq_take [0x2E, 0x2E, 0x2E] T M 0 (by simp; omega)]
      exact Or.inl rfl
  · exact Or.inl trivial

end Verif
