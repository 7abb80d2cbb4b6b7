import Verif.Model.Tokenizer
/-! Helper lemmas about the tokenizer scanners. -/

set_option linter.unusedSimpArgs false

namespace Verif

/-- Scanner result `n`: `0` ("not found") or an end index in `[i, length]` with no whitespace between. -/
def ScanOk (text : List Wc) (i n : Nat) : Prop :=
  i ≤ n ∧ n ≤ text.length ∧
    ∀ k (_ : k < text.length), i ≤ k → k < n → getCharType text[k] ≠ .whitespace

theorem ScanOk.refl {text : List Wc} {i : Nat} (h : i ≤ text.length) : ScanOk text i i :=
  ⟨Nat.le_refl _, h, fun _ _ _ _ => by omega⟩

theorem ScanOk.step {text : List Wc} {i n : Nat} (hi : i < text.length)
    (hw : getCharType text[i] ≠ .whitespace) (h : ScanOk text (i + 1) n) : ScanOk text i n := by
  obtain ⟨h1, h2, h3⟩ := h
  refine ⟨by omega, h2, fun k hk h5 h6 => ?_⟩
  by_cases hki : k = i
  · subst hki; exact hw
  · exact h3 k hk (by omega) h6

theorem emailLoop_spec (text : List Wc) (i : Nat) (a d : Bool) (hle : i ≤ text.length) :
    ∃ n, emailLoop text i a d = some n ∧ (n = 0 ∨ ScanOk text i n) := by
  generalize hm : text.length - i = m
  induction m generalizing i a d with
  | zero =>
    have h : ¬ i < text.length := by omega
    unfold emailLoop
    simp only [h, dite_false]
    split
    · exact ⟨_, rfl, Or.inr ⟨by omega, by omega, fun k _ _ _ => by omega⟩⟩
    · exact ⟨_, rfl, Or.inl rfl⟩
  | succ m ih =>
    have hi : i < text.length := by omega
    have step : ∀ a' d', getCharType text[i] ≠ .whitespace →
        ∃ n, emailLoop text (i+1) a' d' = some n ∧ (n = 0 ∨ ScanOk text i n) := by
      intro a' d' hw
      obtain ⟨n, h1, h2⟩ := ih (i+1) a' d' (by omega) (by omega)
      exact ⟨n, h1, h2.imp id (ScanOk.step hi hw)⟩
    have stop : ∃ n, (some i : UB Nat) = some n ∧ (n = 0 ∨ ScanOk text i n) :=
      ⟨i, rfl, Or.inr (ScanOk.refl hle)⟩
    have zero : ∃ n, (some 0 : UB Nat) = some n ∧ (n = 0 ∨ ScanOk text i n) := ⟨0, rfl, Or.inl rfl⟩
    have hi' : i + 1 ≠ text.length → i + 1 < text.length := by omega
    unfold emailLoop
    simp only [hi, dite_true, rd_eq_some hi]
    by_cases he : i + 1 = text.length
    · cases hc : getCharType text[i] <;>
        simp only [hc, he, Option.bind_eq_bind, Option.bind_some, Option.pure_def, reduceCtorEq,
          ne_eq, not_false_eq_true, forall_const, not_true_eq_false, if_true] at step ⊢
      all_goals (repeat' split)
      all_goals first | exact step _ _ | exact stop | exact zero
    · cases hc : getCharType text[i] <;>
        simp only [hc, he, rd_eq_some (hi' he), Option.bind_eq_bind, Option.bind_some, Option.pure_def,
          reduceCtorEq, ne_eq, not_false_eq_true, forall_const, not_true_eq_false, if_false] at step ⊢
      all_goals (repeat' split)
      all_goals first | exact step _ _ | exact stop | exact zero

theorem urlLoop_spec (text : List Wc) (i : Nat) (hle : i ≤ text.length) :
    ∃ n, urlLoop text i = some n ∧ ScanOk text i n := by
  generalize hm : text.length - i = m
  induction m generalizing i with
  | zero =>
    have h : ¬ i < text.length := by omega
    unfold urlLoop
    simp only [h, dite_false]
    exact ⟨_, rfl, ⟨by omega, by omega, fun k _ _ _ => by omega⟩⟩
  | succ m ih =>
    have hi : i < text.length := by omega
    have step : getCharType text[i] ≠ .whitespace →
        ∃ n, urlLoop text (i+1) = some n ∧ ScanOk text i n := by
      intro hw
      obtain ⟨n, h1, h2⟩ := ih (i+1) (by omega) (by omega)
      exact ⟨n, h1, ScanOk.step hi hw h2⟩
    have stop : ∃ n, (some i : UB Nat) = some n ∧ ScanOk text i n := ⟨i, rfl, ScanOk.refl hle⟩
    have hi' : i + 1 ≠ text.length → i + 1 < text.length := by omega
    unfold urlLoop
    simp only [hi, dite_true, rd_eq_some hi]
    by_cases he : i + 1 = text.length
    · cases hc : getCharType text[i] <;>
        simp only [hc, he, Option.bind_eq_bind, Option.bind_some, Option.pure_def, reduceCtorEq,
          ne_eq, not_false_eq_true, forall_const, not_true_eq_false, if_true] at step ⊢
      all_goals (repeat' split)
      all_goals (try simp_all only [Option.bind_some, reduceCtorEq, if_true, if_false, Bool.false_eq_true])
      all_goals first | exact step | exact stop
    · cases hc : getCharType text[i] <;>
        simp only [hc, he, rd_eq_some (hi' he), Option.bind_eq_bind, Option.bind_some, Option.pure_def,
          reduceCtorEq, ne_eq, not_false_eq_true, forall_const, not_true_eq_false, if_false] at step ⊢
      all_goals (repeat' split)
      all_goals (try simp_all only [Option.bind_some, reduceCtorEq, if_true, if_false, Bool.false_eq_true])
      all_goals first | exact step | exact stop | (split; exact stop; exact step)

theorem wcsncmpEq_some (lit text : List Wc) (off : Nat) (h : off + lit.length ≤ text.length) :
    ∃ b, wcsncmpEq lit text off = some b ∧ (b = true → ∀ k (hk : k < lit.length), text[off + k]? = some lit[k]) := by
  induction lit generalizing off with
  | nil => exact ⟨true, rfl, fun _ k hk => by simp at hk⟩
  | cons l ls ih =>
    simp only [List.length_cons] at h
    have ho : off < text.length := by omega
    obtain ⟨b, h1, h2⟩ := ih (off + 1) (by omega)
    unfold wcsncmpEq
    simp only [rd_eq_some ho, Option.bind_eq_bind, Option.bind_some]
    split
    · refine ⟨b, h1, fun hb k hk => ?_⟩
      cases k with
      | zero => simp_all
      | succ k =>
        have := h2 hb k (by simpa using hk)
        simpa [Nat.add_assoc, Nat.add_comm 1 k] using this
    · exact ⟨false, rfl, fun h => by simp at h⟩

theorem httpPrefix_no_ws : ∀ k (h : k < httpPrefix.length), getCharType httpPrefix[k] ≠ .whitespace := by
  decide

theorem httpsPrefix_no_ws : ∀ k (h : k < httpsPrefix.length), getCharType httpsPrefix[k] ≠ .whitespace := by
  decide

/-- Result of the URL/e-mail recogniser: defined, and zero or a whitespace-free prefix. -/
theorem findUrlOrEmail_spec (text : List Wc) :
    ∃ n, findUrlOrEmail text = some n ∧ (n = 0 ∨ ScanOk text 0 n) := by
  unfold findUrlOrEmail
  have email : ∃ n, (if text.length < 6 then (some 0 : UB Nat) else emailLoop text 0 false false) = some n ∧
      (n = 0 ∨ ScanOk text 0 n) := by
    split
    · exact ⟨0, rfl, Or.inl rfl⟩
    · exact emailLoop_spec text 0 false false (Nat.zero_le _)
  by_cases hl : text.length < 12
  · simpa only [hl, if_true, Option.bind_eq_bind, Option.bind_some, Option.pure_def] using email
  · obtain ⟨a, ha, ha'⟩ := wcsncmpEq_some httpPrefix text 0 (by simp [httpPrefix]; omega)
    obtain ⟨b, hb, hb'⟩ := wcsncmpEq_some httpsPrefix text 0 (by simp [httpsPrefix]; omega)
    have h4 : 4 < text.length := by omega
    have url : ∀ pre : List Wc, pre.length ≤ text.length →
        (∀ k (hk : k < pre.length), text[0 + k]? = some pre[k]) →
        (∀ k (h : k < pre.length), getCharType pre[k] ≠ .whitespace) →
        ∃ n, urlLoop text pre.length = some n ∧ (n = 0 ∨ ScanOk text 0 n) := by
      intro pre hp h1 h2
      obtain ⟨n, hn, h3, h4, h5⟩ := urlLoop_spec text pre.length hp
      refine ⟨n, hn, Or.inr ⟨by omega, h4, fun k hk _ hkn => ?_⟩⟩
      by_cases hkp : k < pre.length
      · have e := h1 k hkp
        have e2 : text[k] = pre[k] := by
          simp only [Nat.zero_add, List.getElem?_eq_getElem hk, Option.some.injEq] at e
          exact e
        rw [e2]; exact h2 k hkp
      · exact h5 k hk (by omega) hkn
    simp only [hl, if_false, ha, hb, rd_eq_some h4, Option.bind_eq_bind, Option.bind_some, Option.pure_def]
    cases a with
    | true =>
      simp only [if_true, Option.bind_some, Bool.false_eq_true, if_false]
      have h := ha' rfl 4 (by decide)
      have e : text[4] = 0x3A := by simpa [h4, httpPrefix] using h
      simp only [e]
      exact url httpPrefix (by simp [httpPrefix]; omega) (ha' rfl) httpPrefix_no_ws
    | false =>
      cases b with
      | true =>
        simp only [if_true, Option.bind_some, Bool.false_eq_true, if_false, Bool.not_true]
        have h := hb' rfl 4 (by decide)
        have e : text[4] = 0x73 := by simpa [h4, httpsPrefix] using h
        simp only [e]
        exact url httpsPrefix (by simp [httpsPrefix]; omega) (hb' rfl) httpsPrefix_no_ws
      | false =>
        simpa only [if_true, Option.bind_some, Bool.false_eq_true, if_false, Bool.not_false] using email

theorem wordPunct_spec (text : List Wc) (adot wlen : Nat) (c : Wc) (p s : Bool)
    (h : wlen < text.length) (ha : adot ≤ 1) :
    ∃ st, wordPunct text adot wlen c p s = some st ∧
      (st = .more ∨ st = .stop wlen ∨ st = .stop (wlen + 1)) := by
  have hi' : wlen + 1 ≠ text.length → wlen + 1 < text.length := by omega
  have hadot : adot = 0 ∨ adot = 1 := by omega
  unfold wordPunct
  by_cases he : wlen + 1 = text.length
  · simp only [he, if_true, Option.pure_def]
    repeat' split
    all_goals first
      | exact ⟨_, rfl, Or.inl rfl⟩
      | exact ⟨_, rfl, Or.inr (Or.inl rfl)⟩
      | exact ⟨_, rfl, Or.inr (Or.inr rfl)⟩
      | (rcases hadot with rfl | rfl
         · exact ⟨_, rfl, Or.inr (Or.inl rfl)⟩
         · exact ⟨_, rfl, Or.inr (Or.inr (by rw [he]))⟩)
  · simp only [he, if_false, rd_eq_some (hi' he), Option.bind_eq_bind, Option.bind_some, Option.pure_def]
    repeat' split
    all_goals first
      | exact ⟨_, rfl, Or.inl rfl⟩
      | exact ⟨_, rfl, Or.inr (Or.inl rfl)⟩
      | exact ⟨_, rfl, Or.inr (Or.inr rfl)⟩
      | (rcases hadot with rfl | rfl
         · exact ⟨_, rfl, Or.inr (Or.inl rfl)⟩
         · exact ⟨_, rfl, Or.inr (Or.inr rfl)⟩)

theorem wordLoop_spec (text : List Wc) (adot wlen : Nat) (p s : Bool) (hle : wlen ≤ text.length)
    (ha : adot ≤ 1) : ∃ n, wordLoop text adot wlen p s = some n ∧ ScanOk text wlen n := by
  generalize hm : text.length - wlen = m
  induction m generalizing wlen p s with
  | zero =>
    have h : ¬ wlen < text.length := by omega
    unfold wordLoop
    simp only [h, dite_false]
    exact ⟨_, rfl, ⟨by omega, by omega, fun k _ _ _ => by omega⟩⟩
  | succ m ih =>
    have hi : wlen < text.length := by omega
    have step : ∀ p' s', getCharType text[wlen] ≠ .whitespace →
        ∃ n, wordLoop text adot (wlen+1) p' s' = some n ∧ ScanOk text wlen n := by
      intro p' s' hw
      obtain ⟨n, h1, h2⟩ := ih (wlen+1) p' s' (by omega) (by omega)
      exact ⟨n, h1, ScanOk.step hi hw h2⟩
    have stop : ∃ n, (some wlen : UB Nat) = some n ∧ ScanOk text wlen n := ⟨wlen, rfl, ScanOk.refl hle⟩
    unfold wordLoop
    simp only [hi, dite_true, rd_eq_some hi]
    cases hc : getCharType text[wlen] <;>
      simp only [hc, Option.bind_eq_bind, Option.bind_some, Option.pure_def, reduceCtorEq,
          ne_eq, not_false_eq_true, forall_const, not_true_eq_false] at step ⊢
    · exact step _ _
    · exact step _ _
    · exact stop
    · obtain ⟨st, h1, h2⟩ := wordPunct_spec text adot wlen text[wlen] p s hi ha
      rw [h1]
      rcases h2 with rfl | rfl | rfl
      · exact step _ _
      · exact stop
      · exact ⟨_, rfl, ScanOk.step hi (by simp [hc]) (ScanOk.refl hi)⟩
    · exact stop

theorem wordLength_spec (text : List Wc) (dot : Bool) :
    ∃ n, wordLength text dot = some n ∧ ScanOk text 0 n := by
  obtain ⟨u, h1, h2⟩ := findUrlOrEmail_spec text
  unfold wordLength
  simp only [h1, Option.bind_eq_bind, Option.bind_some, Option.pure_def]
  split
  · rcases h2 with h2 | h2
    · contradiction
    · exact ⟨u, rfl, h2⟩
  · exact wordLoop_spec text _ 0 false false (Nat.zero_le _) (by split <;> omega)

/-- A word starting with a letter or digit has positive length. -/
theorem wordLength_pos (text : List Wc) (dot : Bool) (h0 : 0 < text.length)
    (hc : getCharType text[0] = .letter ∨ getCharType text[0] = .digit) (n : Nat)
    (hn : wordLength text dot = some n) : 1 ≤ n := by
  obtain ⟨u, h1, _⟩ := findUrlOrEmail_spec text
  unfold wordLength at hn
  simp only [h1, Option.bind_eq_bind, Option.bind_some, Option.pure_def] at hn
  split at hn
  · simp only [Option.some.injEq] at hn; omega
  · unfold wordLoop at hn
    simp only [h0, dite_true, rd_eq_some h0, Option.bind_eq_bind, Option.bind_some] at hn
    rcases hc with hc | hc <;> simp only [hc] at hn
    · obtain ⟨m, h3, h4, _⟩ := wordLoop_spec text (if dot then 1 else 0) 1 false true (by omega) (by split <;> omega)
      simp only [Nat.zero_add, h3, Option.some.injEq] at hn; omega
    · obtain ⟨m, h3, h4, _⟩ := wordLoop_spec text (if dot then 1 else 0) 1 true false (by omega) (by split <;> omega)
      simp only [Nat.zero_add, h3, Option.some.injEq] at hn; omega

theorem whitespaceLoop_spec (text : List Wc) (i : Nat) (hle : i ≤ text.length) :
    ∃ n, whitespaceLoop text i = some n ∧ i ≤ n ∧ n ≤ text.length ∧
      (∀ k (_ : k < text.length), i ≤ k → k < n → getCharType text[k] = .whitespace) ∧
      (∀ h : n < text.length, getCharType text[n] ≠ .whitespace) := by
  generalize hm : text.length - i = m
  induction m generalizing i with
  | zero =>
    have h : ¬ i < text.length := by omega
    unfold whitespaceLoop
    simp only [h, dite_false]
    exact ⟨_, rfl, by omega, by omega, fun k _ _ _ => by omega, fun _ => by omega⟩
  | succ m ih =>
    have hi : i < text.length := by omega
    unfold whitespaceLoop
    simp only [hi, dite_true, rd_eq_some hi, Option.bind_eq_bind, Option.bind_some, Option.pure_def]
    split
    · exact ⟨i, rfl, by omega, by omega, fun k _ _ _ => by omega, fun _ => by assumption⟩
    · obtain ⟨n, h1, h2, h3, h4, h5⟩ := ih (i + 1) (by omega) (by omega)
      refine ⟨n, h1, by omega, h3, fun k hk h6 h7 => ?_, h5⟩
      by_cases hki : k = i
      · subst hki; simp_all
      · exact h4 k hk (by omega) h7

end Verif

set_option linter.unusedSimpArgs false

namespace Verif

/-- Outcome with `IGNORE_DOT` (`n'`) versus without (`n`). -/
def DotRel (text : List Wc) (n n' : Nat) : Prop :=
  n' = n ∨ (n' = n + 1 ∧ text[n]? = some 0x2E)

theorem wordPunct_dot (text : List Wc) (wlen : Nat) (p s : Bool)
    (h : wlen < text.length) :
    (∃ st, wordPunct text 0 wlen text[wlen] p s = some st ∧ wordPunct text 1 wlen text[wlen] p s = some st) ∨
    (wordPunct text 0 wlen text[wlen] p s = some (.stop wlen) ∧
     wordPunct text 1 wlen text[wlen] p s = some (.stop (wlen + 1)) ∧ text[wlen] = 0x2E) := by
  obtain ⟨st0, h0, _⟩ := wordPunct_spec text 0 wlen text[wlen] p s h (by omega)
  by_cases hd : text[wlen] = 0x2E
  · have hi' : wlen + 1 ≠ text.length → wlen + 1 < text.length := by omega
    unfold wordPunct
    simp only [hd]
    by_cases he : wlen + 1 = text.length
    · simp only [he, if_true]
      right; simp [he]
    · simp only [he, if_false, rd_eq_some (hi' he), Option.bind_eq_bind, Option.bind_some]
      cases hc : getCharType text[wlen + 1]
      · left; exact ⟨.more, by simp, by simp⟩
      · cases s
        · left; exact ⟨.more, by simp, by simp⟩
        · right; simp
      all_goals right; simp
  · left
    refine ⟨st0, h0, ?_⟩
    rw [← h0]
    unfold wordPunct
    simp only [hd, if_false]

theorem wordLoop_dot (text : List Wc) (wlen : Nat) (p s : Bool) (hle : wlen ≤ text.length) :
    ∃ n n', wordLoop text 0 wlen p s = some n ∧ wordLoop text 1 wlen p s = some n' ∧ DotRel text n n' := by
  generalize hm : text.length - wlen = m
  induction m generalizing wlen p s with
  | zero =>
    have h : ¬ wlen < text.length := by omega
    unfold wordLoop
    simp only [h, dite_false]
    exact ⟨_, _, rfl, rfl, Or.inl rfl⟩
  | succ m ih =>
    have hi : wlen < text.length := by omega
    have step := fun p' s' => ih (wlen+1) p' s' (by omega) (by omega)
    unfold wordLoop
    simp only [hi, dite_true, rd_eq_some hi]
    cases hc : getCharType text[wlen] <;>
      simp only [hc, Option.bind_eq_bind, Option.bind_some, Option.pure_def]
    · exact step _ _
    · exact step _ _
    · exact ⟨_, _, rfl, rfl, Or.inl rfl⟩
    · rcases wordPunct_dot text wlen p s hi with ⟨st, h1, h2⟩ | ⟨h1, h2, h3⟩
      · rw [h1, h2]
        cases st with
        | stop n => exact ⟨_, _, rfl, rfl, Or.inl rfl⟩
        | more => exact step _ _
      · rw [h1, h2]
        exact ⟨_, _, rfl, rfl, Or.inr ⟨rfl, by simp [hi, h3]⟩⟩
    · exact ⟨_, _, rfl, rfl, Or.inl rfl⟩

theorem wordLength_dot (text : List Wc) :
    ∃ n n', wordLength text false = some n ∧ wordLength text true = some n' ∧ DotRel text n n' := by
  obtain ⟨u, h1, h2⟩ := findUrlOrEmail_spec text
  unfold wordLength
  simp only [h1, Option.bind_eq_bind, Option.bind_some, Option.pure_def]
  split
  · exact ⟨_, _, rfl, rfl, Or.inl rfl⟩
  · exact wordLoop_dot text 0 false false (Nat.zero_le _)

end Verif
