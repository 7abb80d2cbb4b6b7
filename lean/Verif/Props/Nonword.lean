import Verif.Model.Case
/-! C29: URL and e-mail shapes recognised by `IGNORE_NONWORDS` (`voikko_is_nonword`). -/

namespace Verif.Props
open Verif

/-- The documented shapes (`utils.cpp:95-99`): `X*//X*.X+`, `X*@X+.X+`, `www.X+.X+`. -/
inductive NonwordShape (w : List Wc) : Prop
  | slashes (a b c : List Wc) : w = a ++ 0x2F :: 0x2F :: (b ++ 0x2E :: c) → c ≠ [] → NonwordShape w
  | at (a b c : List Wc) : w = a ++ 0x40 :: (b ++ 0x2E :: c) → b ≠ [] → c ≠ [] → NonwordShape w
  | www (b c : List Wc) : w = 0x77 :: 0x77 :: 0x77 :: 0x2E :: (b ++ 0x2E :: c) → b ≠ [] → c ≠ [] →
      NonwordShape w

/-- Result of `wmemchr` inside bounds. -/
theorem wmemchr_spec (w : List Wc) (c : Wc) (n s : Nat) (h : s + n ≤ w.length) :
    (wmemchr w s c n = some none ∧ ∀ k (_ : k < w.length), s ≤ k → k < s + n → w[k] ≠ c) ∨
    (∃ i, ∃ hi : i < w.length, wmemchr w s c n = some (some i) ∧ s ≤ i ∧ i < s + n ∧ w[i] = c ∧
      ∀ k (_ : k < w.length), s ≤ k → k < i → w[k] ≠ c) := by
  induction n generalizing s with
  | zero => left; exact ⟨rfl, fun k _ _ _ => by omega⟩
  | succ n ih =>
    have hs : s < w.length := by omega
    unfold wmemchr
    simp only [rd_eq_some hs, Option.bind_eq_bind, Option.bind_some]
    split
    · rename_i hc
      right; exact ⟨s, hs, rfl, by omega, by omega, hc, fun k _ _ _ => by omega⟩
    · rename_i hc
      rcases ih (s + 1) (by omega) with ⟨h1, h2⟩ | ⟨i, hi, h1, h2, h3, h4, h5⟩
      · left
        refine ⟨h1, fun k hk h3 h4 => ?_⟩
        by_cases e : k = s
        · subst e; exact hc
        · exact h2 k hk (by omega) (by omega)
      · right
        refine ⟨i, hi, h1, by omega, by omega, h4, fun k hk h6 h7 => ?_⟩
        by_cases e : k = s
        · subst e; exact hc
        · exact h5 k hk (by omega) h7

theorem wcsncmpEq_spec (lit w : List Wc) (off : Nat) (h : off + lit.length ≤ w.length) :
    ∃ b, wcsncmpEq lit w off = some b ∧ (b = true ↔ (w.drop off).take lit.length = lit) := by
  induction lit generalizing off with
  | nil => exact ⟨true, rfl, by simp⟩
  | cons l ls ih =>
    simp only [List.length_cons] at h
    have ho : off < w.length := by omega
    obtain ⟨b, h1, h2⟩ := ih (off + 1) (by omega)
    unfold wcsncmpEq
    simp only [rd_eq_some ho, Option.bind_eq_bind, Option.bind_some]
    have hd : w.drop off = w[off] :: w.drop (off + 1) := List.drop_eq_getElem_cons ho
    split
    · rename_i e
      refine ⟨b, h1, ?_⟩
      rw [h2, hd, List.length_cons, List.take_succ_cons, List.cons.injEq]
      simp [e]
    · rename_i e
      refine ⟨false, rfl, ?_⟩
      rw [hd, List.length_cons, List.take_succ_cons, List.cons.injEq]
      simp only [Bool.false_eq_true, false_iff, not_and]
      intro e2; exact absurd e2 e

/-- Index form of the three tests made by the code; `first` occurrences only. -/
def NonwordCode (w : List Wc) : Prop :=
  4 ≤ w.length ∧
  ((∃ p q, p + 4 ≤ w.length ∧ w[p]? = some 0x2F ∧ (∀ k < p, w[k]? ≠ some 0x2F) ∧ w[p+1]? = some 0x2F ∧
      p + 1 ≤ q ∧ q + 2 ≤ w.length ∧ w[q]? = some 0x2E) ∨
   (∃ p q, p + 4 ≤ w.length ∧ w[p]? = some 0x40 ∧ (∀ k < p, w[k]? ≠ some 0x40) ∧ w[p+1]? ≠ some 0x2E ∧
      p + 1 ≤ q ∧ q + 2 ≤ w.length ∧ w[q]? = some 0x2E) ∨
   (7 ≤ w.length ∧ w.take 4 = [0x77, 0x77, 0x77, 0x2E] ∧ w[4]? ≠ some 0x2E ∧
      ∃ q, 5 ≤ q ∧ q < w.length ∧ w[q]? = some 0x2E))

theorem wmemchr_isSome (w : List Wc) (c : Wc) (n s : Nat) (h : s + n ≤ w.length) :
    ∃ r, wmemchr w s c n = some r ∧ (r.isSome = true ↔ ∃ q, s ≤ q ∧ q < s + n ∧ w[q]? = some c) := by
  rcases wmemchr_spec w c n s h with ⟨h1, h2⟩ | ⟨i, hi, h1, h2, h3, h4, _⟩
  · refine ⟨none, h1, ?_⟩
    simp only [Option.isSome_none, Bool.false_eq_true, false_iff, not_exists, not_and]
    intro q h3 h4 h5
    have hq : q < w.length := by omega
    rw [List.getElem?_eq_getElem hq, Option.some.injEq] at h5
    exact h2 q hq h3 h4 h5
  · refine ⟨some i, h1, ?_⟩
    simp only [Option.isSome_some, true_iff]
    exact ⟨i, h2, h3, by rw [List.getElem?_eq_getElem hi, h4]⟩

/-- The search for the first `ch` among the first `length - 3` characters. -/
theorem first_search (w : List Wc) (ch : Wc) (h4 : 4 ≤ w.length) :
    ∃ r, wmemchr w 0 ch (w.length - 3) = some r ∧
      (∀ p, r = some p ↔ (p + 4 ≤ w.length ∧ w[p]? = some ch ∧ ∀ k < p, w[k]? ≠ some ch)) := by
  rcases wmemchr_spec w ch (w.length - 3) 0 (by omega) with ⟨h1, h2⟩ | ⟨i, hi, h1, _, h3, h4', h5⟩
  · refine ⟨none, h1, fun p => ?_⟩
    simp only [reduceCtorEq, false_iff, not_and]
    intro hp hp2
    have hq : p < w.length := by omega
    rw [List.getElem?_eq_getElem hq, Option.some.injEq] at hp2
    exact absurd hp2 (h2 p hq (by omega) (by omega))
  · refine ⟨some i, h1, fun p => ?_⟩
    constructor
    · rintro e
      rw [Option.some.injEq] at e
      subst e
      refine ⟨by omega, by rw [List.getElem?_eq_getElem hi, h4'], fun k hk => ?_⟩
      have hq : k < w.length := by omega
      rw [List.getElem?_eq_getElem hq]
      simpa using h5 k hq (by omega) hk
    · rintro ⟨hp1, hp2, hp3⟩
      rw [Option.some.injEq]
      rcases Nat.lt_trichotomy i p with hlt | rfl | hgt
      · exact absurd (by rw [List.getElem?_eq_getElem hi, h4']) (hp3 i hlt)
      · rfl
      · have hq : p < w.length := by omega
        rw [List.getElem?_eq_getElem hq, Option.some.injEq] at hp2
        exact absurd hp2 (h5 p hq (by omega) hgt)

/-- C29: the check never reads outside the word, and computes exactly `NonwordCode`. -/
theorem C29_exact (w : List Wc) : ∃ b, isNonword w = some b ∧ (b = true ↔ NonwordCode w) := by
  unfold isNonword
  by_cases h4 : w.length < 4
  · exact ⟨false, by simp [h4], by simp [NonwordCode]; omega⟩
  · have h4' : 4 ≤ w.length := by omega
    simp only [h4, if_false, Option.bind_eq_bind]
    obtain ⟨r1, e1, f1⟩ := first_search w 0x2F h4'
    obtain ⟨r2, e2, f2⟩ := first_search w 0x40 h4'
    -- first test
    obtain ⟨a, ea, fa⟩ : ∃ a, nonwordSlash w = some a ∧
        (a = true ↔ (∃ p q, p + 4 ≤ w.length ∧ w[p]? = some 0x2F ∧ (∀ k < p, w[k]? ≠ some 0x2F) ∧
          w[p+1]? = some 0x2F ∧ p + 1 ≤ q ∧ q + 2 ≤ w.length ∧ w[q]? = some 0x2E)) := by
      unfold nonwordSlash
      simp only [e1, Option.bind_eq_bind, Option.bind_some]
      cases r1 with
      | none =>
        refine ⟨false, rfl, ?_⟩
        simp only [Bool.false_eq_true, false_iff]
        rintro ⟨p, q, h1, h2, h3, _⟩
        exact absurd ((f1 p).2 ⟨h1, h2, h3⟩) (by simp)
      | some i =>
        obtain ⟨g1, g2, g3⟩ := (f1 i).1 rfl
        have hi : i + 1 < w.length := by omega
        have huniq : ∀ p, (p + 4 ≤ w.length ∧ w[p]? = some 0x2F ∧ ∀ k < p, w[k]? ≠ some 0x2F) → p = i := by
          intro p hp
          have := (f1 p).2 hp
          simpa using this.symm
        simp only [rd_eq_some hi, Option.bind_some]
        by_cases hc : w[i + 1] = 0x2F
        · have : ¬ w.length < i + 2 := by omega
          obtain ⟨r, er, fr⟩ := wmemchr_isSome w 0x2E (w.length - i - 2) (i + 1) (by omega)
          simp only [hc, this, if_true, if_false, er, Option.bind_some]
          refine ⟨r.isSome, rfl, fr.trans ?_⟩
          constructor
          · rintro ⟨q, q1, q2, q3⟩
            exact ⟨i, q, g1, g2, g3, by rw [List.getElem?_eq_getElem hi, hc], q1, by omega, q3⟩
          · rintro ⟨p, q, p1, p2, p3, p4, p5, p6, p7⟩
            obtain rfl := huniq p ⟨p1, p2, p3⟩
            exact ⟨q, p5, by omega, p7⟩
        · refine ⟨false, by simp [hc], ?_⟩
          simp only [Bool.false_eq_true, false_iff]
          rintro ⟨p, q, p1, p2, p3, p4, _⟩
          obtain rfl := huniq p ⟨p1, p2, p3⟩
          rw [List.getElem?_eq_getElem hi, Option.some.injEq] at p4
          exact hc p4
    -- second test
    obtain ⟨b, eb, fb⟩ : ∃ a, nonwordAt w = some a ∧
        (a = true ↔ (∃ p q, p + 4 ≤ w.length ∧ w[p]? = some 0x40 ∧ (∀ k < p, w[k]? ≠ some 0x40) ∧
          w[p+1]? ≠ some 0x2E ∧ p + 1 ≤ q ∧ q + 2 ≤ w.length ∧ w[q]? = some 0x2E)) := by
      unfold nonwordAt
      simp only [e2, Option.bind_eq_bind, Option.bind_some]
      cases r2 with
      | none =>
        refine ⟨false, rfl, ?_⟩
        simp only [Bool.false_eq_true, false_iff]
        rintro ⟨p, q, h1, h2, h3, _⟩
        exact absurd ((f2 p).2 ⟨h1, h2, h3⟩) (by simp)
      | some i =>
        obtain ⟨g1, g2, g3⟩ := (f2 i).1 rfl
        have hi : i + 1 < w.length := by omega
        have huniq : ∀ p, (p + 4 ≤ w.length ∧ w[p]? = some 0x40 ∧ ∀ k < p, w[k]? ≠ some 0x40) → p = i := by
          intro p hp
          have := (f2 p).2 hp
          simpa using this.symm
        simp only [rd_eq_some hi, Option.bind_some]
        by_cases hc : w[i + 1] = 0x2E
        · refine ⟨false, by simp [hc], ?_⟩
          simp only [Bool.false_eq_true, false_iff]
          rintro ⟨p, q, p1, p2, p3, p4, _⟩
          obtain rfl := huniq p ⟨p1, p2, p3⟩
          rw [List.getElem?_eq_getElem hi] at p4
          exact p4 (by rw [hc])
        · have : ¬ w.length < i + 2 := by omega
          obtain ⟨r, er, fr⟩ := wmemchr_isSome w 0x2E (w.length - i - 2) (i + 1) (by omega)
          simp only [ne_eq, hc, this, not_false_eq_true, if_true, if_false, er, Option.bind_some]
          refine ⟨r.isSome, rfl, fr.trans ?_⟩
          constructor
          · rintro ⟨q, q1, q2, q3⟩
            exact ⟨i, q, g1, g2, g3, by rw [List.getElem?_eq_getElem hi]; simpa using hc, q1, by omega, q3⟩
          · rintro ⟨p, q, p1, p2, p3, p4, p5, p6, p7⟩
            obtain rfl := huniq p ⟨p1, p2, p3⟩
            exact ⟨q, p5, by omega, p7⟩
    simp only [ea, eb, Option.bind_some]
    unfold NonwordCode nonwordWww
    rw [← fa, ← fb]
    cases a
    · cases b
      · by_cases h7 : w.length < 7
        · refine ⟨false, by simp [h7], ?_⟩
          simp; omega
        · obtain ⟨www, ew, fw⟩ := wcsncmpEq_spec [0x77, 0x77, 0x77, 0x2E] w 0 (by simp; omega)
          have h4'' : 4 < w.length := by omega
          obtain ⟨r, er, fr⟩ := wmemchr_isSome w 0x2E (w.length - 5) 5 (by omega)
          simp only [List.drop_zero, List.length_cons, List.length_nil] at fw
          simp only [Bool.false_eq_true, if_false, h7, ew, Option.bind_eq_bind, Option.bind_some, rd_eq_some h4'', er]
          cases www
          · refine ⟨false, rfl, ?_⟩
            simp only [Bool.false_eq_true, false_iff] at fw ⊢
            rintro ⟨_, h | h | ⟨_, h, _⟩⟩
            · exact h
            · exact h
            · exact fw h
          · have fw' := fw.1 rfl
            by_cases hc : w[4] = 0x2E
            · refine ⟨false, by simp [hc], ?_⟩
              simp only [Bool.false_eq_true, false_iff]
              rintro ⟨_, h | h | ⟨_, _, h, _⟩⟩
              · exact h
              · exact h
              · rw [List.getElem?_eq_getElem h4''] at h; exact h (by rw [hc])
            · refine ⟨r.isSome, by simp [hc], fr.trans ?_⟩
              constructor
              · rintro ⟨q, q1, q2, q3⟩
                refine ⟨h4', Or.inr (Or.inr ⟨by omega, fw', ?_, q, q1, by omega, q3⟩)⟩
                rw [List.getElem?_eq_getElem h4'']; simpa using hc
              · rintro ⟨_, h | h | ⟨_, _, _, q, q1, q2, q3⟩⟩
                · simp at h
                · simp at h
                · exact ⟨q, q1, by omega, q3⟩
      · exact ⟨true, by simp, by simp [h4']⟩
    · exact ⟨true, by simp, by simp [h4']⟩

/-- Split a list at an index. -/
theorem split_at {w : List Wc} {p : Nat} {c : Wc} (h : w[p]? = some c) :
    w = w.take p ++ c :: w.drop (p + 1) := by
  obtain ⟨hp, rfl⟩ := List.getElem?_eq_some_iff.1 h
  rw [← List.drop_eq_getElem_cons hp, List.take_append_drop]

/-- C29, the promised soundness, is false: "www.ab." is skipped although nothing follows the last dot. -/
theorem C29_sound_violation :
    isNonword [0x77, 0x77, 0x77, 0x2E, 0x61, 0x62, 0x2E] = some true ∧
    ¬ NonwordShape [0x77, 0x77, 0x77, 0x2E, 0x61, 0x62, 0x2E] := by
  refine ⟨by decide +kernel, ?_⟩
  have nomem : ∀ x : Nat, x ∈ [0x77, 0x77, 0x77, 0x2E, 0x61, 0x62, 0x2E] → x ≠ 0x2F ∧ x ≠ 0x40 := by decide
  rintro (⟨a, b, c, h, hc⟩ | ⟨a, b, c, h, hb, hc⟩ | ⟨b, c, h, hb, hc⟩)
  · exact (nomem 0x2F (h ▸ by simp)).1 rfl
  · exact (nomem 0x40 (h ▸ by simp)).2 rfl
  · simp only [List.cons.injEq, true_and] at h
    match b, hb with
    | [x], _ => simp at h
    | [x, y], _ =>
      simp only [List.cons_append, List.nil_append, List.cons.injEq] at h
      exact hc h.2.2.2.symm
    | x :: y :: z :: b', _ =>
      have := congrArg List.length h
      simp at this

/-- C29, the promised completeness, is false: in "a/b//c.d" only the first slash is examined. -/
theorem C29_complete_violation :
    NonwordShape [0x61, 0x2F, 0x62, 0x2F, 0x2F, 0x63, 0x2E, 0x64] ∧
    isNonword [0x61, 0x2F, 0x62, 0x2F, 0x2F, 0x63, 0x2E, 0x64] = some false :=
  ⟨.slashes [0x61, 0x2F, 0x62] [0x63] [0x64] rfl (by simp), by decide +kernel⟩

/-- C29 soundness, weakened: an ignored word has a documented shape, or it starts with `www.` and its only
later dot is the last character. Missing for the full claim: that last case (`C29_sound_violation`). -/
theorem C29_sound_partial (w : List Wc) (h : isNonword w = some true) :
    NonwordShape w ∨ ∃ b, w = 0x77 :: 0x77 :: 0x77 :: 0x2E :: (b ++ [0x2E]) ∧ 2 ≤ b.length := by
  obtain ⟨b, h1, h2⟩ := C29_exact w
  rw [h, Option.some.injEq] at h1
  obtain ⟨h4, hh⟩ := h2.1 h1.symm
  rcases hh with ⟨p, q, p1, p2, p3, p4, p5, p6, p7⟩ | ⟨p, q, p1, p2, p3, p4, p5, p6, p7⟩ | ⟨w7, ww, w4, q, q1, q2, q3⟩
  · left
    have hqp : q ≠ p + 1 := by rintro rfl; rw [p4] at p7; simp at p7
    have e1 := split_at p2
    have e2 : (w.drop (p + 1))[0]? = some 0x2F := by simpa using p4
    have e3 := split_at e2
    have e4 : (w.drop (p + 2))[q - (p + 2)]? = some 0x2E := by
      rw [List.getElem?_drop]; rw [show p + 2 + (q - (p + 2)) = q by omega]; exact p7
    have e5 := split_at e4
    rw [List.take_zero, List.nil_append, List.drop_drop] at e3
    refine .slashes (w.take p) _ _ (e1.trans (by rw [e3, show p + 1 + (0 + 1) = p + 2 by omega]; rw [← e5])) ?_
    intro hnil
    have := congrArg List.length hnil
    simp only [List.length_drop, List.length_nil] at this
    omega
  · left
    have e1 := split_at p2
    have hqp : q ≠ p + 1 := by rintro rfl; exact p4 p7
    have e4 : (w.drop (p + 1))[q - (p + 1)]? = some 0x2E := by
      rw [List.getElem?_drop]; rw [show p + 1 + (q - (p + 1)) = q by omega]; exact p7
    have e5 := split_at e4
    refine .at (w.take p) _ _ (e1.trans (by rw [← e5])) ?_ ?_
    · intro hnil
      have := congrArg List.length hnil
      simp only [List.length_take, List.length_drop, List.length_nil] at this
      omega
    · intro hnil
      have := congrArg List.length hnil
      simp only [List.length_drop, List.length_nil] at this
      omega
  · have e0 : w = [0x77, 0x77, 0x77, 0x2E] ++ w.drop 4 := by
      conv => lhs; rw [← List.take_append_drop 4 w, ww]
    have e4 : (w.drop 4)[q - 4]? = some 0x2E := by
      rw [List.getElem?_drop]; rw [show 4 + (q - 4) = q by omega]; exact q3
    have e5 := split_at e4
    by_cases hlast : q + 1 = w.length
    · right
      refine ⟨(w.drop 4).take (q - 4), ?_, by simp; omega⟩
      have : (w.drop 4).drop (q - 4 + 1) = [] := by
        apply List.eq_nil_of_length_eq_zero
        simp only [List.length_drop]; omega
      rw [this] at e5
      exact e0.trans (by rw [List.cons_append, List.cons_append, List.cons_append, List.cons_append,
        List.nil_append, ← e5])
    · left
      refine .www ((w.drop 4).take (q - 4)) ((w.drop 4).drop (q - 4 + 1)) (e0.trans ?_) ?_ ?_
      · rw [← e5]; rfl
      · intro hnil
        have := congrArg List.length hnil
        simp only [List.length_take, List.length_drop, List.length_nil] at this
        omega
      · intro hnil
        have := congrArg List.length hnil
        simp only [List.length_drop, List.length_nil] at this
        omega

/-- C29 completeness, weakened: a word of a documented shape is recognised provided its *first* `/`
(respectively `@`) is the one in the shape, and no dot directly follows `@` / `www.`.
Missing for the full claim: `C29_complete_violation`. -/
theorem C29_complete_partial (w : List Wc)
    (h : (∃ a b c : List Wc, w = a ++ 0x2F :: 0x2F :: (b ++ 0x2E :: c) ∧ c ≠ [] ∧ 0x2F ∉ a) ∨
      (∃ a b c : List Wc, w = a ++ 0x40 :: (b ++ 0x2E :: c) ∧ c ≠ [] ∧ 0x40 ∉ a ∧ b ≠ [] ∧ b.head? ≠ some 0x2E) ∨
      (∃ b c : List Wc, w = 0x77 :: 0x77 :: 0x77 :: 0x2E :: (b ++ 0x2E :: c) ∧ c ≠ [] ∧ b ≠ [] ∧
        b.head? ≠ some 0x2E)) :
    isNonword w = some true := by
  obtain ⟨b', h1, h2⟩ := C29_exact w
  rw [h1, Option.some.injEq, h2]
  have notin : ∀ (a r : List Wc) (x : Wc), x ∉ a → ∀ k < a.length, (a ++ r)[k]? ≠ some x := by
    intro a r x hx k hk e
    rw [List.getElem?_append_left hk, List.getElem?_eq_getElem hk, Option.some.injEq] at e
    exact hx (e ▸ List.getElem_mem hk)
  rcases h with ⟨a, b, c, rfl, hc, ha⟩ | ⟨a, b, c, rfl, hc, ha, hb, hb0⟩ | ⟨b, c, rfl, hc, hb, hb0⟩
  · have hcl := List.length_pos_iff.2 hc
    refine ⟨by simp; omega, Or.inl ⟨a.length, a.length + 2 + b.length, by simp; omega, by simp,
      notin _ _ _ ha, by simp, by omega, by simp; omega, ?_⟩⟩
    rw [List.getElem?_append_right (by omega),
      show a.length + 2 + b.length - a.length = b.length + 1 + 1 by omega, List.getElem?_cons_succ,
      List.getElem?_cons_succ]
    simp
  · have hcl := List.length_pos_iff.2 hc
    have hbl := List.length_pos_iff.2 hb
    refine ⟨by simp; omega, Or.inr (Or.inl ⟨a.length, a.length + 1 + b.length, by simp; omega, by simp,
      notin _ _ _ ha, ?_, by omega, by simp; omega, ?_⟩)⟩
    · rw [List.getElem?_append_right (by omega), show a.length + 1 - a.length = 0 + 1 by omega,
        List.getElem?_cons_succ, List.getElem?_append_left hbl, ← List.head?_eq_getElem?]
      exact hb0
    · rw [List.getElem?_append_right (by omega),
        show a.length + 1 + b.length - a.length = b.length + 1 by omega, List.getElem?_cons_succ]
      simp
  · have hcl := List.length_pos_iff.2 hc
    have hbl := List.length_pos_iff.2 hb
    refine ⟨by simp, Or.inr (Or.inr ⟨by simp; omega, rfl, ?_, 4 + b.length, by omega, by simp; omega, ?_⟩)⟩
    · show (b ++ 0x2E :: c)[0]? ≠ _
      rw [List.getElem?_append_left hbl, ← List.head?_eq_getElem?]
      exact hb0
    · rw [show 4 + b.length = b.length + 1 + 1 + 1 + 1 by omega]
      simp only [List.getElem?_cons_succ]
      simp

/-- "www.a.fi", "x@y.fi" and "http://a.b" are recognised; "kissa" is not. -/
example : isNonword [0x77, 0x77, 0x77, 0x2E, 0x61, 0x2E, 0x66, 0x69] = some true ∧
    isNonword [0x78, 0x40, 0x79, 0x2E, 0x66, 0x69] = some true ∧
    isNonword [0x6B, 0x69, 0x73, 0x73, 0x61] = some false := by decide +kernel

end Verif.Props
