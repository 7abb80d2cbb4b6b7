import Verif.Props.Tweaks
/-!
# Words with hyphens in the Finnish speller (C66)
-/

set_option linter.unusedSimpArgs false
set_option linter.unusedVariables false

namespace Verif.Props
open Verif

/-! ## Specification -/

/-- `w` is `a`, a hyphen and `b`; it is the first hyphen that is not at an end of the word. -/
def FirstInner (w a b : List Wc) : Prop := w = a ++ 0x2D :: b ∧ a ≠ [] ∧ b ≠ [] ∧ 0x2D ∉ a.tail

/-- `w` is `a`, a hyphen and `b`; it is the last hyphen that is not at an end of the word. -/
def LastInner (w a b : List Wc) : Prop := w = a ++ 0x2D :: b ∧ a ≠ [] ∧ b ≠ [] ∧ 0x2D ∉ b.dropLast

/-- The same vowel and consonant stand before and after the hyphen, as in `pop-opisto`. -/
def SamePair (a b : List Wc) : Prop :=
  ∃ a' x y z u b', a = a' ++ [x, y] ∧ b = z :: u :: b' ∧ lower x ∈ voikkoVowels ∧ lower y ∈ voikkoConsonants ∧
    lower z = lower x ∧ lower u = lower y

/-- Number of letters of (a piece of) a STRUCTURE string. -/
def structLetters (s : List Wc) : Nat := (s.filter (· ≠ 0x3D)).length

/-- The analysis has a compound border after `n` letters. -/
def BorderAfter (x : MorAn) (n : Nat) : Prop :=
  ∃ s p q, x.struct = some s ∧ s.takeWhile (· ≠ 0) = p ++ 0x3D :: q ∧ structLetters p = n

/-- The analysis describes at least `n` letters and has no border after `n` letters. -/
def NoBorderAfter (x : MorAn) (n : Nat) : Prop :=
  ∃ s, x.struct = some s ∧ n ≤ structLetters (s.takeWhile (· ≠ 0)) ∧ ¬ BorderAfter x n

/-- The reasons for which a word with a hyphen is accepted although the dictionary does not know it as it is. `spell v r` means that
the word `v` gets the verdict `r`. -/
inductive HyphenReason (spell : List Wc → SpellRes → Prop) (extra : Bool) (an : Analyzer) (w : List Wc) : SpellRes → Prop
  /-- ACCEPT_EXTRA_HYPHENS: the word is correct without the hyphen. -/
  | extraHyphen (a b : List Wc) : FirstInner w a b → extra = true → 2 ≤ a.length → b.head? ≠ some 0x2D → spell (a ++ b) .ok →
      HyphenReason spell extra an w .ok
  /-- The dictionary knows the word without the hyphen, and the hyphen separates equal pairs. -/
  | samePair (a b : List Wc) (r : SpellRes) : FirstInner w a b → SamePair a b → BestOf (a ++ b) (an (a ++ b)) r →
      HyphenReason spell extra an w r
  /-- The part after the last hyphen can follow any word. -/
  | freePart (a b : List Wc) (r : SpellRes) : LastInner w a b → spell a r → r ≠ .failed →
      (∃ x ∈ an b, x.vapaaJalkiosa = some (lit "true")) → HyphenReason spell extra an w r
  /-- The word without the hyphen is ambiguous: it is a compound with a border at the hyphen and something else. -/
  | ambiguous (a b : List Wc) (r : SpellRes) : FirstInner w a b →
      (∃ x ∈ an (a ++ b), BorderAfter x a.length ∧ Gives (a ++ b) x r) →
      (∀ x ∈ an (a ++ b), BorderAfter x a.length → ∀ r', Gives (a ++ b) x r' → Better r r') →
      (∃ x ∈ an (a ++ b), NoBorderAfter x a.length) → HyphenReason spell extra an w r

/-! ## Lemmas -/

theorem wcsncpy_append {p q : List Wc} (h : 0 ∉ p) : wcsncpy (p ++ q) p.length = p := by
  have : ((p ++ q).take p.length).takeWhile (· ≠ 0) = p := by
    rw [List.take_left]
    induction p with
    | nil => rfl
    | cons c p ih =>
      simp only [List.mem_cons, not_or] at h
      rw [List.takeWhile_cons, if_pos (by simpa using fun e => h.1 e.symm), ih h.2]
  simp only [wcsncpy, this, Nat.sub_self, List.replicate_zero, List.append_nil]

theorem withoutHyphen_eq {a b : List Wc} (h : 0 ∉ a ++ 0x2D :: b) : withoutHyphen (a ++ 0x2D :: b) a.length = a ++ b := by
  simp only [List.mem_append, List.mem_cons, not_or] at h
  have e1 : wcsncpy (a ++ 0x2D :: b) a.length = a := wcsncpy_append h.1
  have e2 : (a ++ 0x2D :: b).drop (a.length + 1) = b := by
    rw [List.drop_append, List.drop_eq_nil_of_le (by omega)]; simp
  have e3 : (a ++ 0x2D :: b).length - a.length - 1 = b.length := by simp
  have e4 : wcsncpy b b.length = b := by
    have := wcsncpy_append (q := []) h.2.2
    rwa [List.append_nil] at this
  rw [withoutHyphen, e1, e2, e3, e4]

theorem firstInnerHyphen_some {w : List Wc} {l : Nat} (h : firstInnerHyphen w = some l) :
    ∃ a b, FirstInner w a b ∧ a.length = l := by
  have hlt := firstInnerHyphen_lt h
  simp only [firstInnerHyphen, Option.map_eq_some_iff] at h
  obtain ⟨k, hk, rfl⟩ := h
  obtain ⟨hk1, hk2, hk3⟩ := List.findIdx?_eq_some_iff_getElem.1 hk
  cases w with
  | nil => simp at hlt
  | cons c cs =>
    simp only [List.length_cons] at hlt
    have hget : cs[k]? = some 0x2D := by
      have e : ((List.drop 1 (c :: cs)).take ((c :: cs).length - 2))[k] = 0x2D := by simpa using hk2
      rw [List.getElem_take] at e
      rw [List.getElem?_eq_getElem (by omega)]
      simpa using e
    have hcs : cs = cs.take k ++ 0x2D :: cs.drop (k + 1) := by
      obtain ⟨hlt', e⟩ := List.getElem?_eq_some_iff.1 hget
      rw [← e, List.getElem_cons_drop, List.take_append_drop]
    refine ⟨c :: cs.take k, cs.drop (k + 1), ⟨?_, by simp, ?_, ?_⟩, ?_⟩
    · rw [List.cons_append, ← hcs]
    · intro e
      have := congrArg List.length e
      simp at this; omega
    · intro hm
      rw [List.tail_cons] at hm
      obtain ⟨j, hj, e⟩ := List.getElem_of_mem hm
      rw [List.length_take] at hj
      have := hk3 j (by omega)
      rw [List.getElem_take] at this e
      simp [e] at this
    · rw [List.length_cons, List.length_take]; omega

theorem firstInnerHyphen_of {w a b : List Wc} (h : FirstInner w a b) : firstInnerHyphen w = some a.length := by
  obtain ⟨rfl, h1, h2, h3⟩ := h
  cases a with
  | nil => exact absurd rfl h1
  | cons c a =>
    rw [List.tail_cons] at h3
    have e1 : ((c :: a) ++ 0x2D :: b).drop 1 = a ++ 0x2D :: b := rfl
    have e2 : ((c :: a) ++ 0x2D :: b).length - 2 = a.length + b.length := by simp
    rw [firstInnerHyphen, e1, e2]
    have hb : 0 < b.length := List.length_pos_iff.2 h2
    have e3 : (a ++ 0x2D :: b).take (a.length + b.length) = a ++ 0x2D :: b.take (b.length - 1) := by
      rw [List.take_append, List.take_of_length_le (by omega), Nat.add_sub_cancel_left]
      congr 1
      rw [show b.length = (b.length - 1) + 1 by omega, List.take_succ_cons]
      simp
    rw [e3]
    have : (a ++ 0x2D :: b.take (b.length - 1)).findIdx? (· == 0x2D) = some a.length := by
      rw [List.findIdx?_append, List.findIdx?_eq_none_iff.2 (by
        intro x hx
        simp only [beq_eq_false_iff_ne, ne_eq]
        rintro rfl; exact h3 hx)]
      simp [List.findIdx?_cons]
    rw [this]
    rfl

theorem lastInnerHyphen_some {w : List Wc} : ∀ {n i : Nat}, lastInnerHyphen w n = some (some i) →
    w[i]? = some 0x2D ∧ ∀ j, i < j → j ≤ n → w[j]? ≠ some 0x2D := by
  intro n
  induction n with
  | zero => intro i h; simp [lastInnerHyphen] at h
  | succ n ih =>
    intro i h
    rw [lastInnerHyphen] at h
    obtain ⟨c, hr, h⟩ := Option.bind_eq_some_iff.1 h
    have hc' : w[n + 1]? = some c := hr
    by_cases hc : c = 0x2D
    · rw [if_pos hc] at h
      cases h
      subst hc
      exact ⟨hc', fun j h1 h2 => absurd h1 (by omega)⟩
    · rw [if_neg hc] at h
      obtain ⟨g1, g2⟩ := ih h
      refine ⟨g1, fun j h1 h2 => ?_⟩
      rcases Nat.lt_or_ge j (n + 1) with hj | hj
      · exact g2 j h1 (by omega)
      · have : j = n + 1 := by omega
        subst this
        rw [hc']
        exact fun e => hc (Option.some.inj e)

theorem lastInnerHyphen_none {w : List Wc} : ∀ {n : Nat}, lastInnerHyphen w n = some none →
    ∀ j, 0 < j → j ≤ n → w[j]? ≠ some 0x2D := by
  intro n
  induction n with
  | zero => intro _ j h1 h2; omega
  | succ n ih =>
    intro h j h1 h2
    rw [lastInnerHyphen] at h
    obtain ⟨c, hr, h⟩ := Option.bind_eq_some_iff.1 h
    have hc' : w[n + 1]? = some c := hr
    by_cases hc : c = 0x2D
    · rw [if_pos hc] at h; cases h
    · rw [if_neg hc] at h
      rcases Nat.lt_or_ge j (n + 1) with hj | hj
      · exact ih h j h1 (by omega)
      · have : j = n + 1 := by omega
        subst this
        rw [hc']
        exact fun e => hc (Option.some.inj e)

theorem split_at_hyphen {w : List Wc} {i : Nat} (h : w[i]? = some 0x2D) : w = w.take i ++ 0x2D :: w.drop (i + 1) := by
  obtain ⟨hlt, e⟩ := List.getElem?_eq_some_iff.1 h
  rw [← e, List.getElem_cons_drop, List.take_append_drop]

theorem lastInner_of_loop {w : List Wc} {i : Nat} (h : lastInnerHyphen w (w.length - 2) = some (some i)) :
    LastInner w (w.take i) (w.drop (i + 1)) := by
  obtain ⟨h1, h2⟩ := lastInnerHyphen_some h
  obtain ⟨h3, h4⟩ := lastInnerHyphen_le h
  refine ⟨split_at_hyphen h1, ?_, ?_, ?_⟩
  · intro e
    have := congrArg List.length e
    rw [List.length_take, List.length_nil] at this; omega
  · intro e
    have := congrArg List.length e
    simp at this; omega
  · intro hm
    obtain ⟨j, hj, e⟩ := List.getElem_of_mem hm
    rw [List.length_dropLast, List.length_drop] at hj
    rw [List.getElem_dropLast, List.getElem_drop] at e
    refine h2 (i + 1 + j) (by omega) (by omega) ?_
    rw [List.getElem?_eq_getElem (by omega), e]

theorem loop_of_lastInner {w a b : List Wc} (h : LastInner w a b) : lastInnerHyphen w (w.length - 2) = some (some a.length) := by
  obtain ⟨rfl, h1, h2, h3⟩ := h
  have ha := List.length_pos_iff.2 h1
  have hb := List.length_pos_iff.2 h2
  obtain ⟨o, ho⟩ := lastInnerHyphen_total (a ++ 0x2D :: b) ((a ++ 0x2D :: b).length - 2) (by left; simp)
  have hget : (a ++ 0x2D :: b)[a.length]? = some 0x2D := by simp
  cases o with
  | none =>
    exact absurd hget (lastInnerHyphen_none ho a.length ha (by simp; omega))
  | some i =>
    rw [ho]
    obtain ⟨g1, g2⟩ := lastInnerHyphen_some ho
    have g3 := lastInnerHyphen_le ho
    rcases Nat.lt_trichotomy i a.length with hlt | he | hgt
    · exact absurd hget (g2 a.length hlt (by simp; omega))
    · rw [he]
    · exfalso
      apply h3
      simp only [List.length_append, List.length_cons] at g3
      rw [List.getElem?_append_right (by omega), show i - a.length = (i - a.length - 1) + 1 by omega, List.getElem?_cons_succ] at g1
      obtain ⟨hl, e⟩ := List.getElem?_eq_some_iff.1 g1
      rw [List.mem_iff_getElem]
      exact ⟨i - a.length - 1, by rw [List.length_dropLast]; omega, by rw [List.getElem_dropLast]; exact e⟩

theorem lower_zero {c : Wc} (h : c ≠ 0) : lower c ≠ 0 := by
  rcases lower_eq_or c with h1 | h1 <;> omega

theorem sameVC_iff {a b : List Wc} (h0 : 0 ∉ a ++ 0x2D :: b) :
    sameVC (a ++ 0x2D :: b) a.length = some true ↔ SamePair a b := by
  unfold sameVC
  by_cases hc : a.length ≥ 2 ∧ (a ++ 0x2D :: b).length - a.length ≥ 3
  · rw [if_pos hc]
    simp only [List.length_append, List.length_cons] at hc
    obtain ⟨a', x, y, rfl⟩ : ∃ a' x y, a = a' ++ [x, y] := by
      have h1 : a ≠ [] := by rintro rfl; simp at hc
      refine ⟨a.dropLast.dropLast, a.dropLast.getLast ?_, a.getLast h1, ?_⟩
      · intro e
        have := congrArg List.length e
        simp at this; omega
      · rw [show ∀ p q : Wc, [p, q] = [p] ++ [q] from fun _ _ => rfl, ← List.append_assoc, List.dropLast_concat_getLast,
          List.dropLast_concat_getLast]
    obtain ⟨z, u, b', rfl⟩ : ∃ z u b', b = z :: u :: b' := by
      match b, hc with
      | z :: u :: b', _ => exact ⟨z, u, b', rfl⟩
      | [], hc => simp at hc
      | [_], hc => simp at hc
    have hx : x ≠ 0 := by rintro rfl; exact h0 (by simp)
    have hy : y ≠ 0 := by rintro rfl; exact h0 (by simp)
    have r1 : rd ((a' ++ [x, y]) ++ 0x2D :: z :: u :: b') ((a' ++ [x, y]).length - 2) = some x := by simp [rd]
    have r2 : rd ((a' ++ [x, y]) ++ 0x2D :: z :: u :: b') ((a' ++ [x, y]).length - 1) = some y := by
      simp [rd, List.getElem?_append]
    have r3 : rd ((a' ++ [x, y]) ++ 0x2D :: z :: u :: b') ((a' ++ [x, y]).length + 1) = some z := by
      simp only [rd]; rw [List.getElem?_append_right (by omega)]; simp
    have r4 : rd ((a' ++ [x, y]) ++ 0x2D :: z :: u :: b') ((a' ++ [x, y]).length + 2) = some u := by
      simp only [rd]; rw [List.getElem?_append_right (by omega)]; simp
    rw [r1, r2, r3, r4]
    simp only [Option.bind_eq_bind, Option.bind_some, Option.pure_def, Option.some.injEq, Bool.and_eq_true, beq_iff_eq]
    have w1 : wcschr voikkoVowels (lower x) = true ↔ lower x ∈ voikkoVowels := by
      simp [wcschr, lower_zero hx]
    have w2 : wcschr voikkoConsonants (lower y) = true ↔ lower y ∈ voikkoConsonants := by
      simp [wcschr, lower_zero hy]
    rw [w1, w2]
    constructor
    · rintro ⟨⟨⟨h1, h2⟩, h3⟩, h4⟩
      exact ⟨a', x, y, z, u, b', rfl, rfl, h1, h2, h3, h4⟩
    · rintro ⟨a2, x2, y2, z2, u2, b2, e1, e2, h1, h2, h3, h4⟩
      obtain ⟨_, e3⟩ := List.append_inj' e1 rfl
      cases e3
      cases e2
      exact ⟨⟨⟨h1, h2⟩, h3⟩, h4⟩
  · rw [if_neg hc]
    constructor
    · intro h; cases h
    · rintro ⟨a', x, y, z, u, b', rfl, rfl, _⟩
      exfalso
      apply hc
      simp only [List.length_append, List.length_cons, List.length_nil]
      omega

/-! ### Borders -/

/-- The rest of the STRUCTURE directly after `n` letters. -/
theorem skipLetters_spec : ∀ (r : List Wc) (n : Nat) (s : List Wc), 0 ∉ s →
    (∃ p q, s = p ++ q ∧ structLetters p = n ∧ (∀ p', p' <+: p → structLetters p' = n → p' = p) ∧
      skipLetters n (s ++ 0 :: r) = some (some (q ++ 0 :: r))) ∨
    (structLetters s < n ∧ skipLetters n (s ++ 0 :: r) = some none) := by
  intro r n
  induction n with
  | zero =>
    intro s _
    exact .inl ⟨[], s, rfl, rfl, fun p' h _ => List.prefix_nil.1 h, rfl⟩
  | succ n ih =>
    intro s
    induction s with
    | nil =>
      intro _
      right
      exact ⟨Nat.succ_pos _, rfl⟩
    | cons c s ihs =>
      intro h0
      simp only [List.mem_cons, not_or] at h0
      by_cases hc : c = 0x3D
      · subst hc
        have e : skipLetters (n + 1) (0x3D :: s ++ 0 :: r) = skipLetters (n + 1) (s ++ 0 :: r) := by
          rw [skipLetters, skipLetters, List.cons_append, skipEq, if_pos rfl]
        rcases ihs h0.2 with ⟨p, q, rfl, h1, h2, h3⟩ | ⟨h1, h2⟩
        · refine .inl ⟨0x3D :: p, q, rfl, by simpa [structLetters] using h1, ?_, by rw [e]; exact h3⟩
          intro p' hp hl
          cases p' with
          | nil => simp [structLetters] at hl
          | cons d p' =>
            obtain ⟨rfl, ht⟩ := List.cons_prefix_cons.1 hp
            rw [h2 p' ht (by simpa [structLetters] using hl)]
        · exact .inr ⟨by simpa [structLetters] using h1, by rw [e]; exact h2⟩
      · have e : skipLetters (n + 1) (c :: s ++ 0 :: r) = skipLetters n (s ++ 0 :: r) := by
          rw [skipLetters, List.cons_append, skipEq, if_neg hc]
          simp only [Option.bind_eq_bind, Option.bind_some]
          rw [show rd (c :: (s ++ 0 :: r)) 0 = some c from rfl]
          simp only [Option.bind_some]
          rw [if_neg (fun e => h0.1 e.symm)]
          rfl
        have hl : ∀ p, structLetters (c :: p) = structLetters p + 1 := by
          intro p
          simp [structLetters, hc]
        rcases ih s h0.2 with ⟨p, q, rfl, h1, h2, h3⟩ | ⟨h1, h2⟩
        · refine .inl ⟨c :: p, q, rfl, by rw [hl, h1], ?_, by rw [e]; exact h3⟩
          intro p' hp hl'
          cases p' with
          | nil => simp [structLetters] at hl'
          | cons d p' =>
            obtain ⟨rfl, ht⟩ := List.cons_prefix_cons.1 hp
            rw [hl] at hl'
            rw [h2 p' ht (by omega)]
        · exact .inr ⟨by rw [hl]; omega, by rw [e]; exact h2⟩

theorem structLetters_append (p q : List Wc) : structLetters (p ++ q) = structLetters p + structLetters q := by
  simp [structLetters]

theorem cells_split (s : List Wc) : ∃ r, s ++ [0] = s.takeWhile (· ≠ 0) ++ 0 :: r := by
  induction s with
  | nil => exact ⟨[], rfl⟩
  | cons c s ih =>
    by_cases hc : c = 0
    · subst hc; exact ⟨s ++ [0], by simp⟩
    · obtain ⟨r, hr⟩ := ih
      refine ⟨r, ?_⟩
      rw [List.takeWhile_cons, if_pos (by simpa using hc), List.cons_append, hr]; rfl

theorem nul_notMem_takeWhile (s : List Wc) : 0 ∉ s.takeWhile (· ≠ 0) := by
  intro h
  have := List.all_takeWhile (p := fun c : Wc => decide (c ≠ 0)) (l := s)
  rw [List.all_eq_true] at this
  simpa using this 0 h

theorem skip_border (x : MorAn) (s : List Wc) (hs : x.struct = some s) (n : Nat) :
    (skipLetters n (s ++ [0]) = some none ∧ ¬ BorderAfter x n ∧ ¬ NoBorderAfter x n) ∨
    ∃ t k, skipLetters n (s ++ [0]) = some (some t) ∧ rd t 0 = some k ∧ (k = 0x3D → BorderAfter x n) ∧ (k ≠ 0x3D → NoBorderAfter x n) := by
  obtain ⟨r, hr⟩ := cells_split s
  rw [hr]
  rcases skipLetters_spec r n _ (nul_notMem_takeWhile s) with ⟨p, q, e, h1, h2, h3⟩ | ⟨h1, h2⟩
  · right
    have hle : n ≤ structLetters (s.takeWhile (· ≠ 0)) := by rw [e, structLetters_append, h1]; omega
    cases q with
    | nil =>
      refine ⟨_, 0, h3, rfl, fun h => (by cases h), fun _ => ⟨s, hs, hle, ?_⟩⟩
      rintro ⟨s', p', q', hs', e', hl⟩
      rw [hs] at hs'; cases hs'
      rw [e', List.append_nil] at e
      have := h2 p' ⟨0x3D :: q', e⟩ hl
      rw [this] at e
      have := congrArg List.length e
      simp at this
    | cons k q =>
      refine ⟨_, k, h3, rfl, ?_, ?_⟩
      · rintro rfl
        exact ⟨s, p, q, hs, e, h1⟩
      · intro hk
        refine ⟨s, hs, hle, ?_⟩
        rintro ⟨s', p', q', hs', e', hl⟩
        rw [hs] at hs'; cases hs'
        rw [e] at e'
        rcases List.append_eq_append_iff.1 e' with ⟨t, h5, h6⟩ | ⟨t, h5, h6⟩
        · cases t with
          | nil => simp at h6; exact hk h6.1
          | cons d t =>
            simp only [List.cons_append, List.cons.injEq] at h6
            obtain ⟨rfl, _⟩ := h6
            rw [h5, structLetters_append, h1] at hl
            simp [structLetters, hk] at hl
        · have := h2 p' ⟨t, h5.symm⟩ hl
          rw [this] at h5
          have h7 : t = [] := by simpa using h5
          subst h7
          simp at h6
          exact hk h6.1.symm
  · left
    refine ⟨h2, ?_, ?_⟩
    · rintro ⟨s', p, q, hs', e, hl⟩
      rw [hs] at hs'; cases hs'
      rw [e, structLetters_append] at h1
      omega
    · rintro ⟨s', hs', hl, _⟩
      rw [hs] at hs'; cases hs'
      omega

theorem border_excl {x : MorAn} {n : Nat} (h : BorderAfter x n) : ¬ NoBorderAfter x n := fun ⟨_, _, _, h'⟩ => h' h

/-- `r` is the best of `best` and the verdicts of the analyses in `as` satisfying `P`. -/
def BestPart (v : List Wc) (P : MorAn → Prop) (as : List MorAn) (best r : SpellRes) : Prop :=
  (best ≠ .failed → r ≠ .failed ∧ r.toNat ≤ best.toNat) ∧ (r = best ∨ ∃ a ∈ as, P a ∧ Gives v a r) ∧
    ∀ a ∈ as, P a → ∀ r', Gives v a r' → r ≠ .failed ∧ r.toNat ≤ r'.toNat

theorem bestPart_skip {v : List Wc} {P : MorAn → Prop} {a : MorAn} {as : List MorAn} {best r : SpellRes} (hP : ¬ P a)
    (h : BestPart v P as best r) : BestPart v P (a :: as) best r := by
  obtain ⟨h1, h2, h3⟩ := h
  refine ⟨h1, ?_, ?_⟩
  · rcases h2 with e | ⟨x, hx, h⟩
    · exact .inl e
    · exact .inr ⟨x, by simp [hx], h⟩
  · intro x hx hPx
    rcases List.mem_cons.1 hx with rfl | hx
    · exact absurd hPx hP
    · exact h3 x hx hPx

theorem bestPart_cons {v : List Wc} {P : MorAn → Prop} {a : MorAn} {as : List MorAn} {best r w : SpellRes} (hP : P a)
    (hw : w ≠ .failed) (hg : ∀ r', Gives v a r' ↔ r' = w) (h : BestPart v P as (if improves best w then w else best) r) :
    BestPart v P (a :: as) best r := by
  obtain ⟨h1, h2, h3⟩ := h
  have hb : (if improves best w then w else best) ≠ .failed ∧ (if improves best w then w else best).toNat ≤ w.toNat ∧
      (best ≠ .failed → (if improves best w then w else best).toNat ≤ best.toNat) := by
    by_cases hi : improves best w = true
    · rw [if_pos hi]
      refine ⟨hw, Nat.le_refl _, fun hne => ?_⟩
      simp only [improves, Bool.or_eq_true, beq_iff_eq, decide_eq_true_eq] at hi
      rcases hi with hi | hi
      · exact absurd hi hne
      · omega
    · rw [if_neg hi]
      simp only [improves, Bool.or_eq_true, beq_iff_eq, decide_eq_true_eq, not_or, Nat.not_lt] at hi
      exact ⟨hi.1, hi.2, fun _ => Nat.le_refl _⟩
  obtain ⟨g1, g2⟩ := h1 hb.1
  refine ⟨fun hne => ⟨g1, Nat.le_trans g2 (hb.2.2 hne)⟩, ?_, ?_⟩
  · rcases h2 with e | ⟨x, hx, h⟩
    · by_cases hi : improves best w = true
      · rw [if_pos hi] at e
        exact .inr ⟨a, by simp, hP, (hg r).2 e⟩
      · rw [if_neg hi] at e; exact .inl e
    · exact .inr ⟨x, by simp [hx], h⟩
  · intro x hx hPx r' hr'
    rcases List.mem_cons.1 hx with rfl | hx
    · rw [(hg r').1 hr']
      exact ⟨g1, Nat.le_trans g2 hb.2.1⟩
    · exact h3 x hx hPx r' hr'

theorem borderLoop_spec (v : List Wc) (l : Nat) (as : List MorAn) (hs : HasStructures as) : ∀ st : SpellRes × SpellRes,
    ∃ w wo, borderLoop v l st as = some (w, wo) ∧ BestPart v (BorderAfter · l) as st.1 w ∧
      BestPart v (NoBorderAfter · l) as st.2 wo := by
  induction as with
  | nil =>
    intro st
    have hn : ∀ P b, BestPart v P [] b b := fun P b =>
      ⟨fun h => ⟨h, Nat.le_refl _⟩, .inl rfl, fun a ha => by simp at ha⟩
    exact ⟨st.1, st.2, rfl, hn _ _, hn _ _⟩
  | cons a as ih =>
    intro st
    have hs' : HasStructures as := fun x hx => hs x (by simp [hx])
    obtain ⟨s, hst⟩ := hs a (by simp)
    obtain ⟨r, hr0, ⟨c, hc, hm⟩, hg⟩ := gives_total v a ⟨s, hst⟩
    have hc' : c = s ++ [0] := by
      have : a.structCells = some (s ++ [0]) := by simp [MorAn.structCells, hst]
      rw [this] at hc; cases hc; rfl
    subst hc'
    rw [borderLoop, hc]
    simp only [Option.bind_eq_bind, Option.bind_some]
    rcases skip_border a s hst l with ⟨h1, h2, h3⟩ | ⟨t, k, h1, h2, h3, h4⟩
    · rw [h1]
      simp only [Option.bind_some]
      obtain ⟨w, wo, e, b1, b2⟩ := ih hs' st
      exact ⟨w, wo, e, bestPart_skip h2 b1, bestPart_skip h3 b2⟩
    · rw [h1]
      simp only [Option.bind_some]
      rw [hm, h2]
      simp only [Option.bind_some]
      by_cases hk : k = 0x3D
      · rw [if_pos hk]
        obtain ⟨w, wo, e, b1, b2⟩ := ih hs' (if improves st.1 r then (r, st.2) else st)
        refine ⟨w, wo, e, bestPart_cons (h3 hk) hr0 hg ?_, bestPart_skip (border_excl (h3 hk)) ?_⟩
        · by_cases hi : improves st.1 r = true
          · rw [if_pos hi] at b1 ⊢; exact b1
          · rw [if_neg hi] at b1 ⊢; exact b1
        · by_cases hi : improves st.1 r = true
          · rw [if_pos hi] at b2; exact b2
          · rw [if_neg hi] at b2; exact b2
      · rw [if_neg hk]
        obtain ⟨w, wo, e, b1, b2⟩ := ih hs' (if improves st.2 r then (st.1, r) else st)
        refine ⟨w, wo, e, bestPart_skip (fun h => border_excl h (h4 hk)) ?_, bestPart_cons (h4 hk) hr0 hg ?_⟩
        · by_cases hi : improves st.2 r = true
          · rw [if_pos hi] at b1; exact b1
          · rw [if_neg hi] at b1; exact b1
        · by_cases hi : improves st.2 r = true
          · rw [if_pos hi] at b2 ⊢; exact b2
          · rw [if_neg hi] at b2 ⊢; exact b2

theorem takeWhile_nul_self {v : List Wc} (h : 0 ∉ v) : v.takeWhile (· ≠ 0) = v := by
  induction v with
  | nil => rfl
  | cons c v ih =>
    simp only [List.mem_cons, not_or] at h
    rw [List.takeWhile_cons, if_pos (by simpa using fun e => h.1 e.symm), ih h.2]

theorem gives_ne_failed {v : List Wc} {x : MorAn} {r : SpellRes} (h : Gives v x r) : r ≠ .failed := by
  obtain ⟨s, hs, _⟩ := id h
  obtain ⟨r0, h0, _, hg⟩ := gives_total v x ⟨s, hs⟩
  rw [(hg r).1 h]; exact h0

/-- What the ambiguous compound rule does. -/
theorem ambiguousCompound_spec (an : Analyzer) (ha : AnalyzerOk an) (v : List Wc) (h0 : 0 ∉ v) (l : Nat) (res : SpellRes) :
    ∃ r, ambiguousCompound an v l res = some r ∧
      (r = res ∨ (r ≠ .failed ∧ (∃ x ∈ an v, BorderAfter x l ∧ Gives v x r) ∧
        (∀ x ∈ an v, BorderAfter x l → ∀ r', Gives v x r' → Better r r') ∧ ∃ x ∈ an v, NoBorderAfter x l)) ∧
      ((∃ x ∈ an v, BorderAfter x l) → (∃ x ∈ an v, NoBorderAfter x l) → r ≠ .failed) := by
  unfold ambiguousCompound
  simp only [Option.bind_eq_bind, Option.pure_def]
  rw [takeWhile_nul_self h0]
  by_cases he : (an v).isEmpty = true
  · rw [if_pos he]
    refine ⟨res, rfl, .inl rfl, ?_⟩
    rintro ⟨x, hx, _⟩
    rw [List.isEmpty_iff.1 he] at hx; simp at hx
  · rw [if_neg he]
    obtain ⟨w, wo, e, ⟨_, b2, b3⟩, ⟨_, c2, c3⟩⟩ := borderLoop_spec v l (an v) (ha v) (.failed, .failed)
    rw [e]
    simp only [Option.bind_some]
    have hw : ∀ x ∈ an v, BorderAfter x l → w ≠ .failed := by
      intro x hx hb
      obtain ⟨r', _, _, hg⟩ := gives_total v x (ha v x hx)
      exact (b3 x hx hb r' ((hg r').2 rfl)).1
    have hwo : ∀ x ∈ an v, NoBorderAfter x l → wo ≠ .failed := by
      intro x hx hb
      obtain ⟨r', _, _, hg⟩ := gives_total v x (ha v x hx)
      exact (c3 x hx hb r' ((hg r').2 rfl)).1
    by_cases hc : (w != .failed && wo != .failed && improves res w) = true
    · rw [if_pos hc]
      simp only [Bool.and_eq_true, bne_iff_ne, ne_eq] at hc
      obtain ⟨⟨hc1, hc2⟩, hc3⟩ := hc
      refine ⟨w, rfl, .inr ⟨hc1, ?_, ?_, ?_⟩, fun _ _ => hc1⟩
      · rcases b2 with h | h
        · exact absurd h hc1
        · exact h
      · intro x hx hb r' hr'
        exact (better_iff w r' hc1 (gives_ne_failed hr')).2 (b3 x hx hb r' hr').2
      · rcases c2 with h | ⟨x, hx, h, _⟩
        · exact absurd h hc2
        · exact ⟨x, hx, h⟩
    · rw [if_neg hc]
      refine ⟨res, rfl, .inl rfl, ?_⟩
      rintro ⟨x, hx, hb⟩ ⟨y, hy, hn⟩ hres
      apply hc
      simp [hw x hx hb, hwo y hy hn, hres, improves]

/-! ## C66 -/

/-- Verdict of the Finnish speller. -/
def FinnishVerdict (hyph : List Wc → UB (Option (List Wc))) (extra : Bool) (an : Analyzer) (v : List Wc) (r : SpellRes) : Prop :=
  spellTweaked hyph extra an v = some r

theorem trailingAcceptable_iff (as : List MorAn) :
    trailingAcceptable as = true ↔ ∃ x ∈ as, x.vapaaJalkiosa = some (lit "true") := by
  simp [trailingAcceptable]

theorem hyphen_aux (hyph : List Wc → UB (Option (List Wc))) (hh : HyphOk hyph) (extra : Bool) (an : Analyzer) (ha : AnalyzerOk an)
    (w : List Wc) (h0 : 0 ∉ w) (hshy : 0xAD ∉ w) :
    ∃ r, FinnishVerdict hyph extra an w r ∧
      (r ≠ .failed → BestOf w (an w) r ∨ (3 < w.length ∧ HyphenReason (FinnishVerdict hyph extra an) extra an w r)) ∧
      (an w ≠ [] → r ≠ .failed) ∧
      (BestOf w (an w) .ok → r = .ok) ∧
      (3 < w.length → ∀ r', HyphenReason (FinnishVerdict hyph extra an) extra an w r' → r ≠ .failed) := by
  have htot := tweaks_total_aux hyph hh extra an ha
  unfold FinnishVerdict
  have hT : spellTweaked hyph extra an w = spellNoShy hyph extra an w := by rw [spellTweaked_eq, if_neg hshy]
  rw [hT, spellNoShy_eq, noShyBody]
  obtain ⟨res, hres, hf, hbest⟩ := C25_best an w (ha w)
  rw [hres]
  simp only [Option.bind_some]
  have hresBest : res ≠ .failed → BestOf w (an w) res := fun h => hbest (fun e => h (hf.2 e))
  have hresNe : an w ≠ [] → res ≠ .failed := fun h e => h (hf.1 e)
  have hokres : BestOf w (an w) .ok → res = .ok := by
    intro h
    obtain ⟨x, hx, hg⟩ := h.1
    have hne : an w ≠ [] := List.ne_nil_of_mem hx
    exact bestOf_unique w (an w) _ _ (hbest hne) h (ha w)
  by_cases hc : res = .ok ∨ w.length ≤ 3
  · rw [if_pos hc]
    refine ⟨res, rfl, fun h => .inl (hresBest h), hresNe, hokres, fun hlen r' _ => ?_⟩
    rcases hc with rfl | hc
    · simp
    · omega
  rw [if_neg hc]
  have hnok : res ≠ .ok := fun e => hc (.inl e)
  have hlen : 3 < w.length := by
    rcases Nat.lt_or_ge 3 w.length with h | h
    · exact h
    · exact absurd (.inr h) hc
  have hnotok : BestOf w (an w) .ok → False := fun h => hnok (hokres h)
  cases hfi : firstInnerHyphen w with
  | none =>
    simp only
    refine ⟨res, rfl, fun h => .inl (hresBest h), hresNe, hokres, fun _ r' hr => ?_⟩
    have hno : ∀ a b, ¬ FirstInner w a b := by
      intro a b h
      rw [firstInnerHyphen_of h] at hfi; cases hfi
    cases hr with
    | extraHyphen a b h => exact absurd h (hno a b)
    | samePair a b _ h => exact absurd h (hno a b)
    | freePart a b _ h =>
      exfalso
      obtain ⟨rfl, h1, h2, _⟩ := h
      have ha1 := List.length_pos_iff.2 h1
      have hb1 := List.length_pos_iff.2 h2
      simp only [firstInnerHyphen, Option.map_eq_none_iff, List.findIdx?_eq_none_iff] at hfi
      have := hfi 0x2D (by
        rw [List.mem_iff_getElem]
        refine ⟨a.length - 1, by simp; omega, ?_⟩
        rw [List.getElem_take, List.getElem_drop]
        have e : 1 + (a.length - 1) = a.length := by omega
        simp [e])
      simp at this
    | ambiguous a b _ h => exact absurd h (hno a b)
  | some l =>
    obtain ⟨a, b, hfirst, rfl⟩ := firstInnerHyphen_some hfi
    have hw := hfirst.1
    have huniq : ∀ a' b', FirstInner w a' b' → a' = a ∧ b' = b := by
      intro a' b' h'
      have e1 := firstInnerHyphen_of h'
      rw [hfi] at e1
      have e2 := Option.some.inj e1
      have e3 := h'.1
      rw [hw] at e3
      have := List.append_inj e3 e2
      exact ⟨this.1.symm, (List.cons.inj this.2).2.symm⟩
    simp only
    have hbuf : withoutHyphen w a.length = a ++ b := by rw [hw] at h0 ⊢; exact withoutHyphen_eq h0
    have hb0 : 0 ∉ a ++ b := by
      intro h; apply h0; rw [hw]
      rcases List.mem_append.1 h with h | h
      · exact List.mem_append.2 (.inl h)
      · exact List.mem_append.2 (.inr (List.mem_cons_of_mem _ h))
    have hbshy : 0xAD ∉ a ++ b := by
      intro h; apply hshy; rw [hw]
      rcases List.mem_append.1 h with h | h
      · exact List.mem_append.2 (.inl h)
      · exact List.mem_append.2 (.inr (List.mem_cons_of_mem _ h))
    rw [hbuf]
    obtain ⟨b0, bs, hbs⟩ : ∃ b0 bs, b = b0 :: bs := by
      cases b with
      | nil => exact absurd rfl hfirst.2.2.1
      | cons x xs => exact ⟨x, xs, rfl⟩
    have hrd : rd ((a ++ b) ++ [0]) a.length = some b0 := by rw [hbs]; simp [rd]
    rw [hrd]
    simp only [Option.bind_some]
    have hTN : spellTweaked hyph extra an (a ++ b) = spellNoShy hyph extra an (a ++ b) := by
      rw [spellTweaked_eq, if_neg hbshy]
    obtain ⟨e0, he0⟩ := (htot _ (a ++ b) (Nat.le_refl _)).1
    -- the extra hyphen rule
    obtain ⟨early, hearly, hearly1, hearly2⟩ : ∃ early,
        (if (extra && decide (a.length > 1) && b0 != 0x2D) = true then spellNoShy hyph extra an (a ++ b) else some .failed) = some early ∧
        (early = .ok → extra = true ∧ 2 ≤ a.length ∧ b.head? ≠ some 0x2D ∧ spellTweaked hyph extra an (a ++ b) = some .ok) ∧
        (extra = true → 2 ≤ a.length → b.head? ≠ some 0x2D → spellTweaked hyph extra an (a ++ b) = some .ok → early = .ok) := by
      by_cases hx : (extra && decide (a.length > 1) && b0 != 0x2D) = true
      · rw [if_pos hx]
        simp only [Bool.and_eq_true, decide_eq_true_eq, bne_iff_ne] at hx
        refine ⟨e0, he0, ?_, ?_⟩
        · rintro rfl
          exact ⟨hx.1.1, hx.1.2, by rw [hbs]; simpa using hx.2, by rw [hTN]; exact he0⟩
        · intro _ _ _ h
          rw [hTN, he0] at h; exact Option.some.inj h
      · rw [if_neg hx]
        refine ⟨.failed, rfl, fun h => (by cases h), ?_⟩
        intro h1 h2 h3 _
        exfalso; apply hx
        rw [hbs] at h3
        simp only [List.head?_cons, ne_eq, Option.some.injEq] at h3
        simp [h1, h3]; omega
    rw [hearly]
    simp only [Option.bind_some]
    by_cases hek : early = .ok
    · rw [if_pos hek]
      obtain ⟨q1, q2, q3, q4⟩ := hearly1 hek
      exact ⟨.ok, rfl, fun _ => .inr ⟨hlen, .extraHyphen a b hfirst q1 q2 q3 q4⟩, fun _ => by simp, fun _ => rfl, fun _ _ _ => by simp⟩
    rw [if_neg hek]
    -- the pair rule
    obtain ⟨vc, hvc⟩ := sameVC_total w a.length
    have hvc' : vc = true ↔ SamePair a b := by
      rw [← sameVC_iff (by rw [← hw]; exact h0), ← hw, hvc]; simp
    rw [hvc]
    simp only [Option.bind_some]
    obtain ⟨p0, hp0, hp1, hp2⟩ := C25_best an (a ++ b) (ha _)
    obtain ⟨spres, hsp, hsp1, hsp2⟩ : ∃ spres, (if vc = true then adapterSpell an (a ++ b) else some .failed) = some spres ∧
        (spres ≠ .failed → SamePair a b ∧ BestOf (a ++ b) (an (a ++ b)) spres) ∧
        (∀ r', SamePair a b → BestOf (a ++ b) (an (a ++ b)) r' → spres ≠ .failed) := by
      by_cases hv : vc = true
      · rw [if_pos hv]
        refine ⟨p0, hp0, fun h => ⟨hvc'.1 hv, hp2 (fun e => h (hp1.2 e))⟩, ?_⟩
        rintro r' _ ⟨⟨x, hx, _⟩, _⟩ e
        rw [hp1.1 e] at hx; simp at hx
      · rw [if_neg hv]
        exact ⟨.failed, rfl, fun h => absurd rfl h, fun r' h _ => absurd (hvc'.2 h) hv⟩
    rw [hsp]
    simp only [Option.bind_some]
    by_cases hsi : spres ≠ .failed ∧ improves res spres = true
    · rw [if_pos hsi]
      obtain ⟨q1, q2⟩ := hsp1 hsi.1
      exact ⟨spres, rfl, fun _ => .inr ⟨hlen, .samePair a b spres hfirst q1 q2⟩, fun _ => hsi.1, fun h => (hnotok h).elim,
        fun _ _ _ => hsi.1⟩
    rw [if_neg hsi]
    have hpairres : spres ≠ .failed → res ≠ .failed := by
      rintro h rfl
      exact hsi ⟨h, by simp [improves]⟩
    obtain ⟨amb, hamb, hamb1, hamb2⟩ := ambiguousCompound_spec an ha (a ++ b) hb0 a.length res
    obtain ⟨o, ho⟩ := lastInnerHyphen_total w (w.length - 2) (by omega)
    -- outcome of the last rule
    have hlast : (∀ a' b' r', LastInner w a' b' → spellTweaked hyph extra an a' = some r' → r' ≠ .failed →
        (∃ x ∈ an b', x.vapaaJalkiosa = some (lit "true")) → False) →
        ∃ r, (ambiguousCompound an (a ++ b) a.length res = some r) ∧
          (r ≠ .failed → BestOf w (an w) r ∨
            (3 < w.length ∧ HyphenReason (fun v r => spellTweaked hyph extra an v = some r) extra an w r)) ∧
          (an w ≠ [] → r ≠ .failed) ∧ (BestOf w (an w) .ok → r = .ok) ∧
          (3 < w.length → ∀ r', HyphenReason (fun v r => spellTweaked hyph extra an v = some r) extra an w r' → r ≠ .failed) := by
      intro hnofree
      have hne : res ≠ .failed → amb ≠ .failed := by
        intro h
        rcases hamb1 with e | ⟨e, _⟩
        · rw [e]; exact h
        · exact e
      refine ⟨amb, hamb, fun h => ?_, fun h => hne (hresNe h), fun h => (hnotok h).elim, fun _ r' hr => ?_⟩
      · rcases hamb1 with e | ⟨_, e1, e2, e3⟩
        · rw [e] at h ⊢; exact .inl (hresBest h)
        · exact .inr ⟨hlen, .ambiguous a b amb hfirst e1 e2 e3⟩
      · cases hr with
        | extraHyphen a' b' h h1 h2 h3 h4 =>
          obtain ⟨rfl, rfl⟩ := huniq a' b' h
          exact absurd (hearly2 h1 h2 h3 h4) hek
        | samePair a' b' _ h h1 h2 =>
          obtain ⟨rfl, rfl⟩ := huniq a' b' h
          exact hne (hpairres (hsp2 r' h1 h2))
        | freePart a' b' _ h h1 h2 h3 => exact (hnofree a' b' r' h h1 h2 h3).elim
        | ambiguous a' b' _ h h1 h2 h3 =>
          obtain ⟨rfl, rfl⟩ := huniq a' b' h
          obtain ⟨x, hx, hb, _⟩ := h1
          exact hamb2 ⟨x, hx, hb⟩ h3
    rw [ho]
    cases o with
    | none =>
      refine hlast ?_
      intro a' b' r' h
      rw [loop_of_lastInner h] at ho; cases ho
    | some i =>
      simp only
      have hli := lastInner_of_loop ho
      have hi := lastInnerHyphen_le ho
      obtain ⟨lead, hlead⟩ := (htot _ (w.take i) (Nat.le_refl _)).2
      rw [hlead]
      simp only [Option.bind_some]
      by_cases hcond : lead ≠ .failed ∧ trailingAcceptable (an (w.drop (i + 1))) = true
      · rw [if_pos hcond]
        exact ⟨lead, rfl, fun _ => .inr ⟨hlen, .freePart _ _ lead hli hlead hcond.1 ((trailingAcceptable_iff _).1 hcond.2)⟩,
          fun _ => hcond.1, fun h => (hnotok h).elim, fun _ _ _ => hcond.1⟩
      · rw [if_neg hcond]
        refine hlast ?_
        intro a' b' r' h h1 h2 h3
        have hlen' : a'.length = i := by
          have := loop_of_lastInner h
          rw [ho] at this
          exact (Option.some.inj (Option.some.inj this)).symm
        have hab := h.1
        have ea : w.take i = a' := by rw [hab, ← hlen', List.take_left]
        have eb : w.drop (i + 1) = b' := by
          rw [hab, ← hlen', List.drop_append, List.drop_eq_nil_of_le (by omega)]; simp
        apply hcond
        rw [ea, h1] at hlead
        rw [← Option.some.inj hlead, eb]
        exact ⟨h2, (trailingAcceptable_iff _).2 h3⟩

/-- C66: a word without soft hyphens is accepted by the Finnish speller (possibly with a remark about letter case) exactly if the
dictionary knows it or it has more than three characters and one of the four reasons for hyphenated words applies. -/
theorem C66_accepted (hyph : List Wc → UB (Option (List Wc))) (hh : HyphOk hyph) (extra : Bool) (an : Analyzer) (ha : AnalyzerOk an)
    (w : List Wc) (h0 : 0 ∉ w) (hshy : 0xAD ∉ w) :
    (∃ r, r ≠ .failed ∧ FinnishVerdict hyph extra an w r) ↔
      an w ≠ [] ∨ (3 < w.length ∧ ∃ r, HyphenReason (FinnishVerdict hyph extra an) extra an w r) := by
  obtain ⟨r, h1, h2, h3, h4, h5⟩ := hyphen_aux hyph hh extra an ha w h0 hshy
  constructor
  · rintro ⟨r', hr', hv⟩
    have e : r = r' := Option.some.inj (h1.symm.trans hv)
    subst e
    rcases h2 hr' with ⟨⟨x, hx, _⟩, _⟩ | ⟨hl, h⟩
    · exact .inl (List.ne_nil_of_mem hx)
    · exact .inr ⟨hl, r, h⟩
  · rintro (h | ⟨hl, r', h⟩)
    · exact ⟨r, h3 h, h1⟩
    · exact ⟨r, h5 hl r' h, h1⟩

/-- C66: the verdict is the best one of the dictionary's analyses of the word or the verdict given by one of the reasons; a word that
is correct according to the dictionary stays correct. -/
theorem C66_verdict (hyph : List Wc → UB (Option (List Wc))) (hh : HyphOk hyph) (extra : Bool) (an : Analyzer) (ha : AnalyzerOk an)
    (w : List Wc) (h0 : 0 ∉ w) (hshy : 0xAD ∉ w) (r : SpellRes) (hr : r ≠ .failed) (hv : FinnishVerdict hyph extra an w r) :
    (BestOf w (an w) r ∨ (3 < w.length ∧ HyphenReason (FinnishVerdict hyph extra an) extra an w r)) ∧
    (BestOf w (an w) .ok → r = .ok) := by
  obtain ⟨r', h1, h2, h3, h4, h5⟩ := hyphen_aux hyph hh extra an ha w h0 hshy
  have e : r' = r := Option.some.inj (h1.symm.trans hv)
  subst e
  exact ⟨h2 hr, h4⟩

/-! ### Concrete cases -/

/-- A dictionary knowing only `syysilta`: as one word and as a compound with a border after three letters. -/
def anAmbiguous : Analyzer := fun w =>
  if w = lit "syysilta" then [{ struct := some (lit "=pppppppp") }, { struct := some (lit "=ppp=ppppp") }] else []

theorem anAmbiguous_ok : AnalyzerOk anAmbiguous := by
  intro w a h
  unfold anAmbiguous at h
  split at h
  · simp only [List.mem_cons, List.not_mem_nil, or_false] at h
    rcases h with rfl | rfl <;> exact ⟨_, rfl⟩
  · simp at h

def hyphNone : List Wc → UB (Option (List Wc)) := fun w => some (some (w.map fun _ => 0x20))

theorem hyphNone_ok : HyphOk hyphNone := fun w => ⟨_, rfl, by rintro p ⟨⟩; simp⟩

/-- `syy-silta` is accepted because `syysilta` is ambiguous. -/
example : ∃ r, r ≠ .failed ∧ FinnishVerdict hyphNone false anAmbiguous (lit "syy-silta") r := by
  refine (C66_accepted hyphNone hyphNone_ok false anAmbiguous anAmbiguous_ok _ (by decide) (by decide)).2
    (.inr ⟨by decide, .ok, ?_⟩)
  refine .ambiguous (lit "syy") (lit "silta") .ok ⟨by decide, by decide, by decide, by decide⟩ ?_ ?_ ?_
  · exact ⟨{ struct := some (lit "=ppp=ppppp") }, by decide, ⟨_, lit "=ppp", lit "ppppp", rfl, by decide, by decide⟩, _, rfl, by decide⟩
  · intro x hx hb r' hg; exact trivial
  · refine ⟨{ struct := some (lit "=pppppppp") }, by decide, _, rfl, by decide, ?_⟩
    rcases skip_border { struct := some (lit "=pppppppp") } (lit "=pppppppp") rfl 3 with ⟨h, _⟩ | ⟨t, k, h1, h2, _, h4⟩
    · exact absurd h (by decide)
    · have e : skipLetters 3 (lit "=pppppppp" ++ [0]) = some (some (lit "ppppp" ++ [0])) := by decide
      have h3 : (lit "syy").length = 3 := by decide
      rw [e] at h1
      cases h1
      have hk : k ≠ 0x3D := by
        have : rd (lit "ppppp" ++ [0]) 0 = some 0x70 := by decide
        rw [this] at h2; cases h2; decide
      obtain ⟨_, _, _, hnb⟩ := h4 hk
      rw [h3]; exact hnb

/-- `syys-ilta` is not: there is no border after four letters (and the hyphen does not separate equal pairs). -/
example : ¬ ∃ r, r ≠ .failed ∧ FinnishVerdict hyphNone false anAmbiguous (lit "syys-ilta") r := by
  rw [C66_accepted hyphNone hyphNone_ok false anAmbiguous anAmbiguous_ok _ (by decide) (by decide)]
  have hfi : ∀ a b, FirstInner (lit "syys-ilta") a b → a = lit "syys" ∧ b = lit "ilta" := by
    intro a b h
    have e1 := firstInnerHyphen_of h
    rw [show firstInnerHyphen (lit "syys-ilta") = some (lit "syys").length from by decide] at e1
    have e2 := Option.some.inj e1
    have e3 : lit "syys" ++ 0x2D :: lit "ilta" = a ++ 0x2D :: b := h.1
    have := List.append_inj e3 e2
    exact ⟨this.1.symm, (List.cons.inj this.2).2.symm⟩
  rintro (h | ⟨_, r, h⟩)
  · exact h (by decide)
  · cases h with
    | extraHyphen a b _ h => cases h
    | samePair a b _ h h1 =>
      obtain ⟨rfl, rfl⟩ := hfi a b h
      rw [← sameVC_iff (by decide)] at h1
      exact absurd h1 (by decide)
    | freePart a b _ h _ _ h3 =>
      have e := loop_of_lastInner h
      rw [show lastInnerHyphen (lit "syys-ilta") ((lit "syys-ilta").length - 2) = some (some 4) from by decide] at e
      have hl := Option.some.inj (Option.some.inj e)
      have e3 : lit "syys" ++ 0x2D :: lit "ilta" = a ++ 0x2D :: b := h.1
      have := List.append_inj e3 (by rw [← hl]; decide)
      have hb := (List.cons.inj this.2).2
      subst hb
      obtain ⟨x, hx, _⟩ := h3
      rw [show anAmbiguous (lit "ilta") = [] from by decide] at hx
      simp at hx
    | ambiguous a b _ h h1 =>
      obtain ⟨rfl, rfl⟩ := hfi a b h
      obtain ⟨x, hx, hb, _⟩ := h1
      have hx' : x = { struct := some (lit "=pppppppp") } ∨ x = { struct := some (lit "=ppp=ppppp") } := by
        rw [show anAmbiguous (lit "syys" ++ lit "ilta") =
          [{ struct := some (lit "=pppppppp") }, { struct := some (lit "=ppp=ppppp") }] from by decide] at hx
        simpa using hx
      have key : ∀ s : List Wc, ∀ t : List Wc, skipLetters 4 (s ++ [0]) = some (some (0x70 :: t)) →
          ¬ BorderAfter { struct := some s } 4 := by
        intro s t e
        rcases skip_border { struct := some s } s rfl 4 with ⟨h, _⟩ | ⟨t', k, h1, h2, _, h4⟩
        · rw [e] at h; cases h
        · rw [e] at h1; cases h1
          have : k ≠ 0x3D := by cases h2; decide
          obtain ⟨_, _, _, hnb⟩ := h4 this
          exact hnb
      rcases hx' with rfl | rfl
      · exact key (lit "=pppppppp") (lit "ppp" ++ [0]) (by decide) hb
      · exact key (lit "=ppp=ppppp") (lit "ppp" ++ [0]) (by decide) hb

end Verif.Props
