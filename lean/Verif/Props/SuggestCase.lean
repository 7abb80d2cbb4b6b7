import Verif.Props.Suggest
/-!
# C68: how a suggestion is presented: full stop, capital letters, typographic characters

Everything here holds for any suggestion generator whatsoever.
-/
set_option linter.unusedSimpArgs false
set_option linter.unusedVariables false

namespace Verif.Props
open Verif Verif.Spec

/-! ### Specification -/

/-- The word that is corrected: the normalised word `N`, without its final full stop if full stops are ignored.
`dot` says that one was removed. -/
def SearchWord (ignoreDot : Bool) (N n : List Wc) (dot : Bool) : Prop :=
  (ignoreDot = true ∧ dot = true ∧ N = n ++ [0x2E]) ∨
  (dot = false ∧ n = N ∧ (ignoreDot = true → N.getLast? ≠ some 0x2E))

/-- The full stop taken from the word comes back, unless the suggestion ends in one already. -/
def DotRestored (dot : Bool) (x y : List Wc) : Prop :=
  (dot = true ∧ x.getLast? ≠ some 0x2E → y = x ++ [0x2E]) ∧
  (dot = false ∨ x.getLast? = some 0x2E → y = x)

/-- The word begins with a capital letter but has small letters too. -/
def Capitalised (n : List Wc) : Prop := HasLower n ∧ ∃ c, n.head? = some c ∧ isUpper c = true

/-- The word is written in capital letters only. -/
def Shouted (n : List Wc) : Prop := HasUpper n ∧ ¬ HasLower n

/-- The word with its first character in upper case and the rest as it was. -/
def capFirst : List Wc → List Wc
  | [] => []
  | c :: cs => upper c :: cs

/-- The letters of `r` are those of the suggestion `y` with the capital letters the word `n` asks for: all of them if
the word is in capital letters (and such words are acceptable), the first one if the word is capitalised and the
suggestion has no capital letter of its own, and otherwise none but its own. -/
def CaseLike (acceptAllUpper : Bool) (n y r : List Wc) : Prop :=
  (acceptAllUpper = true ∧ Shouted n → r = y.map upper) ∧
  (Capitalised n ∧ ¬ HasUpper y → r = capFirst y) ∧
  (Capitalised n ∧ HasUpper y → r = y) ∧
  (¬ Capitalised n ∧ ¬ (acceptAllUpper = true ∧ Shouted n) → r = y)

/-- `o` is `r` with the characters of the word `w` put back in its first `a` and its last `b` positions, where
the word (of which `len` characters count) and `r` have the same characters up to typographic variants; `a` is as large as
possible, and so is `b` on what remains. -/
def PutBack (w : List Wc) (len : Nat) (r o : List Wc) : Prop :=
  ∃ a b, a + b ≤ min len r.length ∧ o.length = r.length ∧
    (∀ i, i < a → o[i]? = w[i]? ∧ ∃ p q, w[i]? = some p ∧ r[i]? = some q ∧ Variant p q) ∧
    (∀ j, 1 ≤ j → j ≤ b → o[r.length - j]? = w[len - j]? ∧
      ∃ p q, w[len - j]? = some p ∧ r[r.length - j]? = some q ∧ Variant p q) ∧
    (∀ i, a ≤ i → i + b < r.length → o[i]? = r[i]?) ∧
    (a < min len r.length → ∃ p q, w[a]? = some p ∧ r[a]? = some q ∧ ¬ Variant p q) ∧
    (a + b < min len r.length →
      ∃ p q, w[len - (b + 1)]? = some p ∧ r[r.length - (b + 1)]? = some q ∧ ¬ Variant p q)

/-- The five best of the suggestions `l`: in order of priority value, those found first before others. -/
def BestFive (l : List (List Wc × Nat)) (best : List (List Wc)) : Prop :=
  ∃ s : List (List Wc × Nat), s.Perm l ∧ s.Pairwise (fun a b => a.2 ≤ b.2) ∧
    (∀ p, s.filter (fun y => y.2 = p) = l.filter fun y => y.2 = p) ∧ best = (s.map (·.1)).take 5

/-- The string `o` given to the user for the suggestion `x`. -/
def Presents (word n : List Wc) (dot acceptAllUpper : Bool) (x o : List Wc) : Prop :=
  ∃ y r, DotRestored dot x y ∧ CaseLike acceptAllUpper n y r ∧ PutBack (word ++ [0]) n.length r o

/-! ### Auxiliary facts -/

theorem mapUB_forall2 {α β : Type} {f : α → UB β} {l : List α} {out : List β} (h : mapUB f l = some out) :
    List.Forall₂ (fun x y => f x = some y) l out := by
  induction l generalizing out with
  | nil => simp only [mapUB, Option.pure_def, Option.some.injEq] at h; subst h; exact .nil
  | cons x xs ih =>
    simp only [mapUB, Option.bind_eq_bind, Option.bind_eq_some_iff, Option.pure_def, Option.some.injEq] at h
    obtain ⟨y, h1, ys, h2, rfl⟩ := h
    exact .cons h1 (ih h2)

theorem copySuggestion_dot {dot : Bool} {x y : List Wc} (h : copySuggestion dot x = some y) : DotRestored dot x y := by
  unfold copySuggestion at h
  cases dot with
  | false =>
    simp only [Bool.false_eq_true, if_false, Option.pure_def, Option.some.injEq] at h
    subst h
    exact ⟨fun h => by simp at h, fun _ => rfl⟩
  | true =>
    simp only [if_true] at h
    split at h
    · cases h
    · next hl =>
      rw [rd_eq_some (by omega)] at h
      simp only [Option.bind_eq_bind, Option.bind_some, Option.pure_def] at h
      have hg : x.getLast? = some (x[x.length - 1]'(by omega)) := by
        rw [List.getLast?_eq_getElem?, List.getElem?_eq_getElem (by omega)]
      unfold DotRestored
      rw [hg]
      split at h
      · next hc => cases h; exact ⟨fun _ => rfl, fun h => by simp [hc] at h⟩
      · next hc => cases h; exact ⟨fun h => absurd h.2 (by simpa using hc), fun _ => rfl⟩

theorem isUpper_false_lower {c : Wc} (h : isUpper c = false) : lower c = c := by
  unfold isUpper at h
  simp only [Bool.or_eq_false_iff, decide_eq_false_iff_not, ne_eq, not_not] at h
  exact h.1.symm

theorem isLower_false_upper {c : Wc} (h : isLower c = false) : upper c = c := by
  unfold isLower at h
  simp only [decide_eq_false_iff_not, ne_eq, not_not] at h
  exact h.symm

theorem noUpper_tail_lower {l : List Wc} (h : ¬ HasUpper l) : l.map lower = l := by
  induction l with
  | nil => rfl
  | cons c cs ih =>
    have h1 : isUpper c = false := by
      cases hc : isUpper c with
      | false => rfl
      | true => exact absurd ⟨c, by simp, hc⟩ h
    have h2 : ¬ HasUpper cs := fun ⟨d, hd, hu⟩ => h ⟨d, by simp [hd], hu⟩
    rw [List.map_cons, isUpper_false_lower h1, ih h2]

theorem setCase_firstUpper_of_noUpper {y : List Wc} (h : ¬ HasUpper y) : setCase .firstUpper y = capFirst y := by
  cases y with
  | nil => rfl
  | cons c cs =>
    have h2 : ¬ HasUpper cs := fun ⟨d, hd, hu⟩ => h ⟨d, by simp [hd], hu⟩
    simp only [setCase, capFirst, noUpper_tail_lower h2]

theorem capFirst_noLower {y : List Wc} (h : ¬ HasLower y) : capFirst y = y := by
  cases y with
  | nil => rfl
  | cons c cs =>
    have : isLower c = false := by
      cases hc : isLower c with
      | false => rfl
      | true => exact absurd ⟨c, by simp, hc⟩ h
    simp only [capFirst, isLower_false_upper this]

theorem setCase_allUpper (y : List Wc) : setCase .allUpper y = y.map upper := by
  cases y <;> rfl

theorem firstUp_iff (n : List Wc) :
    (caseType n == .firstUpper || (caseType n == .complex && (n.head?.map isUpper).getD false)) = true ↔ Capitalised n := by
  cases n with
  | nil => simp [caseType, Capitalised]
  | cons c cs =>
    have e1 := C11_caseType (c :: cs) .firstUpper
    have e2 := C11_caseType (c :: cs) .complex
    simp only [CaseSpec, List.tail_cons, List.head?_cons, Option.some.injEq, exists_eq_left'] at e1 e2
    simp only [Bool.or_eq_true, beq_iff_eq, Bool.and_eq_true, e1, e2, Capitalised, List.head?_cons, Option.map_some,
      Option.getD_some, Option.some.injEq, exists_eq_left']
    by_cases h : HasUpper cs
    · constructor
      · rintro (h' | h')
        · exact ⟨h'.1, h'.2.2⟩
        · exact ⟨h'.1.1, h'.2⟩
      · rintro ⟨h1, h2⟩; exact Or.inr ⟨⟨h1, h⟩, h2⟩
    · constructor
      · rintro (h' | h')
        · exact ⟨h'.1, h'.2.2⟩
        · exact ⟨h'.1.1, h'.2⟩
      · rintro ⟨h1, h2⟩; exact Or.inl ⟨h1, h, h2⟩

theorem recase_caseLike (aup : Bool) (n y : List Wc) : CaseLike aup n y (recase aup n y) := by
  have hf := firstUp_iff n
  have hs : (caseType n == .allUpper) = true ↔ Shouted n := by
    rw [beq_iff_eq, C11_caseType]; rfl
  have hy : (caseType y == .allLower) = true ↔ HasLower y ∧ ¬ HasUpper y := by
    rw [beq_iff_eq, C11_caseType]; rfl
  unfold recase
  simp only
  generalize (caseType n == .firstUpper || (caseType n == .complex && (n.head?.map isUpper).getD false)) = f at hf
  generalize (caseType n == .allUpper) = g at hs
  generalize (caseType y == .allLower) = k at hy
  have hx : ¬ (Capitalised n ∧ Shouted n) := fun ⟨h1, h2⟩ => h2.2 h1.1
  unfold CaseLike
  cases f with
  | true =>
    have hc : Capitalised n := hf.1 rfl
    have hns : ¬ Shouted n := fun h => hx ⟨hc, h⟩
    have hg : g = false := by
      cases g with
      | false => rfl
      | true => exact absurd (hs.1 rfl) hns
    subst hg
    simp only [Bool.true_and, Bool.false_and, Bool.false_eq_true, if_false]
    refine ⟨fun h => absurd h.2 hns, ?_, ?_, fun h => absurd hc h.1⟩
    · rintro ⟨_, hu⟩
      by_cases hl : HasLower y
      · rw [if_pos (hy.2 ⟨hl, hu⟩), setCase_firstUpper_of_noUpper hu]
      · rw [if_neg (fun h => hl (hy.1 h).1), capFirst_noLower hl]
    · rintro ⟨_, hu⟩
      rw [if_neg (fun h => (hy.1 h).2 hu)]
  | false =>
    have hc : ¬ Capitalised n := fun h => by simpa using hf.2 h
    simp only [Bool.false_and, Bool.false_eq_true, if_false]
    refine ⟨?_, fun h => absurd h.1 hc, fun h => absurd h.1 hc, ?_⟩
    · rintro ⟨rfl, h⟩
      rw [hs.2 h]
      simp only [Bool.and_self, if_true, setCase_allUpper]
    · rintro ⟨_, h⟩
      by_cases ha : (g && aup) = true
      · rw [Bool.and_eq_true] at ha
        exact absurd ⟨ha.2, hs.1 ha.1⟩ h
      · rw [if_neg ha]

theorem reformatStep_some {o m c : Wc} (h : reformatStep o m = some c) : c = o ∧ Variant o m := by
  unfold reformatStep at h
  split at h
  · next e => cases h; exact ⟨e.symm, Or.inl e⟩
  · split at h
    · next hc => cases h; exact ⟨rfl, Or.inr (by simpa using hc)⟩
    · cases h

theorem reformatStep_none {o m : Wc} (h : reformatStep o m = none) : ¬ Variant o m := by
  unfold reformatStep at h
  split at h
  · cases h
  · next e =>
    split at h
    · cases h
    · next hc =>
      rintro (h' | h')
      · exact e h'
      · exact hc (by simpa using h')

theorem reformatLead_exact {orig : List Wc} {k i : Nat} {md : List Wc} {j : Nat} {md' : List Wc}
    (h : reformatLead orig k i md = some (j, md')) :
    i ≤ j ∧ j ≤ i + k ∧ md'.length = md.length ∧
    (∀ t, i ≤ t → t < j → md'[t]? = orig[t]? ∧ ∃ p q, orig[t]? = some p ∧ md[t]? = some q ∧ Variant p q) ∧
    (∀ t, t < i ∨ j ≤ t → md'[t]? = md[t]?) ∧
    (j < i + k → ∃ p q, orig[j]? = some p ∧ md[j]? = some q ∧ ¬ Variant p q) := by
  induction k generalizing i md with
  | zero =>
    simp only [reformatLead, Option.pure_def, Option.some.injEq, Prod.mk.injEq] at h
    obtain ⟨rfl, rfl⟩ := h
    exact ⟨by omega, by omega, rfl, fun t h1 h2 => by omega, fun _ _ => rfl, fun h => by omega⟩
  | succ k ih =>
    unfold reformatLead at h
    simp only [Option.bind_eq_bind, Option.bind_eq_some_iff] at h
    obtain ⟨o, ho, m, hm, h⟩ := h
    have ho' : orig[i]? = some o := ho
    have hm' : md[i]? = some m := hm
    cases hst : reformatStep o m with
    | none =>
      rw [hst] at h
      simp only [Option.pure_def, Option.some.injEq, Prod.mk.injEq] at h
      obtain ⟨rfl, rfl⟩ := h
      exact ⟨by omega, by omega, rfl, fun t h1 h2 => by omega, fun _ _ => rfl,
        fun _ => ⟨o, m, ho', hm', reformatStep_none hst⟩⟩
    | some c =>
      rw [hst] at h
      simp only [Option.bind_eq_some_iff] at h
      obtain ⟨md1, hw, h⟩ := h
      obtain ⟨hc, hv⟩ := reformatStep_some hst
      subst hc
      have hil : i < md.length := (List.getElem?_eq_some_iff.1 hm').1
      rw [wr_eq_some _ hil] at hw
      cases hw
      obtain ⟨g1, g2, g3, g4, g5, g6⟩ := ih h
      refine ⟨by omega, by omega, by simpa using g3, ?_, ?_, ?_⟩
      · intro t h1 h2
        by_cases ht : t = i
        · subst ht
          refine ⟨?_, c, m, ho', hm', hv⟩
          rw [g5 t (Or.inl (by omega)), ho']
          simp [hil]
        · obtain ⟨e1, p, q, e2, e3, e4⟩ := g4 t (by omega) h2
          rw [List.getElem?_set_ne (by omega)] at e3
          exact ⟨e1, p, q, e2, e3, e4⟩
      · intro t ht
        rw [g5 t (by omega), List.getElem?_set_ne (by omega)]
      · intro hj
        obtain ⟨p, q, e1, e2, e3⟩ := g6 (by omega)
        rw [List.getElem?_set_ne (by omega)] at e2
        exact ⟨p, q, e1, e2, e3⟩

theorem reformatTrail_exact {orig : List Wc} {len k i : Nat} {md md' : List Wc} (h1 : 1 ≤ i)
    (hk : i + k ≤ len + 1) (hm : i + k ≤ md.length + 1)
    (h : reformatTrail orig len k i md = some md') :
    ∃ b, i ≤ b + 1 ∧ b + 1 ≤ i + k ∧ md'.length = md.length ∧
    (∀ t, i ≤ t → t ≤ b → md'[md.length - t]? = orig[len - t]? ∧
      ∃ p q, orig[len - t]? = some p ∧ md[md.length - t]? = some q ∧ Variant p q) ∧
    (∀ t, t + b < md.length ∨ md.length < t + i → md'[t]? = md[t]?) ∧
    (b + 1 < i + k → ∃ p q, orig[len - (b + 1)]? = some p ∧ md[md.length - (b + 1)]? = some q ∧ ¬ Variant p q) := by
  induction k generalizing i md with
  | zero =>
    simp only [reformatTrail, Option.pure_def, Option.some.injEq] at h
    subst h
    exact ⟨i - 1, by omega, by omega, rfl, fun t h1 h2 => by omega, fun _ _ => rfl, fun h => by omega⟩
  | succ k ih =>
    unfold reformatTrail at h
    simp only [Option.bind_eq_bind, Option.bind_eq_some_iff] at h
    obtain ⟨o, ho, m, hm1, h⟩ := h
    have ho' : orig[len - i]? = some o := ho
    have hm' : md[md.length - i]? = some m := hm1
    cases hst : reformatStep o m with
    | none =>
      rw [hst] at h
      simp only [Option.pure_def, Option.some.injEq] at h
      subst h
      refine ⟨i - 1, by omega, by omega, rfl, fun t h1 h2 => by omega, fun _ _ => rfl, fun _ => ?_⟩
      rw [show i - 1 + 1 = i by omega]
      exact ⟨o, m, ho', hm', reformatStep_none hst⟩
    | some c =>
      rw [hst] at h
      simp only [Option.bind_eq_some_iff] at h
      obtain ⟨md1, hw, h⟩ := h
      obtain ⟨hc, hv⟩ := reformatStep_some hst
      subst hc
      have hil : md.length - i < md.length := (List.getElem?_eq_some_iff.1 hm').1
      rw [wr_eq_some _ hil] at hw
      cases hw
      obtain ⟨b, g1, g2, g3, g4, g5, g6⟩ := ih (by omega) (by omega) (by simp; omega) h
      simp only [List.length_set] at g3 g4 g5 g6
      refine ⟨b, by omega, by omega, g3, ?_, ?_, ?_⟩
      · intro t h1 h2
        by_cases ht : t = i
        · subst ht
          refine ⟨?_, c, m, ho', hm', hv⟩
          rw [g5 _ (Or.inr (by omega)), ho']
          simp [hil]
        · obtain ⟨e1, p, q, e2, e3, e4⟩ := g4 t (by omega) h2
          rw [List.getElem?_set_ne (by omega)] at e3
          exact ⟨e1, p, q, e2, e3, e4⟩
      · intro t ht
        rw [g5 t (by omega), List.getElem?_set_ne (by omega)]
      · intro hj
        obtain ⟨p, q, e1, e2, e3⟩ := g6 (by omega)
        rw [List.getElem?_set_ne (by omega)] at e2
        exact ⟨p, q, e1, e2, e3⟩

theorem csetReformat_putBack {w : List Wc} {len : Nat} {r o : List Wc} (h : csetReformat w len r = some o) :
    PutBack w len r o := by
  unfold csetReformat at h
  by_cases hc : len < 1 ∨ r.length < 1
  · rw [if_pos hc] at h
    simp only [Option.pure_def, Option.some.injEq] at h
    subst h
    exact ⟨0, 0, by omega, rfl, fun i hi => by omega, fun j h1 h2 => by omega, fun _ _ _ => rfl,
      fun h => by omega, fun h => by omega⟩
  rw [if_neg hc] at h
  have hmin : (if len < r.length then len else r.length) = min len r.length := by split <;> omega
  rw [hmin] at h
  simp only [Option.bind_eq_bind, Option.bind_eq_some_iff] at h
  obtain ⟨⟨a, r1⟩, h1, h2⟩ := h
  obtain ⟨l1, l2, l3, l4, l5, l6⟩ := reformatLead_exact h1
  simp only at h2
  obtain ⟨b, t1, t2, t3, t4, t5, t6⟩ := reformatTrail_exact (by omega) (by omega) (by omega) h2
  rw [l3] at t3 t4 t5 t6
  refine ⟨a, b, by omega, t3, ?_, ?_, ?_, ?_, ?_⟩
  · intro i hi
    obtain ⟨e1, p, q, e2, e3, e4⟩ := l4 i (by omega) hi
    rw [t5 i (Or.inl (by omega))]
    exact ⟨e1, p, q, e2, e3, e4⟩
  · intro j j1 j2
    obtain ⟨e1, p, q, e2, e3, e4⟩ := t4 j j1 j2
    rw [l5 _ (Or.inr (by omega))] at e3
    exact ⟨e1, p, q, e2, e3, e4⟩
  · intro i i1 i2
    rw [t5 i (Or.inl i2), l5 i (Or.inr i1)]
  · intro ha
    exact l6 (by omega)
  · intro hab
    obtain ⟨p, q, e1, e2, e3⟩ := t6 (by omega)
    rw [l5 _ (Or.inr (by omega))] at e2
    exact ⟨p, q, e1, e2, e3⟩

/-! ### C68 -/

theorem forall2_comp {α β γ : Type} {R : α → β → Prop} {S : β → γ → Prop} {T : α → γ → Prop}
    (hT : ∀ a b c, R a b → S b c → T a c) {l : List α} {m : List β} {n : List γ}
    (h1 : List.Forall₂ R l m) (h2 : List.Forall₂ S m n) : List.Forall₂ T l n := by
  induction h1 generalizing n with
  | nil => cases h2; exact .nil
  | cons r _ ih => cases h2 with | cons s h2 => exact .cons (hT _ _ _ r s) (ih h2)

theorem forall2_map_left' {α β γ : Type} {f : α → β} {S : β → γ → Prop} {l : List α} {n : List γ}
    (h : List.Forall₂ S (l.map f) n) : List.Forall₂ (fun a c => S (f a) c) l n := by
  induction l generalizing n with
  | nil => cases h; exact .nil
  | cons a as ih => cases h with | cons s h2 => exact .cons s (ih h2)

/-- The result of a call: nothing for words of one character, for words that are too long and, with full stops ignored, for words of two
characters; otherwise the presentation of the five best suggestions. -/
theorem presentation_cases (gen : Gen) (ignoreDot aup : Bool) (word : List Wc) (hw : WordOk word) (out : List (List Wc))
    (h : suggestUcs4 gen ignoreDot aup word = some out) :
    (out = [] ∧ (word.length ≤ 1 ∨ 255 < word.length ∨ (ignoreDot = true ∧ (normSpec word).length = 2))) ∨
    ∃ n dot s best, SearchWord ignoreDot (normSpec word) n dot ∧ gen { word := n, maxSug := 15 } = some s ∧
      BestFive s.sugg best ∧ List.Forall₂ (Presents word n dot aup) best out := by
  unfold suggestUcs4 at h
  split at h
  · next hl => simp only [Option.pure_def, Option.some.injEq] at h; exact Or.inl ⟨h.symm, by simp only [maxWordChars] at hl; omega⟩
  rw [normalise_eq] at h
  have h0 : 0 ∉ normSpec word := zero_notMem (wordOk_normSpec hw)
  simp only [Option.bind_eq_bind, Option.bind_some, Option.bind_eq_some_iff] at h
  obtain ⟨cut, hcut, h⟩ := h
  rw [cstr_eq _ h0] at hcut
  cases cut with
  | none =>
    simp only [Option.pure_def, Option.some.injEq] at h
    refine Or.inl ⟨h.symm, Or.inr (Or.inr ?_)⟩
    unfold cutSuggestDot at hcut
    cases ignoreDot with
    | false => simp at hcut
    | true =>
      simp only [if_true] at hcut
      split at hcut
      · next hl => exact ⟨rfl, hl⟩
      · split at hcut
        · cases hcut
        · next hp =>
          rw [rd_eq_some (by omega)] at hcut
          simp only [Option.bind_eq_bind, Option.bind_some, Option.pure_def] at hcut
          split at hcut <;> cases hcut
  | some nd =>
    obtain ⟨n, dot⟩ := nd
    have hsw : SearchWord ignoreDot (normSpec word) n dot := by
      unfold cutSuggestDot at hcut
      unfold SearchWord
      cases ignoreDot with
      | false =>
        simp only [Bool.false_eq_true, if_false, Option.pure_def, Option.some.injEq, Prod.mk.injEq] at hcut
        obtain ⟨rfl, rfl⟩ := hcut
        exact Or.inr ⟨rfl, rfl, fun h => by simp at h⟩
      | true =>
        simp only [if_true] at hcut
        split at hcut
        · simp at hcut
        · split at hcut
          · cases hcut
          · next hp =>
            rw [rd_eq_some (by omega)] at hcut
            simp only [Option.bind_eq_bind, Option.bind_some, Option.pure_def] at hcut
            have hnn : normSpec word ≠ [] := by intro e; rw [e] at hp; simp at hp
            have hg : (normSpec word).getLast? = some ((normSpec word)[(normSpec word).length - 1]'(by omega)) := by
              rw [List.getLast?_eq_getElem?, List.getElem?_eq_getElem (by omega)]
            split at hcut
            · next hd =>
              simp only [Option.some.injEq, Prod.mk.injEq] at hcut
              obtain ⟨rfl, rfl⟩ := hcut
              refine Or.inl ⟨rfl, rfl, ?_⟩
              rw [hd] at hg
              have := List.dropLast_concat_getLast hnn
              rw [List.getLast?_eq_some_getLast hnn, Option.some.injEq] at hg
              rw [hg] at this
              exact this.symm
            · next hd =>
              simp only [Option.some.injEq, Prod.mk.injEq] at hcut
              obtain ⟨rfl, rfl⟩ := hcut
              refine Or.inr ⟨rfl, rfl, fun _ => ?_⟩
              rw [hg]; simpa using hd
    simp only [Option.bind_eq_some_iff] at h
    obtain ⟨s, hs, h⟩ := h
    refine Or.inr ?_
    split at h
    · next hz =>
      simp only [Option.pure_def, Option.some.injEq] at h
      have hnil := List.length_eq_zero_iff.1 hz
      exact ⟨n, dot, s, [], hsw, hs, ⟨[], by rw [hnil], .nil, by simp [hnil], rfl⟩, by rw [← h]; exact .nil⟩
    · simp only [Option.bind_eq_some_iff] at h
      obtain ⟨o1, h1, h2⟩ := h
      obtain ⟨c1, c2, c3⟩ := C30_sort s.sugg
      refine ⟨n, dot, s, _, hsw, hs, ⟨sortSuggestions s.sugg, c1, c2, c3, rfl⟩, ?_⟩
      refine forall2_comp ?_ (mapUB_forall2 h1) (forall2_map_left' (mapUB_forall2 h2))
      intro x y o hx ho
      exact ⟨y, _, copySuggestion_dot hx, recase_caseLike aup n y, csetReformat_putBack ho⟩

/-- C68: the list given to the user is, element by element and in order, the presentation of the five best suggestions
which the generator finds for the normalised word (without its full stop where full stops are ignored). -/
theorem C68_presentation (gen : Gen) (ignoreDot aup : Bool) (word : List Wc) (hw : WordOk word) (out : List (List Wc))
    (h : suggestUcs4 gen ignoreDot aup word = some out) (hne : out ≠ []) :
    ∃ n dot s best, SearchWord ignoreDot (normSpec word) n dot ∧ gen { word := n, maxSug := 15 } = some s ∧
      BestFive s.sugg best ∧ List.Forall₂ (Presents word n dot aup) best out := by
  rcases presentation_cases gen ignoreDot aup word hw out h with ⟨e, _⟩ | h
  · exact absurd e hne
  · exact h

/-! #### What this means for the user -/

theorem putBack_variants {w : List Wc} {len : Nat} {r o : List Wc} (h : PutBack w len r o) (i : Nat) (q : Wc)
    (hq : r[i]? = some q) : ∃ p, o[i]? = some p ∧ Variant p q := by
  obtain ⟨a, b, h1, h2, h3, h4, h5, _⟩ := h
  have hi : i < r.length := (List.getElem?_eq_some_iff.1 hq).1
  by_cases c1 : i < a
  · obtain ⟨e1, p, q', e2, e3, e4⟩ := h3 i c1
    rw [hq] at e3; cases e3
    exact ⟨p, by rw [e1, e2], e4⟩
  · by_cases c2 : i + b < r.length
    · exact ⟨q, by rw [h5 i (by omega) c2, hq], Or.inl rfl⟩
    · obtain ⟨e1, p, q', e2, e3, e4⟩ := h4 (r.length - i) (by omega) (by omega)
      rw [show r.length - (r.length - i) = i by omega] at e1 e3
      rw [hq] at e3; cases e3
      exact ⟨p, by rw [e1, e2], e4⟩

theorem putBack_length {w : List Wc} {len : Nat} {r o : List Wc} (h : PutBack w len r o) : o.length = r.length := by
  obtain ⟨a, b, _, h2, _⟩ := h; exact h2

theorem variant_case {p q : Wc} (h : Variant p q) : (isLower p = isLower q ∧ isUpper p = isUpper q) ∧ (p = 0x2E ↔ q = 0x2E) := by
  have t : ∀ e ∈ conv1to1, (isLower e.1 = isLower e.2 ∧ isUpper e.1 = isUpper e.2) ∧ e.1 ≠ 0x2E ∧ e.2 ≠ 0x2E := by
    decide +kernel
  rcases h with rfl | h
  · exact ⟨⟨rfl, rfl⟩, Iff.rfl⟩
  · obtain ⟨h1, h2, h3⟩ := t _ h
    exact ⟨h1, fun h => absurd h h2, fun h => absurd h h3⟩

theorem forall2_mem_right {α β : Type} {R : α → β → Prop} {l : List α} {m : List β} (h : List.Forall₂ R l m) {b : β}
    (hb : b ∈ m) : ∃ a ∈ l, R a b := by
  induction h with
  | nil => simp at hb
  | cons r _ ih =>
    rcases List.mem_cons.1 hb with rfl | hb
    · exact ⟨_, by simp, r⟩
    · obtain ⟨a, ha, h⟩ := ih hb
      exact ⟨a, by simp [ha], h⟩

theorem searchWord_case {ignoreDot : Bool} {N n : List Wc} {dot : Bool} (h : SearchWord ignoreDot N n dot) :
    (HasUpper N ↔ HasUpper n) ∧ (HasLower N ↔ HasLower n) := by
  rcases h with ⟨_, _, rfl⟩ | ⟨_, rfl, _⟩
  · have h1 : isUpper 0x2E = false := by decide +kernel
    have h2 : isLower 0x2E = false := by decide +kernel
    constructor
    · constructor
      · rintro ⟨c, hc, hu⟩
        rcases List.mem_append.1 hc with hc | hc
        · exact ⟨c, hc, hu⟩
        · rw [List.mem_singleton] at hc; subst hc; rw [h1] at hu; cases hu
      · rintro ⟨c, hc, hu⟩; exact ⟨c, by simp [hc], hu⟩
    · constructor
      · rintro ⟨c, hc, hu⟩
        rcases List.mem_append.1 hc with hc | hc
        · exact ⟨c, hc, hu⟩
        · rw [List.mem_singleton] at hc; subst hc; rw [h2] at hu; cases hu
      · rintro ⟨c, hc, hu⟩; exact ⟨c, by simp [hc], hu⟩
  · exact ⟨Iff.rfl, Iff.rfl⟩

/-- C68: if the word is in capital letters and such words are acceptable, no suggestion contains a small letter. -/
theorem C68_all_upper (gen : Gen) (ignoreDot : Bool) (word : List Wc) (hw : WordOk word) (out : List (List Wc))
    (h : suggestUcs4 gen ignoreDot true word = some out) (hs : Shouted (normSpec word)) :
    ∀ o ∈ out, ¬ HasLower o := by
  intro o ho
  obtain ⟨n, dot, s, best, h1, _, _, h4⟩ :=
    C68_presentation gen ignoreDot true word hw out h (by rintro rfl; simp at ho)
  obtain ⟨x, _, y, r, _, hc, hp⟩ := forall2_mem_right h4 ho
  obtain ⟨u1, u2⟩ := searchWord_case h1
  have hr := hc.1 ⟨rfl, u1.1 hs.1, fun h => hs.2 (u2.2 h)⟩
  rintro ⟨c, hcm, hl⟩
  obtain ⟨i, hi, rfl⟩ := List.getElem_of_mem hcm
  have hlen := putBack_length hp
  obtain ⟨p, e1, e2⟩ := putBack_variants hp i (r[i]'(by omega)) (List.getElem?_eq_getElem _)
  rw [List.getElem?_eq_getElem hi] at e1; cases e1
  rw [(variant_case e2).1.1] at hl
  have hm : r[i]'(by omega) ∈ setCase .allUpper y := by rw [setCase_allUpper, ← hr]; exact List.getElem_mem _
  rw [(C11_setCase y).2.2.1 _ hm] at hl
  cases hl

/-- C68: if the word is capitalised, no suggestion begins with a small letter unless the generator itself found it with
capital letters elsewhere. -/
theorem C68_capitalised (gen : Gen) (ignoreDot aup : Bool) (word : List Wc) (hw : WordOk word) (out : List (List Wc))
    (h : suggestUcs4 gen ignoreDot aup word = some out) (hs : Capitalised (normSpec word)) :
    ∀ o ∈ out, (∀ c, o.head? = some c → isLower c = false) ∨ HasUpper o.tail := by
  intro o ho
  obtain ⟨n, dot, s, best, h1, _, _, h4⟩ :=
    C68_presentation gen ignoreDot aup word hw out h (by rintro rfl; simp at ho)
  obtain ⟨x, _, y, r, _, hc, hp⟩ := forall2_mem_right h4 ho
  obtain ⟨u1, u2⟩ := searchWord_case h1
  have hcap : Capitalised n := by
    refine ⟨u2.1 hs.1, ?_⟩
    obtain ⟨c, hc1, hc2⟩ := hs.2
    rcases h1 with ⟨_, _, e⟩ | ⟨_, rfl, _⟩
    · rw [e] at hc1
      cases n with
      | nil =>
        simp only [List.nil_append, List.head?_cons, Option.some.injEq] at hc1
        subst hc1
        exact absurd hc2 (by decide +kernel)
      | cons d ds => exact ⟨c, by simpa using hc1, hc2⟩
    · exact ⟨c, hc1, hc2⟩
  have hlen := putBack_length hp
  have first : ∀ q, r[0]? = some q → isLower q = false → ∀ c, o.head? = some c → isLower c = false := by
    intro q hq hl c hcc
    obtain ⟨p, e1, e2⟩ := putBack_variants hp 0 q hq
    rw [List.head?_eq_getElem?, e1] at hcc; cases hcc
    rw [(variant_case e2).1.1]; exact hl
  by_cases hu : HasUpper y
  · have hr := hc.2.2.1 ⟨hcap, hu⟩
    subst hr
    obtain ⟨c, hcm, hcu⟩ := hu
    obtain ⟨i, hi, rfl⟩ := List.getElem_of_mem hcm
    cases i with
    | zero =>
      left
      refine first _ (List.getElem?_eq_getElem hi) ?_
      have h5 := (C09_case_laws r[0]).2.2.2.2.1
      cases hl : isLower r[0] with
      | false => rfl
      | true => exact absurd ⟨hcu, hl⟩ h5
    | succ i =>
      right
      obtain ⟨p, e1, e2⟩ := putBack_variants hp (i + 1) _ (List.getElem?_eq_getElem hi)
      refine ⟨p, ?_, by rw [(variant_case e2).1.2]; exact hcu⟩
      rw [← List.getElem?_tail] at e1
      exact List.mem_of_getElem? e1
  · have hr := hc.2.1 ⟨hcap, hu⟩
    left
    cases hy : y with
    | nil =>
      rw [hy] at hr
      have : o = [] := List.length_eq_zero_iff.1 (by rw [hlen, hr]; rfl)
      rw [this]; simp
    | cons d ds =>
      rw [hy] at hr
      refine first (upper d) (by rw [hr]; rfl) ?_
      exact (C11_setCase [d]).2.2.1 (upper d) (by simp [setCase])

/-- C68: with full stops ignored, the suggestions for a word that ends in a full stop end in one. -/
theorem C68_dot (gen : Gen) (aup : Bool) (word : List Wc) (hw : WordOk word) (out : List (List Wc))
    (h : suggestUcs4 gen true aup word = some out) (hd : (normSpec word).getLast? = some 0x2E) :
    ∀ o ∈ out, o.getLast? = some 0x2E := by
  intro o ho
  obtain ⟨n, dot, s, best, h1, _, _, h4⟩ :=
    C68_presentation gen true aup word hw out h (by rintro rfl; simp at ho)
  obtain ⟨x, _, y, r, hdot, hc, hp⟩ := forall2_mem_right h4 ho
  have hdt : dot = true := by
    rcases h1 with ⟨_, h, _⟩ | ⟨_, _, h⟩
    · exact h
    · exact absurd hd (h rfl)
  have hy : y.getLast? = some 0x2E := by
    by_cases hx : x.getLast? = some 0x2E
    · rw [hdot.2 (Or.inr hx)]; exact hx
    · rw [hdot.1 ⟨hdt, hx⟩]; simp
  have hud : upper 0x2E = 0x2E := by decide +kernel
  have hr : r.getLast? = some 0x2E := by
    by_cases c1 : aup = true ∧ Shouted n
    · rw [hc.1 c1, List.getLast?_map, hy, Option.map_some, hud]
    · by_cases c2 : Capitalised n
      · by_cases c3 : HasUpper y
        · rw [hc.2.2.1 ⟨c2, c3⟩]; exact hy
        · rw [hc.2.1 ⟨c2, c3⟩]
          cases y with
          | nil => simp at hy
          | cons d ds =>
            cases ds with
            | nil => simp only [List.getLast?_singleton, Option.some.injEq] at hy; subst hy; simp [capFirst, hud]
            | cons e es => simpa [capFirst] using hy
      · rw [hc.2.2.2 ⟨c2, c1⟩]; exact hy
  have hlen := putBack_length hp
  rw [List.getLast?_eq_getElem?] at hr ⊢
  obtain ⟨p, e1, e2⟩ := putBack_variants hp _ _ hr
  rw [hlen, e1]
  rw [(variant_case e2).2.2 rfl]

/-- C68: the typographic characters of the word are kept as far as the suggestion (with its final case) agrees with the
word: if the first `k` characters agree up to typographic variants, those of the word are used. -/
theorem C68_prefix_kept {word : List Wc} {len : Nat} {r o : List Wc} (h : PutBack (word ++ [0]) len r o) (k : Nat)
    (h1 : k ≤ len) (h2 : k ≤ r.length) (h3 : k ≤ word.length)
    (hv : ∀ i p q, i < k → word[i]? = some p → r[i]? = some q → Variant p q) : o.take k = word.take k := by
  obtain ⟨a, b, g1, g2, g3, g4, g5, g6, _⟩ := h
  have hk : k ≤ a := by
    by_cases hka : k ≤ a
    · exact hka
    · obtain ⟨p, q, e1, e2, e3⟩ := g6 (by omega)
      rw [List.getElem?_append_left (by omega)] at e1
      exact absurd (hv a p q (by omega) e1 e2) e3
  apply List.ext_getElem?
  intro i
  rw [List.getElem?_take, List.getElem?_take]
  split
  · next hi =>
    rw [(g3 i (by omega)).1, List.getElem?_append_left (by omega)]
  · rfl

/-- A generator that always proposes the same words, for the examples. -/
def fixedGen (l : List (List Wc × Nat)) : Gen := fun s => some { s with sugg := l }

/-- Non-vacuity: capital letters, the full stop and a typographic hyphen. -/
example :
    suggestUcs4 (fixedGen [(lit "koira", 2), (lit "eno", 1)]) true true (lit "KORA.") = some [lit "ENO.", lit "KOIRA."] ∧
    Shouted (normSpec (lit "KORA.")) ∧ WordOk (lit "KORA.") ∧
    suggestUcs4 (fixedGen [(lit "koira", 2), (lit "eNo", 1)]) true true (lit "Kora.") = some [lit "eNo.", lit "Koira."] ∧
    Capitalised (normSpec (lit "Kora.")) ∧ (normSpec (lit "Kora.")).getLast? = some 0x2E ∧
    suggestUcs4 (fixedGen [(lit "maa-ala", 1)]) true true [0x6D, 0x61, 0x61, 0x2010, 0x61, 0x61, 0x61] =
      some [[0x6D, 0x61, 0x61, 0x2010, 0x61, 0x6C, 0x61]] := by
  refine ⟨by decide +kernel, ⟨?_, ?_⟩, by unfold WordOk; decide, by decide +kernel, ⟨?_, ?_⟩, by decide +kernel,
    by decide +kernel⟩
  · unfold HasUpper; decide +kernel
  · unfold HasLower; decide +kernel
  · unfold HasLower; decide +kernel
  · exact ⟨0x4B, by decide +kernel, by decide +kernel⟩

/-- The typographic characters at the end of the word are put back too, but not if the word ends in a full stop that is
ignored: the last characters are then compared in the wrong positions, and the same suggestion comes with a plain
hyphen. -/
theorem C68_violation_dot :
    suggestUcs4 (fixedGen [(lit "maa-ala", 1)]) true true [0x6E, 0x61, 0x61, 0x2010, 0x61, 0x6C, 0x61] =
      some [[0x6D, 0x61, 0x61, 0x2010, 0x61, 0x6C, 0x61]] ∧
    suggestUcs4 (fixedGen [(lit "maa-ala", 1)]) true true [0x6E, 0x61, 0x61, 0x2010, 0x61, 0x6C, 0x61, 0x2E] =
      some [[0x6D, 0x61, 0x61, 0x2D, 0x61, 0x6C, 0x61, 0x2E]] := by
  constructor <;> decide +kernel

end Verif.Props
