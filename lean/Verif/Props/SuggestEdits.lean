import Verif.Props.Suggest
/-!
# C32: which edits the suggestion generators try
-/
set_option linter.unusedSimpArgs false
set_option linter.unusedVariables false

namespace Verif.Props
open Verif Verif.Spec

/-- The generator `g` submits the candidates `cs`, in this order, to the dictionary when working on the word `w`; and
every recognised candidate becomes a suggestion (with the capitalisation of the dictionary), nothing else does, as long
as the search is not aborted. -/
def Submits (an : Analyzer) (w : List Wc) (g : Gen) (cs : List (List Wc)) : Prop :=
  ∀ s, s.word = w → s.sugg.length ≤ s.maxSug → s.maxSug ≤ 30 →
    ∃ s', g s = some s' ∧ feed an cs s = some s' ∧
      (∀ x ∈ s'.sugg, x ∈ s.sugg ∨ ∃ c ∈ cs, an c ≠ [] ∧ x.1.map lower = c.map lower) ∧
      (s'.shouldAbort = false →
        s.sugg <+: s'.sugg ∧ ∀ c ∈ cs, an c ≠ [] → ∃ x ∈ s'.sugg, x.1.map lower = c.map lower)

theorem feed_sound (an : Analyzer) (h : AnalyzerOk an) (cs : List (List Wc)) (h0 : ∀ c ∈ cs, 0 ∉ c) (s : SugStatus)
    (hcap : s.sugg.length ≤ s.maxSug) (hs : s.maxSug ≤ 30) :
    ∃ s', feed an cs s = some s' ∧
      ∀ x ∈ s'.sugg, x ∈ s.sugg ∨ ∃ c ∈ cs, an c ≠ [] ∧ x.1.map lower = c.map lower := by
  induction cs generalizing s with
  | nil => exact ⟨s, rfl, fun x hx => Or.inl hx⟩
  | cons c cs ih =>
    cases hs0 : s.shouldAbort with
    | true => exact ⟨s, feed_abort _ _ _ hs0, fun x hx => Or.inl hx⟩
    | false =>
      have h0' : ∀ c ∈ cs, 0 ∉ c := fun x hx => h0 x (by simp [hx])
      obtain ⟨n1, n2⟩ := not_abort hs0
      rw [feed_cons]
      rcases suggest_spec an h s c (h0 c (by simp)) hcap hs hs0 with ⟨en, e⟩ | ⟨x, p, k, e, en, k1, k2, e1, e2⟩
      · rw [e]
        obtain ⟨s', g1, g2⟩ := ih h0' s.charge hcap hs
        refine ⟨s', g1, ?_⟩
        intro y hy
        rcases g2 y hy with g | ⟨d, hd, g⟩
        · exact Or.inl g
        · exact Or.inr ⟨d, by simp [hd], g⟩
      · rw [e]
        obtain ⟨s', g1, g2⟩ := ih h0' { s with cost := s.cost + k, sugg := s.sugg ++ [(x, p)] } (by simp; omega) hs
        refine ⟨s', g1, ?_⟩
        intro y hy
        rcases g2 y hy with g | ⟨d, hd, g⟩
        · simp only [List.mem_append, List.mem_singleton] at g
          rcases g with g | g
          · exact Or.inl g
          · subst g; exact Or.inr ⟨c, by simp, en, e1⟩
        · exact Or.inr ⟨d, by simp [hd], g⟩

theorem submits_of_feed {an : Analyzer} (h : AnalyzerOk an) {w : List Wc} {g : Gen} {cs : List (List Wc)}
    (he : ∀ s, s.word = w → g s = feed an cs s) (h0 : ∀ c ∈ cs, 0 ∉ c) : Submits an w g cs := by
  intro s hw hcap hs
  obtain ⟨s', e1, e2⟩ := feed_sound an h cs h0 s hcap hs
  refine ⟨s', (he s hw).trans e1, e1, e2, fun hab => ?_⟩
  obtain ⟨g1, g2, _⟩ := feed_complete an h cs h0 s s' hcap hs e1 hab
  exact ⟨g1, g2⟩

/-- C32: the generators and the edits they try, for every word (without NUL). -/
theorem C32_submits (an : Analyzer) (h : AnalyzerOk an) (junk : Nat → Wc) (w : List Wc) (h0 : 0 ∉ w) :
    Submits an w (genCaseChange an) [w] ∧
    Submits an w (genSoftHyphens an junk) (softHyphenRemoval w) ∧
    Submits an w (genDeletion an junk) (deletions w) ∧
    Submits an w (genDeleteTwo an junk) (pairDeletions w) ∧
    Submits an w (genSwap an junk) (swaps (swapDistance w.length) w) ∧
    (2 ≤ w.length → Submits an w (genInsertSpecial an junk) (hyphenInsertions w ++ duplications w)) ∧
    (∀ chars, 0 ∉ chars → w ≠ [] → Submits an w (genInsertion an junk chars) (insertions chars w)) ∧
    (∀ t, TableOk t → Submits an w (genReplacement an junk t) (replacements t w)) ∧
    (∀ t, TableOk t → w ≠ [] → Submits an w (genReplaceTwo an t) (doubleReplacements t w)) ∧
    (∀ t n, TableOk t → Submits an w (genMultiReplacement an junk t n) (multiReplacements t (n - 1) 0 w)) ∧
    (vowelCount w ≤ 32 → Submits an w (genVowelChange an junk) (vowelChanges w)) := by
  refine ⟨?_, ?_, ?_, ?_, ?_, ?_, ?_, ?_, ?_, ?_, ?_⟩
  · exact submits_of_feed h (fun s hs => by rw [← hs]; exact genCaseChange_feed an s) (by simpa using h0)
  · exact submits_of_feed h (fun s hs => by rw [← hs]; exact genSoftHyphens_feed an junk s) (nz_soft h0)
  · exact submits_of_feed h (fun s hs => by rw [← hs] at h0 ⊢; exact genDeletion_feed an junk s h0) (nz_deletions h0)
  · exact submits_of_feed h (fun s hs => by rw [← hs] at h0 ⊢; exact genDeleteTwo_feed an junk s h0)
      (nz_pairDeletions h0)
  · exact submits_of_feed h (fun s hs => by rw [← hs] at h0 ⊢; exact genSwap_feed an junk s h0) (nz_swaps h0 _)
  · intro h2
    exact submits_of_feed h (fun s hs => by rw [← hs] at h0 h2 ⊢; exact genInsertSpecial_feed an junk s h0 h2)
      (nz_special h0)
  · intro chars hc hne
    exact submits_of_feed h (fun s hs => by rw [← hs] at h0 hne ⊢; exact genInsertion_feed an junk chars s h0 hne)
      (nz_insertions h0 hc)
  · intro t ht
    exact submits_of_feed h (fun s hs => by rw [← hs] at h0 ⊢; exact genReplacement_feed an junk t s h0 ht)
      (nz_replacements h0 ht.2)
  · intro t ht hne
    exact submits_of_feed h (fun s hs => by rw [← hs] at hne ⊢; exact genReplaceTwo_feed an t s ht.1 hne)
      (nz_double h0 ht.2)
  · intro t n ht
    exact submits_of_feed h (fun s hs => by rw [← hs] at h0 ⊢; exact genMultiReplacement_feed an junk t n s h0 ht)
      (nz_multi ht.2 _ _ h0)
  · intro hv
    exact submits_of_feed h (fun s hs => by rw [← hs] at h0 hv ⊢; exact genVowelChange_feed an junk s h0 hv)
      (nz_vowel h0)

/-- Non-vacuity of the hypotheses, with all tables of the library. -/
example : AnalyzerOk demoAn ∧ 0 ∉ lit "kora" ∧ 2 ≤ (lit "kora").length ∧ vowelCount (lit "kora") ≤ 32 ∧
    TableOk replacements1 ∧ TableOk replacementsOcr ∧ 0 ∉ insertChars2 :=
  ⟨demoAn_ok, by decide, by decide, by decide, tables_ok.1, tables_ok.2.2.2.2.2.1, tables_ok.2.2.2.2.2.2.2⟩

/-! ### What the candidate lists contain -/

/-- Every deletion candidate is the word without one character, and the removal of any character is tried, up to the
case of letters. -/
theorem C32_deletions (w : List Wc) :
    (∀ c ∈ deletions w, ∃ i, i < w.length ∧ c = w.eraseIdx i) ∧
    ∀ i, i < w.length → ∃ c ∈ deletions w, c.map lower = (w.eraseIdx i).map lower := by
  constructor
  · intro c hc
    unfold deletions at hc
    rw [List.mem_filterMap] at hc
    obtain ⟨i, hi, hc⟩ := hc
    rw [List.mem_range] at hi
    split at hc
    · cases hc; exact ⟨i, hi, rfl⟩
    · cases hc
  · intro i
    induction i with
    | zero =>
      intro hi
      exact ⟨w.eraseIdx 0, by
        unfold deletions; rw [List.mem_filterMap]; exact ⟨0, by simpa using hi, by rw [if_pos (Or.inl rfl)]⟩, rfl⟩
    | succ i ih =>
      intro hi
      cases hsl : sameLetter w (i + 1) i with
      | false =>
        exact ⟨w.eraseIdx (i + 1), by
          unfold deletions; rw [List.mem_filterMap]
          exact ⟨i + 1, by simpa using hi, by rw [if_pos (Or.inr (by simpa using hsl))]⟩, rfl⟩
      | true =>
        obtain ⟨c, h1, h2⟩ := ih (by omega)
        refine ⟨c, h1, h2.trans ?_⟩
        unfold sameLetter at hsl
        rw [List.getElem?_eq_getElem (by omega), List.getElem?_eq_getElem (by omega)] at hsl
        simp only [Option.map_some, beq_iff_eq, Option.some.injEq] at hsl
        have e1 : w.drop (i + 1) = w[i + 1] :: w.drop (i + 1 + 1) := List.drop_eq_getElem_cons hi
        have e2 : w.take (i + 1) = w.take i ++ [w[i]] := by
          rw [List.take_add_one, List.getElem?_eq_getElem (by omega)]; rfl
        rw [List.eraseIdx_eq_take_drop_succ, List.eraseIdx_eq_take_drop_succ, e1, e2]
        simp only [List.map_append, List.map_cons, List.map_nil, hsl, List.append_assoc, List.singleton_append]

/-- Every insertion candidate is the word with one of the given characters put in, and each of them is tried at every
place, except next to the same letter. -/
theorem C32_insertions (chars w : List Wc) :
    (∀ c ∈ insertions chars w, ∃ ch ∈ chars, ∃ i, i ≤ w.length ∧ c = insertAt w i ch) ∧
    ∀ ch ∈ chars, ∀ i, i ≤ w.length → insertAt w i ch ∈ insertions chars w ∨
      (w[i]?).map lower = some ch ∨ (0 < i ∧ ((w[i - 1]?).map lower = some ch ∨ w[i - 1]? = some ch)) := by
  constructor
  · intro c hc
    unfold insertions at hc
    rw [List.mem_flatMap] at hc
    obtain ⟨ch, h1, hc⟩ := hc
    refine ⟨ch, h1, ?_⟩
    unfold insertionsOf at hc
    rw [List.mem_append, List.mem_filterMap] at hc
    rcases hc with ⟨i, hi, hc⟩ | hc
    · rw [List.mem_range] at hi
      split at hc
      · cases hc
      · cases hc; exact ⟨i, by omega, rfl⟩
    · split at hc
      · cases hc
      · simp only [List.mem_singleton] at hc
        exact ⟨w.length, Nat.le_refl _, by simp [insertAt, hc]⟩
  · intro ch hch i hi
    unfold insertions
    rw [List.mem_flatMap]
    by_cases hlt : i < w.length
    · by_cases hcond : (w[i]?).map lower = some ch ∨ (0 < i ∧ (w[i - 1]?).map lower = some ch)
      · rcases hcond with h | ⟨h, h'⟩
        · exact Or.inr (Or.inl h)
        · exact Or.inr (Or.inr ⟨h, Or.inl h'⟩)
      · left
        refine ⟨ch, hch, ?_⟩
        unfold insertionsOf
        rw [List.mem_append, List.mem_filterMap]
        exact Or.inl ⟨i, by simpa using hlt, by rw [if_neg hcond]⟩
    · have : i = w.length := by omega
      subst this
      by_cases hl : w.getLast? = some ch
      · right; right
        have hne : w ≠ [] := by rintro rfl; simp at hl
        have := List.length_pos_iff.2 hne
        exact ⟨this, Or.inr (by rw [← List.getLast?_eq_getElem?]; exact hl)⟩
      · left
        refine ⟨ch, hch, ?_⟩
        unfold insertionsOf
        rw [List.mem_append, if_neg hl]
        exact Or.inr (by simp [insertAt])

theorem mem_replaceOne (f t : Wc) (w c : List Wc) :
    c ∈ replaceOne 0 f t w ↔ ∃ i, w[i]? = some f ∧ c = w.set i t := by
  unfold replaceOne
  rw [List.mem_filterMap]
  constructor
  · rintro ⟨i, hi, hc⟩
    split at hc
    · next h => cases hc; exact ⟨i, h.2, rfl⟩
    · cases hc
  · rintro ⟨i, h, rfl⟩
    refine ⟨i, ?_, by rw [if_pos ⟨Nat.zero_le _, h⟩]⟩
    rw [List.mem_range]
    by_contra hn
    rw [List.getElem?_eq_none (by omega)] at h
    cases h

/-- The replacement candidates are exactly the words obtained by replacing one character according to an entry of the
table, or its upper case form by the upper case form of the replacement. -/
theorem C32_replacements (t w c : List Wc) :
    c ∈ replacements t w ↔ ∃ p ∈ pairs t, ∃ i,
      (w[i]? = some p.1 ∧ c = w.set i p.2) ∨
      (upper p.1 ≠ p.1 ∧ w[i]? = some (upper p.1) ∧ c = w.set i (upper p.2)) := by
  unfold replacements
  rw [List.mem_flatMap]
  constructor
  · rintro ⟨p, hp, hc⟩
    rw [List.mem_append] at hc
    rcases hc with hc | hc
    · rw [mem_replaceOne] at hc
      obtain ⟨i, h⟩ := hc
      exact ⟨p, hp, i, Or.inl h⟩
    · split at hc
      · cases hc
      · next hu =>
        rw [mem_replaceOne] at hc
        obtain ⟨i, h⟩ := hc
        exact ⟨p, hp, i, Or.inr ⟨hu, h⟩⟩
  · rintro ⟨p, hp, i, h | ⟨hu, h⟩⟩
    · exact ⟨p, hp, List.mem_append_left _ ((mem_replaceOne _ _ _ _).2 ⟨i, h⟩)⟩
    · exact ⟨p, hp, List.mem_append_right _ (by rw [if_neg hu]; exact (mem_replaceOne _ _ _ _).2 ⟨i, h⟩)⟩

/-- The swap candidates are exactly the words obtained by exchanging two letters at most `d` places apart that differ in
more than case and vowel harmony. -/
theorem C32_swaps (d : Nat) (w c : List Wc) :
    c ∈ swaps d w ↔ ∃ i j a b, w[i]? = some a ∧ w[j]? = some b ∧ i < j ∧ j ≤ i + d ∧ lower a ≠ lower b ∧
      otherVowel (lower a) ≠ some (lower b) ∧ c = (w.set i b).set j a := by
  have lt : ∀ (k : Nat) (x : Wc), w[k]? = some x → k < w.length := by
    intro k x h
    by_contra hn
    rw [List.getElem?_eq_none (by omega)] at h
    cases h
  unfold swaps
  simp only [List.mem_flatMap, List.mem_filterMap, List.mem_range]
  constructor
  · rintro ⟨i, hi, j, hj, hc⟩
    rw [List.getElem?_eq_getElem hi, List.getElem?_eq_getElem hj] at hc
    simp only at hc
    split at hc
    · next h =>
      cases hc
      exact ⟨i, j, w[i], w[j], List.getElem?_eq_getElem hi, List.getElem?_eq_getElem hj, h.1, h.2.1, h.2.2.1, h.2.2.2, rfl⟩
    · cases hc
  · rintro ⟨i, j, a, b, ha, hb, h1, h2, h3, h4, rfl⟩
    refine ⟨i, lt i a ha, j, lt j b hb, ?_⟩
    rw [ha, hb]
    simp only
    rw [if_pos ⟨h1, h2, h3, h4⟩]

theorem flipBits_shift (pat j : Nat) (w : List Wc) : flipBits pat (j + 1) w = flipBits (pat / 2) j w := by
  induction w generalizing j with
  | nil => rfl
  | cons c cs ih =>
    unfold flipBits
    cases otherVowel c with
    | none => simp only [ih]
    | some v => simp only [ih, Nat.testBit_succ]

/-- One letter kept or changed to the other vowel of its pair. -/
def Flip (a b : Wc) : Prop := b = a ∨ otherVowel a = some b

theorem flipBits_sound (pat j : Nat) (w : List Wc) : List.Forall₂ Flip w (flipBits pat j w) := by
  induction w generalizing j with
  | nil => exact .nil
  | cons c cs ih =>
    unfold flipBits
    cases hv : otherVowel c with
    | none => exact .cons (Or.inl rfl) (ih j)
    | some v =>
      refine .cons ?_ (ih (j + 1))
      split
      · exact Or.inr hv
      · exact Or.inl rfl

theorem vowelCount_some {a v : Wc} (w : List Wc) (h : otherVowel a = some v) : vowelCount (a :: w) = vowelCount w + 1 := by
  simp [vowelCount, h]
theorem vowelCount_none {a : Wc} (w : List Wc) (h : otherVowel a = none) : vowelCount (a :: w) = vowelCount w := by
  simp [vowelCount, h]

theorem flipBits_complete (w c : List Wc) (h : List.Forall₂ Flip w c) :
    ∃ pat, pat < 2 ^ vowelCount w ∧ flipBits pat 0 w = c := by
  induction h with
  | nil => exact ⟨0, by simp, rfl⟩
  | @cons a b w c h1 h2 ih =>
    obtain ⟨pat, p1, p2⟩ := ih
    cases hv : otherVowel a with
    | none =>
      refine ⟨pat, by rw [vowelCount_none w hv]; exact p1, ?_⟩
      unfold flipBits
      rw [hv]
      simp only
      rcases h1 with rfl | h1
      · rw [p2]
      · rw [hv] at h1; cases h1
    | some v =>
      have hne := (otherVowel_ne a v hv).1
      refine ⟨2 * pat + (if b = v then 1 else 0), ?_, ?_⟩
      · rw [vowelCount_some w hv, Nat.pow_succ]
        split <;> omega
      · unfold flipBits
        rw [hv]
        simp only
        rw [flipBits_shift, show (2 * pat + (if b = v then 1 else 0)) / 2 = pat by split <;> omega, p2]
        congr 1
        rw [Nat.testBit_zero]
        rcases h1 with rfl | h1
        · have : ¬ b = v := fun e => hne e.symm
          simp [this]
        · rw [hv] at h1; cases h1
          have : (2 * pat + 1) % 2 = 1 := by omega
          simp [this]

theorem flipBits_zero (j : Nat) (w : List Wc) : flipBits 0 j w = w := by
  induction w generalizing j with
  | nil => rfl
  | cons c cs ih =>
    unfold flipBits
    cases otherVowel c with
    | none => simp only [ih]
    | some v => simp [ih]

theorem flipBits_eq_self (pat : Nat) (w : List Wc) (hp : pat < 2 ^ vowelCount w) (h : flipBits pat 0 w = w) : pat = 0 := by
  induction w generalizing pat with
  | nil => simpa [vowelCount] using hp
  | cons a w ih =>
    unfold flipBits at h
    cases hv : otherVowel a with
    | none =>
      rw [hv] at h
      simp only [List.cons.injEq, true_and] at h
      exact ih pat (by rw [vowelCount_none w hv] at hp; exact hp) h
    | some v =>
      rw [hv] at h
      have hne := (otherVowel_ne a v hv).1
      simp only [List.cons.injEq] at h
      rw [vowelCount_some w hv, Nat.pow_succ] at hp
      rw [flipBits_shift] at h
      have := ih (pat / 2) (by omega) h.2
      have hb : pat.testBit 0 = false := by
        cases hb : pat.testBit 0 with
        | false => rfl
        | true => rw [hb] at h; exact absurd h.1 (by simpa using hne)
      rw [Nat.testBit_zero] at hb
      simp only [decide_eq_false_iff_not] at hb
      omega

/-- The vowel change candidates of a word with at most seven vowels of the harmony pairs are exactly the other words
obtained by changing some of these vowels. Longer words have none. -/
theorem C32_vowelChanges (w c : List Wc) :
    c ∈ vowelChanges w ↔ vowelCount w ≤ 7 ∧ c ≠ w ∧ List.Forall₂ Flip w c := by
  unfold vowelChanges
  by_cases h7 : vowelCount w > 7
  · rw [if_pos h7]
    constructor
    · intro h; cases h
    · rintro ⟨h, _⟩; omega
  rw [if_neg h7]
  simp only [List.mem_map, List.mem_range'_1]
  have hpos : 0 < 2 ^ vowelCount w := Nat.pos_of_ne_zero (by simp)
  constructor
  · rintro ⟨pat, ⟨p1, p2⟩, rfl⟩
    refine ⟨by omega, ?_, flipBits_sound _ _ _⟩
    intro e
    have := flipBits_eq_self pat w (by omega) e
    omega
  · rintro ⟨_, hne, hf⟩
    obtain ⟨pat, p1, p2⟩ := flipBits_complete w c hf
    refine ⟨pat, ⟨?_, by omega⟩, p2⟩
    rcases Nat.eq_zero_or_pos pat with rfl | h
    · rw [flipBits_zero] at p2; exact absurd p2.symm hne
    · omega

/-- Inserting a hyphen: exactly at the places with two characters on both sides and no hyphen within two characters. -/
theorem C32_hyphens (w c : List Wc) :
    c ∈ hyphenInsertions w ↔ ∃ a b, w = a ++ b ∧ c = a ++ 0x2D :: b ∧ 2 ≤ a.length ∧ 2 ≤ b.length ∧
      0x2D ∉ a.drop (a.length - 2) ∧ 0x2D ∉ b.take 2 := by
  unfold hyphenInsertions
  simp only [List.mem_filterMap, List.mem_range]
  have key : ∀ i, 2 ≤ i → i ≤ w.length → (w.drop (i - 2)).take 4 =
      (w.take i).drop ((w.take i).length - 2) ++ (w.drop i).take 2 := by
    intro i h2 hi
    have e : (w.take i).length = i := by simp; omega
    rw [e, List.drop_take, show i - (i - 2) = 2 by omega,
      show w.drop i = (w.drop (i - 2)).drop 2 by rw [List.drop_drop]; congr 1; omega]
    generalize w.drop (i - 2) = u
    rw [show (4 : Nat) = 2 + 2 by rfl, List.take_add]
  constructor
  · rintro ⟨i, hi, hc⟩
    split at hc
    · next h =>
      cases hc
      refine ⟨w.take i, w.drop i, by simp, rfl, by simp; omega, by simp; omega, ?_⟩
      rw [key i h.1 (by omega), List.mem_append, not_or] at h
      exact h.2.2
    · cases hc
  · rintro ⟨a, b, rfl, rfl, ha, hb, h1, h2⟩
    refine ⟨a.length, by simp; omega, ?_⟩
    have k := key a.length ha (by simp)
    rw [List.take_left, List.drop_left] at k
    rw [if_pos ⟨ha, by simp; omega, by rw [k, List.mem_append, not_or]; exact ⟨h1, h2⟩⟩]
    simp [insertAt]

/-! ### Splitting -/

/-- A part that may stand before or after the space. -/
def PartOk (an : Analyzer) (x : List Wc) : Prop :=
  ∃ r p, spellWithPriority an (lowerFirst x) = some (r, p) ∧ (r = .ok ∨ r = .capFirst)

/-- The places where a split is tried and the two parts. -/
def SplitAt (w a b : List Wc) : Prop :=
  ∃ i, i ∈ splitPlaces w ∧ a = before w i ∧ b = after w i

/-- Description of the places: at least two characters before and behind, no hyphen within two characters, except one
directly behind the place; this one is dropped, one character behind it is enough, but this must not be a hyphen. -/
theorem C32_split_places (w a b : List Wc) :
    SplitAt w a b ↔ 2 ≤ a.length ∧ 0x2D ∉ a.drop (a.length - 2) ∧
      ((w = a ++ b ∧ 2 ≤ b.length ∧ 0x2D ∉ b.take 2) ∨ (w = a ++ 0x2D :: b ∧ b ≠ [] ∧ b.head? ≠ some 0x2D)) := by
  have last2 : ∀ i, 2 ≤ i → i ≤ w.length → (0x2D ∉ (w.take i).drop ((w.take i).length - 2) ↔
      w[i - 2]? ≠ some 0x2D ∧ w[i - 1]? ≠ some 0x2D) := by
    intro i h2 hi
    have e : (w.take i).length = i := by simp; omega
    rw [e, List.drop_take, show i - (i - 2) = 2 by omega,
      List.drop_eq_getElem_cons (by omega : i - 2 < w.length), List.drop_eq_getElem_cons (by omega : i - 2 + 1 < w.length),
      List.getElem?_eq_getElem (by omega : i - 2 < w.length), List.getElem?_eq_getElem (by omega : i - 1 < w.length)]
    have : i - 2 + 1 = i - 1 := by omega
    simp only [List.take_succ_cons, List.take_zero, List.mem_cons, List.not_mem_nil, or_false, not_or, this, ne_eq,
      Option.some.injEq]
    exact ⟨fun h => ⟨fun h' => h.1 h'.symm, fun h' => h.2 h'.symm⟩, fun h => ⟨fun h' => h.1 h'.symm, fun h' => h.2 h'.symm⟩⟩
  constructor
  · rintro ⟨i, hi, rfl, rfl⟩
    unfold splitPlaces at hi
    simp only [List.mem_reverse, List.mem_filter, List.mem_range, decide_eq_true_eq] at hi
    obtain ⟨hi, h2, h3, h4, h5, h6⟩ := hi
    refine ⟨by simp [before]; omega, (last2 i h2 (by omega)).2 ⟨h4, h5⟩, ?_⟩
    unfold after before
    rw [List.getElem?_eq_getElem (by omega : i + 1 < w.length)] at h6
    have e1 : w.drop i = w[i] :: w.drop (i + 1) := List.drop_eq_getElem_cons hi
    have e2 : w.drop (i + 1) = w[i + 1] :: w.drop (i + 1 + 1) := List.drop_eq_getElem_cons (by omega)
    by_cases hc : w[i]? = some 0x2D
    · right
      rw [if_pos hc]
      rw [List.getElem?_eq_getElem hi, Option.some.injEq] at hc
      refine ⟨?_, by intro e; have := congrArg List.length e; simp at this; omega, by rw [e2, List.head?_cons]; exact h6⟩
      rw [← hc, ← e1, List.take_append_drop]
    · left
      rw [if_neg hc]
      rw [List.getElem?_eq_getElem hi, Option.some.injEq] at hc
      refine ⟨by simp, by simp; omega, ?_⟩
      rw [e1, e2]
      simp only [List.take_succ_cons, List.take_zero, List.mem_cons, List.not_mem_nil, or_false, not_or]
      exact ⟨fun h => hc h.symm, fun h => h6 (by rw [h])⟩
  · rintro ⟨h1, h2, h⟩
    have hpl : a.length ≤ w.length := by rcases h with ⟨rfl, _⟩ | ⟨rfl, _⟩ <;> simp
    have htake : w.take a.length = a := by rcases h with ⟨rfl, _⟩ | ⟨rfl, _⟩ <;> simp
    have hl := last2 a.length h1 hpl
    rw [htake] at hl
    obtain ⟨l1, l2⟩ := hl.1 h2
    rcases h with ⟨rfl, hb, hh⟩ | ⟨rfl, hb, hh⟩
    · match b, hb with
      | x :: y :: b, _ =>
        simp only [List.take_succ_cons, List.take_zero, List.mem_cons, List.not_mem_nil, or_false, not_or] at hh
        refine ⟨a.length, ?_, by simp [before], ?_⟩
        · unfold splitPlaces
          simp only [List.mem_reverse, List.mem_filter, List.mem_range, decide_eq_true_eq]
          refine ⟨by simp, h1, by simp, l1, l2, ?_⟩
          rw [List.getElem?_append_right (by omega)]
          simp only [Nat.add_sub_cancel_left, List.getElem?_cons_succ, List.getElem?_cons_zero, ne_eq, Option.some.injEq]
          exact fun h => hh.2 h.symm
        · unfold after
          rw [if_neg]
          · simp
          · rw [List.getElem?_append_right (by omega)]
            simp only [Nat.sub_self, List.getElem?_cons_zero, Option.some.injEq]
            exact fun h => hh.1 h.symm
    · match b, hb with
      | x :: b, _ =>
        refine ⟨a.length, ?_, by simp [before], ?_⟩
        · unfold splitPlaces
          simp only [List.mem_reverse, List.mem_filter, List.mem_range, decide_eq_true_eq]
          refine ⟨by simp, h1, by simp, l1, l2, ?_⟩
          rw [List.getElem?_append_right (by omega)]
          simp only [Nat.add_sub_cancel_left, List.getElem?_cons_succ, List.getElem?_cons_zero]
          simpa using hh
        · unfold after
          rw [if_pos]
          · rw [List.drop_append]; simp
          · rw [List.getElem?_append_right (by omega)]
            simp

/-- The first part may be followed by a full stop. -/
def FirstOk (an : Analyzer) (a : List Wc) : Prop := PartOk an a ∨ ∃ a', a = a' ++ [0x2E] ∧ PartOk an a'

theorem partOk_iff (r : SpellRes) : partOk r = true ↔ r = .ok ∨ r = .capFirst := by cases r <;> decide

theorem tryFirst_spec (an : Analyzer) (h : AnalyzerOk an) (a : List Wc) (cap : Bool) (s : SugStatus) :
    ∃ ok p cap' s', tryFirst an a cap s = some (ok, p, cap', s') ∧ (ok = true ↔ FirstOk an a) := by
  unfold tryFirst
  obtain ⟨r, q, e1, _⟩ := swp_total an h (lowerFirst a)
  rw [e1]
  simp only [Option.bind_eq_bind, Option.bind_some, Option.pure_def]
  by_cases h3 : partOk r = true
  · rw [if_pos h3]
    exact ⟨_, _, _, _, rfl, by simp only [true_iff]; exact Or.inl ⟨r, q, e1, (partOk_iff r).1 h3⟩⟩
  · rw [if_neg h3]
    have hno : ¬ PartOk an a := by
      rintro ⟨r', q', e, hr⟩
      rw [e1] at e; cases e
      exact h3 ((partOk_iff r).2 hr)
    by_cases h4 : a.getLast? = some 0x2E
    · rw [if_pos h4]
      obtain ⟨r', q', e1', _⟩ := swp_total an h (lowerFirst a.dropLast)
      rw [e1']
      simp only [Option.bind_some]
      refine ⟨_, _, _, _, rfl, ?_⟩
      rw [partOk_iff]
      constructor
      · intro hr
        exact Or.inr ⟨a.dropLast, dropLast_append_getLast? h4, r', q', e1', hr⟩
      · rintro (hp | ⟨a', rfl, r2, q2, e2, hr⟩)
        · exact absurd hp hno
        · simp only [List.dropLast_concat] at e1'
          rw [e1'] at e2; cases e2
          exact hr
    · rw [if_neg h4]
      refine ⟨_, _, _, _, rfl, ?_⟩
      constructor
      · intro hh; cases hh
      · rintro (hp | ⟨a', rfl, _⟩)
        · exact absurd hp hno
        · simp at h4

theorem trySplit_spec (an : Analyzer) (h : AnalyzerOk an) (w : List Wc) (i : Nat) (cap : Bool) (s : SugStatus)
    (hcap : s.sugg.length ≤ s.maxSug) (hs : s.maxSug ≤ 30) (hab : s.shouldAbort = false) :
    ∃ cap' s', trySplit an w i cap s = some (cap', s') ∧ s'.sugg.length ≤ s'.maxSug ∧ s'.maxSug ≤ 30 ∧
      ((s'.sugg = s.sugg ∧ ¬ (FirstOk an (before w i) ∧ PartOk an (after w i))) ∨
       ((FirstOk an (before w i) ∧ PartOk an (after w i)) ∧
         ∃ x p, s'.sugg = s.sugg ++ [(x, p)] ∧ x.map lower = (before w i ++ 0x20 :: after w i).map lower)) := by
  obtain ⟨n1, n2⟩ := not_abort hab
  obtain ⟨ok, p, cap', s1, e1, e2, e3, e4, e5, e6⟩ := tryFirst_total an h (before w i) cap s
  obtain ⟨ok', p', cap2, s2, e1', hok⟩ := tryFirst_spec an h (before w i) cap s
  rw [e1] at e1'; cases e1'
  have hlt : s1.sugg.length < s1.maxSug := by rw [e4, e3.2.1]; omega
  have hsm : s1.maxSug ≤ 30 := by rw [e3.2.1]; exact hs
  unfold trySplit
  rw [e1]
  simp only [Option.bind_eq_bind, Option.bind_some, Option.pure_def]
  cases ok with
  | false =>
    have hf : ¬ FirstOk an (before w i) := fun hf => by have := hok.2 hf; cases this
    exact ⟨_, _, rfl, by omega, hsm, Or.inl ⟨e4, fun hh => hf hh.1⟩⟩
  | true =>
    have hf := hok.1 rfl
    simp only [if_true]
    obtain ⟨r, q, f1, f2, _⟩ := swp_total an h (lowerFirst (after w i))
    rw [f1]
    simp only [Option.bind_some]
    by_cases hr : partOk r = true
    · rw [if_pos hr]
      have hm : (if w[i]? = some 0x2D then 6 else 1) ≤ 6 := by split <;> omega
      rw [add_ok (s := s1.charge) hlt hsm (by nlinarith)]
      refine ⟨_, _, rfl, by simp [SugStatus.charge]; omega, hsm, Or.inr ⟨⟨hf, r, q, f1, (partOk_iff r).1 hr⟩, ?_⟩⟩
      refine ⟨_, _, by simp only [SugStatus.charge, e4]; rfl, ?_⟩
      simp only [List.map_append, List.map_cons, capIf_lower]
    · rw [if_neg hr]
      refine ⟨_, _, rfl, by simp [SugStatus.charge]; omega, hsm, Or.inl ⟨e4, ?_⟩⟩
      rintro ⟨_, r', q', e, hr'⟩
      rw [f1] at e; cases e
      exact hr ((partOk_iff r).2 hr')

theorem trySplits_spec (an : Analyzer) (h : AnalyzerOk an) (w : List Wc) (is : List Nat) (cap : Bool) (s : SugStatus)
    (hcap : s.sugg.length ≤ s.maxSug) (hs : s.maxSug ≤ 30) (hab : s.shouldAbort = false) :
    ∃ s', trySplits an w is cap s = some s' ∧ s.sugg <+: s'.sugg ∧
      (∀ x ∈ s'.sugg, x ∈ s.sugg ∨ ∃ i ∈ is, (FirstOk an (before w i) ∧ PartOk an (after w i)) ∧
        x.1.map lower = (before w i ++ 0x20 :: after w i).map lower) ∧
      (s'.shouldAbort = false → ∀ i ∈ is, FirstOk an (before w i) → PartOk an (after w i) →
        ∃ x ∈ s'.sugg, x.1.map lower = (before w i ++ 0x20 :: after w i).map lower) := by
  induction is generalizing cap s with
  | nil => exact ⟨s, rfl, List.prefix_refl _, fun x hx => Or.inl hx, fun _ i hi => by cases hi⟩
  | cons i is ih =>
    obtain ⟨cap1, s1, e1, c1, m1, h1⟩ := trySplit_spec an h w i cap s hcap hs hab
    unfold trySplits
    rw [e1]
    simp only [Option.bind_eq_bind, Option.bind_some, Option.pure_def]
    have pre : s.sugg <+: s1.sugg := by
      rcases h1 with ⟨h1, _⟩ | ⟨_, x, p, h1, _⟩
      · rw [h1]; exact List.prefix_refl _
      · rw [h1]; exact List.prefix_append _ _
    have snd : ∀ x ∈ s1.sugg, x ∈ s.sugg ∨ ((FirstOk an (before w i) ∧ PartOk an (after w i)) ∧
        x.1.map lower = (before w i ++ 0x20 :: after w i).map lower) := by
      intro y hy
      rcases h1 with ⟨h1, _⟩ | ⟨hf, x, p, h1, hx⟩
      · rw [h1] at hy; exact Or.inl hy
      · rw [h1, List.mem_append, List.mem_singleton] at hy
        rcases hy with hy | rfl
        · exact Or.inl hy
        · exact Or.inr ⟨hf, hx⟩
    cases hab1 : s1.shouldAbort with
    | true =>
      simp only [if_true]
      refine ⟨s1, rfl, pre, ?_, fun hh => by rw [hab1] at hh; cases hh⟩
      intro x hx
      rcases snd x hx with g | g
      · exact Or.inl g
      · exact Or.inr ⟨i, by simp, g⟩
    | false =>
      simp only [Bool.false_eq_true, if_false]
      obtain ⟨s', g1, g2, g3, g4⟩ := ih cap1 s1 c1 m1 hab1
      refine ⟨s', g1, pre.trans g2, ?_, ?_⟩
      · intro x hx
        rcases g3 x hx with g | ⟨j, hj, g⟩
        · rcases snd x g with g | g
          · exact Or.inl g
          · exact Or.inr ⟨i, by simp, g⟩
        · exact Or.inr ⟨j, by simp [hj], g⟩
      · intro hab' j hj hf hp
        rcases List.mem_cons.1 hj with rfl | hj
        · rcases h1 with ⟨_, hn⟩ | ⟨_, x, p, h1, hx⟩
          · exact absurd ⟨hf, hp⟩ hn
          · exact ⟨(x, p), g2.subset (by rw [h1]; simp), hx⟩
        · exact g4 hab' j hj hf hp

/-- C32: the splitting generator adds exactly the splits of the word into two acceptable parts (up to capitalisation),
unless the search is aborted. -/
theorem C32_split (an : Analyzer) (h : AnalyzerOk an) (junk : Nat → Wc) (s : SugStatus) (h0 : 0 ∉ s.word)
    (h2 : 2 ≤ s.word.length) (hcap : s.sugg.length ≤ s.maxSug) (hs : s.maxSug ≤ 30) (hab : s.shouldAbort = false) :
    ∃ s', genSplitWord an junk s = some s' ∧ s.sugg <+: s'.sugg ∧
      (∀ x ∈ s'.sugg, x ∈ s.sugg ∨ ∃ a b, SplitAt s.word a b ∧ FirstOk an a ∧ PartOk an b ∧
        x.1.map lower = (a ++ 0x20 :: b).map lower) ∧
      (s'.shouldAbort = false → ∀ a b, SplitAt s.word a b → FirstOk an a → PartOk an b →
        ∃ x ∈ s'.sugg, x.1.map lower = (a ++ 0x20 :: b).map lower) := by
  obtain ⟨s', e1, e2, e3, e4⟩ := trySplits_spec an h s.word (splitPlaces s.word) false s hcap hs hab
  refine ⟨s', (genSplitWord_eq an h junk s h0 h2).trans e1, e2, ?_, ?_⟩
  · intro x hx
    rcases e3 x hx with g | ⟨i, hi, ⟨g1, g2⟩, g3⟩
    · exact Or.inl g
    · exact Or.inr ⟨_, _, ⟨i, hi, rfl, rfl⟩, g1, g2, g3⟩
  · rintro hab' a b ⟨i, hi, rfl, rfl⟩ hf hp
    exact e4 hab' i hi hf hp

/-- The finding about splitting: once the first part was capitalised because a dictionary entry demands it, it stays
capitalised for the shorter first parts tried later, whose entries do not demand it ("abc" demands a capital, "ab" does
not; "abcde" is nevertheless offered as "Ab cde"). -/
theorem C32_split_capital_leak : ∃ an : Analyzer, AnalyzerOk an ∧
    (genSplitWord an (fun _ => 7) { word := lit "abcde", maxSug := 15, maxCost := 800 }).map (fun s => s.sugg.map (·.1)) =
      some [lit "Abc de", lit "Ab cde"] ∧
    (spellWithPriority an (lit "ab")).map (·.1) = some .ok := by
  refine ⟨fun y => if y = lit "abc" then [{ struct := some (lit "=ipp") }]
    else if y = lit "ab" ∨ y = lit "de" ∨ y = lit "cde" then [{ struct := some (lit "=ppp") }] else [], ?_, ?_, ?_⟩
  · intro w a ha
    simp only at ha
    split at ha
    · simp only [List.mem_singleton] at ha; subst ha; exact ⟨_, rfl⟩
    · split at ha
      · simp only [List.mem_singleton] at ha; subst ha; exact ⟨_, rfl⟩
      · simp at ha
  · decide +kernel
  · decide +kernel

/-- Non-vacuity for the split theorem: "enokoira" has the split "eno", "koira" with acceptable parts. -/
example : SplitAt (lit "enokoira") (lit "eno") (lit "koira") ∧ FirstOk demoAn (lit "eno") ∧ PartOk demoAn (lit "koira") := by
  have h1 : (spellWithPriority demoAn (lowerFirst (lit "eno"))).map (·.1) = some .capFirst := by decide +kernel
  have h2 : (spellWithPriority demoAn (lowerFirst (lit "koira"))).map (·.1) = some .ok := by decide +kernel
  rw [Option.map_eq_some_iff] at h1 h2
  obtain ⟨⟨r1, p1⟩, h1, rfl⟩ := h1
  obtain ⟨⟨r2, p2⟩, h2, rfl⟩ := h2
  refine ⟨?_, Or.inl ⟨_, _, h1, Or.inr rfl⟩, ⟨_, _, h2, Or.inl rfl⟩⟩
  rw [C32_split_places]
  decide

end Verif.Props
