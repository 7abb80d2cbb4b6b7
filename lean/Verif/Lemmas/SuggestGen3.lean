import Verif.Lemmas.SuggestGen2
/-!
# The generators submit exactly the specified candidates (part 3): swaps, vowel changes, soft hyphens
-/
set_option linter.unusedSimpArgs false
set_option linter.unusedVariables false

namespace Verif.Props
open Verif Verif.Spec

/-! ### Vowel pairs -/

/-- The twelve vowels. -/
def twelve : List Wc := [0x61, 0x6F, 0x75, 0x41, 0x4F, 0x55, 0xE4, 0xF6, 0x79, 0xC4, 0xD6, 0x59]

theorem otherVowel_eq (c : Wc) : otherVowel c = if isHarmonyVowel c then some (flipVowel c) else none := by
  by_cases h : c ∈ twelve
  · have : ∀ c ∈ twelve, otherVowel c = if isHarmonyVowel c then some (flipVowel c) else none := by decide
    exact this c h
  · simp only [twelve, List.mem_cons, List.not_mem_nil, or_false, not_or] at h
    obtain ⟨h1, h2, h3, h4, h5, h6, h7, h8, h9, h10, h11, h12⟩ := h
    have e1 : isHarmonyVowel c = false := by
      simp [isHarmonyVowel, backVowels, frontVowels, lit, *]
    have e2 : otherVowel c = none := by
      have ha : ∀ x : Nat, c ≠ x → (x == c) = false := fun x hx => by simpa using fun e => hx e.symm
      simp [otherVowel, harmonyPairs, List.find?, ha, *]
    rw [e1, e2]; rfl

theorem isHarmonyVowel_iff (c : Wc) : isHarmonyVowel c = (otherVowel c).isSome := by
  rw [otherVowel_eq]; cases isHarmonyVowel c <;> rfl

theorem otherVowel_ne (c v : Wc) (h : otherVowel c = some v) : v ≠ c ∧ v ≠ 0 ∧ otherVowel v = some c := by
  by_cases hc : c ∈ twelve
  · have : ∀ c ∈ twelve, ∀ v ∈ twelve, otherVowel c = some v → v ≠ c ∧ v ≠ 0 ∧ otherVowel v = some c := by decide
    have hv : ∀ c ∈ twelve, ∃ v ∈ twelve, otherVowel c = some v := by decide
    obtain ⟨v', h1, h2⟩ := hv c hc
    rw [h2] at h
    cases h
    exact this c hc v h1 h2
  · exfalso
    simp only [twelve, List.mem_cons, List.not_mem_nil, or_false, not_or] at hc
    obtain ⟨h1, h2, h3, h4, h5, h6, h7, h8, h9, h10, h11, h12⟩ := hc
    have ha : ∀ x : Nat, c ≠ x → (x == c) = false := fun x hx => by simpa using fun e => hx e.symm
    simp [otherVowel, harmonyPairs, List.find?, ha, *] at h

theorem lower_not_upperVowel (c : Wc) : lower c ≠ 0x41 ∧ lower c ≠ 0x4F ∧ lower c ≠ 0x55 ∧ lower c ≠ 0xC4 ∧
    lower c ≠ 0xD6 ∧ lower c ≠ 0x59 := by
  have h := (C09_case_laws c).1
  refine ⟨?_, ?_, ?_, ?_, ?_, ?_⟩ <;> intro e <;> rw [e] at h <;> revert h <;> decide

theorem vowelPair_iff (a b : Wc) :
    vowelPair (lower a) (lower b) = true ↔ otherVowel (lower a) = some (lower b) := by
  have ha := lower_not_upperVowel a
  generalize lower a = x at ha
  generalize lower b = y
  obtain ⟨h1, h2, h3, h4, h5, h6⟩ := ha
  by_cases hx : x ∈ twelve
  · simp only [twelve, List.mem_cons, List.not_mem_nil, or_false] at hx
    rcases hx with rfl | rfl | rfl | rfl | rfl | rfl | rfl | rfl | rfl | rfl | rfl | rfl <;>
      first
        | exact absurd rfl ‹_›
        | (simp [vowelPair, backVowels, frontVowels, lit, otherVowel, harmonyPairs, List.find?]
           exact ⟨fun h => h.symm, fun h => h.symm⟩)
  · have e : otherVowel x = none := by
      cases ho : otherVowel x with
      | none => rfl
      | some v =>
        exfalso
        simp only [twelve, List.mem_cons, List.not_mem_nil, or_false, not_or] at hx
        obtain ⟨h1, h2, h3, h4, h5, h6, h7, h8, h9, h10, h11, h12⟩ := hx
        have ha : ∀ z : Nat, x ≠ z → (z == x) = false := fun z hz => by simpa using fun e => hz e.symm
        simp [otherVowel, harmonyPairs, List.find?, ha, *] at ho
    rw [e]
    simp only [twelve, List.mem_cons, List.not_mem_nil, or_false, not_or] at hx
    obtain ⟨g1, g2, g3, g4, g5, g6, g7, g8, g9, g10, g11, g12⟩ := hx
    simp [vowelPair, backVowels, frontVowels, lit, *]

/-! ### Swaps -/

/-- The candidate for exchanging positions `i` and `j`. -/
def swapCand (d : Nat) (w : List Wc) (i j : Nat) : Option (List Wc) :=
  match w[i]?, w[j]? with
  | some a, some b =>
    if i < j ∧ j ≤ i + d ∧ lower a ≠ lower b ∧ otherVowel (lower a) ≠ some (lower b) then
      some ((w.set i b).set j a) else none
  | _, _ => none

theorem swapCand_far (d : Nat) (w : List Wc) (i j : Nat) (h : ¬ (i < j ∧ j ≤ i + d)) : swapCand d w i j = none := by
  unfold swapCand
  split
  · rw [if_neg (fun h' => h ⟨h'.1, h'.2.1⟩)]
  · rfl

theorem swapInner_feed (an : Analyzer) (w : List Wc) (d i : Nat) (k j : Nat) (s : SugStatus)
    (hij : i < j) (hk : j + k = w.length) :
    swapInner an w d i k j (w ++ [0]) s =
      (feed an ((List.range' j k).filterMap (swapCand d w i)) s).map fun s => (w ++ [0], s) := by
  induction k generalizing j s with
  | zero => rfl
  | succ k ih =>
    unfold swapInner
    by_cases hab : s.shouldAbort = true
    · rw [if_pos hab, feed_abort _ _ _ hab]; rfl
    rw [if_neg hab]
    by_cases hd : j - i > d
    · rw [if_pos hd]
      have : (List.range' j (k + 1)).filterMap (swapCand d w i) = [] := by
        rw [List.filterMap_eq_nil_iff]
        intro x hx
        simp only [List.mem_range'_1] at hx
        exact swapCand_far d w i x (by omega)
      rw [this]; rfl
    rw [if_neg hd, feed_range'_succ, rd_str w i (by omega), rd_str w j (by omega)]
    simp only [Option.bind_eq_bind, Option.bind_some]
    have ei : w[i]? = some (w[i]'(by omega)) := by simp
    have ej : w[j]? = some (w[j]'(by omega)) := by simp
    have hcand : swapCand d w i j =
        if lower (w[i]'(by omega)) = lower (w[j]'(by omega)) ∨
          vowelPair (lower (w[i]'(by omega))) (lower (w[j]'(by omega))) = true then none
        else some ((w.set i (w[j]'(by omega))).set j (w[i]'(by omega))) := by
      unfold swapCand
      rw [ei, ej]
      simp only [vowelPair_iff]
      by_cases h1 : lower (w[i]'(by omega)) = lower (w[j]'(by omega))
      · rw [if_neg (fun h => h.2.2.1 h1), if_pos (Or.inl h1)]
      · by_cases h2 : otherVowel (lower (w[i]'(by omega))) = some (lower (w[j]'(by omega)))
        · rw [if_neg (fun h => h.2.2.2 h2), if_pos (Or.inr h2)]
        · rw [if_pos ⟨hij, by omega, h1, h2⟩, if_neg (by rintro (h | h); exacts [h1 h, h2 h])]
    rw [hcand]
    by_cases hc : lower (w[i]'(by omega)) = lower (w[j]'(by omega)) ∨
        vowelPair (lower (w[i]'(by omega))) (lower (w[j]'(by omega))) = true
    · rw [if_pos hc, if_pos hc]
      simp only [Option.elim_none, Option.bind_some]
      exact ih (j + 1) s (by omega) (by omega)
    · rw [if_neg hc, if_neg hc, set_str w i _ (by omega)]
      simp only [Option.bind_some, Option.elim_some]
      rw [set_str _ j _ (by simp; omega)]
      simp only [Option.bind_some]
      unfold submitBuf
      rw [sub_eq _ _ _ (by simp)]
      simp only [Option.bind_eq_bind, Option.bind_some, Option.pure_def]
      cases hs : suggestForBuffer an s ((w.set i (w[j]'(by omega))).set j (w[i]'(by omega))) with
      | none => rfl
      | some s' =>
        simp only [Option.bind_some]
        rw [set_str _ i _ (by simp; omega)]
        simp only [Option.bind_some]
        rw [set_str _ j _ (by simp; omega)]
        simp only [Option.bind_some]
        have ew : ((((w.set i (w[j]'(by omega))).set j (w[i]'(by omega))).set i (w[i]'(by omega))).set j
            (w[j]'(by omega))) = w := by
          apply List.ext_getElem
          · simp
          · intro m h1 h2
            simp only [List.getElem_set]
            split
            · next h => subst h; rfl
            · split
              · next h => subst h; rfl
              · rfl
        rw [ew]
        exact ih (j + 1) s' (by omega) (by omega)

theorem swapLoop_feed (an : Analyzer) (w : List Wc) (d : Nat) (k i : Nat) (s : SugStatus) (hk : i + k = w.length) :
    swapLoop an w d k i (w ++ [0]) s = feed an ((List.range' i k).flatMap fun i =>
      (List.range' (i + 1) (w.length - (i + 1))).filterMap (swapCand d w i)) s := by
  induction k generalizing i s with
  | zero => rfl
  | succ k ih =>
    unfold swapLoop
    by_cases hab : s.shouldAbort = true
    · rw [if_pos hab, feed_abort _ _ _ hab]; rfl
    rw [if_neg hab, List.range'_succ, List.flatMap_cons, feed_append,
      swapInner_feed an w d i _ (i + 1) s (by omega) (by omega)]
    simp only [Option.bind_eq_bind]
    cases feed an ((List.range' (i + 1) (w.length - (i + 1))).filterMap (swapCand d w i)) s with
    | none => rfl
    | some s' =>
      simp only [Option.map_some, Option.bind_some]
      exact ih (i + 1) s' (by omega)

theorem swaps_eq (d : Nat) (w : List Wc) : swaps d w = (List.range' 0 w.length).flatMap fun i =>
      (List.range' (i + 1) (w.length - (i + 1))).filterMap (swapCand d w i) := by
  unfold swaps
  rw [← List.range_eq_range']
  apply flatMap_congr'
  intro i hi
  simp only [List.mem_range] at hi
  change (List.range w.length).filterMap (swapCand d w i) = _
  have e : List.range w.length = List.range' 0 (i + 1) ++ List.range' (i + 1) (w.length - (i + 1)) := by
    rw [List.range_eq_range']
    conv_lhs => rw [show w.length = (i + 1) + (w.length - (i + 1)) by omega]
    rw [← List.range'_append_1, Nat.zero_add]
  rw [e, List.filterMap_append]
  have : (List.range' 0 (i + 1)).filterMap (swapCand d w i) = [] := by
    rw [List.filterMap_eq_nil_iff]
    intro x hx
    simp only [List.mem_range'_1] at hx
    exact swapCand_far d w i x (by omega)
  rw [this, List.nil_append]

theorem genSwap_feed (an : Analyzer) (junk : Nat → Wc) (s : SugStatus) (hw : 0 ∉ s.word) :
    genSwap an junk s = feed an (swaps (swapDistance s.word.length) s.word) s := by
  unfold genSwap
  rw [swaps_eq]
  by_cases h : swapDistance s.word.length = 0
  · rw [if_pos h, h]
    have : ((List.range' 0 s.word.length).flatMap fun i =>
        (List.range' (i + 1) (s.word.length - (i + 1))).filterMap (swapCand 0 s.word i)) = [] := by
      rw [List.flatMap_eq_nil_iff]
      intro i _
      rw [List.filterMap_eq_nil_iff]
      intro x _
      exact swapCand_far 0 s.word i x (by omega)
    rw [this]; rfl
  · rw [if_neg h]
    simp only [Option.bind_eq_bind]
    rw [copyWord_bind junk s.word hw]
    exact swapLoop_feed an s.word _ _ 0 s (by omega)

/-! ### Vowel changes -/

theorem flipBits_length (pat j : Nat) (u : List Wc) : (flipBits pat j u).length = u.length := by
  induction u generalizing j with
  | nil => rfl
  | cons c cs ih =>
    unfold flipBits
    cases otherVowel c <;> simp [ih]

theorem flipBits_plain (pat j : Nat) (nv u : List Wc) (h : ∀ c ∈ nv, isHarmonyVowel c = false) :
    flipBits pat j (nv ++ u) = nv ++ flipBits pat j u := by
  induction nv with
  | nil => rfl
  | cons c cs ih =>
    have hc : otherVowel c = none := by rw [otherVowel_eq, h c (by simp)]; rfl
    rw [List.cons_append, flipBits, hc]
    simp only [List.cons_append, List.cons.injEq, true_and]
    exact ih (fun x hx => h x (by simp [hx]))

theorem nextVowel_eq (pre nv : List Wc) (c : Wc) (post : List Wc) (k : Nat) (hk : nv.length < k)
    (h : ∀ c ∈ nv, isHarmonyVowel c = false) (h0 : 0 ∉ nv) (hc : isHarmonyVowel c = true) :
    nextVowel (pre ++ nv ++ c :: post) k pre.length = some (pre.length + nv.length) := by
  induction nv generalizing pre k with
  | nil =>
    obtain ⟨k, rfl⟩ : ∃ m, k = m + 1 := ⟨k - 1, by simp at hk; omega⟩
    unfold nextVowel
    rw [rd_mid _ _ _ _ (by simp)]
    simp only [Option.bind_eq_bind, Option.bind_some, Option.pure_def]
    have : (wcschr backVowels c || wcschr frontVowels c) = true := by
      unfold isHarmonyVowel at hc
      simp only [wcschr]
      cases h1 : backVowels.contains c <;> simp_all
    rw [if_pos this]; rfl
  | cons d ds ih =>
    obtain ⟨k, rfl⟩ : ∃ m, k = m + 1 := ⟨k - 1, by simp at hk; omega⟩
    unfold nextVowel
    rw [show pre ++ d :: ds ++ c :: post = pre ++ d :: (ds ++ c :: post) by simp, rd_mid _ _ _ _ rfl]
    simp only [Option.bind_eq_bind, Option.bind_some, Option.pure_def]
    have hd := h d (by simp)
    have hd0 : d ≠ 0 := fun e => h0 (by simp [e])
    have : (wcschr backVowels d || wcschr frontVowels d) = false := by
      unfold isHarmonyVowel at hd
      simp only [wcschr]
      cases h1 : backVowels.contains d <;> simp_all
    rw [this]
    simp only [Bool.false_eq_true, if_false]
    have := ih (pre ++ [d]) k (by simp at hk; omega) (fun x hx => h x (by simp [hx])) (fun hm => h0 (by simp [hm]))
    simp only [List.length_append, List.length_cons, List.length_nil, List.append_assoc, List.cons_append,
      List.nil_append] at this
    rw [show pre.length + 1 = pre.length + (0 + 1) by omega, this]
    simp; omega

theorem split_vowel (u : List Wc) (h : 0 < vowelCount u) : ∃ nv c rest, u = nv ++ c :: rest ∧
    (∀ c ∈ nv, isHarmonyVowel c = false) ∧ isHarmonyVowel c = true ∧ vowelCount u = vowelCount rest + 1 := by
  induction u with
  | nil => simp [vowelCount] at h
  | cons d ds ih =>
    by_cases hd : isHarmonyVowel d = true
    · refine ⟨[], d, ds, rfl, by simp, hd, ?_⟩
      unfold vowelCount
      rw [List.filter_cons_of_pos (by rw [← isHarmonyVowel_iff]; exact hd)]
      simp
    · have e : vowelCount (d :: ds) = vowelCount ds := by
        unfold vowelCount
        rw [List.filter_cons_of_neg (by rw [← isHarmonyVowel_iff]; exact hd)]
      obtain ⟨nv, c, rest, h1, h2, h3, h4⟩ := ih (by omega)
      refine ⟨d :: nv, c, rest, by simp [h1], ?_, h3, by omega⟩
      intro x hx
      rcases List.mem_cons.1 hx with rfl | hx
      · simpa using hd
      · exact h2 x hx

theorem flipLoop_eq (pat v j : Nat) (pre u : List Wc) (h0 : 0 ∉ u) (hv : vowelCount u = v) :
    flipLoop pat v j pre.length (pre ++ u ++ [0]) = some (pre ++ flipBits pat j u ++ [0]) := by
  induction v generalizing j pre u with
  | zero =>
    have : ∀ c ∈ u, isHarmonyVowel c = false := by
      intro c hc
      unfold vowelCount at hv
      rw [List.length_eq_zero_iff, List.filter_eq_nil_iff] at hv
      have := hv c hc
      rw [← isHarmonyVowel_iff] at this
      simpa using this
    have e := flipBits_plain pat j u [] this
    rw [List.append_nil] at e
    rw [e]; simp [flipLoop, flipBits]
  | succ v ih =>
    obtain ⟨nv, c, rest, h1, h2, h3, h4⟩ := split_vowel u (by omega)
    have hnv : 0 ∉ nv := fun hm => h0 (by rw [h1]; simp [hm])
    have hrest : 0 ∉ rest := fun hm => h0 (by rw [h1]; simp [hm])
    subst h1
    unfold flipLoop
    have ecells : pre ++ (nv ++ c :: rest) ++ [0] = pre ++ nv ++ c :: (rest ++ [0]) := by simp
    rw [ecells, nextVowel_eq pre nv c (rest ++ [0]) _ (by simp; omega) h2 hnv h3]
    simp only [Option.bind_eq_bind, Option.bind_some]
    have hfl : flipBits pat j (nv ++ c :: rest) =
        nv ++ (if pat.testBit j then flipVowel c else c) :: flipBits pat (j + 1) rest := by
      rw [flipBits_plain _ _ _ _ h2, flipBits, otherVowel_eq, h3]
      simp
    rw [hfl]
    have hlen : (pre ++ nv).length = pre.length + nv.length := by simp
    by_cases hb : pat.testBit j = true
    · rw [if_pos hb, if_pos hb, rd_mid _ _ _ _ hlen]
      simp only [Option.bind_some]
      rw [wr_mid _ _ _ _ _ hlen]
      simp only [Option.bind_some]
      have := ih (j + 1) (pre ++ nv ++ [flipVowel c]) rest hrest (by omega)
      simp only [List.length_append, List.length_cons, List.length_nil] at this
      rw [show pre ++ nv ++ flipVowel c :: (rest ++ [0]) = pre ++ nv ++ [flipVowel c] ++ rest ++ [0] by simp,
        show pre.length + nv.length + 1 = pre.length + nv.length + (0 + 1) by omega, this]
      simp
    · rw [if_neg hb, if_neg hb]
      have := ih (j + 1) (pre ++ nv ++ [c]) rest hrest (by omega)
      simp only [List.length_append, List.length_cons, List.length_nil] at this
      rw [show pre ++ nv ++ c :: (rest ++ [0]) = pre ++ nv ++ [c] ++ rest ++ [0] by simp,
        show pre.length + nv.length + 1 = pre.length + nv.length + (0 + 1) by omega, this]
      simp

/-- Value of the mask after `m` vowels. -/
def maskOf (m : Nat) : Int := if m ≤ 31 then 2 ^ m - 1 else -1

theorem shl1_mask (m : Nat) (h : m ≤ 31) : ∃ x, shl1 (maskOf m) = some x ∧ x + 1 = maskOf (m + 1) := by
  have : ∀ m < 32, ∃ x, shl1 (maskOf m) = some x ∧ x + 1 = maskOf (m + 1) := by
    intro m hm
    have : ∀ m < 32, (match shl1 (maskOf m) with | some x => decide (x + 1 = maskOf (m + 1)) | none => false) = true := by
      decide
    have := this m hm
    cases hs : shl1 (maskOf m) with
    | none => rw [hs] at this; simp at this
    | some x => rw [hs] at this; exact ⟨x, rfl, by simpa using this⟩
  exact this m (by omega)

theorem vowelCount_cons (c : Wc) (cs : List Wc) :
    vowelCount (c :: cs) = (if isHarmonyVowel c then 1 else 0) + vowelCount cs := by
  unfold vowelCount
  rw [List.filter_cons, ← isHarmonyVowel_iff]
  cases isHarmonyVowel c <;> simp; omega

theorem vowelMask_ok (u : List Wc) (m : Nat) (h : m + vowelCount u ≤ 32) :
    vowelMask u m (maskOf m) = some (m + vowelCount u, maskOf (m + vowelCount u)) := by
  induction u generalizing m with
  | nil => simp [vowelMask, vowelCount]
  | cons c cs ih =>
    rw [vowelCount_cons] at h ⊢
    unfold vowelMask
    by_cases hc : isHarmonyVowel c = true
    · rw [if_pos hc] at h ⊢
      rw [if_pos hc]
      obtain ⟨x, h1, h2⟩ := shl1_mask m (by omega)
      rw [h1]
      simp only [Option.bind_eq_bind, Option.bind_some]
      rw [h2, ih (m + 1) (by omega)]
      congr 2 <;> [omega; (congr 1; omega)]
    · rw [if_neg hc] at h ⊢
      rw [if_neg hc, Nat.zero_add]
      exact ih m (by omega)

theorem vowelMask_ub (u : List Wc) (m : Nat) (hm : m ≤ 32) (h : 32 < m + vowelCount u) :
    vowelMask u m (maskOf m) = none := by
  induction u generalizing m with
  | nil => simp [vowelCount] at h; omega
  | cons c cs ih =>
    rw [vowelCount_cons] at h
    unfold vowelMask
    by_cases hc : isHarmonyVowel c = true
    · rw [if_pos hc] at h
      rw [if_pos hc]
      by_cases h31 : m ≤ 31
      · obtain ⟨x, h1, h2⟩ := shl1_mask m h31
        rw [h1]
        simp only [Option.bind_eq_bind, Option.bind_some]
        rw [h2]
        exact ih (m + 1) (by omega) (by omega)
      · have : m = 32 := by omega
        subst this
        rfl
    · rw [if_neg hc] at h
      rw [if_neg hc]
      exact ih m hm (by omega)

theorem vowelLoop_feed (an : Analyzer) (w : List Wc) (hw : 0 ∉ w) (v : Nat) (hv : vowelCount w = v) (k pat : Nat)
    (buf : List Wc) (s : SugStatus) (hs : s.word = w) (hb : buf.length = w.length + 1) (hp : 1 ≤ pat)
    (hk : pat + k = 2 ^ v) :
    vowelLoop an v (2 ^ v - 1) (k + 1) pat buf s =
      feed an ((List.range' pat k).map fun pat => flipBits pat 0 w) s := by
  have hmod : ∀ p, p &&& (2 ^ v - 1) = p % 2 ^ v := fun p => Nat.and_two_pow_sub_one_eq_mod p v
  induction k generalizing pat buf s with
  | zero =>
    unfold vowelLoop
    rw [hmod, show pat = 2 ^ v by omega, Nat.mod_self, if_pos rfl]
    rfl
  | succ k ih =>
    unfold vowelLoop
    rw [hmod, Nat.mod_eq_of_lt (by omega), if_neg (by omega), hs, wrList_eq _ _ _ (by simp; omega)]
    simp only [Option.bind_eq_bind, Option.bind_some]
    have e : buf.take 0 ++ (w ++ [0]) ++ buf.drop (0 + (w ++ [0]).length) = [] ++ w ++ [0] := by
      rw [List.drop_eq_nil_of_le (by simp; omega)]; simp
    have hf := flipLoop_eq pat v 0 [] w hw hv
    rw [List.length_nil] at hf
    rw [e, hf]
    simp only [Option.bind_some, List.nil_append]
    rw [List.range'_succ, List.map_cons, feed_cons]
    by_cases hab : s.shouldAbort = true
    · rw [if_pos hab, suggest_abort _ _ _ hab]
      simp only [Option.bind_some, Option.pure_def]
      rw [feed_abort _ _ _ hab]
    · rw [if_neg hab]
      unfold submitBuf
      rw [sub_eq _ _ _ (flipBits_length _ _ _)]
      simp only [Option.bind_eq_bind, Option.bind_some, Option.pure_def]
      cases hsb : suggestForBuffer an s (flipBits pat 0 w) with
      | none => rfl
      | some s' =>
        simp only [Option.bind_some]
        exact ih (pat + 1) _ s' ((suggest_sameTask hsb).1.1.trans hs) (by simp [flipBits_length]) (by omega) (by omega)

theorem genVowelChange_feed (an : Analyzer) (junk : Nat → Wc) (s : SugStatus) (hw : 0 ∉ s.word)
    (hv : vowelCount s.word ≤ 32) : genVowelChange an junk s = feed an (vowelChanges s.word) s := by
  unfold genVowelChange vowelChanges
  have h := vowelMask_ok s.word 0 (by omega)
  rw [show maskOf 0 = 0 by rfl, Nat.zero_add] at h
  rw [h]
  simp only [Option.bind_eq_bind, Option.bind_some]
  by_cases h0 : vowelCount s.word = 0 ∨ vowelCount s.word > 7
  · rw [if_pos h0]
    rcases h0 with h0 | h0
    · rw [h0]; rfl
    · rw [if_pos h0]; rfl
  · rw [if_neg h0, if_neg (fun h => h0 (Or.inr h))]
    have hm : (maskOf (vowelCount s.word)).toNat = 2 ^ vowelCount s.word - 1 := by
      have : ∀ m < 8, (maskOf m).toNat = 2 ^ m - 1 := by decide
      exact this _ (by omega)
    have hpos : 0 < 2 ^ vowelCount s.word := Nat.two_pow_pos _
    rw [hm]
    have := vowelLoop_feed an s.word hw _ rfl (2 ^ vowelCount s.word - 1) 1 (newBuf junk (s.word.length + 1)) s rfl
      (newBuf_length _ _) (by omega) (by omega)
    rw [show 2 ^ vowelCount s.word - 1 + 1 = 2 ^ vowelCount s.word by omega] at this
    exact this

/-! ### Soft hyphens, unchanged word -/

theorem softLoop_eq (u pre post : List Wc) (h : (u.filter (· ≠ 0xAD)).length ≤ post.length) :
    softLoop u pre.length (pre ++ post) = some (pre.length + (u.filter (· ≠ 0xAD)).length,
      pre ++ u.filter (· ≠ 0xAD) ++ post.drop (u.filter (· ≠ 0xAD)).length) := by
  induction u generalizing pre post with
  | nil => simp [softLoop]
  | cons c cs ih =>
    unfold softLoop
    by_cases hc : c = 0xAD
    · rw [if_neg (by simpa using hc), List.filter_cons_of_neg (by simpa using hc)]
      rw [List.filter_cons_of_neg (by simpa using hc)] at h
      exact ih pre post h
    · rw [List.filter_cons_of_pos (by simpa using hc)] at h ⊢
      rw [if_pos hc]
      cases post with
      | nil => simp at h
      | cons x post =>
        rw [wr_mid _ _ _ _ _ rfl]
        simp only [Option.bind_eq_bind, Option.bind_some]
        have := ih (pre ++ [c]) post (by simpa using h)
        rw [List.length_append] at this
        rw [show pre ++ c :: post = pre ++ [c] ++ post by simp]
        simp only [List.length_cons, List.length_nil, Nat.zero_add] at this ⊢
        rw [this]
        simp; omega

theorem filter_shorter (u : List Wc) (h : 0xAD ∈ u) : (u.filter (· ≠ 0xAD)).length < u.length := by
  rw [List.length_filter_lt_length_iff_exists]
  exact ⟨0xAD, h, by simp⟩

theorem genSoftHyphens_feed (an : Analyzer) (junk : Nat → Wc) (s : SugStatus) :
    genSoftHyphens an junk s = feed an (softHyphenRemoval s.word) s := by
  unfold genSoftHyphens softHyphenRemoval
  by_cases h : 0xAD ∈ s.word
  · rw [if_pos h, if_pos h]
    have hl := filter_shorter s.word h
    have := softLoop_eq s.word [] (newBuf junk s.word.length) (by rw [newBuf_length]; omega)
    simp only [List.length_nil, List.nil_append, Nat.zero_add] at this
    rw [this]
    simp only [Option.bind_eq_bind, Option.bind_some]
    obtain ⟨x, post, hp⟩ : ∃ x post, (newBuf junk s.word.length).drop (s.word.filter (· ≠ 0xAD)).length = x :: post := by
      cases hd : (newBuf junk s.word.length).drop (s.word.filter (· ≠ 0xAD)).length with
      | nil =>
        rw [List.drop_eq_nil_iff, newBuf_length] at hd
        omega
      | cons x post => exact ⟨x, post, rfl⟩
    rw [hp, wr_mid _ _ _ _ _ rfl]
    simp only [Option.bind_some]
    rw [sub_eq _ _ _ rfl]
    simp only [Option.bind_some, feed, Option.bind_eq_bind]
    cases suggestForBuffer an s (s.word.filter (· ≠ 0xAD)) <;> rfl
  · rw [if_neg h, if_neg h]; rfl

theorem genCaseChange_feed (an : Analyzer) (s : SugStatus) : genCaseChange an s = feed an [s.word] s := by
  unfold genCaseChange
  simp only [feed, Option.bind_eq_bind]
  cases suggestForBuffer an s s.word <;> rfl

end Verif.Props
