import Verif.Lemmas.HyphRules
import Verif.Props.Hyphenator
/-!
C67: where the Finnish rules place hyphenation points. The specification below uses its own tables of letters, vowel pairs
and consonants, and speaks about the word in lower case.
-/

set_option linter.unusedSimpArgs false
set_option linter.unusedVariables false

namespace Verif.Props

/-! ### Specification -/

/-- The vowels of the rules. -/
def ruleVowels : List Wc := [0x61, 0x65, 0x69, 0x6F, 0x75, 0x79, 0xE4, 0xF6]
/-- The consonants of the rules. -/
def ruleConsonants : List Wc :=
  [0x62, 0x63, 0x64, 0x66, 0x67, 0x68, 0x6A, 0x6B, 0x6C, 0x6D, 0x6E, 0x70, 0x71, 0x72, 0x73, 0x74, 0x76, 0x77, 0x78, 0x7A, 0x161, 0x17E]
/-- Pairs of vowels that always belong to different syllables: ae ao ea eo ia io oa oe ua ue ye eä eö iä iö yä äe öe. -/
def separatePairs : List (Wc × Wc) :=
  [(0x61, 0x65), (0x61, 0x6F), (0x65, 0x61), (0x65, 0x6F), (0x69, 0x61), (0x69, 0x6F), (0x6F, 0x61), (0x6F, 0x65), (0x75, 0x61),
   (0x75, 0x65), (0x79, 0x65), (0x65, 0xE4), (0x65, 0xF6), (0x69, 0xE4), (0x69, 0xF6), (0x79, 0xE4), (0xE4, 0x65), (0xF6, 0x65)]
/-- Diphthongs after which a vowel starts a new syllable: ie, ai. -/
def closedPairs : List (Wc × Wc) := [(0x69, 0x65), (0x61, 0x69)]
/-- Groups of consonants that are not divided: shtsh štš tsh tš zh. -/
def wholeGroups : List (List Wc) :=
  [[0x73, 0x68, 0x74, 0x73, 0x68], [0x161, 0x74, 0x161], [0x74, 0x73, 0x68], [0x74, 0x161], [0x7A, 0x68]]

/-- The word in lower case consists of vowels and consonants. -/
def FinnishWord (word : List Wc) : Prop := ∀ c ∈ word, lower c ∈ ruleVowels ∨ lower c ∈ ruleConsonants

/-- Vowel at `k` of the word in lower case. -/
def VowelAt (x : List Wc) (k : Nat) : Prop := ∃ c, x[k]? = some c ∧ c ∈ ruleVowels
/-- Consonant at `k`. -/
def ConsonantAt (x : List Wc) (k : Nat) : Prop := ∃ c, x[k]? = some c ∧ c ∈ ruleConsonants
/-- The characters at `k` and `k + 1` form one of the pairs. -/
def PairAt (pairs : List (Wc × Wc)) (x : List Wc) (k : Nat) : Prop := ∃ c d, x[k]? = some c ∧ x[k + 1]? = some d ∧ (c, d) ∈ pairs
/-- The same vowel at `k` and `k + 1`. -/
def LongVowelAt (x : List Wc) (k : Nat) : Prop := ∃ c, x[k]? = some c ∧ x[k + 1]? = some c ∧ c ∈ ruleVowels
/-- One of the groups of consonants starts at `k`. -/
def GroupAt (x : List Wc) (k : Nat) : Prop := ∃ g ∈ wholeGroups, g <+: x.drop k
/-- A consonant followed by a vowel at `k`. -/
def OpensSyllable (x : List Wc) (k : Nat) : Prop := ConsonantAt x k ∧ VowelAt x (k + 1)

/-- Reason for a point between two vowels at `k`. -/
inductive BetweenVowels (x : List Wc) (k : Nat) : Prop
  | separate (h : 1 ≤ k) : PairAt separatePairs x (k - 1) → BetweenVowels x k
  | beforeLong (h : 1 ≤ k) : VowelAt x (k - 1) → LongVowelAt x k → BetweenVowels x k
  | afterLong (h : 3 ≤ k) : LongVowelAt x (k - 2) → VowelAt x k → BetweenVowels x k
  | afterClosed (h : 2 ≤ k) : PairAt closedPairs x (k - 2) → VowelAt x k → BetweenVowels x k

/-- Allowed places of points inside a part. -/
def PlaceOk (ugly : Bool) (x : List Wc) (k : Nat) : Prop :=
  OpensSyllable x k ∨ GroupAt x k ∨ (ugly = true ∧ BetweenVowels x k)

/-! ### Links between the specification and the tables of the model -/

theorem ruleVowels_eq : voikkoVowels = ruleVowels := by decide
theorem ruleConsonants_eq : voikkoConsonants = ruleConsonants := by decide
theorem separatePairs_iff {c d : Wc} : [c, d] ∈ splitVowels ↔ (c, d) ∈ separatePairs := by
  have h : splitVowels = separatePairs.map fun p => [p.1, p.2] := by decide
  rw [h]
  simp only [List.mem_map, Prod.exists]
  constructor
  · rintro ⟨a, b, h1, h2⟩
    simp only [List.cons.injEq, and_true] at h2
    obtain ⟨rfl, rfl⟩ := h2; exact h1
  · exact fun h => ⟨c, d, h, rfl⟩
theorem wholeGroups_eq : longConsonants = wholeGroups := by decide

/-- The lower case copy of a part. -/
def lowPart (word : List Wc) (s e : Nat) : List Wc := ((word.map lower).drop s).take (e - s)

theorem lowPart_eq {word : List Wc} {s e : Nat} (he : e ≤ word.length) :
    (((word ++ [0]).drop s).take (e - s)).map lower = lowPart word s e := by
  unfold lowPart
  by_cases hs : s ≤ word.length
  · rw [List.drop_append_of_le_length hs, List.take_append_of_le_length (by simp; omega), List.map_take, List.map_drop]
  · rw [show e - s = 0 by omega]; simp

theorem lowPart_get {word : List Wc} {s e k : Nat} (he : e ≤ word.length) :
    (lowPart word s e ++ [0])[k]? = if k < e - s then (word.map lower)[s + k]? else if k = e - s ∧ s ≤ e then some 0 else
      if k = 0 then some 0 else none := by
  have hl : (lowPart word s e).length = e - s := by unfold lowPart; simp; omega
  by_cases hk : k < e - s
  · rw [if_pos hk, List.getElem?_append_left (by omega)]
    unfold lowPart
    rw [List.getElem?_take_of_lt hk, List.getElem?_drop]
  · rw [if_neg hk, List.getElem?_append_right (by omega), hl]
    by_cases hk2 : k = e - s ∧ s ≤ e
    · rw [if_pos hk2, show k - (e - s) = 0 by omega]; rfl
    · rw [if_neg hk2]
      by_cases hk3 : k = 0
      · subst hk3; rw [show 0 - (e - s) = 0 by omega]; rfl
      · rw [if_neg hk3, List.getElem?_eq_none (by simp; omega)]

/-- A nonzero character of the copy is one of the word. -/
theorem lowPart_some {word : List Wc} {s e k : Nat} {c : Wc} (he : e ≤ word.length) (hc : c ≠ 0) :
    (lowPart word s e ++ [0])[k]? = some c ↔ k < e - s ∧ (word.map lower)[s + k]? = some c := by
  rw [lowPart_get he]
  split
  · rename_i h; exact ⟨fun hx => ⟨h, hx⟩, fun hx => hx.2⟩
  · rename_i h
    constructor
    · intro hx
      split at hx
      · exact absurd (Option.some.inj hx).symm hc
      · split at hx
        · exact absurd (Option.some.inj hx).symm hc
        · cases hx
    · exact fun hx => absurd hx.1 h

theorem vow_link {word : List Wc} {s e k : Nat} (he : e ≤ word.length) :
    vowAt (lowPart word s e ++ [0]) k ↔ k < e - s ∧ VowelAt (word.map lower) (s + k) := by
  constructor
  · rintro ⟨c, h1, h2⟩
    have := (lowPart_some he (vow_ne h2)).1 h1
    exact ⟨this.1, c, this.2, ruleVowels_eq ▸ h2⟩
  · rintro ⟨h, c, h1, h2⟩
    rw [← ruleVowels_eq] at h2
    exact ⟨c, (lowPart_some he (vow_ne h2)).2 ⟨h, h1⟩, h2⟩

theorem con_link {word : List Wc} {s e k : Nat} (he : e ≤ word.length) :
    conAt (lowPart word s e ++ [0]) k ↔ k < e - s ∧ ConsonantAt (word.map lower) (s + k) := by
  constructor
  · rintro ⟨c, h1, h2⟩
    have := (lowPart_some he (con_ne h2)).1 h1
    exact ⟨this.1, c, this.2, ruleConsonants_eq ▸ h2⟩
  · rintro ⟨h, c, h1, h2⟩
    rw [← ruleConsonants_eq] at h2
    exact ⟨c, (lowPart_some he (con_ne h2)).2 ⟨h, h1⟩, h2⟩

theorem letters_link {word : List Wc} (hF : FinnishWord word) {s e : Nat} (he : e ≤ word.length) : LettersUpTo (lowPart word s e ++ [0]) (e - s) := by
  intro k hk
  have hl : s + k < word.length := by omega
  have hg : (word.map lower)[s + k]? = some (lower word[s + k]) := by simp [List.getElem?_eq_getElem hl]
  rcases hF word[s + k] (List.getElem_mem _) with h | h
  · exact .inl ((vow_link he).2 ⟨hk, _, hg, h⟩)
  · exact .inr ((con_link he).2 ⟨hk, _, hg, h⟩)

theorem long_link {word : List Wc} {s e k : Nat} (he : e ≤ word.length) :
    longAt (lowPart word s e ++ [0]) k ↔ k + 1 < e - s ∧ LongVowelAt (word.map lower) (s + k) := by
  constructor
  · rintro ⟨⟨c, h1, h2⟩, h3⟩
    rw [h1] at h3
    have g1 := (lowPart_some he (vow_ne h2)).1 h1
    have g2 := (lowPart_some he (vow_ne h2)).1 h3.symm
    exact ⟨g2.1, c, g1.2, by rw [Nat.add_assoc]; exact g2.2, ruleVowels_eq ▸ h2⟩
  · rintro ⟨h, c, h1, h2, h3⟩
    rw [← ruleVowels_eq] at h3
    have g1 := (lowPart_some (s := s) (e := e) (k := k) he (vow_ne h3)).2 ⟨by omega, h1⟩
    have g2 := (lowPart_some (s := s) (e := e) (k := k + 1) he (vow_ne h3)).2 ⟨h, by rw [← Nat.add_assoc]; exact h2⟩
    exact ⟨⟨c, g1, h3⟩, g1.trans g2.symm⟩

theorem split_link {word : List Wc} {s e k : Nat} (he : e ≤ word.length) :
    splitPairAt (lowPart word s e ++ [0]) k ↔ k + 1 < e - s ∧ PairAt separatePairs (word.map lower) (s + k) := by
  constructor
  · rintro ⟨c, d, h1, h2, h3⟩
    obtain ⟨v1, v2⟩ := splitVowels_vow h3
    have g1 := (lowPart_some he (vow_ne v1)).1 h1
    have g2 := (lowPart_some he (vow_ne v2)).1 h2
    exact ⟨g2.1, c, d, g1.2, by rw [Nat.add_assoc]; exact g2.2, separatePairs_iff.1 h3⟩
  · rintro ⟨h, c, d, h1, h2, h3⟩
    rw [← separatePairs_iff] at h3
    obtain ⟨v1, v2⟩ := splitVowels_vow h3
    exact ⟨c, d, (lowPart_some he (vow_ne v1)).2 ⟨by omega, h1⟩, (lowPart_some he (vow_ne v2)).2 ⟨h, by rw [← Nat.add_assoc]; exact h2⟩, h3⟩

theorem closed_link {word : List Wc} {s e k : Nat} (he : e ≤ word.length) :
    (∃ sa ∈ splitAfter, occursAt sa (lowPart word s e ++ [0]) k) ↔ k + 1 < e - s ∧ PairAt closedPairs (word.map lower) (s + k) := by
  have htab : splitAfter = closedPairs.map fun p => [p.1, p.2] := by decide
  have hne : ∀ p ∈ closedPairs, p.1 ≠ 0 ∧ p.2 ≠ 0 := by decide
  have hocc : ∀ c d : Wc, c ≠ 0 → d ≠ 0 → (occursAt [c, d] (lowPart word s e ++ [0]) k ↔
      k + 1 < e - s ∧ (word.map lower)[s + k]? = some c ∧ (word.map lower)[s + k + 1]? = some d) := by
    intro c d hc hd
    have h1 : occursAt [c, d] (lowPart word s e ++ [0]) k ↔
        (lowPart word s e ++ [0])[k]? = some c ∧ (lowPart word s e ++ [0])[k + 1]? = some d := by
      constructor
      · intro h
        have h0 := occurs_get h 0 (by simp)
        have h1 := occurs_get h 1 (by simp)
        simpa using ⟨h0, h1⟩
      · rintro ⟨h0, h1⟩
        obtain ⟨l0, rfl⟩ := List.getElem?_eq_some_iff.1 h0
        obtain ⟨l1, rfl⟩ := List.getElem?_eq_some_iff.1 h1
        unfold occursAt
        rw [List.drop_eq_getElem_cons l0, List.drop_eq_getElem_cons l1]
        rfl
    rw [h1, lowPart_some he hc, lowPart_some he hd, Nat.add_assoc]
    constructor
    · rintro ⟨⟨a, b⟩, c, d⟩; exact ⟨c, b, d⟩
    · rintro ⟨a, b, c⟩; exact ⟨⟨by omega, b⟩, a, c⟩
  rw [htab]
  constructor
  · rintro ⟨sa, hsa, ho⟩
    obtain ⟨p, hp, rfl⟩ := List.mem_map.1 hsa
    obtain ⟨h1, h2, h3⟩ := (hocc p.1 p.2 (hne p hp).1 (hne p hp).2).1 ho
    exact ⟨h1, p.1, p.2, h2, h3, hp⟩
  · rintro ⟨h1, c, d, h2, h3, hp⟩
    exact ⟨[c, d], List.mem_map.2 ⟨(c, d), hp, rfl⟩, (hocc c d (hne _ hp).1 (hne _ hp).2).2 ⟨h1, h2, h3⟩⟩

theorem group_link {word : List Wc} {s e k : Nat} (he : e ≤ word.length) (g : List Wc) (hg : g ∈ longConsonants)
    (h : occursAt g (lowPart word s e ++ [0]) k) : GroupAt (word.map lower) (s + k) := by
  refine ⟨g, wholeGroups_eq ▸ hg, ?_⟩
  have hget : ∀ j, j < g.length → ((word.map lower).drop (s + k))[j]? = g[j]? := by
    intro j hj
    have h1 := occurs_get h j hj
    rw [List.getElem?_eq_getElem hj] at h1 ⊢
    have hne : g[j] ≠ 0 := con_ne (longConsonants_con g hg _ (List.getElem_mem _))
    rw [List.getElem?_drop, Nat.add_assoc]
    exact ((lowPart_some he hne).1 h1).2
  rw [List.prefix_iff_eq_take]
  apply List.ext_getElem?
  intro j
  rcases Nat.lt_or_ge j g.length with hj | hj
  · rw [List.getElem?_take_of_lt hj, hget j hj]
  · rw [List.getElem?_eq_none hj, List.getElem?_eq_none (by simp; omega)]

/-! ### All words of letters -/

/-- A vowel is found from `i` in both directions before the next point of `r`. -/
structure Syllables (x r : List Wc) (i : Nat) : Prop where
  before : ∃ j, j < i ∧ VowelAt x j ∧ ∀ k, j < k → k < i → r[k]? = some 0x20
  after : ∃ j, i ≤ j ∧ VowelAt x j ∧ ∀ k, i < k → k ≤ j → r[k]? = some 0x20

theorem notDot {word : List Wc} (hF : FinnishWord word) (c : Wc) (h1 : lower c ∉ ruleVowels) (h2 : lower c ∉ ruleConsonants) : c ∉ word := by
  intro h
  rcases hF c h with h | h
  · exact h1 h
  · exact h2 h

theorem finnish_no_zero {word : List Wc} (hF : FinnishWord word) : 0 ∉ word := notDot hF 0 (by decide) (by decide)

theorem finnish_no_cut {word : List Wc} (hF : FinnishWord word) (o : HyphOpts) (an : Analyzer) : dotCut o an word = false := by
  have h : 0x2E ∉ word := notDot hF _ (by decide) (by decide)
  unfold dotCut
  have : (word.getLast? == some 0x2E) = false := by
    rw [Bool.eq_false_iff]
    intro hx
    rw [beq_iff_eq] at hx
    exact h (List.mem_of_getLast? hx)
  rw [this, Bool.and_false]

theorem pt_of_nonblank {n m : Nat} {q r : List Wc} {s k : Nat} (hq : PatOk m q) (hk : blankAt q k = false) (hkm : k < m) (hs : s < k) (hkn : k - s < n)
    (he : q[k]? = r[k - s]?) : ptAt n r (k - s) := by
  refine ⟨by omega, hkn, ?_⟩
  rw [← he]
  obtain ⟨b, rfl, hl, hc⟩ := hq
  have hkb : k < b.length := by omega
  have hb := hc b[k] (List.getElem_mem _)
  rw [List.getElem?_append_left hkb, List.getElem?_eq_getElem hkb]
  have hbl : blankAt (b ++ [0]) k = false := hk
  simp only [blankAt, List.getElem?_append_left hkb, List.getElem?_eq_getElem hkb, Bool.or_eq_false_iff, beq_eq_false_iff_ne, ne_eq,
    Option.some.injEq] at hbl
  unfold PatChar at hb
  rcases hb with h | h | h | h <;> simp_all

/-- C67 for all words of letters and all analysers: at a point of the result, in every reading (pattern of compound borders)
where it is not a border, the place is one of the places of the rules, and each of the two syllables has a vowel. -/
theorem C67_syllables (o : HyphOpts) (an : Analyzer) (word r : List Wc) (hF : FinnishWord word) (hmin : o.minLength ≤ word.length)
    (h : hyphenateUcs4 o an word = some (some r)) :
    ∃ pats, splitCompounds o an word = some (some (pats, false)) ∧
      ∀ i < word.length, r[i]? ≠ some 0x20 → ∀ p ∈ pats, blankAt p i = true →
        Syllables (word.map lower) r i ∧ PlaceOk o.ugly (word.map lower) i ∧ (o.ugly = false → 2 ≤ i ∧ i + 1 < word.length) := by
  have h0 := finnish_no_zero hF
  obtain ⟨hv, all, e⟩ := defined_cases intersectHyph o an word r hmin h
  obtain ⟨pats, rs, hr, e4, e2⟩ := hyphenateWith_of intersectHyph o an word hv h0 hmin all e
  rw [finnish_no_cut hF] at e4
  refine ⟨pats, e4, ?_⟩
  rw [show hyphenateUcs4 o an word = _ from e2, Option.map_eq_some_iff] at h
  obtain ⟨r', e3, h4⟩ := h
  rw [Option.some.injEq] at h4
  subst h4
  obtain ⟨hrl, hrc, hpt⟩ := intersect_char hr.ne hr.ok e3
  intro i hi hne p hp hbl
  obtain ⟨q, hq, hpq⟩ := forall₂_mem_left hr.rules p hp
  have hqok := hr.ok q hq
  have hqb := (hpt i hi).1 hne q hq
  have hu : usedLen o an word = word.length := by unfold usedLen; rw [finnish_no_cut hF]; simp
  have hpl := patOk_length (hr.split.ok p hp)
  rw [hu] at hpq
  rcases compound_inside (take_word_ne h0 _ (Nat.le_refl _)) (by simp) (by omega) hpq i with hx | ⟨s, e, q', h1, h2, h3, h5, h6, h7, h8⟩
  · rw [blankAt_congr hx] at hqb
    rw [hqb] at hbl; cases hbl
  · -- the rules of the part
    have hwd := lowPart_eq (word := word) (s := s) (e := e) h3
    have hL := letters_link hF (s := s) h3
    have hpts : ∀ k, ¬ ptAt (e - s) (p.drop s) k := by
      rintro k ⟨k1, k2, k3⟩
      have := h6 (s + k) (by omega) (by omega)
      rw [List.getElem?_drop] at k3
      simp only [blankAt, Bool.or_eq_true, beq_iff_eq] at this
      rcases k3 with k3 | k3 <;> rw [k3] at this <;> simp at this
    have hpl' := rule_pl (by rw [hwd]; exact hL) (by simp; omega) hpts h7
    rw [hwd] at hpl'
    have hptq : ∀ k, s < k → k < e → r'[k]? ≠ some 0x20 → ptAt (e - s) q' (k - s) := by
      intro k k1 k2 k3
      exact pt_of_nonblank hqok ((hpt k (by omega)).1 k3 q hq) (by omega) k1 (by omega) (h8 k k1 k2)
    have hi' := hptq i h1 h2 hne
    have hrblank : ∀ k, k < word.length → ¬ r'[k]? ≠ some 0x20 → r'[k]? = some 0x20 := fun k _ h => Classical.byContradiction h
    obtain ⟨_, _, ⟨j1, a1, a2, a3⟩, ⟨j2, b1, b2, b3, b4⟩⟩ := hpl'.syl _ hi'
    rw [vow_link h3] at a2 b3
    have hplace := hpl'.pl _ hi'
    have hcv : cvAt (lowPart word s e ++ [0]) (e - s) (i - s) → OpensSyllable (word.map lower) i := by
      rintro ⟨c1, c2, c3, _⟩
      rw [con_link h3] at c2
      rw [vow_link h3] at c3
      refine ⟨?_, ?_⟩
      · have := c2.2; rw [show s + (i - s) = i by omega] at this; exact this
      · have := c3.2; rw [show s + (i - s + 1) = i + 1 by omega] at this; exact this
    have hgr : lcAt (lowPart word s e ++ [0]) (e - s) (i - s) → GroupAt (word.map lower) i := by
      rintro ⟨g, hg, ho, _⟩
      have := group_link h3 g hg ho
      rw [show s + (i - s) = i by omega] at this; exact this
    refine ⟨⟨⟨s + j1, by omega, a2.2, fun k k1 k2 => hrblank k (by omega) fun hk => ?_⟩,
      ⟨s + j2, by omega, b3.2, fun k k1 k2 => hrblank k (by omega) fun hk => ?_⟩⟩, ?_, ?_⟩
    · exact a3 (k - s) (by omega) (by omega) (hptq k (by omega) (by omega) hk)
    · exact b4 (k - s) (by omega) (by omega) (hptq k (by omega) (by omega) hk)
    · cases hug : o.ugly with
      | false =>
        rw [hug] at hplace
        obtain ⟨_, _, hx | hx⟩ : 2 ≤ i - s ∧ i - s + 1 < e - s ∧ _ := hplace
        · exact .inl (hcv hx)
        · exact .inr (.inl (hgr hx))
      | true =>
        rw [hug] at hplace
        rcases (show exPts _ _ _ ∨ saAt _ _ from hplace) with (hx | hx | hx | hx) | hx
        · exact .inl (hcv hx)
        · obtain ⟨c1, c2, c3, c4⟩ := hx
          rw [vow_link h3] at c2 c3
          have c2' := c2.2
          have c3' := c3.2
          rw [show s + (i - s - 1) = i - 1 by omega] at c2'
          rw [show s + (i - s) = i by omega] at c3'
          rcases c4 with c4 | ⟨c5, c4⟩
          · rw [long_link h3] at c4
            have := c4.2
            rw [show s + (i - s) = i by omega] at this
            exact .inr (.inr ⟨rfl, .beforeLong (by omega) c2' this⟩)
          · rw [long_link h3] at c4
            have := c4.2
            rw [show s + (i - s - 2) = i - 2 by omega] at this
            exact .inr (.inr ⟨rfl, .afterLong (by omega) this c3'⟩)
        · obtain ⟨c1, c2⟩ := hx
          rw [split_link h3] at c2
          have := c2.2
          rw [show s + (i - s - 1) = i - 1 by omega] at this
          exact .inr (.inr ⟨rfl, .separate (by omega) this⟩)
        · exact .inr (.inl (hgr hx))
        · obtain ⟨c1, c2, c3⟩ := hx
          rw [closed_link h3] at c3
          rw [vow_link h3] at c2
          have c2' := c2.2
          have c3' := c3.2
          rw [show s + (i - s) = i by omega] at c2'
          rw [show s + (i - s - 2) = i - 2 by omega] at c3'
          exact .inr (.inr ⟨rfl, .afterClosed (by omega) c3' c2'⟩)
    · intro hug
      rw [hug] at hplace
      obtain ⟨c1, c2, _⟩ : 2 ≤ i - s ∧ i - s + 1 < e - s ∧ _ := hplace
      omega


/-! ### Words without compound borders -/

/-- STRUCTURE of a word of `n` letters with no border, hyphen or forbidden place. -/
def PlainStructure (n : Nat) (a : MorAn) : Prop :=
  ∃ t : List Wc, a.struct = some (0x3D :: t) ∧ t.length = n ∧ ∀ c ∈ t, c ≠ 0 ∧ c ≠ 0x2D ∧ c ≠ 0x3D ∧ c ≠ 0x6A ∧ c ≠ 0x71

/-- The word is one part: it is unknown and unknown words are hyphenated, or all its analyses are of one part. -/
def OnePart (o : HyphOpts) (an : Analyzer) (word : List Wc) : Prop :=
  (an word = [] ∧ o.hyphenateUnknown = true) ∨ (an word ≠ [] ∧ ∀ a ∈ an word, PlainStructure word.length a)

theorem interpretLoop_plain : ∀ (t : List Wc) (first : Bool), (∀ c ∈ t, c ≠ 0 ∧ c ≠ 0x2D ∧ c ≠ 0x3D ∧ c ≠ 0x6A ∧ c ≠ 0x71) →
    interpretLoop t.length first (t ++ [0]) = some (List.replicate t.length 0x20) := by
  intro t
  induction t with
  | nil => intro _ _; rfl
  | cons c t ih =>
    intro first h
    obtain ⟨h1, h2, h3, h4, h5⟩ := h c (by simp)
    have := ih false (fun c hc => h c (by simp [hc]))
    unfold interpretLoop
    simp [rd, h1, h2, h3, h4, h5, this, List.replicate_succ]

theorem interpret_plain {n : Nat} {a : MorAn} (h : PlainStructure n a) : interpretAnalysis a n = some (List.replicate n 0x20) := by
  obtain ⟨t, h1, rfl, h3⟩ := h
  unfold interpretAnalysis
  have : a.structCells = some (0x3D :: t ++ [0]) := by simp [MorAn.structCells, h1]
  rw [this]
  have h4 := interpretLoop_plain t true h3
  simpa [rd] using h4

theorem interpretAll_plain {n : Nat} : ∀ (as : List MorAn), (∀ a ∈ as, PlainStructure n a) →
    interpretAll n false as = some (as.map fun _ => List.replicate n 0x20 ++ [0]) := by
  intro as
  induction as with
  | nil => intro _; rfl
  | cons a as ih =>
    intro h
    unfold interpretAll
    have h1 := interpret_plain (h a (by simp))
    simp only [Bool.false_eq_true, if_false, Nat.sub_zero, h1, ih (fun b hb => h b (by simp [hb]))]
    rfl

theorem finnish_nonword {word : List Wc} (hF : FinnishWord word) (k : Nat) : isNonword (word.take k) = some false := by
  obtain ⟨b, h1, h2⟩ := C29_exact (word.take k)
  rw [h1]
  cases b with
  | false => rfl
  | true =>
    exfalso
    have hm : ∀ (q : Nat) (c : Wc), (word.take k)[q]? = some c → c ∈ word := fun q c h => List.mem_of_mem_take (List.mem_of_getElem? h)
    have n1 : 0x2F ∉ word := notDot hF _ (by decide) (by decide)
    have n2 : 0x40 ∉ word := notDot hF _ (by decide) (by decide)
    have n3 : 0x2E ∉ word := notDot hF _ (by decide) (by decide)
    obtain ⟨h4, hh⟩ := h2.1 rfl
    rcases hh with ⟨p, q, p1, p2, _⟩ | ⟨p, q, p1, p2, _⟩ | ⟨w7, ww, w4, q, q1, q2, q3⟩
    · exact n1 (hm _ _ p2)
    · exact n2 (hm _ _ p2)
    · first
        | exact n3 (hm _ _ q3)
        | exact n3 (hm _ _ w4)

theorem finnish_allow {word : List Wc} (hF : FinnishWord word) (hn : 2 ≤ word.length) (ugly : Bool) (rest : List Wc) :
    allowRule ugly (word ++ rest) word.length = some true := by
  unfold allowRule
  rw [if_neg (by omega)]
  cases ugly with
  | true => rfl
  | false =>
    simp only [Bool.not_false, if_true]
    have hl : word.length - 1 < word.length := by omega
    have htk : (word ++ rest).take word.length = word.take word.length := by
      rw [List.take_append_of_le_length (Nat.le_refl _)]
    rw [if_neg (by simp), htk, finnish_nonword hF]
    have hrd : rd (word ++ rest) (word.length - 1) = some word[word.length - 1] := by
      unfold rd
      rw [List.getElem?_append_left hl, List.getElem?_eq_getElem hl]
    simp only [Option.bind_eq_bind, Option.bind_some, Bool.false_eq_true, if_false, hrd]
    have hmem : word[word.length - 1] ∈ word := List.getElem_mem _
    generalize word[word.length - 1] = c at hmem
    have key : ∀ c : Nat, 0x30 ≤ c → c ≤ 0x39 → lower c ∉ ruleVowels ∧ lower c ∉ ruleConsonants := by
      intro c h1 h2
      obtain ⟨d, rfl⟩ : ∃ d, c = 0x30 + d := ⟨c - 0x30, by omega⟩
      have h3 : d < 10 := by omega
      clear h1 h2
      revert d
      decide
    have : ¬ (0x30 ≤ c ∧ c ≤ 0x39) := fun hx => notDot hF c (key c hx.1 hx.2).1 (key c hx.1 hx.2).2 hmem
    show some (!(decide (0x30 ≤ c) && decide (c ≤ 0x39))) = some true
    congr 1
    simp only [Bool.not_eq_true', Bool.and_eq_false_iff, decide_eq_false_iff_not]
    omega

theorem unknown_plain {o : HyphOpts} {word : List Wc} (hF : FinnishWord word) (hn : 2 ≤ word.length) (hu : o.hyphenateUnknown = true) :
    unknownPattern o word = some (List.replicate word.length 0x20 ++ [0]) := by
  have hd : 0x2D ∉ word := notDot hF _ (by decide) (by decide)
  unfold unknownPattern
  have := finnish_allow hF hn o.ugly []
  rw [List.append_nil] at this
  rw [this]
  simp only [Option.bind_eq_bind, Option.bind_some, hu, if_true, Option.pure_def]
  congr 2
  apply List.ext_getElem
  · simp
  · intro i h1 h2
    have hc : word[i]'(by simpa using h1) ≠ 0x2D := fun hx => hd (hx ▸ List.getElem_mem _)
    simp [hc]

theorem partsOf_blank {hy : List Wc} {len : Nat} (hb : ∀ k, k < len → blankAt hy k = true) : ∀ k s e, s < e → e ≤ len → len ≤ e + k →
    partsOf hy len k s e = [(s, len)] := by
  intro k
  induction k with
  | zero =>
    intro s e h1 h2 h3
    unfold partsOf
    have : e = len := by omega
    subst this
    rw [if_pos ⟨rfl, h1⟩]
  | succ k ih =>
    intro s e h1 h2 h3
    unfold partsOf
    by_cases h : e < len
    · rw [if_pos h, hb e h, if_pos rfl]
      exact ih s (e + 1) (by omega) (by omega) (by omega)
    · have : e = len := by omega
      subst this
      rw [if_neg (by omega), if_pos ⟨rfl, h1⟩]

theorem blank_cell {n k : Nat} (h : k < n) : (List.replicate n (0x20 : Nat) ++ [0])[k]? = some 0x20 := by
  rw [List.getElem?_append_left (by simpa using h), List.getElem?_replicate, if_pos h]

/-- The result for a word of one part is given by the rules for the whole word. -/
theorem onePart_rules {o : HyphOpts} {an : Analyzer} {word r : List Wc} (hF : FinnishWord word) (hn : 2 ≤ word.length)
    (hmin : o.minLength ≤ word.length) (ho : OnePart o an word) (h : hyphenateUcs4 o an word = some (some r)) :
    ∃ q, ruleHyphenation o.ugly (word ++ [0]) (List.replicate word.length 0x20 ++ [0]) word.length = some q ∧
      ∀ i < word.length, (r[i]? ≠ some 0x20 ↔ ptAt word.length q i) := by
  have h0 := finnish_no_zero hF
  obtain ⟨hv, all, e⟩ := defined_cases intersectHyph o an word r hmin h
  obtain ⟨pats, rs, hr, e4, e2⟩ := hyphenateWith_of intersectHyph o an word hv h0 hmin all e
  rw [show hyphenateUcs4 o an word = _ from e2, Option.map_eq_some_iff] at h
  obtain ⟨r', e3, h4⟩ := h
  rw [Option.some.injEq] at h4
  subst h4
  obtain ⟨hrl, hrc, hpt⟩ := intersect_char hr.ne hr.ok e3
  have hcut := finnish_no_cut hF o an
  have hu : usedLen o an word = word.length := by unfold usedLen; rw [hcut]; simp
  have hpats : ∀ p ∈ pats, p = List.replicate word.length 0x20 ++ [0] := by
    rw [hcut] at e
    have hused : usedAnalyses o an word = (an word).take 31 := by unfold usedAnalyses; rw [hcut]; simp
    rw [hused] at e
    rcases ho with ⟨h1, h2⟩ | ⟨h1, h2⟩
    · rw [h1] at e
      have hall : all = [] := (Option.some.inj e).symm
      obtain ⟨p, hp, hps⟩ := hr.split.unknown hall
      rw [unknown_plain hF hn h2] at hp
      cases hp
      intro p hp
      rw [hps, List.mem_singleton] at hp
      exact hp
    · rw [interpretAll_plain _ (fun a ha => h2 a (List.mem_of_mem_take ha))] at e
      have hall := (Option.some.inj e).symm
      intro p hp
      have hne : all ≠ [] := by
        rw [hall]
        simp [h1]
      have := hr.split.sub hne p hp
      rw [hall] at this
      obtain ⟨_, _, rfl⟩ := List.mem_map.1 this
      rfl
  have hcomp : compoundHyphenation o.ugly o.minLength (word ++ [0]) word.length (List.replicate word.length 0x20 ++ [0]) =
      ruleHyphenation o.ugly (word ++ [0]) (List.replicate word.length 0x20 ++ [0]) word.length := by
    rw [compoundHyphenation_eq o.ugly o.minLength (word ++ [0]) word.length _ (take_word_ne h0 _ (Nat.le_refl _)) (by simp) (by simp)]
    have hle : leadingEq (List.replicate word.length 0x20 ++ [0]) word.length = 0 := by
      unfold leadingEq
      rw [List.take_append_of_le_length (by simp), List.take_replicate, Nat.min_self]
      obtain ⟨m, hm⟩ : ∃ m, word.length = m + 1 := ⟨word.length - 1, by omega⟩
      rw [hm, List.replicate_succ]
      rfl
    rw [hle, partsOf_blank (fun k hk => by simp [blankAt, blank_cell hk]) word.length 0 1 (by omega) (by omega) (by omega)]
    simp only [foldParts]
    rw [if_pos (by omega)]
    unfold ruleAt
    simp only [List.drop_zero, List.take_zero, List.nil_append, Nat.sub_zero, Option.bind_eq_bind, Option.pure_def]
    cases ruleHyphenation o.ugly (word ++ [0]) (List.replicate word.length 0x20 ++ [0]) word.length <;> rfl
  obtain ⟨q, hq⟩ : ∃ q, q ∈ rs := List.exists_mem_of_ne_nil _ hr.ne
  have hrs : ∀ q ∈ rs, ruleHyphenation o.ugly (word ++ [0]) (List.replicate word.length 0x20 ++ [0]) word.length = some q := by
    intro q hq
    obtain ⟨p, hp, hpq⟩ := forall₂_mem_right hr.rules q hq
    rw [hpats p hp, hu, hcomp] at hpq
    exact hpq
  refine ⟨q, hrs q hq, fun i hi => ?_⟩
  rw [hpt i hi]
  have hq0 : blankAt q 0 = true := by
    obtain ⟨p, hp, hpq⟩ := forall₂_mem_right hr.rules q hq
    rw [hpats p hp, hu] at hpq
    obtain ⟨x, f1, _, f3, _⟩ := compound_spec o.ugly o.minLength (word ++ [0]) word.length (List.replicate word.length 0x20 ++ [0])
      (take_word_ne h0 _ (Nat.le_refl _)) (by simp) (by simp)
    rw [f1] at hpq
    cases hpq
    unfold blankAt
    rw [f3, blank_cell (show 0 < word.length by omega)]
    rfl
  constructor
  · intro hall
    have hb := hall q hq
    have hi0 : 0 < i := by
      rcases Nat.eq_zero_or_pos i with h | h
      · subst h; rw [hq0] at hb; cases hb
      · exact h
    have := pt_of_nonblank (n := word.length) (s := 0) (r := q) (hr.ok q hq) hb hi hi0 (by omega) rfl
    exact this
  · intro hp q' hq'
    have : q' = q := Option.some.inj ((hrs q' hq').symm.trans (hrs q hq))
    subst this
    obtain ⟨_, _, h | h⟩ := hp <;> simp [blankAt, h]

/-- The lower case copy of the whole word. -/
theorem whole_low (word : List Wc) : lowPart word 0 word.length = word.map lower := by
  unfold lowPart
  rw [List.drop_zero, Nat.sub_zero]
  exact List.take_of_length_le (by simp)

theorem whole_eq (word : List Wc) : (((word ++ [0]).take word.length).map lower) = lowPart word 0 word.length := by
  have := lowPart_eq (word := word) (s := 0) (Nat.le_refl word.length)
  simpa using this

theorem noLong_link {word : List Wc} (h : ∀ k, ¬ GroupAt (word.map lower) k) : NoLong (lowPart word 0 word.length ++ [0]) := by
  intro g hg i ho
  exact h (0 + i) (group_link (Nat.le_refl _) g hg ho)

theorem cv_link {word : List Wc} {k : Nat} : cvAt (lowPart word 0 word.length ++ [0]) word.length k ↔
    OpensSyllable (word.map lower) k ∧ ∃ j, j < k ∧ VowelAt (word.map lower) j := by
  have hv : ∀ k, vowAt (lowPart word 0 word.length ++ [0]) k ↔ k < word.length ∧ VowelAt (word.map lower) k := by
    intro k; have := vow_link (word := word) (s := 0) (k := k) (Nat.le_refl word.length); simpa using this
  have hc : ∀ k, conAt (lowPart word 0 word.length ++ [0]) k ↔ k < word.length ∧ ConsonantAt (word.map lower) k := by
    intro k; have := con_link (word := word) (s := 0) (k := k) (Nat.le_refl word.length); simpa using this
  have hlt : ∀ k, VowelAt (word.map lower) k → k < word.length := by
    rintro k ⟨c, h, _⟩
    have := (List.getElem?_eq_some_iff.1 h).1
    simpa using this
  unfold cvAt OpensSyllable
  constructor
  · rintro ⟨h1, h2, h3, j, h4, h5⟩
    exact ⟨⟨((hc k).1 h2).2, ((hv _).1 h3).2⟩, j, h4, ((hv j).1 h5).2⟩
  · rintro ⟨⟨h1, h2⟩, j, h3, h4⟩
    have := hlt _ h2
    exact ⟨this, (hc k).2 ⟨by omega, h1⟩, (hv _).2 ⟨this, h2⟩, j, h3, (hv j).2 ⟨by omega, h4⟩⟩

/-- C67, exact result when ugly points are not allowed: a word of letters that is one part, without the groups of
consonants, is hyphenated exactly before every consonant followed by a vowel that has a vowel before it, except after the
first letter. -/
theorem C67_exact_pretty (o : HyphOpts) (an : Analyzer) (word r : List Wc) (hF : FinnishWord word) (hn : 2 ≤ word.length)
    (hmin : o.minLength ≤ word.length) (hug : o.ugly = false) (ho : OnePart o an word) (hno : ∀ k, ¬ GroupAt (word.map lower) k)
    (h : hyphenateUcs4 o an word = some (some r)) :
    ∀ i < word.length, (r[i]? ≠ some 0x20 ↔
      2 ≤ i ∧ OpensSyllable (word.map lower) i ∧ ∃ j, j < i ∧ VowelAt (word.map lower) j) := by
  obtain ⟨q, hq, hiff⟩ := onePart_rules hF hn hmin ho h
  rw [hug] at hq
  intro i hi
  rw [hiff i hi, rule_pretty_exact (w := lowPart word 0 word.length ++ [0]) (by rw [whole_eq])
    (by have := letters_link hF (s := 0) (Nat.le_refl word.length); simpa using this) hn (by simp) (by simp)
    (fun k hk => blank_cell hk) (finnish_allow hF hn _ _) (noLong_link hno) hq i, cv_link]

/-- C67, points that are always present when ugly points are allowed, in a word of letters that is one part and has none of
the groups of consonants: before every consonant followed by a vowel that has a vowel before it; between the separate pairs
of vowels; before and after a long vowel and after `ie` and `ai` where vowels meet. The last three have exceptions when
several of them overlap, and for a long vowel at the very start. -/
theorem C67_complete_ugly (o : HyphOpts) (an : Analyzer) (word r : List Wc) (hF : FinnishWord word) (hn : 2 ≤ word.length)
    (hmin : o.minLength ≤ word.length) (hug : o.ugly = true) (ho : OnePart o an word) (hno : ∀ k, ¬ GroupAt (word.map lower) k)
    (h : hyphenateUcs4 o an word = some (some r)) :
    (∀ i < word.length, OpensSyllable (word.map lower) i → (∃ j, j < i ∧ VowelAt (word.map lower) j) → r[i]? ≠ some 0x20) ∧
    (∀ i < word.length, 1 ≤ i → PairAt separatePairs (word.map lower) (i - 1) → r[i]? ≠ some 0x20) ∧
    (∀ i, 2 ≤ i → LongVowelAt (word.map lower) i → VowelAt (word.map lower) (i - 1) → (word.map lower)[i - 1]? ≠ (word.map lower)[i]? →
      ¬ (4 ≤ i ∧ LongVowelAt (word.map lower) (i - 3)) → r[i]? ≠ some 0x20) ∧
    (∀ i, 3 ≤ i → i + 1 < word.length → LongVowelAt (word.map lower) (i - 2) → VowelAt (word.map lower) i →
      (word.map lower)[i]? ≠ (word.map lower)[i - 1]? → ¬ (4 ≤ i ∧ LongVowelAt (word.map lower) (i - 3)) → r[i]? ≠ some 0x20) ∧
    (∀ i, 2 ≤ i → i + 1 < word.length → PairAt closedPairs (word.map lower) (i - 2) → VowelAt (word.map lower) i →
      ¬ LongVowelAt (word.map lower) (i - 1) → ¬ (4 ≤ i ∧ LongVowelAt (word.map lower) (i - 3)) →
      ¬ (3 ≤ i ∧ PairAt closedPairs (word.map lower) (i - 3)) → r[i]? ≠ some 0x20) := by
  obtain ⟨q, hq, hiff⟩ := onePart_rules hF hn hmin ho h
  rw [hug] at hq
  obtain ⟨c1, c2, c3, c4, c5⟩ := rule_ugly_complete (w := lowPart word 0 word.length ++ [0]) (by rw [whole_eq])
    (by have := letters_link hF (s := 0) (Nat.le_refl word.length); simpa using this) hn (by simp) (by simp)
    (fun k hk => blank_cell hk) (finnish_allow hF hn _ _) (noLong_link hno) hq
  have hv : ∀ k, vowAt (lowPart word 0 word.length ++ [0]) k ↔ k < word.length ∧ VowelAt (word.map lower) k := by
    intro k; have := vow_link (word := word) (s := 0) (k := k) (Nat.le_refl word.length); simpa using this
  have hlv : ∀ k, longAt (lowPart word 0 word.length ++ [0]) k ↔ k + 1 < word.length ∧ LongVowelAt (word.map lower) k := by
    intro k; have := long_link (word := word) (s := 0) (k := k) (Nat.le_refl word.length); simpa using this
  have hsp : ∀ k, splitPairAt (lowPart word 0 word.length ++ [0]) k ↔ k + 1 < word.length ∧ PairAt separatePairs (word.map lower) k := by
    intro k; have := split_link (word := word) (s := 0) (k := k) (Nat.le_refl word.length); simpa using this
  have hcl : ∀ k, (∃ sa ∈ splitAfter, occursAt sa (lowPart word 0 word.length ++ [0]) k) ↔
      k + 1 < word.length ∧ PairAt closedPairs (word.map lower) k := by
    intro k; have := closed_link (word := word) (s := 0) (k := k) (Nat.le_refl word.length); simpa using this
  have hget : ∀ k, k < word.length → (lowPart word 0 word.length ++ [0])[k]? = (word.map lower)[k]? := by
    intro k hk
    rw [whole_low, List.getElem?_append_left (by simpa using hk)]
  have hlt : ∀ k, LongVowelAt (word.map lower) k → k + 1 < word.length := by
    rintro k ⟨c, _, h, _⟩
    have := (List.getElem?_eq_some_iff.1 h).1
    simpa using this
  refine ⟨fun i hi h1 h2 => ?_, fun i hi h1 h2 => ?_, fun i h1 h2 h3 h4 h5 => ?_, fun i h1 h2 h3 h4 h5 h6 => ?_, fun i h1 h2 h3 h4 h5 h6 h7 => ?_⟩
  · exact (hiff i hi).2 (c1 i (cv_link.2 ⟨h1, h2⟩))
  · exact (hiff i hi).2 (c2 i hi ⟨h1, (hsp _).2 ⟨by omega, h2⟩⟩)
  · have hi := hlt i h2
    refine (hiff i (by omega)).2 (c3 i h1 hi ((hlv i).2 ⟨hi, h2⟩) ((hv _).2 ⟨by omega, h3⟩) ?_ ?_)
    · rw [hget _ (by omega), hget _ (by omega)]; exact h4
    · exact fun hx => h5 ⟨hx.1, ((hlv _).1 hx.2).2⟩
  · refine (hiff i (by omega)).2 (c4 i h1 h2 ((hlv _).2 ⟨hlt _ h3, h3⟩) ((hv _).2 ⟨by omega, h4⟩) ?_ ?_)
    · rw [hget _ (by omega), hget _ (by omega)]; exact h5
    · exact fun hx => h6 ⟨hx.1, ((hlv _).1 hx.2).2⟩
  · refine (hiff i (by omega)).2 (c5 i h2 ⟨h1, (hv i).2 ⟨by omega, h4⟩, (hcl _).2 ⟨by omega, h3⟩⟩ ?_ ?_ ?_)
    · exact fun hx => h5 ((hlv _).1 hx).2
    · exact fun hx => h6 ⟨hx.1, ((hlv _).1 hx.2).2⟩
    · exact fun hx => h7 ⟨hx.1, ((hcl _).1 hx.2).2⟩

/-- C67, exact result when ugly points are allowed, for words without three consecutive vowels. -/
theorem C67_exact_ugly (o : HyphOpts) (an : Analyzer) (word r : List Wc) (hF : FinnishWord word) (hn : 2 ≤ word.length)
    (hmin : o.minLength ≤ word.length) (hug : o.ugly = true) (ho : OnePart o an word) (hno : ∀ k, ¬ GroupAt (word.map lower) k)
    (h3 : ∀ k, ¬ (VowelAt (word.map lower) k ∧ VowelAt (word.map lower) (k + 1) ∧ VowelAt (word.map lower) (k + 2)))
    (h : hyphenateUcs4 o an word = some (some r)) :
    ∀ i < word.length, (r[i]? ≠ some 0x20 ↔
      (OpensSyllable (word.map lower) i ∧ ∃ j, j < i ∧ VowelAt (word.map lower) j) ∨
      (1 ≤ i ∧ PairAt separatePairs (word.map lower) (i - 1))) := by
  obtain ⟨c1, c2, _⟩ := C67_complete_ugly o an word r hF hn hmin hug ho hno h
  intro i hi
  constructor
  · intro hne
    obtain ⟨q, hq, hiff⟩ := onePart_rules hF hn hmin ho h
    have hL : LettersUpTo (lowPart word 0 word.length ++ [0]) word.length := by
      have := letters_link hF (s := 0) (Nat.le_refl word.length); simpa using this
    have hpl := rule_pl (by rw [whole_eq]; exact hL) (by simp) (fun k hk => by
      obtain ⟨h1, h2, h3⟩ := hk
      rw [blank_cell h2] at h3
      simp at h3) hq
    rw [whole_eq] at hpl
    have hp := hpl.pl i ((hiff i hi).1 hne)
    rw [hug] at hp
    have hlongv : ∀ k, LongVowelAt (word.map lower) k → VowelAt (word.map lower) k ∧ VowelAt (word.map lower) (k + 1) :=
      fun k ⟨c, a, b, d⟩ => ⟨⟨c, a, d⟩, ⟨c, b, d⟩⟩
    rcases (show exPts _ _ _ ∨ saAt _ _ from hp) with (hx | hx | hx | hx) | hx
    · exact .inl (cv_link.1 hx)
    · exfalso
      obtain ⟨x1, x2, x3, x4⟩ := hx
      have y2 := ((vow_link (Nat.le_refl _)).1 x2).2
      have y3 := ((vow_link (Nat.le_refl _)).1 x3).2
      rw [Nat.zero_add] at y2 y3
      rcases x4 with x4 | ⟨x5, x4⟩
      · have := ((long_link (Nat.le_refl _)).1 x4).2
        rw [Nat.zero_add] at this
        refine h3 (i - 1) ⟨y2, ?_, ?_⟩
        · rw [show i - 1 + 1 = i by omega]; exact y3
        · rw [show i - 1 + 2 = i + 1 by omega]; exact (hlongv _ this).2
      · have := ((long_link (Nat.le_refl _)).1 x4).2
        rw [Nat.zero_add] at this
        refine h3 (i - 2) ⟨(hlongv _ this).1, (hlongv _ this).2, ?_⟩
        rw [show i - 2 + 2 = i by omega]; exact y3
    · right
      obtain ⟨x1, x2⟩ := hx
      have := ((split_link (Nat.le_refl _)).1 x2).2
      rw [Nat.zero_add] at this
      exact ⟨x1, this⟩
    · exfalso
      obtain ⟨g, hg, hx, _⟩ := hx
      exact noLong_link hno g hg i hx
    · exfalso
      obtain ⟨x1, x2, x3⟩ := hx
      have y2 := ((vow_link (Nat.le_refl _)).1 x2).2
      rw [Nat.zero_add] at y2
      obtain ⟨_, c, d, y3, y4, y5⟩ := (closed_link (Nat.le_refl _)).1 x3
      rw [Nat.zero_add] at y3 y4
      have hcv : ∀ p ∈ closedPairs, p.1 ∈ ruleVowels ∧ p.2 ∈ ruleVowels := by decide
      refine h3 (i - 2) ⟨⟨c, y3, (hcv _ y5).1⟩, ⟨d, y4, (hcv _ y5).2⟩, ?_⟩
      rw [show i - 2 + 2 = i by omega]; exact y2
  · rintro (⟨h1, h2⟩ | ⟨h1, h2⟩)
    · exact c1 i hi h1 h2
    · exact c2 i hi h1 h2

/-! ### Concrete cases -/

example : FinnishWord (lit "Kissanomistaja") ∧ OnePart { hyphenateUnknown := true } (fun _ => []) (lit "Kissanomistaja") :=
  ⟨by unfold FinnishWord; decide, .inl ⟨rfl, rfl⟩⟩

/-- The hypothesis of a defined result is met, with points as the theorems say (also with a group of consonants and with
vowels that meet). -/
example :
    hyphenateUcs4 { hyphenateUnknown := true, ugly := false } (fun _ => []) (lit "Kissanomistaja") = some (some (lit "   - - -  - - ")) ∧
    hyphenateUcs4 { hyphenateUnknown := true, ugly := true } (fun _ => []) (lit "radioaalto") = some (some (lit "  - --  - ")) ∧
    hyphenateUcs4 { hyphenateUnknown := true, ugly := true } (fun _ => []) (lit "maaotshaie") = some (some (lit "   --     ")) := by
  decide +kernel

/-- A known word of one part meets the hypotheses. -/
example : OnePart {} (fun _ => [{ struct := some (lit "=ippppp") }]) (lit "Kissat") :=
  .inr ⟨by simp, by
    intro a ha
    rw [List.mem_singleton] at ha
    subst ha
    exact ⟨lit "ippppp", rfl, by decide, by decide⟩⟩

end Verif.Props
