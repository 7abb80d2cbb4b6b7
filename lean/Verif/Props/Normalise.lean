import Verif.Model.Normalise
/-! C12, C13: normalisation of words. -/

namespace Verif.Props
open Verif

/-! ### Specification: a structural description of the conversion -/

/-- Left-to-right rewriting: a supported base+mark pair becomes the precomposed character, everything
else is converted character by character. -/
def normSpec : List Wc → List Wc
  | [] => []
  | [c] => convSingle c
  | c :: d :: rest =>
    match findPair c d with
    | some e => e :: normSpec rest
    | none => convSingle c ++ normSpec (d :: rest)

theorem normSpec_cons_single (c : Wc) (rest : List Wc) (h : ∀ d, rest.head? = some d → findPair c d = none) :
    normSpec (c :: rest) = convSingle c ++ normSpec rest := by
  cases rest with
  | nil => simp [normSpec]
  | cons d r =>
    have := h d rfl
    rw [normSpec, this]

theorem convSingle_length (c : Wc) : 1 ≤ (convSingle c).length ∧ (convSingle c).length ≤ 3 := by
  unfold convSingle
  repeat' split
  all_goals simp

theorem normaliseLoop_spec (word : List Wc) (cap i : Nat) (out : List Wc) (hle : i ≤ word.length)
    (hcap : out.length + 3 * (word.length - i) + 1 ≤ cap) :
    normaliseLoop word cap i out = some (out ++ normSpec (word.drop i) ++ [0]) ∧
      (normSpec (word.drop i)).length ≤ 3 * (word.length - i) := by
  generalize hm : word.length - i = m
  induction m using Nat.strongRecOn generalizing i out with
  | _ m ih =>
    unfold normaliseLoop
    by_cases h : i < word.length
    · simp only [h, dite_true, rd_eq_some h, Option.bind_eq_bind, Option.bind_some]
      have hd : word.drop i = word[i] :: word.drop (i + 1) := List.drop_eq_getElem_cons h
      have single : (∀ d, (word.drop (i+1)).head? = some d → findPair word[i] d = none) →
          ((emit cap out (convSingle word[i])).bind fun out => normaliseLoop word cap (i + 1) out) =
            some (out ++ normSpec (word.drop i) ++ [0]) ∧ (normSpec (word.drop i)).length ≤ 3 * m := by
        intro hp
        obtain ⟨c1, c2⟩ := convSingle_length word[i]
        obtain ⟨g1, g2⟩ := ih (m - 1) (by omega) (i + 1) (out ++ convSingle word[i]) (by omega)
          (by rw [List.length_append]; omega) (by omega)
        unfold emit
        rw [if_pos (by omega), Option.bind_some, g1, hd, normSpec_cons_single _ _ hp]
        refine ⟨by simp, ?_⟩
        rw [List.length_append]; omega
      by_cases h1 : i < word.length - 1
      · have h2 : i + 1 < word.length := by omega
        have hd2 : word.drop (i+1) = word[i+1] :: word.drop (i + 1 + 1) := List.drop_eq_getElem_cons h2
        simp only [h1, if_true, rd_eq_some h2, Option.bind_some, Option.pure_def]
        cases hf : findPair word[i] word[i+1] with
        | none =>
          simp only []
          exact single (by rw [hd2]; intro d hdd; simp only [List.head?_cons, Option.some.injEq] at hdd; rw [← hdd]; exact hf)
        | some e =>
          simp only []
          obtain ⟨g1, g2⟩ := ih (m - 2) (by omega) (i + 2) (out ++ [e]) (by omega)
            (by rw [List.length_append, List.length_singleton]; omega) (by omega)
          unfold emit
          rw [if_pos (by rw [List.length_singleton]; omega), Option.bind_some, g1, hd, hd2, normSpec, hf]
          refine ⟨by simp, ?_⟩
          simp only [List.length_cons]
          rw [show i + 1 + 1 = i + 2 from rfl]; omega
      · simp only [h1, if_false, Option.bind_some, Option.pure_def]
        have : word.drop (i+1) = [] := by
          apply List.eq_nil_of_length_eq_zero
          rw [List.length_drop]; omega
        exact single (by rw [this]; simp)
    · simp only [h, dite_false]
      have : word.drop i = [] := by
        apply List.eq_nil_of_length_eq_zero
        rw [List.length_drop]; omega
      rw [this]
      unfold emit
      rw [if_pos (by rw [List.length_singleton]; omega)]
      simp [normSpec]

/-- The model computes the specification, without leaving its buffer. -/
theorem normalise_eq (word : List Wc) : normalise word = some (normSpec word) := by
  obtain ⟨h1, _⟩ := normaliseLoop_spec word (word.length * 3 + 1) 0 [] (Nat.zero_le _) (by simp; omega)
  unfold normalise
  rw [h1]
  simp

/-! ### Facts about the tables (finite, checked by the kernel) -/

theorem pair_facts : ∀ e ∈ conv2to1,
    -- marks and precomposed characters are not keys of any table, marks are not bases
    convSingle e.1 = [e.1] ∧ convSingle e.2.1 = [e.2.1] ∧ convSingle e.2.2 = [e.2.2] ∧
    (∀ f ∈ conv2to1, f.1 ≠ e.2.1 ∧ f.1 ≠ e.2.2 ∧ f.2.1 ≠ e.1 ∧ f.2.1 ≠ e.2.2) ∧
    findPair e.1 e.2.1 = some e.2.2 := by decide +kernel

theorem single_facts : ∀ e ∈ conv1to1, convSingle e.1 = [e.2] ∧ convSingle e.2 = [e.2] ∧
    (∀ f ∈ conv2to1, f.1 ≠ e.1 ∧ f.2.1 ≠ e.1 ∧ f.1 ≠ e.2 ∧ f.2.1 ≠ e.2) := by decide +kernel

theorem findPair_some {c d e : Wc} (h : findPair c d = some e) : (c, d, e) ∈ conv2to1 := by
  unfold findPair at h
  rw [Option.map_eq_some_iff] at h
  obtain ⟨x, h1, h2⟩ := h
  have h3 := List.find?_some h1
  have h4 := List.mem_of_find?_eq_some h1
  simp only [Bool.and_eq_true, beq_iff_eq] at h3
  rw [h3.1, h3.2, ← h2]
  exact h4

theorem findPair_none_of {c d : Wc} (h : ∀ f ∈ conv2to1, f.1 ≠ c ∨ f.2.1 ≠ d) : findPair c d = none := by
  cases hf : findPair c d with
  | none => rfl
  | some e =>
    have := h _ (findPair_some hf)
    simp at this

/-- Normalisation commutes with cutting the word before a character that is not a combining mark. -/
theorem normSpec_append (a : List Wc) (x : Wc) (r : List Wc) (hx : ∀ f ∈ conv2to1, f.2.1 ≠ x) :
    normSpec (a ++ x :: r) = normSpec a ++ normSpec (x :: r) := by
  induction a using normSpec.induct with
  | case1 => simp [normSpec]
  | case2 c =>
    have : findPair c x = none := findPair_none_of (fun f hf => Or.inr (hx f hf))
    simp [normSpec, this]
  | case3 c d rest e he ih => simp [normSpec, he, ih]
  | case4 c d rest he ih =>
    simp only [List.cons_append, normSpec, he, List.append_assoc]
    congr 1

/-! ### C12 -/

/-- C12: normalisation never writes outside its buffer and produces at most three characters per
character. -/
theorem C12_bounded (word : List Wc) :
    ∃ out, normalise word = some out ∧ out.length ≤ 3 * word.length := by
  obtain ⟨_, h2⟩ := normaliseLoop_spec word (word.length * 3 + 1) 0 [] (Nat.zero_le _) (by simp; omega)
  exact ⟨_, normalise_eq word, by simpa using h2⟩

/-- A word to which no conversion applies: no convertible character, no supported pair. -/
def Unconvertible : List Wc → Prop
  | [] => True
  | [c] => convSingle c = [c]
  | c :: d :: rest => convSingle c = [c] ∧ findPair c d = none ∧ Unconvertible (d :: rest)

/-- C12: words without convertible characters are unchanged. -/
theorem C12_unchanged (word : List Wc) (h : Unconvertible word) : normalise word = some word := by
  rw [normalise_eq, Option.some.injEq]
  induction word using Unconvertible.induct with
  | case1 => rfl
  | case2 c => exact h
  | case3 c d rest ih =>
    obtain ⟨h1, h2, h3⟩ := h
    rw [normSpec, h2]
    simp only [h1, ih h3, List.singleton_append]

/-- C12: replacing a supported base+mark pair anywhere by the precomposed character does not change the
result. -/
theorem C12_canonical_equivalents (a r : List Wc) (b m p : Wc) (h : (b, m, p) ∈ conv2to1) :
    normalise (a ++ b :: m :: r) = normalise (a ++ p :: r) := by
  obtain ⟨_, _, h3, h4, h5⟩ := pair_facts _ h
  rw [normalise_eq, normalise_eq, normSpec_append a b (m :: r) (fun f hf => (h4 f hf).2.2.1),
    normSpec_append a p r (fun f hf => (h4 f hf).2.2.2)]
  congr 2
  simp only [] at h5
  rw [normSpec, h5]
  rw [normSpec_cons_single p r (fun d _ => findPair_none_of (fun f hf => Or.inl (h4 f hf).2.1))]
  simp only [h3, List.singleton_append]

/-- C12: likewise for the typographic apostrophe and hyphens. -/
theorem C12_typographic_equivalents (a r : List Wc) (c d : Wc) (h : (c, d) ∈ conv1to1) :
    normalise (a ++ c :: r) = normalise (a ++ d :: r) := by
  obtain ⟨h1, h2, h3⟩ := single_facts _ h
  rw [normalise_eq, normalise_eq, normSpec_append a c r (fun f hf => (h3 f hf).2.1),
    normSpec_append a d r (fun f hf => (h3 f hf).2.2.2)]
  rw [normSpec_cons_single c r (fun x _ => findPair_none_of (fun f hf => Or.inl (h3 f hf).1)),
    normSpec_cons_single d r (fun x _ => findPair_none_of (fun f hf => Or.inl (h3 f hf).2.2.1))]
  simp only [h1, h2]

/-- "a" + U+0308 normalises to "ä"; three ligatures use the whole buffer. -/
example : normalise [0x61, 0x0308, 0x6B] = some [0xE4, 0x6B] ∧ (0x61, 0x0308, 0xE4) ∈ conv2to1 ∧
    normalise [0xFB03, 0xFB03] = some [0x66, 0x66, 0x69, 0x66, 0x66, 0x69] ∧
    normalise [0x6B, 0x61] = some [0x6B, 0x61] := by decide +kernel
example : Unconvertible [0x6B, 0x69, 0x73, 0x73, 0x61] := by simp only [Unconvertible]; decide

/-! ### C13 -/

/-- C13 is false: "ﬁ" followed by U+0300 gives "fi"+U+0300, which normalises further to "fì". -/
theorem C13_violation : ∃ w v u, normalise w = some v ∧ normalise v = some u ∧ u ≠ v :=
  ⟨[0xFB01, 0x0300], [0x66, 0x69, 0x0300], [0x66, 0xEC], by decide +kernel⟩

/-- The pairs (character, mark) at which idempotence fails: a compatibility character whose expansion ends
in a base letter, followed by a mark this letter combines with. -/
def badPairs : List (Wc × Wc) :=
  [(0x2103, 0x0327), (0xFB01, 0x0300), (0xFB01, 0x0301), (0xFB01, 0x0302), (0xFB01, 0x0308),
   (0xFB03, 0x0300), (0xFB03, 0x0301), (0xFB03, 0x0302), (0xFB03, 0x0308)]

/-- No bad pair occurs among neighbouring characters. -/
def NoBadPair : List Wc → Prop
  | [] => True
  | [_] => True
  | c :: d :: rest => (c, d) ∉ badPairs ∧ NoBadPair (d :: rest)

/-- Shape of the replacement of one character. -/
theorem convSingle_cases (c : Wc) :
    convSingle c = [c] ∨ (∃ e ∈ conv1to1, c = e.1 ∧ convSingle c = [e.2]) ∨
    (∃ e ∈ conv1to2, c = e.1 ∧ convSingle c = [e.2.1, e.2.2]) ∨
    (∃ e ∈ conv1to3, c = e.1 ∧ convSingle c = [e.2.1, e.2.2.1, e.2.2.2]) := by
  unfold convSingle
  split
  · rename_i e he
    right; left
    have := List.find?_some he
    simp only [beq_iff_eq] at this
    exact ⟨e, List.mem_of_find?_eq_some he, this, rfl⟩
  · split
    · rename_i e he
      right; right; left
      have := List.find?_some he
      simp only [beq_iff_eq] at this
      exact ⟨e, List.mem_of_find?_eq_some he, this, rfl⟩
    · split
      · rename_i e he
        right; right; right
        have := List.find?_some he
        simp only [beq_iff_eq] at this
        exact ⟨e, List.mem_of_find?_eq_some he, this, rfl⟩
      · left; rfl

/-- The expansions are themselves unconvertible, and their last letter combines with a mark only in a bad
pair. -/
theorem expand_facts :
    (∀ e ∈ conv1to2, convSingle e.2.1 = [e.2.1] ∧ convSingle e.2.2 = [e.2.2] ∧ findPair e.2.1 e.2.2 = none ∧
      (∀ f ∈ conv2to1, f.2.1 ≠ e.2.1 ∧ (f.1 = e.2.2 → (e.1, f.2.1) ∈ badPairs))) ∧
    (∀ e ∈ conv1to3, convSingle e.2.1 = [e.2.1] ∧ convSingle e.2.2.1 = [e.2.2.1] ∧
      convSingle e.2.2.2 = [e.2.2.2] ∧ findPair e.2.1 e.2.2.1 = none ∧ findPair e.2.2.1 e.2.2.2 = none ∧
      (∀ f ∈ conv2to1, f.2.1 ≠ e.2.1 ∧ (f.1 = e.2.2.2 → (e.1, f.2.1) ∈ badPairs))) := by
  decide +kernel

/-- If the result of normalising starts with a combining mark, so does the word. -/
theorem normSpec_head_mark (w : List Wc) (m : Wc) (hm : ∃ f ∈ conv2to1, f.2.1 = m)
    (h : (normSpec w).head? = some m) : w.head? = some m := by
  obtain ⟨f, hf, rfl⟩ := hm
  have single : ∀ c (t : List Wc), (convSingle c ++ t).head? = some f.2.1 → c = f.2.1 := by
    intro c t ht
    rcases convSingle_cases c with h1 | ⟨e, he, rfl, h1⟩ | ⟨e, he, rfl, h1⟩ | ⟨e, he, rfl, h1⟩
    · rw [h1] at ht; simpa using ht
    · rw [h1] at ht
      simp only [List.singleton_append, List.head?_cons, Option.some.injEq] at ht
      exact absurd ht.symm ((single_facts e he).2.2 f hf).2.2.2
    · rw [h1] at ht
      simp only [List.cons_append, List.head?_cons, Option.some.injEq] at ht
      exact absurd ht.symm ((expand_facts.1 e he).2.2.2 f hf).1
    · rw [h1] at ht
      simp only [List.cons_append, List.head?_cons, Option.some.injEq] at ht
      exact absurd ht.symm ((expand_facts.2 e he).2.2.2.2.2 f hf).1
  cases w with
  | nil => simp [normSpec] at h
  | cons c rest =>
    cases rest with
    | nil =>
      rw [normSpec] at h
      have := single c [] (by simpa using h)
      simp [this]
    | cons d r =>
      rw [normSpec] at h
      split at h
      · rename_i e he
        simp only [List.head?_cons, Option.some.injEq] at h
        exact absurd h.symm ((pair_facts _ (findPair_some he)).2.2.2.1 f hf).2.2.2
      · have := single c _ h
        simp [this]

theorem Unconvertible_cons (c : Wc) (t : List Wc) (h1 : convSingle c = [c]) (ht : Unconvertible t)
    (h2 : ∀ d, t.head? = some d → findPair c d = none) : Unconvertible (c :: t) := by
  cases t with
  | nil => exact h1
  | cons d r => exact ⟨h1, h2 d rfl, ht⟩

theorem normSpec_unconvertible (w : List Wc) (h : NoBadPair w) : Unconvertible (normSpec w) := by
  -- prefixing one converted character
  have step : ∀ (c : Wc) (rest : List Wc), Unconvertible (normSpec rest) →
      (∀ d, rest.head? = some d → findPair c d = none ∧ (c, d) ∉ badPairs) →
      Unconvertible (convSingle c ++ normSpec rest) := by
    intro c rest hrest hnext
    rcases convSingle_cases c with h1 | ⟨e, he, rfl, h1⟩ | ⟨e, he, rfl, h1⟩ | ⟨e, he, rfl, h1⟩
    · rw [h1, List.singleton_append]
      refine Unconvertible_cons c _ h1 hrest (fun d hd => ?_)
      cases hf : findPair c d with
      | none => rfl
      | some p =>
        have hh := normSpec_head_mark rest d ⟨_, findPair_some hf, rfl⟩ hd
        rw [(hnext d hh).1] at hf; exact hf.symm
    · rw [h1, List.singleton_append]
      have hs := single_facts e he
      exact Unconvertible_cons _ _ hs.2.1 hrest
        (fun d _ => findPair_none_of (fun f hf => Or.inl (hs.2.2 f hf).2.2.1))
    · rw [h1]
      simp only [List.cons_append, List.nil_append]
      have hs := expand_facts.1 e he
      refine Unconvertible_cons _ _ hs.1 (Unconvertible_cons _ _ hs.2.1 hrest (fun d hd => ?_))
        (fun d hd => ?_)
      · cases hf : findPair e.2.2 d with
        | none => rfl
        | some p =>
          have hm := findPair_some hf
          have hh := normSpec_head_mark rest d ⟨_, hm, rfl⟩ hd
          exact absurd ((hs.2.2.2 _ hm).2 rfl) (hnext d hh).2
      · simp only [List.head?_cons, Option.some.injEq] at hd
        rw [← hd]; exact hs.2.2.1
    · rw [h1]
      simp only [List.cons_append, List.nil_append]
      have hs := expand_facts.2 e he
      refine Unconvertible_cons _ _ hs.1 (Unconvertible_cons _ _ hs.2.1
        (Unconvertible_cons _ _ hs.2.2.1 hrest (fun d hd => ?_)) (fun d hd => ?_)) (fun d hd => ?_)
      · cases hf : findPair e.2.2.2 d with
        | none => rfl
        | some p =>
          have hm := findPair_some hf
          have hh := normSpec_head_mark rest d ⟨_, hm, rfl⟩ hd
          exact absurd ((hs.2.2.2.2.2 _ hm).2 rfl) (hnext d hh).2
      · simp only [List.head?_cons, Option.some.injEq] at hd
        rw [← hd]; exact hs.2.2.2.2.1
      · simp only [List.head?_cons, Option.some.injEq] at hd
        rw [← hd]; exact hs.2.2.2.1
  induction w using normSpec.induct with
  | case1 => trivial
  | case2 c =>
    have := step c [] trivial (fun d hd => by simp at hd)
    simpa [normSpec] using this
  | case3 c d rest e he ih =>
    have hb : NoBadPair rest := by
      have := h.2
      cases rest with
      | nil => trivial
      | cons x xs => exact this.2
    rw [normSpec, he]
    have hp := pair_facts _ (findPair_some he)
    exact Unconvertible_cons e _ hp.2.2.1 (ih hb)
      (fun x _ => findPair_none_of (fun f hf => Or.inl (hp.2.2.2.1 f hf).2.1))
  | case4 c d rest he ih =>
    rw [normSpec, he]
    refine step c (d :: rest) (ih h.2) (fun x hx => ?_)
    simp only [List.head?_cons, Option.some.injEq] at hx
    rw [← hx]
    exact ⟨he, h.1⟩

/-- C13 for every word in which no compatibility character ending in `C`/`i` (℃, ﬁ, ﬃ) is followed by a mark
that combines with that letter. Missing for the full claim: exactly those words (`C13_violation`). -/
theorem C13_idempotent_partial (w v : List Wc) (h : NoBadPair w) (hv : normalise w = some v) :
    normalise v = some v := by
  rw [normalise_eq, Option.some.injEq] at hv
  subst hv
  exact C12_unchanged _ (normSpec_unconvertible w h)

example : NoBadPair [0xFB01, 0x61, 0x0308] ∧ normalise [0xFB01, 0x61, 0x0308] = some [0x66, 0x69, 0xE4] := by
  simp only [NoBadPair]; decide +kernel

end Verif.Props
