import Verif.Lemmas.VfstSuggest
import Verif.Lemmas.VfstWithin
import Verif.Lemmas.FstEnum
/-!
# Spelling and suggestions with weighted transducers (C62, C63, C64)
-/

set_option linter.unusedSimpArgs false
set_option linter.unusedVariables false

namespace Verif.Props
open Verif

/-! ## C62: spelling -/

theorem vfstDoSpell_spec {f : WFst} (hg : GoodFst f) {c : WConf} (hu : WUsed f 2000 c) {buf : List Wc} {wlen : Nat}
    (hl : wlen ≤ buf.length) (hw : Within f (buf.take wlen)) :
    ∃ r c', vfstDoSpell f c buf wlen = some (r, c') ∧ WUsed f 2000 c' ∧ (r = .ok ∨ r = .failed) ∧
      (r = .ok ↔ wlen ≤ 255 ∧ Accepts f (buf.take wlen)) := by
  unfold vfstDoSpell
  have hm : maxWordChars = 255 := rfl
  by_cases h1 : wlen > maxWordChars
  · rw [if_pos h1]
    exact ⟨_, _, rfl, hu, .inr rfl, ⟨fun h => (by cases h), fun h => (by omega)⟩⟩
  · rw [if_neg h1, if_neg (by omega)]
    obtain ⟨known, c1, p1, p2, p3, p4⟩ := prepare_call hg hu (word := buf.take wlen) (by rw [List.length_take]; omega)
    rw [p1, ub_bind]
    cases known with
    | false => exact ⟨_, _, rfl, p2, .inr rfl, ⟨fun h => (by cases h), fun h => absurd h.2 (p3 rfl)⟩⟩
    | true =>
      simp only [if_true]
      obtain ⟨r, reached, c2, a1, a2, a3⟩ := first_call hg hw (p4 rfl) p2
      rw [show vfstBufferSize = 2000 from rfl, a1, ub_bind]
      rcases a3 with ⟨rfl, hna, _⟩ | ⟨q, rfl, hq⟩
      · exact ⟨_, _, rfl, a2, .inr rfl, ⟨fun h => (by cases h), fun h => absurd h.2 hna⟩⟩
      · exact ⟨_, _, rfl, a2, .inl rfl, ⟨fun _ => ⟨by omega, q, hq.1⟩, fun _ => rfl⟩⟩

/-- The word with its first letter in upper case. -/
def capitalised : List Wc → List Wc
  | [] => []
  | ch :: rest => upper ch :: rest

/-- C62, the part that holds: whatever was looked up before, a word is correct if and only if it has at most 255 characters and
the dictionary accepts it; it is correct only with an initial capital if and only if it is not accepted, its first character is
a lower case letter and the capitalised word is accepted. (Missing: words whose search meets a fixed limit or a masked flag.) -/
theorem C62_partial {f : WFst} (hg : GoodFst f) {c : WConf} (hu : WUsed f 2000 c) {word : List Wc} {wlen : Nat}
    (hl : wlen ≤ word.length) (hw : Within f (word.take wlen)) (hw2 : Within f ((capitalised word).take wlen)) :
    ∃ r c', vfstSpell f c word wlen = some (r, c') ∧ WUsed f 2000 c' ∧ r ≠ .capError ∧
      (r = .ok ↔ wlen ≤ 255 ∧ Accepts f (word.take wlen)) ∧
      (r = .capFirst ↔ wlen ≤ 255 ∧ ¬ Accepts f (word.take wlen) ∧ Accepts f ((capitalised word).take wlen) ∧
        ∃ ch rest, word = ch :: rest ∧ upper ch ≠ ch) := by
  have ht : (word ++ [0]).take wlen = word.take wlen := List.take_append_of_le_length hl
  obtain ⟨r, c1, h1, h2, h3, h4⟩ := vfstDoSpell_spec hg hu (buf := word ++ [0]) (wlen := wlen) (by simp; omega) (by rw [ht]; exact hw)
  rw [ht] at h4
  unfold vfstSpell
  rw [h1, ub_bind]
  simp only
  cases word with
  | nil =>
    have e0 : rd (([] : List Wc) ++ [0]) 0 = some 0 := rfl
    rw [e0, ub_bind, if_neg (by rintro ⟨_, h⟩; exact absurd h (by decide))]
    refine ⟨r, c1, rfl, h2, ?_, h4, ?_⟩
    · rcases h3 with rfl | rfl <;> simp
    · constructor
      · rintro rfl; rcases h3 with h | h <;> cases h
      · rintro ⟨_, _, _, ch, rest, h, _⟩; cases h
  | cons ch rest =>
    have e0 : rd ((ch :: rest) ++ [0]) 0 = some ch := rfl
    rw [e0, ub_bind]
    by_cases hc : r = .failed ∧ isLower ch
    · rw [if_pos hc]
      obtain ⟨rfl, hlow⟩ := hc
      have e1 : wr ((ch :: rest) ++ [0]) 0 (upper ch) = some ((upper ch :: rest) ++ [0]) := by
        simp [wr]
      rw [e1, ub_bind]
      have ht2 : ((upper ch :: rest) ++ [0]).take wlen = (upper ch :: rest).take wlen :=
        List.take_append_of_le_length (by simpa using hl)
      obtain ⟨r2, c2, g1, g2, g3, g4⟩ := vfstDoSpell_spec hg h2 (buf := (upper ch :: rest) ++ [0]) (wlen := wlen)
        (by simp at hl ⊢; omega) (by rw [ht2]; exact hw2)
      rw [ht2] at g4
      rw [g1, ub_bind]
      have hne : upper ch ≠ ch := by
        intro he
        simp only [isLower, he, ne_eq, not_true_eq_false, decide_false] at hlow
        cases hlow
      have hno : ¬ (wlen ≤ 255 ∧ Accepts f ((ch :: rest).take wlen)) := fun h => by cases h4.2 h
      rcases g3 with rfl | rfl
      · have := g4.1 rfl
        refine ⟨_, c2, rfl, g2, by simp, ⟨fun h => (by cases h), fun h => absurd h hno⟩, ⟨fun _ => ?_, fun _ => rfl⟩⟩
        exact ⟨this.1, fun h => hno ⟨this.1, h⟩, this.2, ch, rest, rfl, hne⟩
      · refine ⟨_, c2, rfl, g2, by simp, ⟨fun h => (by cases h), fun h => absurd h hno⟩, ⟨fun h => (by cases h), fun h => ?_⟩⟩
        cases g4.2 ⟨h.1, h.2.2.1⟩
    · rw [if_neg hc]
      refine ⟨r, c1, rfl, h2, ?_, h4, ?_⟩
      · rcases h3 with rfl | rfl <;> simp
      · constructor
        · rintro rfl; rcases h3 with h | h <;> cases h
        · rintro ⟨k1, k2, k3, ch', rest', k4, k5⟩
          cases k4
          exfalso
          apply hc
          refine ⟨?_, ?_⟩
          · rcases h3 with rfl | rfl
            · exact absurd (h4.1 rfl).2 k2
            · rfl
          · simp only [isLower, ne_eq, decide_eq_true_eq]
            exact fun h => k5 h.symm

/-- C62 without conditions on the words, for deterministic acceptors without epsilon and flag transitions. -/
theorem C62_deterministic {f : WFst} (hg : GoodFst f) (hf : ReadsInput f) (hs : ShortOutput f) (hd : Deterministic f)
    (hsym : f.symbols.length < 65536) {c : WConf} (hu : WUsed f 2000 c) (word : List Wc) :
    ∃ r c', vfstSpell f c word word.length = some (r, c') ∧ WUsed f 2000 c' ∧ r ≠ .capError ∧
      (r = .ok ↔ word.length ≤ 255 ∧ Accepts f word) ∧
      (r = .capFirst ↔ word.length ≤ 255 ∧ ¬ Accepts f word ∧ Accepts f (capitalised word) ∧
        ∃ ch rest, word = ch :: rest ∧ upper ch ≠ ch) := by
  by_cases hlen : word.length ≤ 255
  · have hfn : f.firstNormal ≤ 0xFFFF := by have := hg.unknown; omega
    have hc : (capitalised word).length = word.length := by cases word <;> rfl
    have h := C62_partial hg hu (word := word) (wlen := word.length) (Nat.le_refl _)
      (within_of_deterministic hf hs hfn hd (by rw [List.length_take]; omega))
      (within_of_deterministic hf hs hfn hd (by rw [List.length_take]; omega))
    have e2 : (capitalised word).take word.length = capitalised word := by rw [← hc, List.take_length]
    rw [List.take_length, e2] at h
    exact h
  · have key : ∀ (c : WConf) (buf : List Wc), vfstDoSpell f c buf word.length = some (.failed, c) := by
      intro c buf
      rw [vfstDoSpell, if_pos (by have : maxWordChars = 255 := rfl; omega)]
      rfl
    refine ⟨.failed, c, ?_, hu, by simp, ⟨fun h => (by cases h), fun h => absurd h.1 hlen⟩,
      ⟨fun h => (by cases h), fun h => absurd h.1 hlen⟩⟩
    unfold vfstSpell
    rw [key, ub_bind]
    simp only
    cases word with
    | nil => simp at hlen
    | cons ch rest =>
      have e0 : rd ((ch :: rest) ++ [0]) 0 = some ch := rfl
      have e1 : wr ((ch :: rest) ++ [0]) 0 (upper ch) = some ((upper ch :: rest) ++ [0]) := by simp [wr]
      rw [e0, ub_bind, e1]
      split
      · rw [ub_bind, key, ub_bind]
        rfl
      · rfl

/-! ## C63, C64: suggestions -/

theorem toInt16_bound (x : Nat) : -32768 ≤ toInt16 x ∧ toInt16 x < 32768 := by
  unfold toInt16
  split <;> omega

theorem sortLoop_sorted : ∀ (l acc : List (List Wc × Nat)), l.Pairwise (fun a b => a.2 ≤ b.2) →
    (∀ y ∈ acc, ∀ x ∈ l, y.2 ≤ x.2) → sortLoop acc l = acc.reverse ++ l := by
  intro l
  induction l with
  | nil => intro acc _ _; simp [sortLoop]
  | cons x l ih =>
    intro acc hp hacc
    rw [List.pairwise_cons] at hp
    have e : insertBack x acc = x :: acc := by
      cases acc with
      | nil => rfl
      | cons y ys =>
        have := hacc y List.mem_cons_self x List.mem_cons_self
        rw [insertBack, if_neg (by omega)]
    rw [sortLoop, e, ih (x :: acc) hp.2]
    · simp
    · intro y hy z hz
      rcases List.mem_cons.1 hy with rfl | hy
      · exact hp.1 z hz
      · exact hacc y hy z (List.mem_cons_of_mem _ hz)

theorem vfstAddAll_spec : ∀ (l : List (List Wc × Int)) (s : SugStatus), (∀ x ∈ l, 0 ≤ x.2 ∧ x.2 < 65536) → s.maxSug ≤ 15 →
    s.sugg.length ≤ s.maxSug → l.Pairwise (fun a b => a.2 ≤ b.2) → s.sugg.Pairwise (fun a b => a.2 ≤ b.2) →
    (∀ y ∈ s.sugg, ∀ x ∈ l, (y.2 : Int) ≤ x.2 * ((s.sugg.length : Int) + 5)) →
    ∃ s', vfstAddAll l s = some s' ∧ s'.sugg.Pairwise (fun a b => a.2 ≤ b.2) ∧
      s'.sugg.map (·.1) = s.sugg.map (·.1) ++ (l.take (s.maxSug - s.sugg.length)).map (·.1) := by
  intro l
  induction l with
  | nil => intro s _ _ _ _ hs _; exact ⟨s, rfl, hs, by simp⟩
  | cons x l ih =>
    obtain ⟨w, k⟩ := x
    intro s hb hm hle hp hs hacc
    have hk := hb _ List.mem_cons_self
    simp only at hk
    rw [List.pairwise_cons] at hp
    rw [vfstAddAll, if_neg (by omega)]
    by_cases hfull : s.sugg.length < s.maxSug
    · obtain ⟨n, rfl⟩ := Int.eq_ofNat_of_zero_le hk.1
      have e1 : (Int.ofNat n).toNat = n := rfl
      have hn : n < 65536 := by omega
      have hprod : n * (s.sugg.length + 5) < 2 ^ 31 := by
        have h1 : n * (s.sugg.length + 5) ≤ 65536 * 20 := Nat.mul_le_mul (by omega) (by omega)
        omega
      have e2 : s.addSuggestion w (Int.toNat (n : Int)) = some { s with sugg := s.sugg ++ [(w, n * (s.sugg.length + 5))] } := by
        rw [SugStatus.addSuggestion, if_pos hfull, Int.toNat_natCast, int32, if_pos hprod]
        rfl
      rw [e2, ub_bind]
      obtain ⟨s', g1, g2, g3⟩ := ih { s with sugg := s.sugg ++ [(w, n * (s.sugg.length + 5))] }
        (fun y hy => hb y (List.mem_cons_of_mem _ hy)) hm (by simp only [List.length_append, List.length_singleton]; omega) hp.2
        (by
          rw [List.pairwise_append]
          refine ⟨hs, by simp, fun a ha b hb' => ?_⟩
          rw [List.mem_singleton] at hb'
          subst hb'
          have := hacc a ha _ List.mem_cons_self
          simp only at this ⊢
          have e : ((n * (s.sugg.length + 5) : Nat) : Int) = (n : Int) * ((s.sugg.length : Int) + 5) := by simp
          omega)
        (by
          intro y hy x hx
          simp only [List.length_append, List.length_singleton]
          have hx0 := (hb x (List.mem_cons_of_mem _ hx)).1
          have hxn := hp.1 x hx
          simp only at hxn
          have hmono : ∀ a : Int, 0 ≤ a → a * ((s.sugg.length : Int) + 5) ≤ a * (((s.sugg.length + 1 : Nat) : Int) + 5) := by
            intro a ha
            exact Int.mul_le_mul_of_nonneg_left (by omega) ha
          rcases List.mem_append.1 hy with hy | hy
          · exact Int.le_trans (hacc y hy x (List.mem_cons_of_mem _ hx)) (hmono _ hx0)
          · rw [List.mem_singleton] at hy
            subst hy
            simp only
            have e : ((n * (s.sugg.length + 5) : Nat) : Int) = (n : Int) * ((s.sugg.length : Int) + 5) := by simp
            rw [e]
            exact Int.le_trans (Int.mul_le_mul_of_nonneg_right hxn (by omega)) (hmono _ hx0))
      refine ⟨s', g1, g2, ?_⟩
      rw [g3]
      have : s.maxSug - s.sugg.length = (s.maxSug - (s.sugg.length + 1)) + 1 := by omega
      rw [this, List.take_succ_cons]
      simp
    · have e2 : s.addSuggestion w k.toNat = some s := by rw [SugStatus.addSuggestion, if_neg hfull]; rfl
      rw [e2, ub_bind]
      obtain ⟨s', g1, g2, g3⟩ := ih s (fun y hy => hb y (List.mem_cons_of_mem _ hy)) hm hle hp.2 hs
        (fun y hy x hx => hacc y hy x (List.mem_cons_of_mem _ hx))
      refine ⟨s', g1, g2, ?_⟩
      have : s.maxSug - s.sugg.length = 0 := by omega
      rw [g3, this]
      simp

theorem firstReading_exists {f : WFst} (hg : GoodFst f) {c : WConf} (hu : WUsed f 2000 c) {w : List Wc} (hlen : w.length ≤ 2000)
    (hw : Within f w) (hacc : Accepts f w) : ∃ a, FirstReading f w a := by
  obtain ⟨known, c1, _, p2, p3, p4⟩ := prepare_call hg hu hlen
  cases known with
  | false => exact absurd hacc (p3 rfl)
  | true =>
    obtain ⟨r, reached, c2, _, _, h | ⟨q, _, hq⟩⟩ := first_call hg hw (p4 rfl) p2
    · exact absurd hacc h.2.1
    · exact ⟨q, hq⟩

/-- What a run of the generator gives: the corrections in an order of non-decreasing weight, at most 15 of them. -/
theorem vfstGenerate_spec {E A : WFst} (hE : GoodErrorModel E) (hA : GoodFst A)
    {order : List (List Wc × Int) → List (List Wc × Int)} (hord : QueueOrder order) {word : List Wc} (hlen : word.length ≤ 2000)
    (hwE : Within E word) (hwA : ∀ q, Reading E word q → Within A (outputOf (plainFst E) q))
    (hpos : ∀ w k, Best E A word w k → 0 ≤ k) :
    ∃ N, ∀ n, N ≤ n → ∀ ec ac, WUsed E 2000 ec → WUsed A 2000 ac →
      ∃ s' ec' ac', vfstGenerate E A order n ec ac { word, maxSug := 15 } = some (s', ec', ac') ∧
        WUsed E 2000 ec' ∧ WUsed A 2000 ac' ∧
        ∃ l : List (List Wc × Int), (l.map (·.1)).Nodup ∧ (∀ w k, (w, k) ∈ l ↔ Best E A word w k) ∧
          (∀ q, Reading E word q → Accepts A (outputOf (plainFst E) q) → ∃ k, (outputOf (plainFst E) q, k) ∈ l) ∧
          l.Pairwise (fun a b => a.2 ≤ b.2) ∧ (sortSuggestions s'.sugg).map (·.1) = (l.take 15).map (·.1) := by
  obtain ⟨all, hall⟩ := readings_finite hwE
  have hlenA : ∀ q, Reading E word q → (outputOf (plainFst E) q).length ≤ 2000 := fun q hq => by
    have := hwE.out q hq
    omega
  refine ⟨all.length + 1, fun n hn ec ac hec hac => ?_⟩
  obtain ⟨S, wf⟩ := hE.wf
  obtain ⟨known, ec1, p1, p2, p3, p4⟩ := prepare_call hE.toGoodFst hec hlen
  have hm : ∃ m ec' ac', (if known then vfstSearch E A { word, maxSug := 15, maxCost := 100 } n ec1 ac []
      else return ([], ec1, ac) : UB (List (List Wc × Int) × WConf × WConf)) = some (m, ec', ac') ∧ WUsed E 2000 ec' ∧
      WUsed A 2000 ac' ∧ Recorded E A word (fun _ => True) m := by
    cases known with
    | false =>
      refine ⟨[], ec1, ac, rfl, p2, hac, by simp, by simp, fun q hq _ => ?_⟩
      exact absurd ⟨q, hq⟩ (p3 rfl)
    | true =>
      have hc := p4 rfl
      subst hc
      rw [if_pos rfl]
      exact vfstSearch_spec hE hA hwE hwA (s := { word, maxSug := 15, maxCost := 100 }) rfl hall n
        (prepared (plainFst E) 2000 word) _ ac [] [] (prepared_inv wf.plain 2000 word (by decide)) (.base _) rfl p2 hac
        ⟨by simp, by simp, fun q hq hb => absurd hb (not_before_start _ _ _ _)⟩ .nil (by simp) (by simp; omega)
  obtain ⟨m, ec', ac', m1, m2, m3, m4⟩ := hm
  obtain ⟨hperm, hsorted⟩ := hord m
  have hbest : ∀ w k, (w, k) ∈ order m ↔ Best E A word w k := fun w k => by
    rw [hperm.mem_iff, recorded_best m4]
  have hbound : ∀ x ∈ order m, 0 ≤ x.2 ∧ x.2 < 65536 := by
    rintro ⟨w, k⟩ hx
    have hb := (hbest w k).1 hx
    refine ⟨hpos w k hb, ?_⟩
    obtain ⟨q, a, _, _, _, hk⟩ := hb.1
    have h1 := toInt16_bound (q.map fun a => ((E.cells[a]?).map (·.weight)).getD 0).sum
    have h2 := toInt16_bound (a.map fun a => ((A.cells[a]?).map (·.weight)).getD 0).sum
    simp only [pathWeight] at hk
    simp only
    omega
  obtain ⟨s', g1, g2, g3⟩ := vfstAddAll_spec (order m) { word, maxSug := 15, maxCost := 100 } hbound (Nat.le_refl _)
    (Nat.zero_le _) hsorted .nil (by intro y hy; cases hy)
  refine ⟨s', ec', ac', ?_, m2, m3, order m, (hperm.map _).nodup_iff.2 m4.nodup, hbest, ?_, hsorted, ?_⟩
  · unfold vfstGenerate
    simp only
    rw [p1, ub_bind]
    simp only
    rw [m1, ub_bind]
    simp only
    rw [g1]
    rfl
  · intro q hq hacc
    obtain ⟨a, ha⟩ := firstReading_exists hA hac (hlenA q hq) (hwA q hq) hacc
    obtain ⟨k, _, hk⟩ := m4.complete q hq trivial a ha
    exact ⟨k, hperm.mem_iff.2 hk⟩
  · rw [sortSuggestions, sortLoop_sorted _ _ g2 (by intro y hy; cases hy), List.reverse_nil, List.nil_append, g3]
    rfl

/-- C63, the part that holds: the suggestions for a word are distinct, each of them is a word into which the error model turns
the given word and which the dictionary accepts, and they are in the order of their lowest total weights. This does not depend on
earlier calls. (Missing: error models with flag diacritics, for which it is false, see `C63_violation`; negative total weights;
words whose searches meet a fixed limit or a masked flag.) -/
theorem C63_partial {E A : WFst} (hE : GoodErrorModel E) (hA : GoodFst A)
    {order : List (List Wc × Int) → List (List Wc × Int)} (hord : QueueOrder order) {word : List Wc} (hlen : word.length ≤ 2000)
    (hwE : Within E word) (hwA : ∀ q, Reading E word q → Within A (outputOf (plainFst E) q))
    (hpos : ∀ w k, Best E A word w k → 0 ≤ k) :
    ∃ N, ∀ n, N ≤ n → ∀ ec ac, WUsed E 2000 ec → WUsed A 2000 ac →
      ∃ s' ec' ac', vfstGenerate E A order n ec ac { word, maxSug := 15 } = some (s', ec', ac') ∧
        WUsed E 2000 ec' ∧ WUsed A 2000 ac' ∧
        ((sortSuggestions s'.sugg).map (·.1)).Nodup ∧
        (∀ w ∈ (sortSuggestions s'.sugg).map (·.1), Accepts A w ∧ ∃ q, Reading E word q ∧ outputOf (plainFst E) q = w) ∧
        ((sortSuggestions s'.sugg).map (·.1)).Pairwise (fun v w => ∀ j k, Best E A word v j → Best E A word w k → j ≤ k) := by
  obtain ⟨N, h⟩ := vfstGenerate_spec hE hA hord hlen hwE hwA hpos
  refine ⟨N, fun n hn ec ac hec hac => ?_⟩
  obtain ⟨s', ec', ac', h1, h2, h3, l, h4, h5, h5', h6, h7⟩ := h n hn ec ac hec hac
  refine ⟨s', ec', ac', h1, h2, h3, ?_, ?_, ?_⟩
  · rw [h7]
    exact h4.sublist ((List.take_sublist _ _).map _)
  · intro w hw
    rw [h7] at hw
    obtain ⟨⟨w', k⟩, hm, rfl⟩ := List.mem_map.1 hw
    obtain ⟨⟨q, a, g1, g2, g3, _⟩, _⟩ := (h5 w' k).1 (List.mem_of_mem_take hm)
    exact ⟨⟨a, g3.1⟩, q, g1, g2⟩
  · rw [h7, List.pairwise_map]
    refine List.Pairwise.imp_of_mem ?_ (h6.sublist (List.take_sublist 15 l))
    rintro ⟨v, i⟩ ⟨w, i'⟩ hv hw hle j k hj hk
    have e1 := keys_unique l h4 (List.mem_of_mem_take hv) ((h5 v j).2 hj)
    have e2 := keys_unique l h4 (List.mem_of_mem_take hw) ((h5 w k).2 hk)
    simp only at hle e1 e2
    omega

/-- C63: a suggestion is accepted by the speller that uses the same dictionary. -/
theorem C63_accepted {A : WFst} (hA : GoodFst A) {w : List Wc} (hacc : Accepts A w) (hlen : w.length ≤ 255) (hw : Within A w)
    (hw2 : Within A (capitalised w)) {c : WConf} (hu : WUsed A 2000 c) : ∃ c', vfstSpell A c w w.length = some (.ok, c') := by
  have hc : (capitalised w).length = w.length := by cases w <;> rfl
  have e2 : (capitalised w).take w.length = capitalised w := by rw [← hc, List.take_length]
  obtain ⟨r, c', h1, _, _, h2, _⟩ := C62_partial hA hu (word := w) (Nat.le_refl _) (by rw [List.take_length]; exact hw)
    (by rw [e2]; exact hw2)
  rw [List.take_length] at h2
  rw [h2.2 ⟨hlen, hacc⟩] at h1
  exact ⟨c', h1⟩

/-- C64, the part that holds: no correction is lost. Every word into which the error model turns the given word and which the
dictionary accepts is suggested, unless there are 15 other suggestions and each of them has at most its weight. (The limits are
those of `C63_partial`; for error models with flag diacritics it is false, see `C64_violation`.) -/
theorem C64_partial {E A : WFst} (hE : GoodErrorModel E) (hA : GoodFst A)
    {order : List (List Wc × Int) → List (List Wc × Int)} (hord : QueueOrder order) {word : List Wc} (hlen : word.length ≤ 2000)
    (hwE : Within E word) (hwA : ∀ q, Reading E word q → Within A (outputOf (plainFst E) q))
    (hpos : ∀ w k, Best E A word w k → 0 ≤ k) :
    ∃ N, ∀ n, N ≤ n → ∀ ec ac, WUsed E 2000 ec → WUsed A 2000 ac →
      ∃ s' ec' ac', vfstGenerate E A order n ec ac { word, maxSug := 15 } = some (s', ec', ac') ∧
        ∀ q, Reading E word q → Accepts A (outputOf (plainFst E) q) →
          outputOf (plainFst E) q ∈ (sortSuggestions s'.sugg).map (·.1) ∨
          (((sortSuggestions s'.sugg).map (·.1)).length = 15 ∧
            ∀ v ∈ (sortSuggestions s'.sugg).map (·.1), ∃ j, Correction E A word v j ∧
              ∀ k, Correction E A word (outputOf (plainFst E) q) k → j ≤ k) := by
  obtain ⟨N, h⟩ := vfstGenerate_spec hE hA hord hlen hwE hwA hpos
  refine ⟨N, fun n hn ec ac hec hac => ?_⟩
  obtain ⟨s', ec', ac', h1, h2, h3, l, h4, h5, h5', h6, h7⟩ := h n hn ec ac hec hac
  refine ⟨s', ec', ac', h1, fun q hq hacc => ?_⟩
  rw [h7]
  obtain ⟨k, hm⟩ := h5' q hq hacc
  have hbest := (h5 _ k).1 hm
  rw [← List.take_append_drop 15 l] at hm h6
  rcases List.mem_append.1 hm with hm | hm
  · exact .inl (List.mem_map.2 ⟨_, hm, rfl⟩)
  · right
    constructor
    · have : 15 < l.length := by
        by_contra hle
        rw [List.drop_of_length_le (by omega)] at hm
        cases hm
      rw [List.length_map, List.length_take]
      omega
    · intro v hv
      obtain ⟨⟨v', j⟩, hv', rfl⟩ := List.mem_map.1 hv
      have hle := (List.pairwise_append.1 h6).2.2 _ hv' _ hm
      simp only at hle
      exact ⟨j, ((h5 v' j).1 (List.mem_of_mem_take hv')).1, fun k' hk' => Int.le_trans hle (hbest.2 k' hk')⟩

/-! ## Examples -/

/-- An error model: a letter `a` stays or becomes `b` at weight 10, `b` stays. -/
def demoErrors : WFst :=
  { symbols := [[], [97], [98]], firstNormal := 1, featureCount := 0, diacritics := [], charToSym := [(97, 1), (98, 2)],
    cells := [⟨0xFFFFFFFF, 0, 0, 0, 3⟩, ⟨1, 1, 0, 0, 0⟩, ⟨1, 2, 0, 10, 0⟩, ⟨2, 2, 0, 0, 0⟩] }

/-- A dictionary of the words `ab` (weight 2) and `bb` (weight 1). -/
def demoAcceptor : WFst :=
  { symbols := [[], [97], [98]], firstNormal := 1, featureCount := 0, diacritics := [], charToSym := [(97, 1), (98, 2)],
    cells := [⟨1, 1, 2, 1, 1⟩, ⟨2, 2, 3, 0, 0⟩, ⟨2, 2, 4, 0, 0⟩, ⟨2, 2, 4, 0, 0⟩, ⟨0xFFFFFFFF, 0, 0, 1, 0⟩] }

theorem demoErrors_good : GoodErrorModel demoErrors :=
  { toGoodFst := goodCheck_spec (states := [0]) (by decide +kernel)
    noFlags := rfl
    symCount := by decide
    visible := by
      intro i s hi hs
      have hlt : i < 3 := (List.getElem?_eq_some_iff.1 hs).1
      have : i = 1 ∨ i = 2 := by
        have : 1 ≤ i := hi
        omega
      rcases this with rfl | rfl <;> cases hs <;> exact ⟨by decide, by decide⟩ }

theorem demoAcceptor_good : GoodFst demoAcceptor := goodCheck_spec (states := [0, 2, 3, 4]) (by decide +kernel)

theorem demoAcceptor_reads : ReadsInput demoAcceptor := by
  intro a t ht
  have h : ∀ t ∈ demoAcceptor.cells, t.symIn = 0xFFFFFFFF ∨ demoAcceptor.firstNormal ≤ t.symIn := by decide
  exact h t (List.mem_of_getElem? ht)

theorem demoAcceptor_deterministic : Deterministic demoAcceptor := by
  intro s a ha b hb t u ht hu he
  have h : ∀ s < 5, ∀ a ∈ stateAddrs (plainFst demoAcceptor) s, ∀ b ∈ stateAddrs (plainFst demoAcceptor) s,
      ((plainFst demoAcceptor).cells[a]?).map (·.symIn) = ((plainFst demoAcceptor).cells[b]?).map (·.symIn) → a = b := by
    decide +kernel
  by_cases hs : s < 5
  · exact h s hs a ha b hb (by rw [ht, hu]; simp [he])
  · have : (plainFst demoAcceptor).cells[s]? = none := by
      rw [List.getElem?_eq_none_iff]
      exact Nat.le_of_not_lt hs
    rw [stateAddrs, this] at ha
    cases ha

/-- The hypotheses of `C62_deterministic` hold for the example dictionary and every word, after any calls. -/
example (c : WConf) (hu : WUsed demoAcceptor 2000 c) (word : List Wc) :
    ∃ r c', vfstSpell demoAcceptor c word word.length = some (r, c') ∧ (r = .ok ↔ word.length ≤ 255 ∧ Accepts demoAcceptor word) := by
  obtain ⟨r, c', h1, _, _, h2, _⟩ := C62_deterministic demoAcceptor_good demoAcceptor_reads
    (by unfold ShortOutput; decide) demoAcceptor_deterministic (by decide) hu word
  exact ⟨r, c', h1, h2⟩

example : (vfstSpell demoAcceptor (WConf.new 0 2000) (lit "ab") 2).map (·.1) = some .ok ∧
    (vfstSpell demoAcceptor (WConf.new 0 2000) (lit "aa") 2).map (·.1) = some .failed := by decide +kernel

/-- Insertion into a list in the order of weights; one possible order of the queue. -/
def insertWeight (x : List Wc × Int) : List (List Wc × Int) → List (List Wc × Int)
  | [] => [x]
  | y :: l => if x.2 ≤ y.2 then x :: y :: l else y :: insertWeight x l

def sortWeight (l : List (List Wc × Int)) : List (List Wc × Int) := l.foldr insertWeight []

theorem insertWeight_perm (x : List Wc × Int) : ∀ l, (insertWeight x l).Perm (x :: l) := by
  intro l
  induction l with
  | nil => exact .refl _
  | cons y l ih =>
    rw [insertWeight]
    split
    · exact .refl _
    · exact (ih.cons y).trans (.swap _ _ _)

theorem sortWeight_order : QueueOrder sortWeight := by
  intro l
  induction l with
  | nil => exact ⟨.refl _, .nil⟩
  | cons x l ih =>
    refine ⟨(insertWeight_perm x _).trans (ih.1.cons x), ?_⟩
    have key : ∀ l : List (List Wc × Int), l.Pairwise (fun a b => a.2 ≤ b.2) → (insertWeight x l).Pairwise (fun a b => a.2 ≤ b.2) := by
      intro l
      induction l with
      | nil => intro _; simp [insertWeight]
      | cons y l ih =>
        intro hp
        rw [List.pairwise_cons] at hp
        rw [insertWeight]
        split
        · rename_i hle
          rw [List.pairwise_cons]
          refine ⟨fun z hz => ?_, List.pairwise_cons.2 hp⟩
          rcases List.mem_cons.1 hz with rfl | hz
          · exact hle
          · exact Int.le_trans hle (hp.1 z hz)
        · rename_i hle
          rw [List.pairwise_cons]
          refine ⟨fun z hz => ?_, ih hp.2⟩
          rcases List.mem_cons.1 ((insertWeight_perm x l).mem_iff.1 hz) with rfl | hz
          · omega
          · exact hp.1 z hz
    exact key _ ih.2

/-- The hypotheses of `C63_partial` and `C64_partial` hold for the example and the word `aa`, after any calls. -/
theorem demo_hyps : GoodErrorModel demoErrors ∧ GoodFst demoAcceptor ∧ QueueOrder sortWeight ∧ Within demoErrors (lit "aa") ∧
    (∀ q, Reading demoErrors (lit "aa") q → Within demoAcceptor (outputOf (plainFst demoErrors) q)) ∧
    (∀ w k, Best demoErrors demoAcceptor (lit "aa") w k → 0 ≤ k) := by
  refine ⟨demoErrors_good, demoAcceptor_good, sortWeight_order, withinCheck_spec (k := 5) (by decide +kernel), ?_, ?_⟩
  · intro q hq
    have hm := readingsOf_mem (k := 5) (by decide +kernel) hq
    have h : ∀ q ∈ readingsOf demoErrors (lit "aa") 5, withinCheck demoAcceptor (outputOf (plainFst demoErrors) q) 5 = true := by
      decide +kernel
    exact withinCheck_spec (h q hm)
  · rintro w k ⟨⟨q, a, hq, hw, ha, hk⟩, _⟩
    have h : ∀ q ∈ readingsOf demoErrors (lit "aa") 5, ∀ a ∈ readingsOf demoAcceptor (outputOf (plainFst demoErrors) q) 5,
        0 ≤ pathWeight demoErrors q + pathWeight demoAcceptor a := by decide +kernel
    have h' : ∀ q ∈ readingsOf demoErrors (lit "aa") 5,
        pathsShort (plainFst demoAcceptor) ((outputOf (plainFst demoErrors) q).map (plainFst demoAcceptor).symOf) 5 = true := by
      decide +kernel
    have hm := readingsOf_mem (k := 5) (by decide +kernel) hq
    subst hw
    rw [hk]
    exact h q hm a (readingsOf_mem (h' q hm) ha.1)

example : ∃ N, ∀ n, N ≤ n → ∀ ec ac, WUsed demoErrors 2000 ec → WUsed demoAcceptor 2000 ac →
    ∃ s' ec' ac', vfstGenerate demoErrors demoAcceptor sortWeight n ec ac { word := lit "aa", maxSug := 15 } = some (s', ec', ac') ∧
      ∀ w ∈ (sortSuggestions s'.sugg).map (·.1), Accepts demoAcceptor w := by
  obtain ⟨h1, h2, h3, h4, h5, h6⟩ := demo_hyps
  obtain ⟨N, h⟩ := C63_partial h1 h2 h3 (by decide) h4 h5 h6
  refine ⟨N, fun n hn ec ac hec hac => ?_⟩
  obtain ⟨s', ec', ac', g1, _, _, _, g2, _⟩ := h n hn ec ac hec hac
  exact ⟨s', ec', ac', g1, fun w hw => (g2 w hw).1⟩

example : ∃ N, ∀ n, N ≤ n → ∃ s' ec' ac', vfstGenerate demoErrors demoAcceptor sortWeight n (WConf.new 0 2000) (WConf.new 0 2000)
      { word := lit "aa", maxSug := 15 } = some (s', ec', ac') ∧
    ∀ q, Reading demoErrors (lit "aa") q → Accepts demoAcceptor (outputOf (plainFst demoErrors) q) →
      outputOf (plainFst demoErrors) q ∈ (sortSuggestions s'.sugg).map (·.1) ∨
        ((sortSuggestions s'.sugg).map (·.1)).length = 15 := by
  obtain ⟨h1, h2, h3, h4, h5, h6⟩ := demo_hyps
  obtain ⟨N, h⟩ := C64_partial h1 h2 h3 (by decide) h4 h5 h6
  refine ⟨N, fun n hn => ?_⟩
  obtain ⟨s', ec', ac', g1, g2⟩ := h n hn _ _ .new .new
  exact ⟨s', ec', ac', g1, fun q hq ha => (g2 q hq ha).imp_right fun h => h.1⟩

example : (vfstGenerate demoErrors demoAcceptor sortWeight 20 (WConf.new 0 2000) (WConf.new 0 2000)
    { word := lit "aa", maxSug := 15 }).map (·.1.sugg) = some [(lit "ab", 60), (lit "bb", 126)] := by decide +kernel

/-! ## Error models with flag diacritics -/

/-- Symbols: epsilon, `@P.X.A@`, `@R.X.A@`, `@D.X@`, `a`, `b`, `x`, `y`. The word `a` becomes `xy` on a path that sets the flag;
the other path needs the flag. -/
def flagErrors (sym : Nat) : WFst :=
  { cells := [⟨0, 6, 2, 0, 1⟩, ⟨sym, 0, 4, 0, 0⟩, ⟨1, 0, 3, 0, 0⟩, ⟨4, 7, 5, 0, 0⟩, ⟨4, 5, 5, 0, 0⟩, ⟨0xFFFFFFFF, 0, 0, 0, 0⟩]
    symbols := [[], lit "@P.X.A@", lit "@R.X.A@", lit "@D.X@", lit "a", lit "b", lit "x", lit "y"]
    firstNormal := 4
    diacritics := [⟨.P, 0, 0⟩, ⟨.P, 0, 2⟩, ⟨.R, 0, 2⟩, ⟨.D, 0, 1⟩]
    featureCount := 1
    charToSym := [(97, 4), (98, 5), (120, 6), (121, 7)] }

/-- A dictionary whose only word is `b`. -/
def wordB : WFst :=
  { cells := [⟨2, 2, 1, 0, 0⟩, ⟨0xFFFFFFFF, 0, 0, 0, 0⟩]
    symbols := [[], lit "a", lit "b", lit "x", lit "y"], firstNormal := 1, diacritics := [], featureCount := 0
    charToSym := [(97, 1), (98, 2), (120, 3), (121, 4)] }

/-- C63 fails for error models with flag diacritics: going back after a rejected output leaves the flags of the abandoned path
set. The word `a` gets the suggestion `b` although the error model does not turn `a` into `b`. -/
theorem C63_violation :
    ∃ (E A : WFst) (word w : List Wc) (s' : SugStatus) (ec' ac' : WConf), GoodFst E ∧ GoodFst A ∧ Within E word ∧
      (∀ q, Reading E word q → Within A (outputOf (plainFst E) q)) ∧
      vfstGenerate E A sortWeight 20 (WConf.new E.featureCount 2000) (WConf.new A.featureCount 2000) { word, maxSug := 15 } =
        some (s', ec', ac') ∧
      w ∈ (sortSuggestions s'.sugg).map (·.1) ∧ ¬ ∃ q, Reading E word q ∧ outputOf (plainFst E) q = w := by
  have hrun : ∃ x, vfstGenerate (flagErrors 2) wordB sortWeight 20 (WConf.new 1 2000) (WConf.new 0 2000)
      { word := lit "a", maxSug := 15 } = some x ∧ lit "b" ∈ (sortSuggestions x.1.sugg).map (·.1) := by
    have : (vfstGenerate (flagErrors 2) wordB sortWeight 20 (WConf.new 1 2000) (WConf.new 0 2000)
      { word := lit "a", maxSug := 15 }).map (fun x => (sortSuggestions x.1.sugg).map (·.1)) = some [lit "b"] := by decide +kernel
    obtain ⟨x, h1, h2⟩ := Option.map_eq_some_iff.1 this
    exact ⟨x, h1, by rw [h2]; decide⟩
  obtain ⟨⟨s', ec', ac'⟩, h1, h2⟩ := hrun
  have hmem : ∀ q, Reading (flagErrors 2) (lit "a") q → q ∈ readingsOf (flagErrors 2) (lit "a") 5 :=
    fun q hq => readingsOf_mem (by decide +kernel) hq
  refine ⟨flagErrors 2, wordB, lit "a", lit "b", s', ec', ac', goodCheck_spec (states := [0, 2, 3, 4, 5]) (by decide +kernel),
    goodCheck_spec (states := [0, 1]) (by decide +kernel), withinCheck_spec (k := 5) (by decide +kernel), fun q hq => ?_, h1, h2, ?_⟩
  · have h : ∀ q ∈ readingsOf (flagErrors 2) (lit "a") 5, withinCheck wordB (outputOf (plainFst (flagErrors 2)) q) 5 = true := by
      decide +kernel
    exact withinCheck_spec (h q (hmem q hq))
  · rintro ⟨q, hq, ho⟩
    have h : ∀ q ∈ readingsOf (flagErrors 2) (lit "a") 5, outputOf (plainFst (flagErrors 2)) q ≠ lit "b" := by decide +kernel
    exact h q (hmem q hq) ho

/-- C64 fails for error models with flag diacritics: here the flag left set blocks the path to the only correction. -/
theorem C64_violation :
    ∃ (E A : WFst) (word : List Wc) (q : List Nat) (s' : SugStatus) (ec' ac' : WConf), GoodFst E ∧ GoodFst A ∧ Within E word ∧
      (∀ q, Reading E word q → Within A (outputOf (plainFst E) q)) ∧
      vfstGenerate E A sortWeight 20 (WConf.new E.featureCount 2000) (WConf.new A.featureCount 2000) { word, maxSug := 15 } =
        some (s', ec', ac') ∧
      Reading E word q ∧ Accepts A (outputOf (plainFst E) q) ∧ s'.sugg = [] := by
  have hrun : ∃ x, vfstGenerate (flagErrors 3) wordB sortWeight 20 (WConf.new 1 2000) (WConf.new 0 2000)
      { word := lit "a", maxSug := 15 } = some x ∧ x.1.sugg = [] := by
    have : (vfstGenerate (flagErrors 3) wordB sortWeight 20 (WConf.new 1 2000) (WConf.new 0 2000)
      { word := lit "a", maxSug := 15 }).map (fun x => x.1.sugg) = some [] := by decide +kernel
    obtain ⟨x, h1, h2⟩ := Option.map_eq_some_iff.1 this
    exact ⟨x, h1, h2⟩
  obtain ⟨⟨s', ec', ac'⟩, h1, h2⟩ := hrun
  have hmem : ∀ q, Reading (flagErrors 3) (lit "a") q → q ∈ readingsOf (flagErrors 3) (lit "a") 5 :=
    fun q hq => readingsOf_mem (by decide +kernel) hq
  refine ⟨flagErrors 3, wordB, lit "a", [1, 4, 5], s', ec', ac', goodCheck_spec (states := [0, 2, 3, 4, 5]) (by decide +kernel),
    goodCheck_spec (states := [0, 1]) (by decide +kernel), withinCheck_spec (k := 5) (by decide +kernel), fun q hq => ?_, h1, ?_, ?_, h2⟩
  · have h : ∀ q ∈ readingsOf (flagErrors 3) (lit "a") 5, withinCheck wordB (outputOf (plainFst (flagErrors 3)) q) 5 = true := by
      decide +kernel
    exact withinCheck_spec (h q (hmem q hq))
  · exact ⟨[1, 4], 5, ⟨5, 1, [0]⟩, ⟨0xFFFF, 0, 0, 0⟩, rfl,
      .cons _ ⟨4, 0, [0]⟩ _ 1 [4] (.flag _ 1 ⟨3, 0, 4, 0⟩ [0] (by decide) rfl (by decide) (by decide)
        (by rw [FlagStep, if_neg (by decide)]; exact ⟨⟨.D, 0, 1⟩, 0, 0, rfl, rfl, by simp [FlagRel], rfl⟩))
        (.cons _ ⟨5, 1, [0]⟩ _ 4 [] (.symbol _ 4 ⟨4, 5, 5, 0⟩ (by decide) rfl (by decide) (by decide) rfl) (.nil _)),
      by decide, rfl, rfl, rfl, fun _ => rfl⟩
  · exact ⟨[0, 1], [0], 1, ⟨1, 1, []⟩, ⟨0xFFFF, 0, 0, 0⟩, rfl,
      .cons _ ⟨1, 1, []⟩ _ 0 [] (.symbol _ 0 ⟨2, 2, 1, 0⟩ (by decide) rfl (by decide) (by decide) rfl) (.nil _),
      by decide, rfl, rfl, rfl, fun _ => rfl⟩

end Verif.Props
