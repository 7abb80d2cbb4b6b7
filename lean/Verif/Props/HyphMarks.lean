import Verif.Lemmas.HyphMarks
import Verif.Props.HyphInsert
import Verif.Props.HyphRules
/-!
# C69: `=` in a hyphenation pattern stands only at hyphens and apostrophes
-/
set_option linter.unusedSimpArgs false
set_option linter.unusedVariables false

namespace Verif.Props
open Verif StructTok

/-- The STRUCTURE of the analysis belongs to the word `w`: a hyphen that is a compound border in STRUCTURE is a hyphen in
the word, and something follows it. -/
def StructureFits (w : List Wc) (a : MorAn) : Prop :=
  ∃ ts : List StructTok, Ok ts ∧ HasElements a ts ∧
    ∀ i : Nat, ts[i]? = some hyphen → i < w.length → w[i]? = some 0x2D ∧ i + 1 < w.length

/-- The character at `i` may be removed when the word is divided there: a hyphen inside the word, or an apostrophe inside
the word before a vowel. -/
def Removable (word : List Wc) (i : Nat) : Prop :=
  0 < i ∧ i + 1 < word.length ∧
    (word[i]? = some 0x2D ∨ (word[i]? = some 0x27 ∧ ∃ c, word[i + 1]? = some c ∧ lower c ∈ ruleVowels))

theorem lower_eq_apos (c : Wc) (h : lower c = 0x27) : c = 0x27 := by
  rcases Nat.lt_or_ge c 0x530 with h1 | h1
  · have t : ∀ c < 0x530, lower c = 0x27 → c = 0x27 := by decide +kernel
    exact t c h1 h
  · rw [lower_of_ge c h1] at h; exact h

theorem lower_ne_zero_mark (c : Wc) (h : c ≠ 0) : lower c ≠ 0 := by
  rcases Nat.lt_or_ge c 0x530 with h1 | h1
  · have t : ∀ c < 0x530, c ≠ 0 → lower c ≠ 0 := by decide +kernel
    exact t c h1 h
  · rw [lower_of_ge c h1]; exact h

/-- The patterns of compound borders have `=` only at hyphens inside the word. -/
theorem split_marks {o : HyphOpts} {an : Analyzer} {word : List Wc} {all pats rs : List (List Wc)}
    (hr : Readings o an word all pats rs)
    (hfit : ∀ a ∈ usedAnalyses o an word, StructureFits (word.take (usedLen o an word)) a) (p : List Wc) (hp : p ∈ pats) (i : Nat)
    (hi : i < word.length) (h : p[i]? = some 0x3D) : 0 < i ∧ i + 1 < word.length ∧ word[i]? = some 0x2D := by
  by_cases hall : all = []
  · obtain ⟨u, hu, hpu⟩ := hr.split.unknown hall
    rw [hpu, List.mem_singleton] at hp
    subst hp
    simp only [unknownPattern, Option.bind_eq_bind, Option.bind_eq_some_iff, Option.pure_def, Option.some.injEq] at hu
    obtain ⟨al, _, hu⟩ := hu
    subst hu
    rw [List.getElem?_append_left (by simpa using hi), List.getElem?_mapIdx, List.getElem?_eq_getElem hi, Option.map_some,
      Option.some.injEq] at h
    split at h
    · next hc =>
      simp only [Bool.and_eq_true, decide_eq_true_eq, beq_iff_eq] at hc
      refine ⟨hc.1.1.2, by omega, ?_⟩
      rw [List.getElem?_eq_getElem hi, hc.2]
    · split at h <;> cases h
  · have hpa := hr.split.sub hall p hp
    obtain ⟨a, ha, hraw⟩ := forall₂_mem_right (interpretAll_eq _ _ _ _ hr.interp) p hpa
    obtain ⟨ts, hok, hs, hts⟩ := hfit a ha
    obtain ⟨p', e1, hcell⟩ := rawPattern_tokens a ts hok hs word.length (dotCut o an word)
    have : p' = p := Option.some.inj (e1.symm.trans hraw)
    subst this
    have hul : usedLen o an word ≤ word.length := by unfold usedLen; omega
    have hlt : i < usedLen o an word := by
      by_contra hn
      have hd : dotCut o an word = true := by
        cases hd : dotCut o an word with
        | true => rfl
        | false => unfold usedLen at hn; rw [hd] at hn; simp at hn; omega
      have := (rawPattern_sound word.length (dotCut o an word) dotCut_length a p' hraw).2 hd
      have hii : i = word.length - 1 := by unfold usedLen at hn; rw [hd] at hn; simp at hn; omega
      rw [hii, this] at h
      cases h
    obtain ⟨c1, c2, c3, c4⟩ := hcell i hlt
    have nb : blankAt p' i = true → False := by
      intro hb
      rw [blankAt_true_iff h] at hb
      omega
    cases ht : ts[i]? with
    | none => exact absurd (c4 ht) nb
    | some t =>
      cases t with
      | plain c => exact absurd (c1 c ht) nb
      | border c => rw [c2 c ht] at h; cases h
      | hyphen =>
        have h3 := c3 ht
        rw [h] at h3
        obtain ⟨g1, g2⟩ := hts i ht (by simp; omega)
        rw [List.getElem?_take_of_lt hlt] at g1
        simp only [List.length_take] at g2
        refine ⟨?_, by omega, g1⟩
        by_contra hz
        rw [if_pos (by omega)] at h3
        cases h3

/-- C69: if the STRUCTURE of every analysis that is used belongs to the word, `=` in the result stands only at characters
that may be removed. -/
theorem C69_marks (o : HyphOpts) (an : Analyzer) (word r : List Wc) (h0 : 0 ∉ word)
    (hfit : ∀ a ∈ usedAnalyses o an word, StructureFits (word.take (usedLen o an word)) a)
    (h : hyphenateUcs4 o an word = some (some r)) (i : Nat) (hm : r[i]? = some 0x3D) : Removable word i := by
  by_cases hmin : o.minLength ≤ word.length
  · obtain ⟨hv, all, e⟩ := defined_cases intersectHyph o an word r hmin h
    obtain ⟨pats, rs, hr, e4, e2⟩ := hyphenateWith_of intersectHyph o an word hv h0 hmin all e
    rw [show hyphenateUcs4 o an word = _ from e2, Option.map_eq_some_iff] at h
    obtain ⟨r', e3, h4⟩ := h
    rw [Option.some.injEq] at h4
    subst h4
    obtain ⟨r'', e5, hl, g⟩ := intersect_spec word.length rs hr.ne hr.ok
    have : r'' = r' := Option.some.inj (e5.symm.trans e3)
    subst this
    have hi : i < word.length := by rw [← hl]; exact (List.getElem?_eq_some_iff.1 hm).1
    obtain ⟨g1, g2⟩ := g i hi
    have hnb : ∀ p ∈ rs, blankAt p i = false := by
      intro p hp
      cases hb : blankAt p i with
      | false => rfl
      | true => rw [g1 ⟨p, hp, hb⟩] at hm; cases hm
    have hq := g2 hnb
    rw [hm] at hq
    have hqm : rs.head hr.ne ∈ rs := List.head_mem hr.ne
    generalize rs.head hr.ne = q at hq hqm
    have hq' : q[i]? = some 0x3D := hq.symm
    obtain ⟨p, hp, hc⟩ := forall₂_mem_right hr.rules q hqm
    have hpl := patOk_length (hr.split.ok p hp)
    have hul : usedLen o an word ≤ word.length := by unfold usedLen; omega
    obtain ⟨q2, f1, _, _, f4⟩ := compound_spec o.ugly o.minLength (word ++ [0]) (usedLen o an word) p
      (take_word_ne h0 _ (by omega)) (by simp; omega) (by omega)
    have : q2 = q := Option.some.inj (f1.symm.trans hc)
    subst this
    have border : p[i]? = some 0x3D → Removable word i := by
      intro hpe
      obtain ⟨b1, b2, b3⟩ := split_marks hr hfit p hp i hi hpe
      exact ⟨b1, b2, Or.inl b3⟩
    rcases f4 i with h5 | ⟨s, e, x, hpart, _, h6, h7, h8, _, h9⟩
    · exact border (by rw [← h5]; exact hq')
    · rw [h9] at hq'
      have hle := hpart.le
      rcases ruleHyphenation_eq _ _ _ _ _ h8 _ hq' with k | ⟨k1, k2, k3, d, k4, k5⟩
      · rw [List.getElem?_drop, show s + (i - s) = i by omega] at k
        exact border k
      · rw [List.getElem?_map, List.getElem?_drop, show s + (i - s) = i by omega, List.getElem?_append_left (by omega),
          List.getElem?_eq_getElem hi, Option.map_some, Option.some.injEq] at k3
        rw [List.getElem?_map, List.getElem?_drop, show s + (i - s + 1) = i + 1 by omega,
          List.getElem?_append_left (by omega), List.getElem?_eq_getElem (by omega), Option.map_some, Option.some.injEq] at k4
        subst k4
        refine ⟨by omega, by omega, Or.inr ⟨?_, word[i + 1]'(by omega), List.getElem?_eq_getElem _, ?_⟩⟩
        · rw [List.getElem?_eq_getElem hi, lower_eq_apos _ k3]
        · have hz : word[i + 1]'(by omega) ≠ 0 := fun hx => h0 (hx ▸ List.getElem_mem _)
          have := lower_ne_zero_mark _ hz
          rw [← ruleVowels_eq]; simpa [wcschr, this] using k5
  · rw [C38_short_word o an word (by omega)] at h
    cases h
    rw [List.getElem?_replicate] at hm
    split at hm <;> cases hm

/-- The word is one that may be divided by rule: longer than a letter, and, if ugly hyphenation is off, not taken for a
non-word and not ending in a digit. -/
def MayDivide (ugly : Bool) (word : List Wc) : Prop :=
  2 ≤ word.length ∧ (ugly = false → isNonword word = some false ∧ ∀ c, word.getLast? = some c → ¬ (0x30 ≤ c ∧ c ≤ 0x39))

/-- C69: in a word that the analyser does not know (with or without an ignored full stop) every hyphen inside the word is
marked `=`, whether or not unknown words are hyphenated otherwise. -/
theorem C69_unknown_hyphens (o : HyphOpts) (an : Analyzer) (word r : List Wc) (h0 : 0 ∉ word) (hmin : o.minLength ≤ word.length)
    (hun : usedAnalyses o an word = []) (hd : MayDivide o.ugly word) (h : hyphenateUcs4 o an word = some (some r)) (i : Nat)
    (hi : 0 < i) (hi2 : i + 1 < word.length) (hc : word[i]? = some 0x2D) : r[i]? = some 0x3D := by
  obtain ⟨hv, all, e⟩ := defined_cases intersectHyph o an word r hmin h
  obtain ⟨pats, rs, hr, e4, e2⟩ := hyphenateWith_of intersectHyph o an word hv h0 hmin all e
  rw [show hyphenateUcs4 o an word = _ from e2, Option.map_eq_some_iff] at h
  obtain ⟨r', e3, h4⟩ := h
  rw [Option.some.injEq] at h4
  subst h4
  have hall : all = [] := by rw [hun] at e; exact (Option.some.inj e).symm
  obtain ⟨p, hp, hpats⟩ := hr.split.unknown hall
  have hpi : p[i]? = some 0x3D := by
    have hal : allowRule o.ugly word word.length = some true := by
      unfold allowRule
      rw [if_neg (by have := hd.1; omega)]
      cases hu : o.ugly with
      | true => rfl
      | false =>
        obtain ⟨g1, g2⟩ := hd.2 hu
        simp only [Bool.not_false, if_true]
        rw [if_neg (by omega), List.take_length, g1, rd_eq_some (by omega)]
        simp only [Option.bind_eq_bind, Option.bind_some, Bool.false_eq_true, if_false, Option.pure_def, Option.some.injEq]
        have := g2 (word[word.length - 1]'(by omega)) (by
          rw [List.getLast?_eq_getElem?, List.getElem?_eq_getElem (by omega)])
        simp only [Bool.not_eq_true', Bool.and_eq_false_iff, decide_eq_false_iff_not]
        omega
    simp only [unknownPattern, hal, Option.bind_eq_bind, Option.bind_some, Option.pure_def, Option.some.injEq] at hp
    subst hp
    rw [List.getElem?_append_left (by simp; omega), List.getElem?_mapIdx, hc, Option.map_some]
    simp [hi, show i < word.length - 1 by omega]
  rw [hpats] at hr
  have hrr := hr.rules
  cases hrr with
  | cons h1 h2 =>
    next q qs =>
    cases h2
    obtain ⟨r'', e5, hl, g⟩ := intersect_spec word.length [q] (by simp) hr.ok
    have : r'' = r' := Option.some.inj (e5.symm.trans e3)
    subst this
    have hpl := patOk_length (hr.split.ok p (by simp))
    have hul : usedLen o an word ≤ word.length := by unfold usedLen; omega
    obtain ⟨q2, f1, _, _, f4⟩ := compound_spec o.ugly o.minLength (word ++ [0]) (usedLen o an word) p
      (take_word_ne h0 _ (by omega)) (by simp; omega) (by omega)
    have : q2 = q := Option.some.inj (f1.symm.trans h1)
    subst this
    have hq : q2[i]? = some 0x3D := by
      rcases f4 i with h | ⟨s, e, _, hpart, _, h2, h3, _⟩
      · rw [h]; exact hpi
      · have := hpart.inside i h2 h3
        rw [blankAt_true_iff hpi] at this
        omega
    rw [(g i (by omega)).2 (by
      intro y hy
      rw [List.mem_singleton] at hy
      subst hy
      exact (blankAt_false_iff hq).2 (by omega))]
    exact hq

/-- C69: when hyphens are inserted with context changes, no character is lost except an apostrophe inside the word before a
vowel: every other character appears in its place in the result. -/
theorem C69_insert_loses_nothing (o : HyphOpts) (an : Analyzer) (word hyph out : List Nat) (hb : ∀ b ∈ word, b < 256)
    (h0 : 0 ∉ word) (hb' : ∀ b ∈ hyph, b < 256) (h0' : 0 ∉ hyph)
    (hfit : ∀ w, ucs4FromUtf8 word = some (some w) →
      ∀ a ∈ usedAnalyses o an w, StructureFits (w.take (usedLen o an w)) a)
    (h : insertHyphensCstr o an word hyph true = some (some out)) :
    ∃ (w : List Wc) (pieces : List (List Nat)), ucs4FromUtf8 word = some (some w) ∧ pieces.length = w.length ∧
      out = pieces.flatten ∧ ∀ (i : Nat) (c : Wc), w[i]? = some c →
        pieces[i]? = some (enc c) ∨ pieces[i]? = some (hyph ++ enc c) ∨
        (pieces[i]? = some hyph ∧ c = 0x27 ∧ Removable w i) := by
  obtain ⟨w, pat, pieces, e1, e2, e3, e4, e5⟩ := C40_context o an word hyph out hb h0 hb' h0' h
  refine ⟨w, pieces, e1, e3, e4, ?_⟩
  intro i c hc
  obtain ⟨_, _, hw0⟩ := decoded word w hb h0 e1
  have hpat : hyphenateUcs4 o an w = some (some pat) := by
    unfold hyphenateCstr at e2
    split at e2
    · cases e2
    · rw [e1] at e2
      have e2' : hyphenateUcs4 o an (cstr w) = some (some pat) := e2
      rw [cstr_eq w hw0] at e2'
      exact e2'
  obtain ⟨hl, hpc⟩ := C35_pattern o an w pat hw0 hpat
  have hi : i < w.length := (List.getElem?_eq_some_iff.1 hc).1
  obtain ⟨g1, g2, g3⟩ := e5 i c hc
  have hpi : pat[i]? = some (pat[i]'(by omega)) := List.getElem?_eq_getElem _
  rcases hpc _ (List.getElem_mem (by omega : i < pat.length)) with h' | h' | h'
  · rw [h'] at hpi; exact Or.inl (g1 hpi)
  · rw [h'] at hpi; exact Or.inr (Or.inl (g2 hpi))
  · rw [h'] at hpi
    have hR := C69_marks o an w pat hw0 (hfit w e1) hpat i hpi
    have hp := g3 hpi
    by_cases hd : c = 0x2D
    · rw [if_pos hd] at hp; exact Or.inl hp
    · rw [if_neg hd] at hp
      refine Or.inr (Or.inr ⟨hp, ?_, hR⟩)
      rcases hR.2.2 with k | ⟨k, _⟩
      · rw [hc] at k; cases k; exact absurd rfl hd
      · rw [hc] at k; cases k; rfl

/-- Non-vacuity: an analysed word with a hyphen, an unknown word with a hyphen and an apostrophe, and the insertion of
hyphens. -/
example : StructureFits (lit "puutalo-osa") { struct := some (structOf demoToks) } ∧
    hyphenateUcs4 {} (fun _ => [{ struct := some (structOf demoToks) }]) (lit "puutalo-osa") = some (some (lit "   - - = - ")) ∧
    hyphenateUcs4 {} (fun _ => []) (lit "-aa-raa'an-") = some (some (lit "   =   =   ")) ∧
    MayDivide true (lit "-aa-raa'an-") ∧
    insertHyphensCstr {} (fun _ => []) (lit "aa-raa'an") (lit "+") true = some (some (lit "aa-raa+an")) := by
  refine ⟨⟨demoToks, by simp [Ok, demoToks], Or.inl rfl, ?_⟩, by decide +kernel, by decide +kernel, ⟨by decide, fun h => by simp at h⟩,
    by decide +kernel⟩
  intro i hi hl
  have h11 : (lit "puutalo-osa").length = 11 := by decide
  have t : ∀ i < 11, demoToks[i]? = some hyphen → (lit "puutalo-osa")[i]? = some 0x2D ∧ i + 1 < (lit "puutalo-osa").length := by
    intro i hi h
    have : i = 0 ∨ i = 1 ∨ i = 2 ∨ i = 3 ∨ i = 4 ∨ i = 5 ∨ i = 6 ∨ i = 7 ∨ i = 8 ∨ i = 9 ∨ i = 10 := by omega
    rcases this with rfl | rfl | rfl | rfl | rfl | rfl | rfl | rfl | rfl | rfl | rfl <;>
      first | (exact ⟨by decide, by decide⟩) | (simp [demoToks] at h)
  exact t i (by omega) hi

/-- Without the condition on STRUCTURE a letter can be lost: here the hyphen of STRUCTURE has no counterpart in the word. -/
theorem C69_misfit_loses_letter :
    insertHyphensCstr {} (fun _ => [{ struct := some (lit "=pp-=pp") }]) (lit "kassa") (lit "+") true =
      some (some (lit "ka+sa")) := by decide +kernel

end Verif.Props
