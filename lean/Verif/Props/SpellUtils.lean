import Verif.Model.SpellUtils
import Verif.Props.Case
import Verif.Lemmas.Spell
import Mathlib.Tactic.Linarith
import Mathlib.Tactic.ByContra
import Mathlib.Tactic.Push
/-!
# C25, C26: verdicts of the dictionary speller
-/

set_option linter.unusedSimpArgs false

namespace Verif.Props

open Verif

/-! ### Specification -/

/-- The case requirements of a structure string: its characters up to the terminator, without the compound
borders `=`. The `n`th one belongs to the `n`th letter of the word. -/
def caseRequirements (s : List Wc) : List Wc := (s.takeWhile (· ≠ 0)).filter (· ≠ 0x3D)

/-- The letter is in lower case but must be in upper case (`i`, `j`). -/
def TooLow (c k : Wc) : Prop := isLower c = true ∧ (k = 0x69 ∨ k = 0x6A)

/-- The letter is in upper case but must be in lower case (`p`, `q`). -/
def TooHigh (c k : Wc) : Prop := isUpper c = true ∧ (k = 0x70 ∨ k = 0x71)

/-- `R` holds for the letter number `i` of the word and its requirement. -/
def At (R : Wc → Wc → Prop) (word s : List Wc) (i : Nat) : Prop :=
  ∃ c k, word[i]? = some c ∧ (caseRequirements s)[i]? = some k ∧ R c k

/-- The letter number `i` has the wrong case. -/
def WrongAt (word s : List Wc) (i : Nat) : Prop := At TooLow word s i ∨ At TooHigh word s i

/-! ### Lemmas -/

theorem not_upper_and_lower (c : Wc) (h : isUpper c = true) : isLower c = false := by
  have h5 := (C09_case_laws c).2.2.2.2.1
  cases hl : isLower c with
  | false => rfl
  | true => exact absurd ⟨h, hl⟩ h5

/-- Boolean form of `TooLow`. -/
def lowB (p : Wc × Wc) : Bool := isLower p.1 && (p.2 == 0x69 || p.2 == 0x6A)
/-- Boolean form of `TooHigh`. -/
def highB (p : Wc × Wc) : Bool := isUpper p.1 && (p.2 == 0x70 || p.2 == 0x71)

theorem lowB_iff (p : Wc × Wc) : lowB p = true ↔ TooLow p.1 p.2 := by simp [lowB, TooLow]
theorem highB_iff (p : Wc × Wc) : highB p = true ↔ TooHigh p.1 p.2 := by simp [highB, TooHigh]

theorem matchStep_eq (first : Bool) (c k : Wc) (r : SpellRes) :
    matchStep first (capType c) k r =
      if highB (c, k) then .capError else if lowB (c, k) then (if first then .capFirst else .capError) else r := by
  have hx := not_upper_and_lower c
  unfold matchStep capType lowB highB
  cases hu : isUpper c with
  | true =>
    simp only [hx hu, if_true, Bool.true_and, Bool.false_and, if_false]
    simp
  | false =>
    cases hl : isLower c <;> simp

theorem skipEq_spec (cells : List Wc) (h : 0 ∈ cells) :
    ∃ k t, skipEq cells = some (k :: t) ∧ k ≠ 0x3D ∧ caseRequirements cells = caseRequirements (k :: t) ∧
      0 ∈ k :: t := by
  induction cells with
  | nil => simp at h
  | cons c cs ih =>
    by_cases hc : c = 0x3D
    · subst hc
      have h' : 0 ∈ cs := by simpa using h
      obtain ⟨k, t, h1, h2, h3, h4⟩ := ih h'
      refine ⟨k, t, ?_, h2, ?_, h4⟩
      · simp only [skipEq, if_true]; exact h1
      · rw [← h3]; simp [caseRequirements]
    · exact ⟨c, cs, by simp [skipEq, hc], hc, rfl, h⟩

theorem caseRequirements_cons (k : Wc) (t : List Wc) (h0 : k ≠ 0) (h1 : k ≠ 0x3D) :
    caseRequirements (k :: t) = k :: caseRequirements t := by
  simp [caseRequirements, h0, h1]

theorem matchLoop_false (word cells : List Wc) (r : SpellRes) (h : 0 ∈ cells) (hr : r ≠ .capError) :
    matchLoop false r word cells =
      some (if (word.zip (caseRequirements cells)).any (fun p => lowB p || highB p) then .capError else r) := by
  induction word generalizing cells with
  | nil => simp [matchLoop]
  | cons c cs ih =>
    obtain ⟨k, t, h1, h2, h3, h4⟩ := skipEq_spec cells h
    rw [matchLoop, h1, h3]
    simp only [Option.bind_eq_bind, Option.bind_some, rd, List.getElem?_cons_zero, Option.pure_def,
      List.drop_succ_cons, List.drop_zero]
    by_cases hk : k = 0
    · subst hk; simp [caseRequirements]
    · have h5 : 0 ∈ t := by
        rcases List.mem_cons.1 h4 with e | e
        · exact absurd e.symm hk
        · exact e
      rw [if_neg hk, caseRequirements_cons k t hk h2, matchStep_eq, List.zip_cons_cons, List.any_cons]
      cases hh : highB (c, k) with
      | true => simp
      | false =>
        cases hl : lowB (c, k) with
        | true => simp
        | false =>
          simp only [Bool.false_eq_true, if_false, if_neg hr, Bool.or_self, Bool.false_or]
          exact ih t h5

/-- The verdict as a function of the letters paired with their requirements. -/
def verdict : List (Wc × Wc) → SpellRes
  | [] => .ok
  | p :: ps =>
    if highB p || ps.any (fun p => lowB p || highB p) then .capError else if lowB p then .capFirst else .ok

theorem matchWord_verdict (word cells : List Wc) (h : 0 ∈ cells) :
    matchWordAndAnalysis word cells = some (verdict (word.zip (caseRequirements cells))) := by
  unfold matchWordAndAnalysis
  cases word with
  | nil => simp [matchLoop, verdict]
  | cons c cs =>
    obtain ⟨k, t, h1, h2, h3, h4⟩ := skipEq_spec cells h
    rw [matchLoop, h1, h3]
    simp only [Option.bind_eq_bind, Option.bind_some, rd, List.getElem?_cons_zero, Option.pure_def,
      List.drop_succ_cons, List.drop_zero]
    by_cases hk : k = 0
    · subst hk; simp [caseRequirements, verdict]
    · have h5 : 0 ∈ t := by
        rcases List.mem_cons.1 h4 with e | e
        · exact absurd e.symm hk
        · exact e
      rw [if_neg hk, caseRequirements_cons k t hk h2, matchStep_eq, List.zip_cons_cons, verdict]
      cases hh : highB (c, k) with
      | true => simp
      | false =>
        cases hl : lowB (c, k) with
        | true =>
          simp only [Bool.false_eq_true, if_false, if_true, reduceCtorEq, Bool.false_or]
          rw [matchLoop_false _ _ _ h5 (by simp)]
        | false =>
          simp only [Bool.false_eq_true, if_false, reduceCtorEq, Bool.false_or]
          rw [matchLoop_false _ _ _ h5 (by simp)]

theorem caseRequirements_cells (s : List Wc) : caseRequirements (s ++ [0]) = caseRequirements s := by
  unfold caseRequirements
  congr 1
  induction s with
  | nil => simp
  | cons c cs ih =>
    by_cases hc : c = 0
    · simp [hc]
    · simpa [hc] using ih

theorem matchWord_string (word s : List Wc) :
    matchWordAndAnalysis word (s ++ [0]) = some (verdict (word.zip (caseRequirements s))) := by
  rw [matchWord_verdict _ _ (by simp), caseRequirements_cells]

theorem at_iff (R : Wc → Wc → Prop) (word s : List Wc) (i : Nat) :
    At R word s i ↔ ∃ p, (word.zip (caseRequirements s))[i]? = some p ∧ R p.1 p.2 := by
  unfold At
  constructor
  · rintro ⟨c, k, h1, h2, h3⟩
    exact ⟨(c, k), by rw [List.getElem?_zip_eq_some]; exact ⟨h1, h2⟩, h3⟩
  · rintro ⟨p, h1, h2⟩
    rw [List.getElem?_zip_eq_some] at h1
    exact ⟨p.1, p.2, h1.1, h1.2, h2⟩

theorem verdict_spec (ps : List (Wc × Wc)) :
    let W := fun i => ∃ p, ps[i]? = some p ∧ (TooLow p.1 p.2 ∨ TooHigh p.1 p.2)
    verdict ps ≠ .failed ∧ (verdict ps = .ok ↔ ∀ i, ¬ W i) ∧
    (verdict ps = .capFirst ↔ (∃ p, ps[0]? = some p ∧ TooLow p.1 p.2) ∧ ∀ i, 0 < i → ¬ W i) := by
  cases ps with
  | nil => simp [verdict]
  | cons p ps =>
    have hx : TooHigh p.1 p.2 → ¬ TooLow p.1 p.2 := by
      rintro ⟨a, _⟩ ⟨b, _⟩
      rw [not_upper_and_lower _ a] at b; simp at b
    have hany : ps.any (fun p => lowB p || highB p) = true ↔
        ∃ i, 0 < i ∧ ∃ q, (p :: ps)[i]? = some q ∧ (TooLow q.1 q.2 ∨ TooHigh q.1 q.2) := by
      rw [List.any_eq_true]
      constructor
      · rintro ⟨q, hq, hb⟩
        obtain ⟨i, hi⟩ := List.getElem?_of_mem hq
        refine ⟨i + 1, by omega, q, by simpa using hi, ?_⟩
        simpa [lowB_iff, highB_iff] using hb
      · rintro ⟨i, hi, q, hq, hb⟩
        obtain ⟨j, rfl⟩ : ∃ j, i = j + 1 := ⟨i - 1, by omega⟩
        refine ⟨q, List.mem_of_getElem? (by simpa using hq), ?_⟩
        simpa [lowB_iff, highB_iff] using hb
    intro W
    have hW0 : W 0 ↔ TooLow p.1 p.2 ∨ TooHigh p.1 p.2 := by
      show (∃ q, (p :: ps)[0]? = some q ∧ _) ↔ _
      simp only [List.getElem?_cons_zero, Option.some.injEq, exists_eq_left']
    have hWs : (∃ i, 0 < i ∧ W i) ↔ ps.any (fun p => lowB p || highB p) = true := hany.symm
    have hall : (∀ i, ¬ W i) ↔ ¬ W 0 ∧ ¬ (∃ i, 0 < i ∧ W i) := by
      constructor
      · intro h; exact ⟨h 0, fun ⟨i, _, hi⟩ => h i hi⟩
      · rintro ⟨h0, h1⟩ i hi
        rcases Nat.eq_zero_or_pos i with e | e
        · exact h0 (e ▸ hi)
        · exact h1 ⟨i, e, hi⟩
    have hpos : (∀ i, 0 < i → ¬ W i) ↔ ¬ (∃ i, 0 < i ∧ W i) := by
      constructor
      · rintro h ⟨i, a, b⟩; exact h i a b
      · intro h i a b; exact h ⟨i, a, b⟩
    rw [hall, hpos, hWs, hW0]
    have h0 : (∃ q, (p :: ps)[0]? = some q ∧ TooLow q.1 q.2) ↔ TooLow p.1 p.2 := by
      simp only [List.getElem?_cons_zero, Option.some.injEq, exists_eq_left']
    rw [h0, ← lowB_iff, ← highB_iff]
    rw [← lowB_iff, ← highB_iff] at hx
    simp only [verdict]
    revert hx
    clear_value W
    clear hany hW0 hWs hall hpos h0
    generalize highB p = a
    generalize lowB p = b
    generalize ps.any (fun p => lowB p || highB p) = c
    cases a <;> cases b <;> cases c <;> simp

/-! ### C26 -/

/-- C26: for every word and every structure string (NUL terminated memory `s ++ [0]`) matching does not leave the
buffers; it reports OK exactly if no letter has the wrong case, CAP_FIRST exactly if the first letter is too low and
no other letter is wrong, and CAP_ERROR exactly in the remaining cases. -/
theorem C26_verdict (word s : List Wc) :
    ∃ r, matchWordAndAnalysis word (s ++ [0]) = some r ∧
      (r = .ok ↔ ∀ i, ¬ WrongAt word s i) ∧
      (r = .capFirst ↔ At TooLow word s 0 ∧ ∀ i, 0 < i → ¬ WrongAt word s i) ∧
      (r = .capError ↔ At TooHigh word s 0 ∨ ∃ i, 0 < i ∧ WrongAt word s i) := by
  have hv := verdict_spec (word.zip (caseRequirements s))
  refine ⟨_, matchWord_string word s, ?_⟩
  have hW : ∀ i, WrongAt word s i ↔ ∃ p, (word.zip (caseRequirements s))[i]? = some p ∧
      (TooLow p.1 p.2 ∨ TooHigh p.1 p.2) := by
    intro i
    rw [WrongAt, at_iff, at_iff]
    constructor
    · rintro (⟨p, a, b⟩ | ⟨p, a, b⟩)
      · exact ⟨p, a, Or.inl b⟩
      · exact ⟨p, a, Or.inr b⟩
    · rintro ⟨p, a, b | b⟩
      · exact Or.inl ⟨p, a, b⟩
      · exact Or.inr ⟨p, a, b⟩
  simp only at hv
  simp only [← hW, ← at_iff TooLow word s 0] at hv
  obtain ⟨hf, h1, h2⟩ := hv
  refine ⟨h1, h2, ?_⟩
  have hcase : ∀ v : SpellRes, v ≠ .failed → (v = .capError ↔ v ≠ .ok ∧ v ≠ .capFirst) := by
    intro v; cases v <;> simp
  have hx : At TooHigh word s 0 → ¬ At TooLow word s 0 := by
    rintro ⟨c, k, a, b, hc⟩ ⟨c', k', a', b', hc'⟩
    rw [a] at a'; cases a'
    have := not_upper_and_lower _ hc.1
    rw [hc'.1] at this; cases this
  rw [hcase _ hf, Ne, Ne, h1, h2]
  constructor
  · rintro ⟨n1, n2⟩
    by_cases hp : ∃ i, 0 < i ∧ WrongAt word s i
    · exact Or.inr hp
    · left
      have hp' : ∀ i, 0 < i → ¬ WrongAt word s i := fun i a b => hp ⟨i, a, b⟩
      have hl : ¬ At TooLow word s 0 := fun h => n2 ⟨h, hp'⟩
      by_contra hh
      apply n1
      intro i
      rcases Nat.eq_zero_or_pos i with e | e
      · subst e; rintro (a | a)
        · exact hl a
        · exact hh a
      · exact hp' i e
  · rintro (h | ⟨i, hi, hw⟩)
    · exact ⟨fun n => n 0 (Or.inr h), fun n => hx h n.1⟩
    · exact ⟨fun n => n i hw, fun n => n.2 i hi hw⟩

/-- Non-vacuity: "koira" against "=ippp" (CAP_FIRST), "=ppppp" (OK) and "=pipp" (CAP_ERROR). -/
example : matchWordAndAnalysis (lit "koira") (lit "=ippp" ++ [0]) = some .capFirst ∧
    matchWordAndAnalysis (lit "koira") (lit "=ppppp" ++ [0]) = some .ok ∧
    matchWordAndAnalysis (lit "koira") (lit "=pipp" ++ [0]) = some .capError := by decide

/-! ### C25 -/

/-- Every analysis carries a STRUCTURE attribute. -/
def HasStructures (as : List MorAn) : Prop := ∀ a ∈ as, ∃ s, a.struct = some s

/-- Analysis `a` gives the verdict `r` for the word. -/
def Gives (word : List Wc) (a : MorAn) (r : SpellRes) : Prop :=
  ∃ s, a.struct = some s ∧ matchWordAndAnalysis word (s ++ [0]) = some r

/-- From best to worst: OK, CAP_FIRST, CAP_ERROR. -/
def Better : SpellRes → SpellRes → Prop
  | .ok, _ => True
  | .capFirst, r => r = .capFirst ∨ r = .capError
  | .capError, r => r = .capError
  | .failed, _ => False

/-- `r` is the best verdict given by an analysis in the list. -/
def BestOf (word : List Wc) (as : List MorAn) (r : SpellRes) : Prop :=
  (∃ a ∈ as, Gives word a r) ∧ ∀ a ∈ as, ∀ r', Gives word a r' → Better r r'

theorem gives_total (word : List Wc) (a : MorAn) (h : ∃ s, a.struct = some s) :
    ∃ r, r ≠ .failed ∧ (∃ c, a.structCells = some c ∧ matchWordAndAnalysis word c = some r) ∧
      ∀ r', Gives word a r' ↔ r' = r := by
  obtain ⟨s, hs⟩ := h
  refine ⟨_, (verdict_spec (word.zip (caseRequirements s))).1,
    ⟨s ++ [0], by simp [MorAn.structCells, hs], matchWord_string word s⟩, ?_⟩
  intro r'
  constructor
  · rintro ⟨s', h1, h2⟩
    rw [hs] at h1; cases h1
    rw [matchWord_string] at h2; cases h2; rfl
  · rintro rfl
    exact ⟨s, hs, matchWord_string word s⟩

theorem better_iff (a b : SpellRes) (ha : a ≠ .failed) (hb : b ≠ .failed) : Better a b ↔ a.toNat ≤ b.toNat := by
  cases a <;> cases b <;> simp_all [Better, SpellRes.toNat]

theorem toNat_inj (a b : SpellRes) (h : a.toNat = b.toNat) : a = b := by
  cases a <;> cases b <;> simp_all [SpellRes.toNat]

theorem toNat_pos (a : SpellRes) (h : a ≠ .failed) : 1 ≤ a.toNat := by
  cases a <;> simp_all [SpellRes.toNat]

theorem adapterLoop_spec (word : List Wc) (as : List MorAn) (best : SpellRes) (hs : HasStructures as) :
    ∃ r, adapterLoop word best as = some r ∧
      (best ≠ .failed → r ≠ .failed ∧ r.toNat ≤ best.toNat) ∧
      (as ≠ [] → r ≠ .failed) ∧
      (r = best ∨ ∃ a ∈ as, Gives word a r) ∧
      (∀ a ∈ as, ∀ r', Gives word a r' → r.toNat ≤ r'.toNat) := by
  induction as generalizing best with
  | nil => exact ⟨best, by simp [adapterLoop], by simp, by simp, by simp, by simp⟩
  | cons a as ih =>
    obtain ⟨v, hv0, ⟨cells, hc, hm⟩, hg⟩ := gives_total word a (hs a (by simp))
    have hs' : HasStructures as := fun x hx => hs x (by simp [hx])
    rw [adapterLoop, hc]
    simp only [Option.bind_eq_bind, Option.bind_some, hm, Option.pure_def]
    generalize hb : (if best = .failed ∨ v.toNat < best.toNat then v else best) = b
    have hb0 : b ≠ .failed := by
      rw [← hb]; split
      · exact hv0
      · rename_i h; push Not at h; exact h.1
    have hbv : b.toNat ≤ v.toNat := by
      rw [← hb]; split
      · omega
      · rename_i h; push Not at h; omega
    have hbb : best ≠ .failed → b.toNat ≤ best.toNat := by
      intro h
      rw [← hb]; split
      · rename_i h'; rcases h' with h' | h'
        · exact absurd h' h
        · omega
      · omega
    have hbo : b = best ∨ b = v := by
      rw [← hb]; split
      · exact Or.inr rfl
      · exact Or.inl rfl
    by_cases hok : b = .ok
    · rw [if_pos hok]
      refine ⟨b, rfl, fun h => ⟨hb0, hbb h⟩, fun _ => hb0, ?_, ?_⟩
      · rcases hbo with e | e
        · exact Or.inl e
        · exact Or.inr ⟨a, by simp, (hg b).2 e⟩
      · intro x hx r' hr'
        have h1 : r' ≠ .failed := by
          obtain ⟨v', hv', _, hg'⟩ := gives_total word x (hs x hx)
          rw [(hg' r').1 hr']; exact hv'
        rw [hok]; exact toNat_pos r' h1
    · rw [if_neg hok]
      obtain ⟨r, h1, h2, h3, h4, h5⟩ := ih b hs'
      obtain ⟨h2a, h2b⟩ := h2 hb0
      refine ⟨r, h1, fun h => ⟨h2a, by have := hbb h; omega⟩, fun _ => h2a, ?_, ?_⟩
      · rcases h4 with e | ⟨x, hx, hgx⟩
        · rcases hbo with e' | e'
          · exact Or.inl (e.trans e')
          · exact Or.inr ⟨a, by simp, (hg r).2 (e.trans e')⟩
        · exact Or.inr ⟨x, by simp [hx], hgx⟩
      · intro x hx r' hr'
        rcases List.mem_cons.1 hx with e | e
        · subst e
          rw [(hg r').1 hr']; omega
        · exact h5 x e r' hr'

/-- C25: if every analysis carries a structure, the speller neither leaves its buffers nor dereferences null; the
word is unknown iff there is no analysis, and otherwise the verdict is the best one over all analyses. -/
theorem C25_best (an : Analyzer) (word : List Wc) (hs : HasStructures (an word)) :
    ∃ r, adapterSpell an word = some r ∧ (r = .failed ↔ an word = []) ∧
      (an word ≠ [] → BestOf word (an word) r) := by
  unfold adapterSpell
  by_cases he : an word = []
  · refine ⟨.failed, by simp [he], by simp [he], fun h => absurd he h⟩
  · obtain ⟨r, h1, _, h3, h4, h5⟩ := adapterLoop_spec word (an word) .failed hs
    have hr := h3 he
    refine ⟨r, ?_, by simp [hr, he], fun _ => ⟨?_, ?_⟩⟩
    · rw [if_neg (by simpa using he)]; exact h1
    · rcases h4 with e | e
      · exact absurd e hr
      · exact e
    · intro a ha r' hr'
      obtain ⟨v', hv', _, hg'⟩ := gives_total word a (hs a ha)
      have hr'0 : r' ≠ .failed := by rw [(hg' r').1 hr']; exact hv'
      exact (better_iff r r' hr hr'0).2 (h5 a ha r' hr')

theorem bestOf_unique (word : List Wc) (as : List MorAn) (r r' : SpellRes) (h : BestOf word as r)
    (h' : BestOf word as r') (hs : HasStructures as) : r = r' := by
  obtain ⟨⟨a, ha, hg⟩, hm⟩ := h
  obtain ⟨⟨a', ha', hg'⟩, hm'⟩ := h'
  have h1 := hm a' ha' r' hg'
  have h2 := hm' a ha r hg
  have n1 : r ≠ .failed := by
    obtain ⟨v', hv', _, hgv⟩ := gives_total word a (hs a ha)
    rw [(hgv r).1 hg]; exact hv'
  have n2 : r' ≠ .failed := by
    obtain ⟨v', hv', _, hgv⟩ := gives_total word a' (hs a' ha')
    rw [(hgv r').1 hg']; exact hv'
  rw [better_iff _ _ n1 n2] at h1
  rw [better_iff _ _ n2 n1] at h2
  exact toNat_inj _ _ (by omega)

/-- C25: the verdict does not depend on the order in which the analyser lists the analyses. -/
theorem C25_order_independent (an an' : Analyzer) (word : List Wc) (hs : HasStructures (an word))
    (hp : (an word).Perm (an' word)) : adapterSpell an word = adapterSpell an' word := by
  have hs' : HasStructures (an' word) := fun a ha => hs a (hp.mem_iff.2 ha)
  obtain ⟨r, h1, h2, h3⟩ := C25_best an word hs
  obtain ⟨r', h1', h2', h3'⟩ := C25_best an' word hs'
  rw [h1, h1']
  by_cases he : an word = []
  · have he' : an' word = [] := by rw [he] at hp; exact hp.symm.eq_nil
    rw [h2.2 he, h2'.2 he']
  · have he' : an' word ≠ [] := by
      intro h; rw [h] at hp; exact he hp.eq_nil
    have hb := h3 he
    have hb' := h3' he'
    congr 1
    refine bestOf_unique word (an word) r r' hb ⟨?_, ?_⟩ hs
    · obtain ⟨a, ha, hg⟩ := hb'.1
      exact ⟨a, hp.mem_iff.2 ha, hg⟩
    · intro a ha; exact hb'.2 a (hp.mem_iff.1 ha)

/-- Without a structure (as produced by `morphology/VfstAnalyzer.cpp:94-98`, used with a speller backend that needs
structures) the speller dereferences a null pointer: the hypothesis of `C25_best` cannot be dropped. -/
theorem C25_null_structure : adapterSpell (fun _ => [{}]) (lit "a") = none := by decide

/-- Non-vacuity of the hypothesis and the three kinds of answers. -/
example : HasStructures [{ struct := some (lit "=ip") }, { struct := some (lit "=pp") }] ∧
    adapterSpell (fun _ => [{ struct := some (lit "=ip") }, { struct := some (lit "=pp") }]) (lit "ab") = some .ok ∧
    adapterSpell (fun _ => [{ struct := some (lit "=pi") }, { struct := some (lit "=ip") }]) (lit "ab") =
      some .capFirst := by
  refine ⟨?_, by decide, by decide⟩
  intro a ha
  simp only [List.mem_cons, List.not_mem_nil, or_false] at ha
  rcases ha with rfl | rfl <;> exact ⟨_, rfl⟩

/-! ### The suggestion speller uses the same verdicts -/

theorem countParts_spec (n : Nat) (cells : List Wc) (h : 0 ∈ cells) (hn : n < 5) :
    ∃ m, countParts n cells = some m ∧ m ≤ 5 := by
  induction cells generalizing n with
  | nil => simp at h
  | cons c cs ih =>
    unfold countParts
    by_cases h0 : c = 0
    · exact ⟨n, by simp [h0], by omega⟩
    · have h' : 0 ∈ cs := by
        rcases List.mem_cons.1 h with e | e
        · exact absurd e.symm h0
        · exact e
      rw [if_neg h0]
      by_cases h1 : c = 0x3D
      · rw [if_pos h1]
        by_cases h5 : n + 1 = 5
        · exact ⟨5, by simp [h5], le_refl _⟩
        · rw [if_neg h5]; exact ih (n + 1) h' (by omega)
      · rw [if_neg h1]; exact ih n h' hn

theorem prioStructure_spec (cells : List Wc) (h : 0 ∈ cells) :
    ∃ p, prioStructure cells = some p ∧ 1 ≤ p ∧ p ≤ 4096 := by
  obtain ⟨m, h1, h2⟩ := countParts_spec 0 cells h (by omega)
  unfold prioStructure
  rw [h1]
  simp only [Option.bind_eq_bind, Option.bind_some, Option.pure_def]
  have : m = 0 ∨ m = 1 ∨ m = 2 ∨ m = 3 ∨ m = 4 ∨ m = 5 := by omega
  rcases this with rfl | rfl | rfl | rfl | rfl | rfl <;> simp [int32]

theorem prioNoun_le (a : MorAn) : 1 ≤ prioNoun a ∧ prioNoun a ≤ 60 := by
  unfold prioNoun
  split
  · omega
  · repeat refine iteInd (P := fun n => 1 ≤ n ∧ n ≤ 60) (fun _ => by omega) (fun _ => ?_)
    omega

theorem prioClass_le (a : MorAn) : 1 ≤ prioClass a ∧ prioClass a ≤ 60 := by
  unfold prioClass
  split
  · omega
  · split
    · exact prioNoun_le a
    · omega

theorem handleAnalysis_spec (word : List Wc) (a : MorAn) (h : ∃ s, a.struct = some s) :
    ∃ r p, handleAnalysis word a = some (r, p) ∧ Gives word a r ∧ r ≠ .failed ∧ 1 ≤ p ∧ p ≤ 737280 := by
  obtain ⟨s, hs⟩ := h
  obtain ⟨v, hv0, ⟨cells, hc, hm⟩, hg⟩ := gives_total word a ⟨s, hs⟩
  have h0 : 0 ∈ cells := by
    simp only [MorAn.structCells, hs, Option.some.injEq] at hc
    rw [← hc]; simp
  obtain ⟨p, hp, p1, p2⟩ := prioStructure_spec cells h0
  obtain ⟨c1, c2⟩ := prioClass_le a
  have e1 : prioClass a * p ≤ 245760 := by nlinarith
  have e0 : 1 ≤ prioClass a * p := Nat.mul_pos c1 p1
  have r1 : 1 ≤ prioResult v ∧ prioResult v ≤ 3 := by cases v <;> simp [prioResult]
  have e2 : prioClass a * p * prioResult v ≤ 737280 := by nlinarith [r1.2]
  refine ⟨v, prioClass a * p * prioResult v, ?_, (hg v).2 rfl, hv0, Nat.mul_pos e0 r1.1, e2⟩
  unfold handleAnalysis
  rw [hc]
  simp only [Option.bind_eq_bind, Option.bind_some, hp, int32, Option.pure_def]
  rw [if_pos (by omega)]
  simp only [Option.bind_some, hm]
  rw [if_pos (by omega)]
  rfl

/-- `(r, p)` is the best verdict, with the smallest priority among the analyses giving it. -/
def BestPrio (word : List Wc) (as : List MorAn) (r : SpellRes) (p : Nat) : Prop :=
  BestOf word as r ∧ (∃ a ∈ as, handleAnalysis word a = some (r, p)) ∧
    ∀ a ∈ as, ∀ p', handleAnalysis word a = some (r, p') → p ≤ p'

theorem prioLoop_spec (word : List Wc) (as : List MorAn) (best : SpellRes × Nat) (hs : HasStructures as) :
    ∃ r, prioLoop word best as = some r ∧
      (best.1 ≠ .failed → r.1 ≠ .failed ∧ r.1.toNat ≤ best.1.toNat ∧ (r.1 = best.1 → r.2 ≤ best.2)) ∧
      (as ≠ [] → r.1 ≠ .failed) ∧
      (r = best ∨ ∃ a ∈ as, handleAnalysis word a = some r) ∧
      (∀ a ∈ as, ∀ r', handleAnalysis word a = some r' → r.1.toNat ≤ r'.1.toNat ∧ (r.1 = r'.1 → r.2 ≤ r'.2)) := by
  induction as generalizing best with
  | nil => exact ⟨best, by simp [prioLoop], by simp, by simp, by simp, by simp⟩
  | cons a as ih =>
    obtain ⟨v, p, hh, _, hv0, _, _⟩ := handleAnalysis_spec word a (hs a (by simp))
    have hs' : HasStructures as := fun x hx => hs x (by simp [hx])
    rw [prioLoop, hh]
    simp only [Option.bind_eq_bind, Option.bind_some, Option.pure_def]
    generalize hb : (if best.1 = .failed ∨ v.toNat < best.1.toNat then (v, p)
      else if best.1 = v then (best.1, if p < best.2 then p else best.2) else best) = b
    obtain ⟨r, h1, h2, h3, h4, h5⟩ := ih b hs'
    have key : b.1 ≠ .failed ∧ b.1.toNat ≤ v.toNat ∧ (b.1 = v → b.2 ≤ p) ∧ (b = best ∨ b = (v, p)) ∧
        (best.1 ≠ .failed → b.1.toNat ≤ best.1.toNat ∧ (b.1 = best.1 → b.2 ≤ best.2)) := by
      rw [← hb]
      by_cases c1 : best.1 = .failed ∨ v.toNat < best.1.toNat
      · rw [if_pos c1]
        refine ⟨hv0, le_refl _, fun _ => le_refl _, Or.inr rfl, fun hn => ?_⟩
        have : v.toNat < best.1.toNat := by
          rcases c1 with c | c
          · exact absurd c hn
          · exact c
        refine ⟨by simp only; omega, fun e => ?_⟩
        simp only at e; rw [e] at this; omega
      · rw [if_neg c1]
        push Not at c1
        by_cases c2 : best.1 = v
        · rw [if_pos c2]
          refine ⟨c1.1, by simp only; omega, ?_, ?_, ?_⟩
          · intro _; simp only; split <;> omega
          · by_cases c3 : p < best.2
            · right; simp [c3, c2]
            · left; simp [c3]
          · intro _; refine ⟨le_refl _, fun _ => ?_⟩; simp only; split <;> omega
        · rw [if_neg c2]
          exact ⟨c1.1, c1.2, fun e => absurd e c2, Or.inl rfl, fun _ => ⟨le_refl _, fun _ => le_refl _⟩⟩
    obtain ⟨k1, k2, k3, k4, k5⟩ := key
    obtain ⟨m1, m2, m3⟩ := h2 k1
    refine ⟨r, h1, ?_, fun _ => m1, ?_, ?_⟩
    · intro hn
      obtain ⟨q1, q2⟩ := k5 hn
      refine ⟨m1, by omega, fun e => ?_⟩
      have e1 : r.1.toNat = best.1.toNat := by rw [e]
      have e2 : r.1 = b.1 := toNat_inj _ _ (by omega)
      have := m3 e2
      have := q2 (e2.symm.trans e)
      omega
    · rcases h4 with e | ⟨x, hx, e⟩
      · rcases k4 with e' | e'
        · exact Or.inl (e.trans e')
        · exact Or.inr ⟨a, by simp, by rw [hh, e, e']⟩
      · exact Or.inr ⟨x, by simp [hx], e⟩
    · intro x hx r' hr'
      rcases List.mem_cons.1 hx with e | e
      · subst e
        rw [hh] at hr'; cases hr'
        refine ⟨by simp only; omega, fun e => ?_⟩
        simp only at e ⊢
        have e2 : r.1 = b.1 := by apply toNat_inj; rw [e] at m2 ⊢; omega
        have := m3 e2
        have := k3 (e2.symm.trans e)
        omega
      · exact h5 x e r' hr'

/-- C25: the prioritising speller used for suggestions gives the same verdict as the dictionary speller, and the
smallest priority among the analyses with that verdict; its `int` arithmetic never overflows. -/
theorem C25_priority (an : Analyzer) (word : List Wc) (hs : HasStructures (an word)) :
    ∃ r p, spellWithPriority an word = some (r, p) ∧ adapterSpell an word = some r ∧
      (an word ≠ [] → BestPrio word (an word) r p ∧ 1 ≤ p ∧ p ≤ 737280) := by
  obtain ⟨r0, h1, h2, h3⟩ := C25_best an word hs
  unfold spellWithPriority
  by_cases he : an word = []
  · exact ⟨.failed, 0, by simp [he], by rw [h1, h2.2 he], fun h => absurd he h⟩
  · obtain ⟨r, g1, _, g3, g4, g5⟩ := prioLoop_spec word (an word) (.failed, 0) hs
    have hr := g3 he
    have hmem : ∃ a ∈ an word, handleAnalysis word a = some r := by
      rcases g4 with e | e
      · exact absurd (by rw [e]) hr
      · exact e
    have hbest : BestOf word (an word) r.1 := by
      constructor
      · obtain ⟨a, ha, e⟩ := hmem
        obtain ⟨v, p, hh, hg, _⟩ := handleAnalysis_spec word a (hs a ha)
        rw [hh] at e; cases e
        exact ⟨a, ha, hg⟩
      · intro a ha r' hr'
        obtain ⟨v, p, hh, hg, hv0, _⟩ := handleAnalysis_spec word a (hs a ha)
        obtain ⟨v', _, _, hgv⟩ := gives_total word a (hs a ha)
        have e : r' = v := ((hgv r').1 hr').trans ((hgv v).1 hg).symm
        subst e
        exact (better_iff _ _ hr hv0).2 (g5 a ha _ hh).1
    refine ⟨r.1, r.2, ?_, ?_, fun _ => ⟨⟨hbest, ?_, ?_⟩, ?_⟩⟩
    · rw [if_neg (by simpa using he)]; exact g1
    · rw [h1, bestOf_unique word (an word) _ _ (h3 he) hbest hs]
    · exact hmem
    · intro a ha p' hp'
      exact (g5 a ha _ hp').2 rfl
    · obtain ⟨a, ha, e⟩ := hmem
      obtain ⟨v, p, hh, _, _, hp1, hp2⟩ := handleAnalysis_spec word a (hs a ha)
      rw [hh] at e; cases e
      exact ⟨hp1, hp2⟩

end Verif.Props
