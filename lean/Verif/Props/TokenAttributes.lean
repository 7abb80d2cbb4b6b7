import Verif.Props.GrammarRules
/-!
# C75: what the grammar checker knows about a word

The attributes of a word are those of its analyses taken together: "may be" means that some analysis says so, "is" that all do.
-/

namespace Verif.Props
open Verif
set_option linter.unusedSimpArgs false
set_option linter.unusedVariables false

/-! ### What one analysis says -/

/-- The value of an attribute is the given one. -/
def Has (v : Option (List Wc)) (s : String) : Prop := v = some (lit s)

instance (v : Option (List Wc)) (s : String) : Decidable (Has v s) := inferInstanceAs (Decidable (v = some (lit s)))

/-- The word begins with a small letter: the second character of STRUCTURE is `p` or `q`. -/
def SmallFirst (a : GramAn) : Prop := ∃ st, a.struct = some st ∧ (st[1]? = some 0x70 ∨ st[1]? = some 0x71)

/-- A place name in the genitive, with a capital letter. -/
def PlaceGenitive (a : GramAn) : Prop := ¬ SmallFirst a ∧ Has a.cls "paikannimi" ∧ Has a.sijamuoto "omanto"

/-- A conjunction, or a negative verb such as `enkä`; `last` is the last letter of the word. -/
def Conjunction (last : Wc) (a : GramAn) : Prop := Has a.cls "sidesana" ∨ Has a.cls "kieltosana" ∧ last = 0xE4

/-- Possibly the main verb of a sentence: the class is not known, or a verb other than an A- or E-infinitive that is not a negated form. -/
def MaybeMain (a : GramAn) : Prop :=
  a.cls = none ∨ Has a.cls "teonsana" ∧ ¬ Has a.mood "A-infinitive" ∧ ¬ Has a.mood "E-infinitive" ∧ ¬ Has a.negative "true"

/-- A verb in the indicative. -/
def Indicative (a : GramAn) : Prop := Has a.cls "teonsana" ∧ Has a.mood "indicative"

/-- A verb form that is not used after a negative verb (the conditional without a person other than the third one is). -/
def Positive (a : GramAn) : Prop :=
  Has a.cls "teonsana" ∧ Has a.negative "false" ∧ ¬ ((a.mood = none ∨ Has a.mood "conditional") ∧ (a.person = none ∨ Has a.person "3"))

/-- The infinitive named by an attribute. -/
def infinitive (v : Option (List Wc)) : FollowingVerb :=
  if Has v "A-infinitive" then .aInf else if Has v "MA-infinitive" then .maInf else .none

/-- The agent participle in the abessive (`tekemättä`). -/
def AgentAbessive (a : GramAn) : Prop := Has a.participle "agent" ∧ Has a.sijamuoto "vajanto"

instance (a : GramAn) : Decidable (AgentAbessive a) := inferInstanceAs (Decidable (_ ∧ _))

/-- The common value, if there is one. -/
def common (vs : List FollowingVerb) : FollowingVerb :=
  match vs with
  | [] => .none
  | v :: vs => if ∀ x ∈ vs, x = v then v else .none

/-- The attributes that do not depend on the order of the analyses. -/
structure Attributes (as : List GramAn) (last : Wc) (t : GTok) : Prop where
  valid : t.isValidWord = true ↔ as ≠ []
  small : t.firstLetterLcase = true ↔ ∀ a ∈ as, SmallFirst a
  place : t.isGeoGenitive = true ↔ ∃ a ∈ as, PlaceGenitive a
  maybePlace : t.possibleGeo = true ↔ ∃ a ∈ as, Has a.possibleGeo "true"
  maybeConj : t.possibleConjunction = true ↔ ∃ a ∈ as, Conjunction last a
  conj : t.isConjunction = true ↔ as ≠ [] ∧ ∀ a ∈ as, Conjunction last a
  maybeMain : t.possibleMainVerb = true ↔ ∃ a ∈ as, MaybeMain a
  main : t.isMainVerb = true ↔ as ≠ [] ∧ ∀ a ∈ as, Indicative a
  negative : t.isVerbNegative = true ↔ as ≠ [] ∧ ∀ a ∈ as, Has a.cls "kieltosana"
  positive : t.isPositiveVerb = true ↔ as ≠ [] ∧ ∀ a ∈ as, Positive a
  requires : t.requireVerb = common (as.map fun a => infinitive a.requireVerb)

/-! ### The loop over the analyses -/

theorem isLit_iff (v : Option (List Wc)) (s : String) : isLit v s = true ↔ Has v s := by
  simp [isLit, Has]

/-- What the loop adds to the attributes. -/
structure LoopAttrs (as : List GramAn) (last : Wc) (t u : GTok) : Prop where
  valid : u.isValidWord = true ↔ t.isValidWord = true ∨ as ≠ []
  small : u.firstLetterLcase = true ↔ t.firstLetterLcase = true ∧ ∀ a ∈ as, SmallFirst a
  place : u.isGeoGenitive = true ↔ t.isGeoGenitive = true ∨ ∃ a ∈ as, PlaceGenitive a
  maybePlace : u.possibleGeo = true ↔ t.possibleGeo = true ∨ ∃ a ∈ as, Has a.possibleGeo "true"
  maybeConj : u.possibleConjunction = true ↔ t.possibleConjunction = true ∨ ∃ a ∈ as, Conjunction last a
  conj : u.isConjunction = true ↔ t.isConjunction = true ∧ ∀ a ∈ as, Conjunction last a
  maybeMain : u.possibleMainVerb = true ↔ t.possibleMainVerb = true ∨ ∃ a ∈ as, MaybeMain a
  main : u.isMainVerb = true ↔ t.isMainVerb = true ∧ ∀ a ∈ as, Indicative a
  negative : u.isVerbNegative = true ↔ t.isVerbNegative = true ∧ ∀ a ∈ as, Has a.cls "kieltosana"
  positive : u.isPositiveVerb = true ↔ t.isPositiveVerb = true ∧ ∀ a ∈ as, Positive a
  start : u.possibleSentenceStart = t.possibleSentenceStart

theorem smallFirst_iff {a : GramAn} {st : List Wc} (h : a.struct = some st) :
    (decide (st.length < 2) || (st[1]? != some 0x70 && st[1]? != some 0x71)) = true ↔ ¬ SmallFirst a := by
  unfold SmallFirst
  rw [h]
  simp only [Option.some.injEq, exists_eq_left']
  constructor
  · intro hh hs
    simp only [Bool.or_eq_true, decide_eq_true_eq, Bool.and_eq_true, bne_iff_ne, ne_eq] at hh
    rcases hh with hh | hh
    · rw [List.getElem?_eq_none (by omega)] at hs
      rcases hs with hs | hs <;> cases hs
    · rcases hs with hs | hs
      · exact hh.1 hs
      · exact hh.2 hs
  · intro hs
    simp only [Bool.or_eq_true, decide_eq_true_eq, Bool.and_eq_true, bne_iff_ne, ne_eq]
    exact .inr ⟨fun h => hs (.inl h), fun h => hs (.inr h)⟩

/-- One analysis. -/
def anaStep (last : Wc) (first set : Bool) (t : GTok) (a : GramAn) (t1 : GTok) : GTok × Bool :=
  let t2 := anaVerb a (anaConj a last t1)
  anaFollower a set (anaRequire a first { t2 with possibleGeo := t2.possibleGeo || isLit a.possibleGeo "true" })

/-- The fields that the last two steps of the loop do not change. -/
structure KeepAttrs (t u : GTok) : Prop where
  valid : u.isValidWord = t.isValidWord
  small : u.firstLetterLcase = t.firstLetterLcase
  place : u.isGeoGenitive = t.isGeoGenitive
  maybePlace : u.possibleGeo = t.possibleGeo
  maybeConj : u.possibleConjunction = t.possibleConjunction
  conj : u.isConjunction = t.isConjunction
  maybeMain : u.possibleMainVerb = t.possibleMainVerb
  main : u.isMainVerb = t.isMainVerb
  negative : u.isVerbNegative = t.isVerbNegative
  positive : u.isPositiveVerb = t.isPositiveVerb
  start : u.possibleSentenceStart = t.possibleSentenceStart

theorem anaRequire_keep (a : GramAn) (f : Bool) (t : GTok) : KeepAttrs t (anaRequire a f t) := by
  unfold anaRequire; extract_lets; repeat' split
  all_goals exact ⟨rfl, rfl, rfl, rfl, rfl, rfl, rfl, rfl, rfl, rfl, rfl⟩

theorem anaFollower_keep (a : GramAn) (f : Bool) (t : GTok) : KeepAttrs t (anaFollower a f t).1 := by
  unfold anaFollower; extract_lets; repeat' split
  all_goals exact ⟨rfl, rfl, rfl, rfl, rfl, rfl, rfl, rfl, rfl, rfl, rfl⟩

theorem has_ne {v : Option (List Wc)} {s s' : String} (h : Has v s) (hne : lit s ≠ lit s') : ¬ Has v s' := by
  intro h'
  unfold Has at h h'
  rw [h] at h'
  exact hne (Option.some.inj h')

/-- What one analysis adds. -/
theorem anaStep_attrs {last : Wc} {first set : Bool} {t t1 : GTok} {a : GramAn}
    (h1 : anaCase a { t with isValidWord := true } = some t1) : LoopAttrs [a] last t (anaStep last first set t a t1).1 := by
  unfold anaStep
  simp only
  have k1 := anaFollower_keep a set (anaRequire a first { (anaVerb a (anaConj a last t1)) with possibleGeo := (anaVerb a (anaConj a last t1)).possibleGeo || isLit a.possibleGeo "true" })
  have k2 := anaRequire_keep a first { (anaVerb a (anaConj a last t1)) with possibleGeo := (anaVerb a (anaConj a last t1)).possibleGeo || isLit a.possibleGeo "true" }
  -- letter case
  have hc : t1.isValidWord = true ∧ (t1.firstLetterLcase = true ↔ t.firstLetterLcase = true ∧ SmallFirst a) ∧
      (t1.isGeoGenitive = true ↔ t.isGeoGenitive = true ∨ PlaceGenitive a) ∧ t1.possibleGeo = t.possibleGeo ∧
      t1.possibleConjunction = t.possibleConjunction ∧ t1.isConjunction = t.isConjunction ∧ t1.possibleMainVerb = t.possibleMainVerb ∧
      t1.isMainVerb = t.isMainVerb ∧ t1.isVerbNegative = t.isVerbNegative ∧ t1.isPositiveVerb = t.isPositiveVerb ∧
      t1.possibleSentenceStart = t.possibleSentenceStart := by
    unfold anaCase at h1
    cases hst : a.struct with
    | none => rw [hst] at h1; cases h1
    | some st =>
      rw [hst] at h1
      simp only at h1
      split at h1
      · rename_i hb
        have hns := (smallFirst_iff hst).1 hb
        cases h1
        refine ⟨rfl, by simp [hns], ?_, rfl, rfl, rfl, rfl, rfl, rfl, rfl, rfl⟩
        simp only [Bool.or_eq_true, Bool.and_eq_true, isLit_iff, PlaceGenitive]
        constructor
        · rintro (h | h)
          · exact .inl h
          · exact .inr ⟨hns, h⟩
        · rintro (h | h)
          · exact .inl h
          · exact .inr h.2
      · rename_i hb
        have hs : SmallFirst a := Classical.byContradiction fun h => hb ((smallFirst_iff hst).2 h)
        cases h1
        refine ⟨rfl, by simp [hs], ?_, rfl, rfl, rfl, rfl, rfl, rfl, rfl, rfl⟩
        simp [PlaceGenitive, hs]
  obtain ⟨c1, c2, c3, c4, c5, c6, c7, c8, c9, c10, c11⟩ := hc
  -- conjunctions
  have hj : KeepAttrs { t1 with possibleConjunction := (anaConj a last t1).possibleConjunction, isConjunction := (anaConj a last t1).isConjunction }
      (anaConj a last t1) ∧ ((anaConj a last t1).possibleConjunction = true ↔ t1.possibleConjunction = true ∨ Conjunction last a) ∧
      ((anaConj a last t1).isConjunction = true ↔ t1.isConjunction = true ∧ Conjunction last a) := by
    have hb : (isLit a.cls "sidesana" || (isLit a.cls "kieltosana" && last == 0xE4)) = true ↔ Conjunction last a := by
      simp [isLit_iff, Conjunction]
    unfold anaConj
    split
    · rename_i h
      exact ⟨⟨rfl, rfl, rfl, rfl, rfl, rfl, rfl, rfl, rfl, rfl, rfl⟩, by simp [hb.1 h], by simp [hb.1 h]⟩
    · rename_i h
      have hn : ¬ Conjunction last a := fun hh => h (hb.2 hh)
      exact ⟨⟨rfl, rfl, rfl, rfl, rfl, rfl, rfl, rfl, rfl, rfl, rfl⟩, by simp [hn], by simp [hn]⟩
  obtain ⟨j0, j1, j2⟩ := hj
  generalize anaConj a last t1 = t2 at *
  -- verbs
  have hv : KeepAttrs { t2 with possibleMainVerb := (anaVerb a t2).possibleMainVerb, isMainVerb := (anaVerb a t2).isMainVerb, isVerbNegative := (anaVerb a t2).isVerbNegative, isPositiveVerb := (anaVerb a t2).isPositiveVerb } (anaVerb a t2) ∧
      ((anaVerb a t2).possibleMainVerb = true ↔ t2.possibleMainVerb = true ∨ MaybeMain a) ∧
      ((anaVerb a t2).isMainVerb = true ↔ t2.isMainVerb = true ∧ Indicative a) ∧
      ((anaVerb a t2).isVerbNegative = true ↔ t2.isVerbNegative = true ∧ Has a.cls "kieltosana") ∧
      ((anaVerb a t2).isPositiveVerb = true ↔ t2.isPositiveVerb = true ∧ Positive a) := by
    unfold anaVerb
    split
    · rename_i h
      have n1 : ∀ s, ¬ Has a.cls s := by intro s hs; unfold Has at hs; rw [h] at hs; cases hs
      exact ⟨⟨rfl, rfl, rfl, rfl, rfl, rfl, rfl, rfl, rfl, rfl, rfl⟩, by simp [MaybeMain, h], by simp [Indicative, n1], by simp [n1],
        by simp [Positive, n1]⟩
    · rename_i h
      split
      · rename_i h2
        rw [isLit_iff] at h2
        have n1 : ¬ Has a.cls "teonsana" := has_ne h2 (by decide)
        exact ⟨⟨rfl, rfl, rfl, rfl, rfl, rfl, rfl, rfl, rfl, rfl, rfl⟩, by simp [MaybeMain, h, n1], by simp [Indicative, n1], by simp [h2],
          by simp [Positive, n1]⟩
      · rename_i h2
        rw [isLit_iff] at h2
        split
        · rename_i h3
          rw [isLit_iff] at h3
          refine ⟨⟨rfl, rfl, rfl, rfl, rfl, rfl, rfl, rfl, rfl, rfl, rfl⟩, ?_, ?_, by simp [h2], ?_⟩
          · simp only [Bool.or_eq_true, MaybeMain, h, h3, Bool.and_eq_true, beq_iff_eq, Bool.not_eq_true', false_or, true_and]
            have e1 : ∀ (v : Option (List Wc)) (s : String), isLit v s = false ↔ ¬ Has v s := by
              intro v s; rw [← isLit_iff, Bool.not_eq_true]
            simp only [e1]
            have hnone : ∀ (v : Option (List Wc)) (s : String), v = none → ¬ Has v s := by
              intro v s hv hh; unfold Has at hh; rw [hv] at hh; cases hh
            refine or_congr Iff.rfl ⟨?_, ?_⟩
            · rintro ⟨h4, h5⟩
              refine ⟨?_, ?_, ?_⟩
              · rcases h4 with h4 | h4
                · exact hnone _ _ h4
                · exact h4.1
              · rcases h4 with h4 | h4
                · exact hnone _ _ h4
                · exact h4.2
              · rcases h5 with h5 | h5
                · exact hnone _ _ h5
                · exact h5
            · rintro ⟨h4, h5, h6⟩
              exact ⟨.inr ⟨h4, h5⟩, .inr h6⟩
          · simp [Indicative, h3, isLit_iff]
          · simp only [Bool.and_eq_true, Positive, h3, true_and, Bool.not_eq_true', Bool.or_eq_false_iff, Bool.not_eq_false']
            rw [isLit_iff]
            refine and_congr Iff.rfl (and_congr Iff.rfl ?_)
            rw [← Bool.not_eq_true]
            simp only [Bool.and_eq_true, Bool.or_eq_true, beq_iff_eq, isLit_iff]
        · rename_i h3
          rw [isLit_iff] at h3
          exact ⟨⟨rfl, rfl, rfl, rfl, rfl, rfl, rfl, rfl, rfl, rfl, rfl⟩, by simp [MaybeMain, h, h3], by simp [Indicative, h3], by simp [h2],
            by simp [Positive, h3]⟩
  obtain ⟨v0, v1, v2, v3, v4⟩ := hv
  generalize anaVerb a t2 = t3 at *
  have hg : (t3.possibleGeo || isLit a.possibleGeo "true") = true ↔ t3.possibleGeo = true ∨ Has a.possibleGeo "true" := by
    rw [Bool.or_eq_true, isLit_iff]
  constructor
  · rw [k1.valid, k2.valid, v0.valid, j0.valid, c1]; simp
  · rw [k1.small, k2.small, v0.small, j0.small, c2]; simp
  · rw [k1.place, k2.place, v0.place, j0.place, c3]; simp
  · rw [k1.maybePlace, k2.maybePlace, hg, v0.maybePlace, j0.maybePlace, c4]; simp
  · rw [k1.maybeConj, k2.maybeConj, v0.maybeConj, j1, c5]; simp
  · rw [k1.conj, k2.conj, v0.conj, j2, c6]; simp
  · rw [k1.maybeMain, k2.maybeMain, v1, j0.maybeMain, c7]; simp
  · rw [k1.main, k2.main, v2, j0.main, c8]; simp
  · rw [k1.negative, k2.negative, v3, j0.negative, c9]; simp
  · rw [k1.positive, k2.positive, v4, j0.positive, c10]; simp
  · rw [k1.start, k2.start, v0.start, j0.start, c11]

theorem LoopAttrs.cons {as : List GramAn} {last : Wc} {a : GramAn} {t u v : GTok} (h1 : LoopAttrs [a] last t u) (h2 : LoopAttrs as last u v) :
    LoopAttrs (a :: as) last t v := by
  constructor
  · rw [h2.valid, h1.valid]; simp
  · rw [h2.small, h1.small]; simp [and_assoc]
  · rw [h2.place, h1.place]; simp [or_assoc]
  · rw [h2.maybePlace, h1.maybePlace]; simp [or_assoc]
  · rw [h2.maybeConj, h1.maybeConj]; simp [or_assoc]
  · rw [h2.conj, h1.conj]; simp [and_assoc]
  · rw [h2.maybeMain, h1.maybeMain]; simp [or_assoc]
  · rw [h2.main, h1.main]; simp [and_assoc]
  · rw [h2.negative, h1.negative]; simp [and_assoc]
  · rw [h2.positive, h1.positive]; simp [and_assoc]
  · rw [h2.start, h1.start]

theorem anaLoop_attrs {last : Wc} (as : List GramAn) : ∀ (first set : Bool) (t u : GTok), anaLoop last first set t as = some u →
    LoopAttrs as last t u := by
  induction as with
  | nil =>
    intro first set t u h
    simp only [anaLoop, Option.pure_def, Option.some.injEq] at h
    subst h
    constructor <;> simp
  | cons a as ih =>
    intro first set t u h
    rw [anaLoop] at h
    obtain ⟨t1, h1, h2⟩ := Option.bind_eq_some_iff.1 h
    exact (anaStep_attrs (first := first) (set := set) h1).cons (ih _ _ _ _ h2)

/-! ### The infinitives -/

theorem infinitive_eq (v : Option (List Wc)) :
    (if isLit v "A-infinitive" then FollowingVerb.aInf else if isLit v "MA-infinitive" then .maInf else .none) = infinitive v := by
  unfold infinitive
  by_cases h1 : Has v "A-infinitive"
  · rw [if_pos ((isLit_iff _ _).2 h1), if_pos h1]
  · rw [if_neg (fun h => h1 ((isLit_iff _ _).1 h)), if_neg h1]
    by_cases h2 : Has v "MA-infinitive"
    · rw [if_pos ((isLit_iff _ _).2 h2), if_pos h2]
    · rw [if_neg (fun h => h2 ((isLit_iff _ _).1 h)), if_neg h2]

/-- The infinitive required so far, and the kind of infinitive with its flag, after one analysis. -/
theorem anaStep_inf {last : Wc} {first set : Bool} {t t1 : GTok} {a : GramAn} (h1 : anaCase a { t with isValidWord := true } = some t1) :
    (anaStep last first set t a t1).1.requireVerb =
      (if infinitive a.requireVerb = .none ∨ first = true then infinitive a.requireVerb
       else if t.requireVerb ≠ infinitive a.requireVerb then .none else t.requireVerb) ∧
    (anaStep last first set t a t1).1.verbFollower =
      (if infinitive a.mood ≠ .none then
        if set = false then infinitive a.mood else if t.verbFollower ≠ infinitive a.mood then .none else t.verbFollower
       else if AgentAbessive a then .none else t.verbFollower) ∧
    (anaStep last first set t a t1).2 = (set || decide (infinitive a.mood ≠ .none)) := by
  have hc : t1.requireVerb = t.requireVerb ∧ t1.verbFollower = t.verbFollower := by
    unfold anaCase at h1
    cases hst : a.struct with
    | none => rw [hst] at h1; cases h1
    | some st =>
      rw [hst] at h1
      simp only at h1
      split at h1 <;> cases h1 <;> exact ⟨rfl, rfl⟩
  have hj : (anaConj a last t1).requireVerb = t1.requireVerb ∧ (anaConj a last t1).verbFollower = t1.verbFollower := by
    unfold anaConj; split <;> exact ⟨rfl, rfl⟩
  have hv : ∀ x, (anaVerb a x).requireVerb = x.requireVerb ∧ (anaVerb a x).verbFollower = x.verbFollower := by
    intro x; unfold anaVerb; repeat' split
    all_goals exact ⟨rfl, rfl⟩
  have hr : ∀ x : GTok, (anaRequire a first x).requireVerb =
      (if infinitive a.requireVerb = .none ∨ first = true then infinitive a.requireVerb
       else if x.requireVerb ≠ infinitive a.requireVerb then .none else x.requireVerb) ∧ (anaRequire a first x).verbFollower = x.verbFollower := by
    intro x
    unfold anaRequire
    rw [infinitive_eq]
    simp only
    split
    · exact ⟨rfl, rfl⟩
    · split
      · exact ⟨rfl, rfl⟩
      · exact ⟨rfl, rfl⟩
  have hf : ∀ x : GTok, (anaFollower a set x).1.requireVerb = x.requireVerb ∧ (anaFollower a set x).1.verbFollower =
      (if infinitive a.mood ≠ .none then
        if set = false then infinitive a.mood else if x.verbFollower ≠ infinitive a.mood then .none else x.verbFollower
       else if AgentAbessive a then .none else x.verbFollower) ∧ (anaFollower a set x).2 = (set || decide (infinitive a.mood ≠ .none)) := by
    intro x
    unfold anaFollower
    rw [infinitive_eq]
    simp only
    by_cases h1 : infinitive a.mood ≠ .none
    · rw [if_pos h1, if_pos h1]
      by_cases h2 : set = false
      · rw [if_pos h2, if_pos h2]; simp [h1]
      · rw [if_neg h2, if_neg h2]
        by_cases h3 : x.verbFollower ≠ infinitive a.mood
        · rw [if_pos h3, if_pos h3]; simp [h1, h2]
        · rw [if_neg h3, if_neg h3]; simp [h1, h2]
    · rw [if_neg h1, if_neg h1]
      have : (isLit a.participle "agent" && isLit a.sijamuoto "vajanto") = true ↔ AgentAbessive a := by
        simp [isLit_iff, AgentAbessive]
      by_cases h2 : AgentAbessive a
      · rw [if_pos (this.2 h2), if_pos h2]; simp [h1]
      · rw [if_neg (fun h => h2 (this.1 h)), if_neg h2]; simp [h1]
  unfold anaStep
  simp only
  refine ⟨?_, ?_, (hf _).2.2⟩
  · rw [(hf _).1, (hr _).1]
    simp only [(hv _).1, hj.1, hc.1]
  · rw [(hf _).2.1, (hr _).2]
    simp only [(hv _).2, hj.2, hc.2]

theorem anaLoop_require {last : Wc} (as : List GramAn) : ∀ (set : Bool) (t u : GTok), anaLoop last false set t as = some u →
    u.requireVerb = if ∀ a ∈ as, infinitive a.requireVerb = t.requireVerb then t.requireVerb else .none := by
  induction as with
  | nil =>
    intro set t u h
    simp only [anaLoop, Option.pure_def, Option.some.injEq] at h
    subst h
    simp
  | cons a as ih =>
    intro set t u h
    rw [anaLoop] at h
    obtain ⟨t1, h1, h2⟩ := Option.bind_eq_some_iff.1 h
    have hst := (anaStep_inf (last := last) (first := false) (set := set) h1).1
    rw [ih _ _ _ h2]
    have hst' : (anaFollower a set (anaRequire a false { (anaVerb a (anaConj a last t1)) with possibleGeo := (anaVerb a (anaConj a last t1)).possibleGeo || isLit a.possibleGeo "true" })).1.requireVerb = _ := hst
    have hval : (if infinitive a.requireVerb = .none ∨ false = true then infinitive a.requireVerb
        else if t.requireVerb ≠ infinitive a.requireVerb then .none else t.requireVerb) =
        if t.requireVerb = infinitive a.requireVerb then t.requireVerb else .none := by
      by_cases ht : t.requireVerb = infinitive a.requireVerb
      · rw [if_pos ht, ← ht]; simp
      · rw [if_neg ht, if_pos ht]
        by_cases hn : infinitive a.requireVerb = .none
        · rw [if_pos (.inl hn), hn]
        · rw [if_neg (by simp [hn])]
    rw [hst', hval]
    simp only [List.forall_mem_cons]
    by_cases ht : t.requireVerb = infinitive a.requireVerb
    · have e : (if t.requireVerb = infinitive a.requireVerb then t.requireVerb else FollowingVerb.none) = t.requireVerb := if_pos ht
      rw [e]
      simp [ht.symm]
    · have e : (if t.requireVerb = infinitive a.requireVerb then t.requireVerb else FollowingVerb.none) = .none := if_neg ht
      rw [e, if_neg (fun h : infinitive a.requireVerb = t.requireVerb ∧ _ => ht h.1.symm)]
      split <;> rfl

theorem anaLoop_required {last : Wc} (as : List GramAn) (set : Bool) (t u : GTok) (h : anaLoop last true set t as = some u)
    (ht : t.requireVerb = .none) : u.requireVerb = common (as.map fun a => infinitive a.requireVerb) := by
  cases as with
  | nil =>
    simp only [anaLoop, Option.pure_def, Option.some.injEq] at h
    subst h
    exact ht
  | cons a as =>
    rw [anaLoop] at h
    obtain ⟨t1, h1, h2⟩ := Option.bind_eq_some_iff.1 h
    have hst := (anaStep_inf (last := last) (first := true) (set := set) h1).1
    rw [anaLoop_require _ _ _ _ h2]
    have hst' : (anaFollower a set (anaRequire a true { (anaVerb a (anaConj a last t1)) with possibleGeo := (anaVerb a (anaConj a last t1)).possibleGeo || isLit a.possibleGeo "true" })).1.requireVerb = _ := hst
    have e : (if infinitive a.requireVerb = .none ∨ true = true then infinitive a.requireVerb
        else if t.requireVerb ≠ infinitive a.requireVerb then .none else t.requireVerb) = infinitive a.requireVerb := by simp
    rw [hst', e]
    unfold common
    simp only [List.map_cons, List.forall_mem_map]

/-- The kind of infinitive: all infinitives among the analyses are of this kind, and no agent participle in the abessive comes after
the first one. -/
def InfinitiveKind (as : List GramAn) (v : FollowingVerb) : Prop :=
  ∃ before a after, as = before ++ a :: after ∧ (∀ b ∈ before, infinitive b.mood = .none) ∧ infinitive a.mood = v ∧
    (∀ b ∈ after, infinitive b.mood = .none ∧ ¬ AgentAbessive b ∨ infinitive b.mood = v)

theorem anaLoop_follower_set {last : Wc} (as : List GramAn) : ∀ (first : Bool) (t u : GTok), anaLoop last first true t as = some u →
    (u.verbFollower = t.verbFollower ∨ u.verbFollower = .none) ∧
    (t.verbFollower ≠ .none → (u.verbFollower = t.verbFollower ↔
      ∀ b ∈ as, infinitive b.mood = .none ∧ ¬ AgentAbessive b ∨ infinitive b.mood = t.verbFollower)) := by
  induction as with
  | nil =>
    intro first t u h
    simp only [anaLoop, Option.pure_def, Option.some.injEq] at h
    subst h
    simp
  | cons a as ih =>
    intro first t u h
    rw [anaLoop] at h
    obtain ⟨t1, h1, h2⟩ := Option.bind_eq_some_iff.1 h
    have hst := (anaStep_inf (last := last) (first := first) (set := true) h1).2
    have h2' : anaLoop last false (anaStep last first true t a t1).2 (anaStep last first true t a t1).1 as = some u := h2
    rw [hst.2] at h2'
    obtain ⟨i1, i2⟩ := ih _ _ _ h2'
    rw [hst.1] at i1 i2
    simp only [Bool.true_eq_false, if_false] at i1 i2
    simp only [List.forall_mem_cons]
    by_cases hm : infinitive a.mood ≠ .none
    · rw [if_pos hm] at i1 i2
      by_cases he : t.verbFollower ≠ infinitive a.mood
      · rw [if_pos he] at i1 i2
        refine ⟨.inr (by rcases i1 with h | h <;> exact h), fun hn => ⟨fun hu => ?_, fun hh => ?_⟩⟩
        · rcases i1 with h | h <;> (rw [h] at hu; exact absurd hu.symm hn)
        · rcases hh.1 with h | h
          · exact absurd h.1 hm
          · exact absurd h.symm he
      · rw [if_neg he] at i1 i2
        refine ⟨i1, fun hn => (i2 hn).trans ⟨fun hh => ⟨.inr (Classical.byContradiction fun h => he (fun h' => h h'.symm)), hh⟩, fun hh => hh.2⟩⟩
    · rw [if_neg hm] at i1 i2
      have hm' : infinitive a.mood = .none := Classical.byContradiction hm
      by_cases hag : AgentAbessive a
      · rw [if_pos hag] at i1 i2
        refine ⟨.inr (by rcases i1 with h | h <;> exact h), fun hn => ⟨fun hu => ?_, fun hh => ?_⟩⟩
        · rcases i1 with h | h <;> (rw [h] at hu; exact absurd hu.symm hn)
        · rcases hh.1 with h | h
          · exact absurd hag h.2
          · rw [hm'] at h; exact absurd h.symm hn
      · rw [if_neg hag] at i1 i2
        exact ⟨i1, fun hn => (i2 hn).trans ⟨fun hh => ⟨.inl ⟨hm', hag⟩, hh⟩, fun hh => hh.2⟩⟩

theorem anaLoop_follower {last : Wc} (as : List GramAn) : ∀ (first : Bool) (t u : GTok), anaLoop last first false t as = some u →
    t.verbFollower = .none → ∀ v, v ≠ .none → (u.verbFollower = v ↔ InfinitiveKind as v) := by
  induction as with
  | nil =>
    intro first t u h ht v hv
    simp only [anaLoop, Option.pure_def, Option.some.injEq] at h
    subst h
    rw [ht]
    constructor
    · intro h; exact absurd h.symm hv
    · rintro ⟨before, a, after, h, _⟩
      simp at h
  | cons a as ih =>
    intro first t u h ht v hv
    rw [anaLoop] at h
    obtain ⟨t1, h1, h2⟩ := Option.bind_eq_some_iff.1 h
    have hst := (anaStep_inf (last := last) (first := first) (set := false) h1).2
    have h2' : anaLoop last false (anaStep last first false t a t1).2 (anaStep last first false t a t1).1 as = some u := h2
    rw [hst.2] at h2'
    simp only [if_true, Bool.false_or] at hst h2'
    by_cases hm : infinitive a.mood ≠ .none
    · rw [decide_eq_true hm] at h2'
      rw [if_pos hm] at hst
      obtain ⟨i1, i2⟩ := anaLoop_follower_set as _ _ _ h2'
      rw [hst.1] at i1 i2
      have i2 := i2 hm
      constructor
      · intro hu
        rcases i1 with h | h
        · rw [hu] at h
          refine ⟨[], a, as, rfl, by simp, h.symm, ?_⟩
          rw [h]
          exact i2.1 (hu.trans h)
        · rw [hu] at h; exact absurd h hv
      · rintro ⟨before, x, after, he, h3, h4, h5⟩
        cases before with
        | nil =>
          simp only [List.nil_append, List.cons.injEq] at he
          obtain ⟨rfl, rfl⟩ := he
          rw [← h4]
          exact i2.2 (by rw [h4]; exact h5)
        | cons b before =>
          simp only [List.cons_append, List.cons.injEq] at he
          obtain ⟨rfl, rfl⟩ := he
          exact absurd (h3 a (by simp)) hm
    · have hm' : infinitive a.mood = .none := Classical.byContradiction hm
      rw [decide_eq_false hm] at h2'
      rw [if_neg hm] at hst
      have ht2 : (anaStep last first false t a t1).1.verbFollower = .none := by
        rw [hst.1, ht]; simp
      rw [ih _ _ _ h2' ht2 v hv]
      constructor
      · rintro ⟨before, x, after, rfl, h3, h4⟩
        exact ⟨a :: before, x, after, rfl, by simpa using ⟨hm', h3⟩, h4⟩
      · rintro ⟨before, x, after, he, h3, h4, h5⟩
        cases before with
        | nil =>
          simp only [List.nil_append, List.cons.injEq] at he
          obtain ⟨rfl, rfl⟩ := he
          rw [hm'] at h4
          exact absurd h4.symm hv
        | cons b before =>
          simp only [List.cons_append, List.cons.injEq] at he
          obtain ⟨rfl, rfl⟩ := he
          exact ⟨before, x, after, rfl, fun b hb => h3 b (by simp [hb]), h4, h5⟩

/-! ### The property -/

/-- The word without soft hyphens. -/
def withoutShy (w : List Wc) : List Wc := w.filter (· ≠ 0xAD)

/-- C75: the attributes of a word are those of its analyses taken together; the analyses are those of the word without soft hyphens. The
kind of infinitive depends on the order of the analyses (`C75_violation_order`). -/
theorem C75_attributes (an : List Wc → List GramAn) (hs : HasStructure an) (str : List Wc) (c : Wc) (hz : 0 ∉ str ++ [c]) (pos : Nat) :
    ∃ t, analyseToken an .word (str ++ [c]) pos = some t ∧ t.type = .word ∧ t.str = str ++ [c] ∧ t.pos = pos ∧
      Attributes (an (withoutShy (str ++ [c]))) c t ∧
      ∀ v, v ≠ .none → (t.verbFollower = v ↔ InfinitiveKind (an (withoutShy (str ++ [c]))) v) := by
  obtain ⟨t, h1, h2, h3, h4⟩ := analyseToken_some an hs .word (str ++ [c]) pos (by simp)
  refine ⟨t, h1, h2, h3, h4, ?_⟩
  unfold analyseToken at h1
  rw [if_neg (by simp)] at h1
  have hr : rd (str ++ [c]) ((str ++ [c]).length - 1) = some c := by simp [rd]
  rw [hr] at h1
  obtain ⟨l, hl, h1⟩ := Option.bind_eq_some_iff.1 h1
  cases hl
  obtain ⟨u, h5, h6⟩ := Option.bind_eq_some_iff.1 h1
  have hsh : stripShy (str ++ [c]) = withoutShy (str ++ [c]) := by
    unfold stripShy withoutShy
    have : ((str ++ [c]).filter (· != 0xAD)) = (str ++ [c]).filter (· ≠ 0xAD) := by
      congr 1
      funext x
      simp [bne]
      rfl
    rw [this]
    exact cstr_nulFree (fun h => hz (List.mem_filter.1 h).1)
  rw [hsh] at h5
  generalize an (withoutShy (str ++ [c])) = as at *
  have hA := anaLoop_attrs as _ _ _ _ h5
  have hR := anaLoop_required as _ _ _ h5 rfl
  have hF := anaLoop_follower as _ _ _ h5 rfl
  have e1 := hA.valid
  simp only [Bool.false_eq_true, false_or] at e1
  by_cases has : as = []
  · have hv : ¬ u.isValidWord = true := fun h => e1.1 h has
    rw [if_neg hv] at h6
    cases h6
    refine ⟨⟨?_, ?_, ?_, ?_, ?_, ?_, ?_, ?_, ?_, ?_, hR⟩, hF⟩
    · simp [has, hv]
    · rw [show _ = u.firstLetterLcase from rfl, hA.small]; simp
    · rw [show _ = u.isGeoGenitive from rfl, hA.place]; simp
    · rw [show _ = u.possibleGeo from rfl, hA.maybePlace]; simp
    · rw [show _ = u.possibleConjunction from rfl, hA.maybeConj]; simp
    · simp [has]
    · rw [show _ = u.possibleMainVerb from rfl, hA.maybeMain]; simp
    · simp [has]
    · simp [has]
    · simp [has]
  · rw [if_pos (e1.2 has)] at h6
    cases h6
    refine ⟨⟨e1, ?_, ?_, ?_, ?_, ?_, ?_, ?_, ?_, ?_, hR⟩, hF⟩
    · rw [hA.small]; simp
    · rw [hA.place]; simp
    · rw [hA.maybePlace]; simp
    · rw [hA.maybeConj]; simp
    · rw [hA.conj]; simp [has]
    · rw [hA.maybeMain]; simp
    · rw [hA.main]; simp [has]
    · rw [hA.negative]; simp [has]
    · rw [hA.positive]; simp [has]

/-- C75: other tokens have none of the attributes that an error depends on. -/
theorem C75_other (an : List Wc → List GramAn) (ty : TokenType) (h : ty ≠ .word) (str : List Wc) (pos : Nat) :
    ∃ t, analyseToken an ty str pos = some t ∧ t.type = ty ∧ t.str = str ∧ t.pos = pos ∧
      t.isValidWord = false ∧ t.firstLetterLcase = false ∧ t.isGeoGenitive = false ∧ t.possibleGeo = false ∧
      t.possibleConjunction = false ∧ t.isConjunction = false ∧ t.possibleMainVerb = false ∧ t.isVerbNegative = false ∧
      t.requireVerb = .none ∧ t.verbFollower = .none := by
  unfold analyseToken
  rw [if_pos h]
  exact ⟨_, rfl, rfl, rfl, rfl, rfl, rfl, rfl, rfl, rfl, rfl, rfl, rfl, rfl, rfl⟩

/-! ### Words at which a sentence may start -/

/-- Punctuation after which a sentence may start. -/
def Separator (u : GTok) : Prop := u.type = .punctuation ∧ (u.str = lit "..." ∨ ∃ c, u.str = [c] ∧ c ∈ lit ".:…–—")

/-- There is a separator before token `i`, with no word between them. -/
def AfterSeparator (toks : List GTok) (i : Nat) : Prop :=
  ∃ j u, j < i ∧ toks[j]? = some u ∧ Separator u ∧ ∀ k v, j < k → k < i → toks[k]? = some v → v.type ≠ .word

/-- The same with `maySeparate`, with or without a separator before the first token. -/
def AfterSep (start : Bool) (toks : List GTok) (i : Nat) : Prop :=
  (start = true ∧ ∀ k v, k < i → toks[k]? = some v → v.type ≠ .word) ∨
  ∃ j u, j < i ∧ toks[j]? = some u ∧ maySeparate u.type u.str = true ∧ ∀ k v, j < k → k < i → toks[k]? = some v → v.type ≠ .word

theorem afterSep_cons (start : Bool) (t : GTok) (r : List GTok) (i : Nat) :
    AfterSep (if (start && t.type == .word) = true then false else start || maySeparate t.type t.str) r i ↔ AfterSep start (t :: r) (i + 1) := by
  have hs' : (if (start && t.type == .word) = true then false else start || maySeparate t.type t.str) = true ↔
      (start = true ∧ t.type ≠ .word) ∨ maySeparate t.type t.str = true := by
    have hsep : maySeparate t.type t.str = true → t.type ≠ .word := by
      intro h; unfold maySeparate at h
      intro hw; rw [hw] at h; simp at h
    by_cases hw : t.type = .word
    · have : ¬ maySeparate t.type t.str = true := fun h => hsep h hw
      cases start <;> simp [hw] <;> simpa [hw] using this
    · have : (t.type == TokenType.word) = false := by simpa using hw
      rw [this]; simp [hw]
  unfold AfterSep
  rw [hs']
  constructor
  · rintro (⟨h1, h2⟩ | ⟨j, u, h1, h2, h3, h4⟩)
    · rcases h1 with ⟨h1, h3⟩ | h1
      · left
        refine ⟨h1, fun k v hk hv => ?_⟩
        cases k with
        | zero => simp at hv; rw [← hv]; exact h3
        | succ k => exact h2 k v (by omega) (by simpa using hv)
      · right
        refine ⟨0, t, by omega, rfl, h1, fun k v hk hk2 hv => ?_⟩
        cases k with
        | zero => omega
        | succ k => exact h2 k v (by omega) (by simpa using hv)
    · right
      refine ⟨j + 1, u, by omega, by simpa using h2, h3, fun k v hk hk2 hv => ?_⟩
      cases k with
      | zero => omega
      | succ k => exact h4 k v (by omega) (by omega) (by simpa using hv)
  · rintro (⟨h1, h2⟩ | ⟨j, u, h1, h2, h3, h4⟩)
    · left
      exact ⟨.inl ⟨h1, h2 0 t (by omega) rfl⟩, fun k v hk hv => h2 (k + 1) v (by omega) (by simpa using hv)⟩
    · cases j with
      | zero =>
        left
        simp only [List.getElem?_cons_zero, Option.some.injEq] at h2
        subst h2
        exact ⟨.inr h3, fun k v hk hv => h4 (k + 1) v (by omega) (by omega) (by simpa using hv)⟩
      | succ j =>
        right
        exact ⟨j, u, by omega, by simpa using h2, h3, fun k v hk hk2 hv => h4 (k + 1) v (by omega) (by omega) (by simpa using hv)⟩

theorem analyseToken_start {an : List Wc → List GramAn} {ty : TokenType} {str : List Wc} {pos : Nat} {t : GTok}
    (h : analyseToken an ty str pos = some t) : t.possibleSentenceStart = false := by
  unfold analyseToken at h
  split at h
  · cases h; rfl
  · obtain ⟨l, _, h⟩ := Option.bind_eq_some_iff.1 h
    obtain ⟨u, h5, h6⟩ := Option.bind_eq_some_iff.1 h
    have := (anaLoop_attrs _ _ _ _ _ h5).start
    split at h6 <;> cases h6 <;> exact this

theorem sentTokens_attrs (an : List Wc → List GramAn) (hs : HasStructure an) (n : Nat) : ∀ (start : Bool) (rest : List Wc) (off : Nat) (toks : List GTok),
    sentTokens an n start rest off = some (some toks) → ∀ (i : Nat) t, toks[i]? = some t →
      (∃ t0, analyseToken an t.type t.str t.pos = some t0 ∧ t = { t0 with possibleSentenceStart := t.possibleSentenceStart }) ∧
      (t.possibleSentenceStart = true ↔ t.type = .word ∧ AfterSep start toks i) := by
  induction n with
  | zero => intro start rest off toks h; simp [sentTokens] at h
  | succ n ih =>
    intro start rest off toks h
    rw [sentTokens] at h
    obtain ⟨⟨tt, len⟩, h1, h2⟩ := Option.bind_eq_some_iff.1 h
    simp only at h2
    split at h2
    · cases h2; intro i t hi; simp at hi
    · rename_i hne
      split at h2
      · cases h2
      · rename_i hlen
        obtain ⟨t0, h3, h4⟩ := Option.bind_eq_some_iff.1 h2
        have hrest : rest ≠ [] := by
          rintro rfl
          rw [C01_empty] at h1
          simp only [Option.some.injEq, Prod.mk.injEq] at h1
          exact hne h1.1.symm
        obtain ⟨ty', n', g1, g2, g3, g4⟩ := C01_progress rest false hrest
        rw [h1] at g1
        cases g1
        have hstr : rest.take len ≠ [] := by
          intro hnil
          have := congrArg List.length hnil
          simp only [List.length_take, List.length_nil] at this
          omega
        obtain ⟨t', k1, k2, k3, k4⟩ := analyseToken_some an hs tt (rest.take len) off hstr
        rw [h3] at k1
        cases k1
        have hst0 := analyseToken_start h3
        have h0 : ∀ (tk : GTok), tk = (if (start && tt == .word) = true then { t0 with possibleSentenceStart := true } else t0) →
            tk.type = tt ∧ tk.str = rest.take len ∧
            (∃ t0, analyseToken an tk.type tk.str tk.pos = some t0 ∧ tk = { t0 with possibleSentenceStart := tk.possibleSentenceStart }) ∧
            ∀ toks, (tk.possibleSentenceStart = true ↔ tk.type = .word ∧ AfterSep start (tk :: toks) 0) := by
          intro tk htk
          have hA : ∀ toks, AfterSep start toks 0 ↔ start = true := by
            intro toks
            unfold AfterSep
            constructor
            · rintro (h | ⟨j, u, h, _⟩)
              · exact h.1
              · omega
            · intro h; exact .inl ⟨h, fun k v hk => by omega⟩
          split at htk
          · rename_i hw
            subst htk
            simp only [Bool.and_eq_true, beq_iff_eq] at hw
            refine ⟨k2, k3, ⟨t0, ?_, rfl⟩, fun toks => ?_⟩
            · show analyseToken an t0.type t0.str t0.pos = _
              rw [k2, k3, k4]; exact h3
            · rw [hA]
              simp [k2, hw.1, hw.2]
          · rename_i hw
            subst htk
            refine ⟨k2, k3, ⟨tk, ?_, rfl⟩, fun toks => ?_⟩
            · rw [k2, k3, k4]; exact h3
            · rw [hA, hst0, k2]
              simp only [Bool.and_eq_true, beq_iff_eq] at hw
              simp only [Bool.false_eq_true, false_iff]
              exact fun h => hw ⟨h.2, h.1⟩
        generalize htk : (if (start && tt == .word) = true then { t0 with possibleSentenceStart := true } else t0) = tk at h4
        obtain ⟨a1, a2, a3, a4⟩ := h0 tk htk.symm
        split at h4
        · cases h4
          intro i t hi
          cases i with
          | zero =>
            simp only [List.getElem?_cons_zero, Option.some.injEq] at hi
            subst hi
            exact ⟨a3, a4 []⟩
          | succ i => simp at hi
        · obtain ⟨r, h5, h6⟩ := Option.bind_eq_some_iff.1 h4
          cases r with
          | none => simp at h6
          | some r =>
            simp only [Option.map_some, Option.pure_def, Option.some.injEq] at h6
            subst h6
            intro i t hi
            cases i with
            | zero =>
              simp only [List.getElem?_cons_zero, Option.some.injEq] at hi
              subst hi
              exact ⟨a3, a4 r⟩
            | succ i =>
              have := ih _ _ _ _ h5 i t (by simpa using hi)
              refine ⟨this.1, this.2.trans ?_⟩
              rw [← a1, ← a2, afterSep_cons]

/-- The tokens of each sentence of a paragraph come from the analysis of the sentence. -/
theorem paraLoop_sents (an : List Wc → List GramAn) (spellOk : List Wc → Bool) (dot : Bool) (n : Nat) : ∀ (rest : List Wc) (off : Nat) (p : List GSent),
    paraLoop an spellOk dot n rest off = some (some p) → ∀ s ∈ p, ∃ x, analyseSentence an x s.pos = some (some s.tokens) := by
  induction n with
  | zero =>
    intro rest off p h s hs
    simp only [paraLoop, Option.pure_def, Option.some.injEq] at h
    subst h
    simp at hs
  | succ n ih =>
    intro rest off p h
    rw [paraLoop] at h
    obtain ⟨⟨st, len⟩, h1, h2⟩ := Option.bind_eq_some_iff.1 h
    simp only at h2
    split at h2
    · cases h2
    · obtain ⟨toks, h3, h4⟩ := Option.bind_eq_some_iff.1 h2
      cases toks with
      | none => simp at h4
      | some toks =>
        simp only at h4
        split at h4
        · cases h4
          intro s hs
          rw [List.mem_singleton] at hs
          subst hs
          exact ⟨_, h3⟩
        · obtain ⟨r, h5, h6⟩ := Option.bind_eq_some_iff.1 h4
          cases r with
          | none => simp at h6
          | some r =>
            simp only [Option.map_some, Option.pure_def, Option.some.injEq] at h6
            subst h6
            intro s hs
            rcases List.mem_cons.1 hs with rfl | hs
            · exact ⟨_, h3⟩
            · exact ih _ _ _ h5 s hs

theorem separator_iff {u : GTok} {rest : List Wc} (hz : 0 ∉ u.str) (h : TokenShape u.type u.str rest) :
    maySeparate u.type u.str = true ↔ Separator u := by
  unfold maySeparate Separator
  cases hty : u.type with
  | punctuation =>
    rw [hty] at h
    rcases h with ⟨c, hc, _⟩ | hc
    · rw [hc] at hz ⊢
      have hc0 : c ≠ 0 := by rintro rfl; simp at hz
      have : (∃ c', [c] = [c'] ∧ c' ∈ lit ".:…–—") ↔ c ∈ lit ".:…–—" :=
        ⟨fun ⟨c', h1, h2⟩ => by cases h1; exact h2, fun h => ⟨c, rfl, h⟩⟩
      rw [this]
      have h3 : [c] ≠ lit "..." := by intro h; have := congrArg List.length h; simp [lit] at this
      simp only [h3, false_or, true_and, beq_self_eq_true, Bool.true_and, List.length_singleton, List.all_cons, List.all_nil, Bool.and_true]
      have : wcschr [0x2E, 0x3A, 0x2026, 0x2013, 0x2014] c = true ↔ c ∈ lit ".:…–—" := by
        rw [wcschr_ne hc0]
        rfl
      simp only [Bool.or_eq_true, this]
      simp
    · rw [hc]
      simp
      rfl
  | _ => simp

/-- C75: in an analysed text every word has the attributes of its analyses, and a word counts as a possible start of a sentence exactly
if there is a full stop, a colon, an ellipsis or a dash since the word before it in the same sentence. -/
theorem C75_paragraph (an : List Wc → List GramAn) (hs : HasStructure an) (spellOk : List Wc → Bool) (dot : Bool) (text : List Wc)
    (h0 : text ≠ []) (hz : 0 ∉ text) (p : List GSent) (hp : analyseParagraph an spellOk dot text = some (some p)) :
    ∀ s ∈ p, ∀ (i : Nat) t, s.tokens[i]? = some t →
      (t.possibleSentenceStart = true ↔ t.type = .word ∧ AfterSeparator s.tokens i) ∧
      (t.type ≠ .word → t.isConjunction = false ∧ t.isVerbNegative = false) ∧
      (t.type = .word → ∀ last, t.str.getLast? = some last → Attributes (an (withoutShy t.str)) last t ∧
        ∀ v, v ≠ .none → (t.verbFollower = v ↔ InfinitiveKind (an (withoutShy t.str)) v)) := by
  intro s hsp i t hi
  obtain ⟨x, hx⟩ := paraLoop_sents an spellOk dot _ _ _ _ hp s hsp
  obtain ⟨⟨t0, a1, a2⟩, a3⟩ := sentTokens_attrs an hs _ _ _ _ _ hx i t hi
  obtain ⟨_, hap⟩ := C74_applies an hs spellOk dot text h0 hz p hp
  obtain ⟨_, _, hz', _⟩ := hap s hsp
  have ht : t ∈ s.tokens := List.mem_of_getElem? hi
  -- shapes
  have hshape : ∀ u ∈ s.tokens, ∃ rest, TokenShape u.type u.str rest := by
    obtain ⟨xs, k1, k2⟩ := paraLoop_spec an hs spellOk dot maxSentences text 0
    rcases k2 with ⟨_, k2⟩ | ⟨_, p', k2, k3⟩
    · have : analyseParagraph an spellOk dot text = some none := k2
      rw [hp] at this; cases this
    · have : analyseParagraph an spellOk dot text = some (some p') := k2
      rw [hp] at this
      cases this
      obtain ⟨x, hx⟩ := paraOk_stream _ p 0 k3 s hsp
      intro u hu
      exact tokenStream_shape _ _ _ hx (u.type, u.str) (List.mem_map_of_mem (f := fun t : GTok => (t.type, t.str)) hu)
  refine ⟨a3.trans (and_congr Iff.rfl ?_), ?_, ?_⟩
  · unfold AfterSep AfterSeparator
    simp only [Bool.false_eq_true, false_and, false_or]
    refine exists_congr fun j => exists_congr fun u => and_congr Iff.rfl ?_
    constructor
    · rintro ⟨h1, h2, h3⟩
      obtain ⟨r, hr⟩ := hshape u (List.mem_of_getElem? h1)
      exact ⟨h1, (separator_iff (hz' u (List.mem_of_getElem? h1)) hr).1 h2, h3⟩
    · rintro ⟨h1, h2, h3⟩
      obtain ⟨r, hr⟩ := hshape u (List.mem_of_getElem? h1)
      exact ⟨h1, (separator_iff (hz' u (List.mem_of_getElem? h1)) hr).2 h2, h3⟩
  · intro hw
    obtain ⟨t1, b1, _, _, _, b⟩ := C75_other an t.type hw t.str t.pos
    rw [a1] at b1
    cases b1
    rw [a2]
    exact ⟨b.2.2.2.2.2.1, b.2.2.2.2.2.2.2.1⟩
  · intro hw last hl
    have hsplit : t.str = t.str.dropLast ++ [last] := by
      have hne : t.str ≠ [] := by intro h; rw [h] at hl; cases hl
      have h2 := List.dropLast_concat_getLast hne
      rw [List.getLast?_eq_some_getLast hne] at hl
      cases hl
      exact h2.symm
    rw [hsplit] at a1
    obtain ⟨t1, b1, _, _, _, b2, b3⟩ := C75_attributes an hs t.str.dropLast last (by rw [← hsplit]; exact hz' t ht) t.pos
    rw [hw] at a1
    rw [a1] at b1
    cases b1
    rw [← hsplit] at b2 b3
    have f : ∀ {β : Type} (g : GTok → β), g t = g { t0 with possibleSentenceStart := t.possibleSentenceStart } := fun g => congrArg g a2
    constructor
    · exact ⟨by rw [f GTok.isValidWord]; exact b2.valid, by rw [f GTok.firstLetterLcase]; exact b2.small, by rw [f GTok.isGeoGenitive]; exact b2.place, by rw [f GTok.possibleGeo]; exact b2.maybePlace, by rw [f GTok.possibleConjunction]; exact b2.maybeConj, by rw [f GTok.isConjunction]; exact b2.conj, by rw [f GTok.possibleMainVerb]; exact b2.maybeMain, by rw [f GTok.isMainVerb]; exact b2.main, by rw [f GTok.isVerbNegative]; exact b2.negative, by rw [f GTok.isPositiveVerb]; exact b2.positive, by rw [f GTok.requireVerb]; exact b2.requires⟩
    · intro v hv
      rw [f GTok.verbFollower]
      exact b3 v hv

/-! ### The order of the analyses -/

/-- An infinitive and an agent participle, as for `tekemättä`. -/
def anInf : GramAn := { struct := some (lit "=ppppppppp"), cls := some (lit "teonsana"), mood := some (lit "MA-infinitive") }
def anAgent : GramAn :=
  { struct := some (lit "=ppppppppp"), cls := some (lit "laatusana"), participle := some (lit "agent"), sijamuoto := some (lit "vajanto") }

/-- The kind of infinitive depends on the order of the analyses: an agent participle hides the infinitive only if it comes later. -/
theorem C75_violation_order :
    (analyseToken (fun _ => [anInf, anAgent]) .word (lit "tekemättä") 0).map (·.verbFollower) = some .none ∧
    (analyseToken (fun _ => [anAgent, anInf]) .word (lit "tekemättä") 0).map (·.verbFollower) = some .maInf := by
  decide

/-- An analyser that knows `alan` ("I begin", used with the first infinitive) and gives the analyses `l` for `tekemättä`. -/
def orderEnv (l : List GramAn) : GramEnv Unit := ⟨fun w => if w = lit "tekemättä" then l else exAn w, fun _ _ => false, none⟩

/-- The caller sees it: the same analyses in another order give an error or none. -/
theorem C75_violation_order_reported :
    (foundErrors (orderEnv [anInf, anAgent]) false false {} (lit "Ja alan tekemättä.") ()).map (·.2) = some [] ∧
    (foundErrors (orderEnv [anAgent, anInf]) false false {} (lit "Ja alan tekemättä.") ()).map (·.2) = some [⟨14, 3, 14, []⟩] := by
  refine ⟨by decide +kernel, by decide +kernel⟩

/-- C75: apart from that the order and repetition of the analyses do not matter. -/
theorem C75_order (an an' : List Wc → List GramAn) (hs : HasStructure an) (str : List Wc) (c : Wc) (hz : 0 ∉ str ++ [c]) (pos : Nat)
    (hsame : ∀ w a, a ∈ an w ↔ a ∈ an' w) (hno : ∀ w, ∀ a ∈ an w, ¬ AgentAbessive a) :
    analyseToken an .word (str ++ [c]) pos = analyseToken an' .word (str ++ [c]) pos := by
  have hs' : HasStructure an' := fun w a ha => hs w a ((hsame w a).2 ha)
  obtain ⟨t, h1, h2, h3, h4, h5, h6⟩ := C75_attributes an hs str c hz pos
  obtain ⟨u, g1, g2, g3, g4, g5, g6⟩ := C75_attributes an' hs' str c hz pos
  rw [h1, g1]
  have hno' : ∀ a ∈ an (withoutShy (str ++ [c])), ¬ AgentAbessive a := hno _
  have hst1 := analyseToken_start h1
  have hst2 := analyseToken_start g1
  have hsame := hsame (withoutShy (str ++ [c]))
  generalize an (withoutShy (str ++ [c])) = as at *
  generalize an' (withoutShy (str ++ [c])) = bs at *
  have hnil : as ≠ [] ↔ bs ≠ [] := by
    constructor
    · intro h hb
      obtain ⟨a, ha⟩ := List.exists_mem_of_ne_nil as h
      have := (hsame a).1 ha
      rw [hb] at this; cases this
    · intro h hb
      obtain ⟨a, ha⟩ := List.exists_mem_of_ne_nil bs h
      have := (hsame a).2 ha
      rw [hb] at this; cases this
  have hall : ∀ P : GramAn → Prop, (∀ a ∈ as, P a) ↔ ∀ a ∈ bs, P a := fun P =>
    ⟨fun h a ha => h a ((hsame a).2 ha), fun h a ha => h a ((hsame a).1 ha)⟩
  have hex : ∀ P : GramAn → Prop, (∃ a ∈ as, P a) ↔ ∃ a ∈ bs, P a := fun P =>
    ⟨fun ⟨a, ha, h⟩ => ⟨a, (hsame a).1 ha, h⟩, fun ⟨a, ha, h⟩ => ⟨a, (hsame a).2 ha, h⟩⟩
  have hb : ∀ {x y : Bool}, (x = true ↔ y = true) → x = y := fun h => Bool.eq_iff_iff.2 h
  have hcommon : ∀ l : List GramAn, ∀ v, v ≠ .none → (common (l.map fun a => infinitive a.requireVerb) = v ↔
      l ≠ [] ∧ ∀ a ∈ l, infinitive a.requireVerb = v) := by
    intro l v hv
    cases l with
    | nil => simp [common]; exact fun h => hv h.symm
    | cons a l =>
      simp only [common, List.map_cons, List.forall_mem_map, ne_eq, reduceCtorEq, not_false_eq_true, true_and, List.forall_mem_cons]
      constructor
      · intro h
        split at h
        · rename_i hh; exact ⟨h, fun b hb => (hh b hb).trans h⟩
        · exact absurd h.symm hv
      · rintro ⟨h1, h2⟩
        rw [if_pos (fun b hb => (h2 b hb).trans h1.symm)]
        exact h1
  have hfv : ∀ {x y : FollowingVerb}, (∀ v, v ≠ .none → (x = v ↔ y = v)) → x = y := by
    intro x y h
    cases x with
    | none =>
      cases y with
      | none => rfl
      | aInf => exact (h .aInf (by decide)).2 rfl
      | maInf => exact (h .maInf (by decide)).2 rfl
    | aInf => exact ((h .aInf (by decide)).1 rfl).symm
    | maInf => exact ((h .maInf (by decide)).1 rfl).symm
  have hkind : ∀ l : List GramAn, (∀ a ∈ l, ¬ AgentAbessive a) → ∀ v, v ≠ .none → (InfinitiveKind l v ↔
      (∃ a ∈ l, infinitive a.mood = v) ∧ ∀ a ∈ l, infinitive a.mood = .none ∨ infinitive a.mood = v) := by
    intro l hl v hv
    constructor
    · rintro ⟨before, a, after, rfl, h1, h2, h3⟩
      refine ⟨⟨a, by simp, h2⟩, fun b hb => ?_⟩
      simp only [List.mem_append, List.mem_cons] at hb
      rcases hb with hb | rfl | hb
      · exact .inl (h1 b hb)
      · exact .inr h2
      · rcases h3 b hb with h | h
        · exact .inl h.1
        · exact .inr h
    · rintro ⟨⟨a, ha, hav⟩, h2⟩
      obtain ⟨before, x, after, rfl, hx, hb⟩ : ∃ before x after, l = before ++ x :: after ∧ infinitive x.mood ≠ .none ∧
          ∀ b ∈ before, infinitive b.mood = .none := by
        clear hl h2
        induction l with
        | nil => cases ha
        | cons b l ih =>
          by_cases hb : infinitive b.mood = .none
          · rcases List.mem_cons.1 ha with rfl | ha
            · rw [hav] at hb; exact absurd hb hv
            · obtain ⟨before, x, after, rfl, h1, h2⟩ := ih ha
              exact ⟨b :: before, x, after, rfl, h1, by simpa using ⟨hb, h2⟩⟩
          · exact ⟨[], b, l, rfl, hb, by simp⟩
      refine ⟨before, x, after, rfl, hb, ?_, fun b hb => ?_⟩
      · rcases h2 x (by simp) with h | h
        · exact absurd h hx
        · exact h
      · rcases h2 b (by simp [hb]) with h | h
        · exact .inl ⟨h, hl b (by simp [hb])⟩
        · exact .inr h
  have e1 : t.isValidWord = u.isValidWord := hb (h5.valid.trans (hnil.trans g5.valid.symm))
  have e2 : t.firstLetterLcase = u.firstLetterLcase := hb (h5.small.trans ((hall _).trans g5.small.symm))
  have e3 : t.isGeoGenitive = u.isGeoGenitive := hb (h5.place.trans ((hex _).trans g5.place.symm))
  have e4 : t.possibleGeo = u.possibleGeo := hb (h5.maybePlace.trans ((hex _).trans g5.maybePlace.symm))
  have e5 : t.possibleConjunction = u.possibleConjunction := hb (h5.maybeConj.trans ((hex _).trans g5.maybeConj.symm))
  have e6 : t.isConjunction = u.isConjunction := hb (h5.conj.trans ((and_congr hnil (hall _)).trans g5.conj.symm))
  have e7 : t.possibleMainVerb = u.possibleMainVerb := hb (h5.maybeMain.trans ((hex _).trans g5.maybeMain.symm))
  have e8 : t.isMainVerb = u.isMainVerb := hb (h5.main.trans ((and_congr hnil (hall _)).trans g5.main.symm))
  have e9 : t.isVerbNegative = u.isVerbNegative := hb (h5.negative.trans ((and_congr hnil (hall _)).trans g5.negative.symm))
  have e10 : t.isPositiveVerb = u.isPositiveVerb := hb (h5.positive.trans ((and_congr hnil (hall _)).trans g5.positive.symm))
  have e11 : t.requireVerb = u.requireVerb := by
    rw [h5.requires, g5.requires]
    refine hfv fun v hv => ?_
    rw [hcommon as v hv, hcommon bs v hv]
    exact and_congr hnil (hall _)
  have e12 : t.verbFollower = u.verbFollower := by
    refine hfv fun v hv => ?_
    rw [h6 v hv, g6 v hv, hkind as hno' v hv, hkind bs ((hall _).1 hno') v hv]
    exact and_congr (hex _) (hall _)
  cases t
  cases u
  simp only at *
  simp [h2, g2, h3, g3, h4, g4, hst1, hst2, e1, e2, e3, e4, e5, e6, e7, e8, e9, e10, e11, e12]

/-- The hypotheses are met. -/
example : HasStructure exAn ∧ ∀ w, ∀ a ∈ exAn w, ¬ AgentAbessive a := by
  refine ⟨fun w a ha => ?_, fun w a ha => ?_⟩
  all_goals
    unfold exAn at ha
    repeat' split at ha
    all_goals
      rw [List.mem_singleton] at ha
      subst ha
      first
        | (intro h; cases h; done)
        | (rintro ⟨h, _⟩; cases h)

example : (analyseToken exAn .word (lit "alan") 3).map (fun t => (t.isMainVerb, t.isPositiveVerb, t.requireVerb, t.isVerbNegative)) =
    some (true, true, .aInf, false) := by decide

example : ((analyseParagraph exAn (fun _ => false) false (lit "En tule: hän menee 1. 2. asti")).bind id).map
    (fun p => p.flatMap fun s => (s.tokens.filter (·.possibleSentenceStart)).map (·.pos)) = some [9, 22, 25] := by decide +kernel

end Verif.Props
