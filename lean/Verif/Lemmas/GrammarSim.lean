import Verif.Model.VoikkoGc
/-!
# Two look-ups for fixed expressions that give the same answers

If the second look-up answers like the first one whenever the first one is defined, then so does everything that uses it.
-/

set_option linter.unusedVariables false

namespace Verif.GrammarSim
open Verif

/-- Whenever `x` is defined, `y` is, and their values are related. -/
def Rel {α β : Type} (Q : α → β → Prop) (x : UB α) (y : UB β) : Prop := ∀ a, x = some a → ∃ b, y = some b ∧ Q a b

theorem Rel.some {α β : Type} {Q : α → β → Prop} {a : α} {b : β} (h : Q a b) : Rel Q (some a) (some b) := by
  intro a' e
  cases e
  exact ⟨b, rfl, h⟩

theorem Rel.bind {α β α' β' : Type} {Q : α → β → Prop} {Q' : α' → β' → Prop} {x : UB α} {y : UB β} {F : α → UB α'} {G : β → UB β'}
    (h : Rel Q x y) (hf : ∀ a b, Q a b → Rel Q' (F a) (G b)) : Rel Q' (x.bind F) (y.bind G) := by
  intro a' e
  cases x with
  | none => cases e
  | some a =>
    obtain ⟨b, hb, hq⟩ := h a rfl
    obtain ⟨b', hb', hq'⟩ := hf a b hq a' e
    exact ⟨b', by rw [hb]; exact hb', hq'⟩

theorem Rel.same {γ α' β' : Type} {Q' : α' → β' → Prop} {z : UB γ} {F : γ → UB α'} {G : γ → UB β'}
    (hf : ∀ c, Rel Q' (F c) (G c)) : Rel Q' (z.bind F) (z.bind G) := by
  intro a' e
  cases z with
  | none => cases e
  | some c => exact hf c a' e

/-- The second look-up gives the answers of the first one in related states. -/
def Follows {σ τ : Type} (m : Lookup σ) (m' : Lookup τ) (R : σ → τ → Prop) : Prop :=
  ∀ c d w, R c d → Rel (fun a b => R a.1 b.1 ∧ a.2 = b.2) (m.find c w) (m'.find d w)

variable {σ τ : Type} {m : Lookup σ} {m' : Lookup τ} {R : σ → τ → Prop}

/-- States related, the rest equal. -/
def Pair (R : σ → τ → Prop) (α : Type) (a : σ × α) (b : τ × α) : Prop := R a.1 b.1 ∧ a.2 = b.2

theorem acLookups_rel (hm : Follows m m' R) (s : GSent) (lf : Bool) (st : AcSt) : ∀ (ls : List (Nat × Nat)) (c : σ) (d : τ), R c d →
    Rel (Pair R (List GErr × Bool)) (acLookups m s lf st c ls) (acLookups m' s lf st d ls) := by
  intro ls
  induction ls with
  | nil => intro c d h; exact Rel.some ⟨h, rfl⟩
  | cons q ls ih =>
    intro c d h
    obtain ⟨position, ucsPosition⟩ := q
    rw [acLookups, acLookups]
    split
    · exact Rel.some ⟨h, rfl⟩
    · refine Rel.bind (hm c d _ h) ?_
      rintro ⟨c1, r⟩ ⟨d1, r'⟩ ⟨h1, h2⟩
      simp only at h1 h2
      subst h2
      cases r with
      | none =>
        refine Rel.same fun t => Rel.bind (ih c1 d1 h1) ?_
        rintro ⟨c2, es⟩ ⟨d2, es'⟩ ⟨h3, h4⟩
        simp only at h3 h4
        subst h4
        exact Rel.some ⟨h3, rfl⟩
      | some on =>
        obtain ⟨out, n⟩ := on
        refine Rel.bind (ih c1 d1 h1) ?_
        rintro ⟨c2, es⟩ ⟨d2, es'⟩ ⟨h3, h4⟩
        simp only at h3 h4
        subst h4
        simp only
        split
        · exact Rel.some ⟨h3, rfl⟩
        · exact Rel.some ⟨h3, rfl⟩

theorem acPass_rel (hm : Follows m m' R) (s : GSent) (lf : Bool) {c : σ} {d : τ} (h : R c d) :
    Rel (Pair R (List GErr × Bool)) (acPass m s lf c) (acPass m' s lf d) := by
  refine Rel.same fun x => ?_
  cases x with
  | none => exact Rel.some ⟨h, rfl⟩
  | some st => exact acLookups_rel hm s lf st _ c d h

theorem autocorrect_rel (hm : Follows m m' R) (s : GSent) {c : σ} {d : τ} (h : R c d) :
    Rel (Pair R (List GErr)) (autocorrect m s c) (autocorrect m' s d) := by
  refine Rel.bind (acPass_rel hm s false h) ?_
  rintro ⟨c1, es, low⟩ ⟨d1, r'⟩ ⟨h1, h2⟩
  simp only at h1 h2
  subst h2
  simp only
  split
  · refine Rel.bind (acPass_rel hm s true h1) ?_
    rintro ⟨c2, es2, low2⟩ ⟨d2, r2⟩ ⟨h3, h4⟩
    simp only at h3 h4
    subst h4
    exact Rel.some ⟨h3, rfl⟩
  · exact Rel.some ⟨h1, rfl⟩

theorem sentenceChecks_rel (hm : Follows m m' R) (o : GramOpts) (s : GSent) {c : σ} {d : τ} (h : R c d) :
    Rel (Pair R (List GErr)) (sentenceChecks (some m) o s c) (sentenceChecks (some m') o s d) := by
  refine Rel.same fun mv => Rel.same fun si => Rel.bind (autocorrect_rel hm s h) ?_
  rintro ⟨c1, es⟩ ⟨d1, r'⟩ ⟨h1, h2⟩
  simp only at h1 h2
  subst h2
  exact Rel.some ⟨h1, rfl⟩

theorem allSentences_rel (hm : Follows m m' R) (o : GramOpts) : ∀ (p : List GSent) (c : σ) (d : τ), R c d →
    Rel (Pair R (List GErr)) (allSentences (some m) o p c) (allSentences (some m') o p d) := by
  intro p
  induction p with
  | nil => intro c d h; exact Rel.some ⟨h, rfl⟩
  | cons s p ih =>
    intro c d h
    refine Rel.bind (sentenceChecks_rel hm o s h) ?_
    rintro ⟨c1, es⟩ ⟨d1, r'⟩ ⟨h1, h2⟩
    simp only at h1 h2
    subst h2
    refine Rel.bind (ih c1 d1 h1) ?_
    rintro ⟨c2, es2⟩ ⟨d2, r2⟩ ⟨h3, h4⟩
    simp only at h3 h4
    subst h4
    exact Rel.some ⟨h3, rfl⟩

theorem foundErrors_rel (hm : Follows m m' R) (an : List Wc → List GramAn) (sp : Bool → List Wc → Bool) (extra dot : Bool) (o : GramOpts)
    (text : List Wc) {c : σ} {d : τ} (h : R c d) :
    Rel (Pair R (List GErr)) (foundErrors ⟨an, sp, some m⟩ extra dot o text c) (foundErrors ⟨an, sp, some m'⟩ extra dot o text d) := by
  refine Rel.same fun x => ?_
  cases x with
  | none => exact Rel.some ⟨h, rfl⟩
  | some p =>
    simp only
    split
    · exact Rel.some ⟨h, rfl⟩
    · refine Rel.bind (allSentences_rel hm o p c d h) ?_
      rintro ⟨c1, es⟩ ⟨d1, r'⟩ ⟨h1, h2⟩
      simp only at h1 h2
      subst h2
      exact Rel.same fun cap => Rel.same fun ep => Rel.some ⟨h1, rfl⟩

theorem paragraphToCache_rel (hm : Follows m m' R) (an : List Wc → List GramAn) (sp : Bool → List Wc → Bool) (hd : Handle GErr)
    (text : List Wc) (n : Nat) {c : σ} {d : τ} (h : R c d) :
    Rel (fun a b => a.1 = b.1 ∧ R a.2 b.2) (paragraphToCache ⟨an, sp, some m⟩ hd c text n) (paragraphToCache ⟨an, sp, some m'⟩ hd d text n) := by
  unfold paragraphToCache
  split
  · intro a e; cases e
  · refine Rel.bind (foundErrors_rel hm an sp _ _ _ _ h) ?_
    rintro ⟨c1, es⟩ ⟨d1, r'⟩ ⟨h1, h2⟩
    simp only at h1 h2
    subst h2
    exact Rel.some ⟨rfl, h1⟩

theorem next_rel (hm : Follows m m' R) (an : List Wc → List GramAn) (sp : Bool → List Wc → Bool) (hd : Handle GErr)
    (text : List Wc) (n start : Nat) (skip : Int) {c : σ} {d : τ} (h : R c d) :
    Rel (fun a b => a.1 = b.1 ∧ a.2.1 = b.2.1 ∧ R a.2.2 b.2.2) (nextGrammarError ⟨an, sp, some m⟩ hd c text n start skip)
      (nextGrammarError ⟨an, sp, some m'⟩ hd d text n start skip) := by
  unfold nextGrammarError
  split
  · exact Rel.some ⟨rfl, rfl, h⟩
  · refine Rel.same fun r => ?_
    cases r with
    | some r => exact Rel.some ⟨rfl, rfl, h⟩
    | none =>
      refine Rel.bind (paragraphToCache_rel hm an sp hd text n h) ?_
      rintro ⟨h1, c1⟩ ⟨h2, d1⟩ ⟨e, hr⟩
      simp only at e hr
      subst e
      exact Rel.same fun r => Rel.some ⟨rfl, rfl, hr⟩

theorem checkGrammar_rel (hm : Follows m m' R) (an : List Wc → List GramAn) (sp : Bool → List Wc → Bool) (o : GcOpts) (line : List Wc) :
    ∀ (fuel : Nat) (skip : Int) (hd : Handle GErr) (c : σ) (d : τ), R c d →
    Rel (fun a b => a.1 = b.1 ∧ a.2.1 = b.2.1 ∧ R a.2.2 b.2.2) (checkGrammar ⟨an, sp, some m⟩ o line fuel skip hd c)
      (checkGrammar ⟨an, sp, some m'⟩ o line fuel skip hd d) := by
  intro fuel
  induction fuel with
  | zero => intro skip hd c d h a e; cases e
  | succ fuel ih =>
    intro skip hd c d h
    rw [checkGrammar, checkGrammar]
    refine Rel.bind (next_rel hm an sp hd _ _ _ _ h) ?_
    rintro ⟨r, h1, c1⟩ ⟨r', h2, d1⟩ ⟨e1, e2, hr⟩
    simp only at e1 e2 hr
    subst e1 e2
    cases r with
    | none => exact Rel.some ⟨rfl, rfl, hr⟩
    | some e =>
      refine Rel.same fun l => Rel.bind (ih _ h1 c1 d1 hr) ?_
      rintro ⟨r, h1, c1⟩ ⟨r', h2, d1⟩ ⟨e1, e2, hr⟩
      simp only at e1 e2 hr
      subst e1 e2
      exact Rel.some ⟨rfl, rfl, hr⟩

theorem gcTool_rel (hm : Follows m m' R) (an : List Wc → List GramAn) (sp : Bool → List Wc → Bool) (o : GcOpts) (fuel : Nat) :
    ∀ (lines : List (List Wc)) (hd : Handle GErr) (c : σ) (d : τ), R c d → ∀ out, gcTool ⟨an, sp, some m⟩ o fuel lines hd c = some out →
      gcTool ⟨an, sp, some m'⟩ o fuel lines hd d = some out := by
  have key : ∀ (lines : List (List Wc)) (hd : Handle GErr) (c : σ) (d : τ), R c d →
      Rel Eq (gcTool ⟨an, sp, some m⟩ o fuel lines hd c) (gcTool ⟨an, sp, some m'⟩ o fuel lines hd d) := by
    intro lines
    induction lines with
    | nil => intro hd c d h; exact Rel.some rfl
    | cons l ls ih =>
      intro hd c d h
      refine Rel.bind (checkGrammar_rel hm an sp o l fuel 0 hd c d h) ?_
      rintro ⟨r, h1, c1⟩ ⟨r', h2, d1⟩ ⟨e1, e2, hr⟩
      simp only at e1 e2 hr
      subst e1 e2
      refine Rel.bind (ih h1 c1 d1 hr) ?_
      rintro a _ rfl
      exact Rel.some rfl
  intro lines hd c d h out e
  obtain ⟨b, hb, rfl⟩ := key lines hd c d h out e
  exact hb

end Verif.GrammarSim
