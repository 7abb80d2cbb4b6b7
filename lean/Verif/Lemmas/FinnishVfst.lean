import Verif.Lemmas.Analysis
import Verif.Model.FinnishVfst
/-!
# Lemmas about the parsing of transducer output: absence of undefined behaviour
-/

namespace Verif

/-- The computation completes normally and its result satisfies `P`. -/
def Ok {α : Type} (x : UB α) (P : α → Prop) : Prop := ∃ a, x = some a ∧ P a

theorem okBind {α β : Type} {x : UB α} {f : α → UB β} {P : α → Prop} {Q : β → Prop}
    (h : Ok x P) (hf : ∀ a, P a → Ok (f a) Q) : Ok (x >>= f) Q := by
  obtain ⟨a, rfl, ha⟩ := h
  exact hf a ha

theorem okPure {α : Type} {a : α} {P : α → Prop} (h : P a) : Ok (pure a : UB α) P := ⟨a, rfl, h⟩

theorem okSome {α : Type} {a : α} {P : α → Prop} (h : P a) : Ok (some a : UB α) P := ⟨a, rfl, h⟩

theorem okIte {α : Type} {p : Prop} [Decidable p] {x y : UB α} {P : α → Prop} (h1 : p → Ok x P) (h2 : ¬ p → Ok y P) :
    Ok (if p then x else y) P := by
  by_cases h : p
  · rw [if_pos h]; exact h1 h
  · rw [if_neg h]; exact h2 h

theorem okMono {α : Type} {x : UB α} {P Q : α → Prop} (h : Ok x P) (hq : ∀ a, P a → Q a) : Ok x Q := by
  obtain ⟨a, h1, h2⟩ := h
  exact ⟨a, h1, hq a h2⟩

theorem ok_of_some {α : Type} {x : UB α} (h : ∃ a, x = some a) : Ok x (fun _ => True) := by
  obtain ⟨a, h⟩ := h
  exact ⟨a, h, trivial⟩

theorem rdz_lt {out : List Wc} {i : Nat} (h : i < out.length) : rdz out i = some out[i] := by
  rw [rdz, rd_eq_some (by simp; omega)]
  rw [List.getElem_append_left h]

theorem rdz_end (out : List Wc) : rdz out out.length = some 0 := by
  simp [rdz, rd]

theorem okRdz {out : List Wc} {i : Nat} (h : i ≤ out.length) : Ok (rdz out i) (fun c => i = out.length → c = 0) := by
  by_cases hl : i < out.length
  · exact ⟨_, rdz_lt hl, fun h => absurd h (by omega)⟩
  · have : i = out.length := by omega
    subst this
    exact ⟨0, rdz_end out, fun _ => rfl⟩

/-- Within the string a comparison with a literal is a prefix test. -/
theorem cmpz_eq {out : List Wc} : ∀ {l : List Wc} {i : Nat}, i ≤ out.length → 0 ∉ l →
    cmpz out i l = some (l.isPrefixOf (out.drop i)) := by
  intro l
  induction l with
  | nil => intro i _ _; simp [cmpz, wcsncmpEq]
  | cons c r ih =>
    intro i hi h0
    have hc : c ≠ 0 := fun h => h0 (by rw [h]; exact List.mem_cons_self ..)
    have hr : 0 ∉ r := fun h => h0 (List.mem_cons_of_mem _ h)
    rw [cmpz, wcsncmpEq]
    have hr0 : rd (out ++ [0]) i = rdz out i := rfl
    rw [hr0]
    by_cases hl : i < out.length
    · rw [rdz_lt hl, Option.bind_eq_bind, Option.bind_some]
      rw [List.drop_eq_getElem_cons hl, List.isPrefixOf_cons₂]
      by_cases he : out[i] = c
      · rw [if_pos he]
        have := ih (i := i + 1) (by omega) hr
        rw [cmpz] at this
        rw [this, he]
        simp
      · rw [if_neg he]
        have : (c == out[i]) = false := by simpa using fun h => he h.symm
        rw [this]
        rfl
    · have hi' : i = out.length := by omega
      subst hi'
      rw [rdz_end, Option.bind_eq_bind, Option.bind_some, if_neg (fun h => hc h.symm)]
      simp

theorem okCmpz {out : List Wc} {l : List Wc} {i : Nat} (h : i ≤ out.length) (h0 : 0 ∉ l) :
    Ok (cmpz out i l) (fun b => b = l.isPrefixOf (out.drop i)) := ⟨_, cmpz_eq h h0, rfl⟩

theorem okPush {cap : Nat} {buf : List Wc} {c : Wc} (h : buf.length < cap) :
    Ok (push cap buf c) (fun b => b = buf ++ [c]) := ⟨_, by rw [push, if_pos h], rfl⟩

/-! ## `isValidAnalysis` -/

theorem vaSection_ok (out : List Wc) : ∀ (f i : Nat), i < out.length → out.length < f + i →
    Ok (vaSection out f i) (fun j => i ≤ j) := by
  intro f
  induction f with
  | zero => intro i h1 h2; omega
  | succ f ih =>
    intro i h1 h2
    rw [vaSection]
    refine okIte (fun h => ?_) (fun _ => okSome (Nat.le_refl _))
    refine okBind (okRdz (by omega)) fun c0 _ => ?_
    refine okBind (okRdz (by omega)) fun c1 _ => ?_
    refine okBind (okRdz (by omega)) fun c2 _ => ?_
    refine okIte (fun _ => okPure (by omega)) (fun _ => ?_)
    exact okMono (ih (i + 1) (by omega) (by omega)) (fun j hj => by omega)

theorem vaTag_ok (out : List Wc) : ∀ (f i : Nat), i < out.length → out.length < f + i →
    Ok (vaTag out f i) (fun j => i < j) := by
  intro f
  induction f with
  | zero => intro i h1 h2; omega
  | succ f ih =>
    intro i h1 h2
    rw [vaTag]
    refine okIte (fun h => ?_) (fun _ => okSome (by omega))
    refine okBind (okRdz (by omega)) fun c0 _ => ?_
    refine okIte (fun _ => ?_) (fun _ => okPure (by omega))
    exact okMono (ih (i + 1) (by omega) (by omega)) (fun j hj => by omega)

theorem vaFlags_ok (out : List Wc) (i : Nat) (v : VState) : Ok (vaFlags out i v) (fun _ => True) := by
  rw [vaFlags]
  refine okIte (fun h => ?_) (fun _ => okSome trivial)
  refine okBind (okRdz (by omega)) fun c1 _ => ?_
  refine okIte (fun _ => ?_) (fun _ => okIte (fun _ => ?_) (fun _ => ?_))
  · refine okBind (okCmpz (by omega) (by decide)) fun _ _ => ?_
    refine okBind (okCmpz (by omega) (by decide)) fun _ _ => ?_
    refine okBind (okCmpz (by omega) (by decide)) fun _ _ => ?_
    exact okIte (fun _ => okPure trivial) fun _ => okIte (fun _ => okPure trivial) fun _ =>
      okIte (fun _ => okPure trivial) fun _ => okPure trivial
  · refine okBind (okRdz (by omega)) fun _ _ => ?_
    exact okIte (fun _ => okPure trivial) fun _ => okIte (fun _ => okPure trivial) fun _ => okPure trivial
  · refine okBind (okCmpz (by omega) (by decide)) fun _ _ => ?_
    exact okIte (fun _ => okPure trivial) fun _ => okPure trivial

/-- One round makes progress. -/
theorem vaStep_ok (out : List Wc) (i : Nat) (v : VState) (hi : i < out.length) :
    Ok (vaStep out i v) (fun r => ∀ j w, r = .inr (j, w) → i ≤ j) := by
  rw [vaStep]
  refine okBind (okRdz (by omega)) fun c _ => ?_
  refine okIte (fun _ => ?_) (fun _ => ?_)
  · refine okIte (fun _ => okPure (fun _ _ h => by cases h)) (fun h2 => ?_)
    refine okBind (vaFlags_ok out i v) fun v _ => ?_
    refine okBind (okRdz (by omega)) fun c1 _ => ?_
    refine okIte (fun _ => ?_) (fun _ => ?_)
    · refine okBind (vaSection_ok out _ i hi (by omega)) fun j hj => ?_
      exact okPure (fun _ _ h => by cases h; exact hj)
    · refine okBind (okCmpz (by omega) (by decide)) fun _ _ => ?_
      refine okIte (fun _ => ?_) (fun _ => ?_)
      · refine okIte (fun _ => okPure (fun _ _ h => by cases h)) (fun _ => ?_)
        exact okPure (fun _ _ h => by cases h; omega)
      · refine okBind (vaTag_ok out _ i hi (by omega)) fun j hj => ?_
        exact okPure (fun _ _ h => by cases h; omega)
  · refine okIte (fun _ => ?_) (fun _ => ?_)
    · refine okBind (P := fun _ => True) ?_ fun b _ => ?_
      · exact okIte (fun _ => okMono (okCmpz (by omega) (by decide)) fun _ _ => trivial) (fun _ => okSome trivial)
      · exact okIte (fun _ => okPure (fun _ _ h => by cases h; omega))
          (fun _ => okPure (fun _ _ h => by cases h; omega))
    · cases vaChar c v with
      | none => exact okPure (fun _ _ h => by cases h)
      | some w => exact okPure (fun _ _ h => by cases h; omega)

theorem vaLoop_ok (out : List Wc) : ∀ (f i : Nat) (v : VState), 0 < f → out.length < f + i →
    Ok (vaLoop out f i v) (fun _ => True) := by
  intro f
  induction f with
  | zero => intro i v h; omega
  | succ f ih =>
    intro i v _ h
    rw [vaLoop]
    refine okIte (fun hi => ?_) (fun _ => okSome trivial)
    refine okBind (vaStep_ok out i v hi) fun r hr => ?_
    cases r with
    | inl b => exact okPure trivial
    | inr x =>
      obtain ⟨j, w⟩ := x
      have := hr j w rfl
      exact ih (j + 1) w (by omega) (by omega)

theorem isValidAnalysis_ok (out : List Wc) : Ok (isValidAnalysis out) (fun _ => True) :=
  vaLoop_ok out _ _ _ (by omega) (by omega)

/-! ## Values of attributes -/

/-- A predicate on attribute values that holds for everything that `parseBasicAttributes` sets. -/
structure AllowedBasic (A : AKey → List Wc → Prop) : Prop where
  cls : ∀ x ∈ classMap, A .cls x.2
  number : ∀ x ∈ numberMap, A .number x.2
  person : ∀ x ∈ personMap, A .person x.2
  sijamuoto : ∀ x ∈ sijamuotoMap, A .sijamuoto x.2
  mood : ∀ x ∈ moodMap, A .mood x.2
  tense : ∀ x ∈ tenseMap, A .tense x.2
  focus : ∀ x ∈ focusMap, A .focus x.2
  possessive : ∀ x ∈ possessiveMap, A .possessive x.2
  comparison : ∀ x ∈ comparisonMap, A .comparison x.2
  positive : A .comparison (lit "positive")
  negative : ∀ x ∈ negativeMap, A .negative x.2
  participle : ∀ x ∈ participleMap, A .participle x.2
  question : A .kysymysliite (lit "true")
  free : A .vapaaJalkiosa (lit "true")
  geo : A .geographical (lit "true")
  verbA : A .requireVerb (lit "A-infinitive")
  verbMA : A .requireVerb (lit "MA-infinitive")

/-- A predicate on attribute values that holds for everything the analyser sets itself. -/
structure AllowedOk (A : AKey → List Wc → Prop) : Prop extends AllowedBasic A where
  str : ∀ s, A .structure_ s
  fst : ∀ s, A .fstoutput s
  base : ∀ s, A .baseform s
  bases : ∀ s, A .wordbases s
  ids : ∀ s, A .wordids s

/-- An analysis in good order with allowed values only. -/
structure Good (A : AKey → List Wc → Prop) (a : Ana) : Prop where
  ok : AnaOk a
  vals : ∀ k v, a.getValue k = some v → A k v

variable {A : AKey → List Wc → Prop}

theorem good_empty : Good A {} := ⟨anaOk_empty, fun _ _ h => by cases h⟩

theorem good_add {a : Ana} (h : Good A a) {k : AKey} {s : List Wc} (hs : A k s) : Good A (a.add k s) := by
  refine ⟨anaOk_add h.ok k s, fun x v hv => ?_⟩
  rw [getValue_add h.ok] at hv
  split at hv
  · rename_i hx
    cases hg : a.getValue x with
    | none => rw [hg] at hv; cases hv; rw [hx]; exact hs
    | some w => rw [hg] at hv; cases hv; exact h.vals _ _ hg
  · exact h.vals _ _ hv

theorem good_addConst {a : Ana} (h : Good A a) {k : AKey} {s : List Wc} (hs : A k s) : Good A (a.addConst k s) := by
  refine ⟨anaOk_addConst h.ok k s, fun x v hv => ?_⟩
  rw [getValue_addConst h.ok] at hv
  split at hv
  · rename_i hx
    cases hg : a.getValue x with
    | none => rw [hg] at hv; cases hv; rw [hx]; exact hs
    | some w => rw [hg] at hv; cases hv; exact h.vals _ _ hg
  · exact h.vals _ _ hv

theorem good_remove {a : Ana} (h : Good A a) (k : AKey) : Ok (a.remove k) (Good A) := by
  obtain ⟨b, h1, h2, h3⟩ := remove_spec h.ok k
  refine ⟨b, h1, h2, fun x v hv => ?_⟩
  rw [h3] at hv
  split at hv
  · cases hv
  · exact h.vals _ _ hv

theorem lookup_mem {m : TagMap} {k v : List Wc} (h : m.lookup k = some v) : ∃ x ∈ m, v = x.2 := by
  induction m with
  | nil => cases h
  | cons e r ih =>
    obtain ⟨k', v'⟩ := e
    rw [List.lookup_cons] at h
    split at h
    · cases h; exact ⟨_, List.mem_cons_self .., rfl⟩
    · obtain ⟨x, hx, hv⟩ := ih h
      exact ⟨x, List.mem_cons_of_mem _ hx, hv⟩

theorem pba_ok {a : Ana} (ha : Good A a) {out : List Wc} {i j : Nat} (h1 : j + 2 ≤ i) (h2 : i ≤ out.length) {k : AKey}
    {m : TagMap} (hm : ∀ x ∈ m, A k x.2) : Ok (parseBasicAttribute a out i j k m) (Good A) := by
  rw [parseBasicAttribute]
  refine okIte (fun _ => okSome ha) fun _ => ?_
  rw [if_neg (by omega)]
  cases hl : m.lookup ((out.drop (j + 2)).take (i - j - 2)) with
  | none => exact okSome ha
  | some s =>
    obtain ⟨x, hx, hv⟩ := lookup_mem hl
    exact okSome (good_addConst ha (hv ▸ hm x hx))

theorem addInfoFlag_ok (hA : AllowedBasic A) {a : Ana} (ha : Good A a) {out : List Wc} {i : Nat} (hi : i ≤ out.length) :
    Ok (addInfoFlag a out i) (Good A) := by
  rw [addInfoFlag]
  refine okBind (okCmpz hi (by decide)) fun _ _ => ?_
  refine okBind (okCmpz hi (by decide)) fun _ _ => ?_
  refine okBind (okCmpz hi (by decide)) fun _ _ => ?_
  refine okBind (okCmpz hi (by decide)) fun _ _ => ?_
  refine okBind (okRdz (by omega)) fun _ _ => ?_
  refine okIte (fun _ => okIte (fun _ => okPure (good_addConst ha hA.free)) fun _ => okPure ha) fun _ => ?_
  refine okIte (fun _ => okIte (fun _ => okPure (good_addConst ha hA.geo)) fun _ => okPure ha) fun _ => ?_
  refine okIte (fun _ => ?_) fun _ => okPure ha
  exact okIte (fun _ => okPure (good_addConst ha hA.verbA)) fun _ =>
    okIte (fun _ => okPure (good_addConst ha hA.verbMA)) fun _ => okPure ha

/-- The state of `parseBasicAttributes` is good. -/
abbrev GoodB (A : AKey → List Wc → Prop) (b : BState) : Prop := Good A b.a

theorem baSimple_ok {b : BState} (hb : GoodB A b) {out : List Wc} {i j : Nat} (h1 : j + 2 ≤ i)
    (h2 : i ≤ out.length) {k : AKey} {m : TagMap} (hm : ∀ x ∈ m, A k x.2) : Ok (baSimple out i j b k m) (GoodB A) := by
  rw [baSimple]
  exact okBind (pba_ok hb h1 h2 hm) fun a ha => okPure ha

theorem class_values (hA : AllowedBasic A) {s k : List Wc} (h : classMap.lookup k = some s) : A .cls s := by
  obtain ⟨x, hx, hv⟩ := lookup_mem h
  exact hv ▸ hA.cls x hx

theorem baClass_ok (hA : AllowedBasic A) {b : BState} (hb : GoodB A b) {out : List Wc} {i j : Nat} (h1 : j + 2 ≤ i)
    (h2 : i ≤ out.length) : Ok (baClass out i j b) (GoodB A) := by
  rw [baClass]
  refine okBind (okRdz (by omega)) fun _ _ => ?_
  refine okIte (fun _ => ?_) fun _ => okPure hb
  refine okBind (okCmpz (by omega) (by decide)) fun _ _ => ?_
  refine okBind (okCmpz (by omega) (by decide)) fun _ _ => ?_
  refine okIte (fun _ => ?_) fun _ => ?_
  · refine okIte (fun _ => okPure ?_) fun _ => okPure ?_
    · exact good_addConst hb (class_values hA (k := lit "l") (by decide))
    · exact good_addConst hb (class_values hA (k := lit "nl") (by decide))
  · exact okBind (pba_ok hb h1 h2 hA.cls) fun a ha => okPure ha

theorem baCase_ok (hA : AllowedBasic A) {b : BState} (hb : GoodB A b) {out : List Wc} {i j : Nat} (h1 : j + 2 ≤ i)
    (h2 : i ≤ out.length) : Ok (baCase out i j b) (GoodB A) := by
  rw [baCase]
  refine okIte (fun _ => ?_) fun _ => okPure hb
  refine okBind (pba_ok hb h1 h2 hA.sijamuoto) fun a ha => ?_
  refine okBind (P := fun _ => True) ?_ fun _ _ => okPure ha
  exact okIte (fun _ => okMono (okCmpz (by omega) (by decide)) fun _ _ => trivial) fun _ => okSome trivial

theorem baParticiple_ok (hA : AllowedBasic A) {b : BState} (hb : GoodB A b) {out : List Wc} {i j : Nat} (h1 : j + 2 ≤ i)
    (h2 : i ≤ out.length) (h4 : b.a.getValue .cls = none ∨ 4 ≤ out.length) : Ok (baParticiple out i j b) (GoodB A) := by
  rw [baParticiple]
  refine okIte (fun _ => ?_) fun _ => okSome hb
  refine okBind (P := fun _ => True) ?_ fun go _ => ?_
  · refine okIte (fun _ => okSome trivial) fun hn => ?_
    rw [if_neg]
    · exact okSome trivial
    · rcases h4 with h4 | h4
      · exact absurd (Or.inl h4) hn
      · omega
  · refine okIte (fun _ => ?_) fun _ => okPure hb
    exact okBind (pba_ok hb h1 h2 hA.participle) fun a ha => okPure ha

theorem baBoundary_ok (hA : AllowedBasic A) {b : BState} (hb : GoodB A b) {out : List Wc} {j : Nat}
    (h2 : j + 2 ≤ out.length) : Ok (baBoundary out j b) (GoodB A) := by
  rw [baBoundary]
  refine okBind (okRdz (by omega)) fun _ _ => ?_
  refine okIte (fun _ => ?_) fun _ => okPure hb
  refine okBind (okRdz (by omega)) fun _ _ => ?_
  refine okBind (okCmpz (by omega) (by decide)) fun _ _ => ?_
  refine okIte (fun _ => okPure ?_) fun _ => okPure hb
  exact good_addConst hb (class_values hA (k := lit "p") (by decide))

theorem baTag_ok (hA : AllowedBasic A) {b : BState} (hb : GoodB A b) {out : List Wc} {i j : Nat} (h1 : j < i)
    (h2 : i < out.length) (hi : out[i] = 0x5D) (h4 : b.a.getValue .cls = none ∨ 4 ≤ out.length) :
    Ok (baTag out i j b) (GoodB A) := by
  rw [baTag]
  rw [rdz_lt (show j + 1 < out.length by omega)]
  by_cases hij : j + 1 = i
  · have hc : out[j + 1] = 0x5D := by
      have : ∀ k (hk : k < out.length), k = i → out[k] = 0x5D := by
        intro k hk e; subst e; exact hi
      exact this _ _ hij
    rw [hc, Option.bind_eq_bind, Option.bind_some]
    refine ⟨b, ?_, hb⟩
    rfl
  · have h1' : j + 2 ≤ i := by omega
    have h2' : i ≤ out.length := by omega
    refine okBind (okSome (P := fun _ => True) trivial) fun t _ => ?_
    refine okIte (fun _ => baClass_ok hA hb h1' h2') fun _ => ?_
    refine okIte (fun _ => okIte (fun _ => baSimple_ok hb h1' h2' hA.number) fun _ => okPure hb) fun _ => ?_
    refine okIte (fun _ => baSimple_ok hb h1' h2' hA.person) fun _ => ?_
    refine okIte (fun _ => baCase_ok hA hb h1' h2') fun _ => ?_
    refine okIte (fun _ => okIte (fun _ => baSimple_ok hb h1' h2' hA.mood) fun _ => okPure hb) fun _ => ?_
    refine okIte (fun _ => baSimple_ok hb h1' h2' hA.tense) fun _ => ?_
    refine okIte (fun _ => ?_) fun _ => ?_
    · refine okBind (okCmpz (by omega) (by decide)) fun _ _ => ?_
      exact okIte (fun _ => okPure (good_addConst hb hA.question)) fun _ => baSimple_ok hb h1' h2' hA.focus
    refine okIte (fun _ => baSimple_ok hb h1' h2' hA.possessive) fun _ => ?_
    refine okIte (fun _ => okIte (fun _ => baSimple_ok hb h1' h2' hA.comparison) fun _ => okPure hb) fun _ => ?_
    refine okIte (fun _ => baSimple_ok hb h1' h2' hA.negative) fun _ => ?_
    refine okIte (fun _ => baParticiple_ok hA hb h1' h2' h4) fun _ => ?_
    refine okIte (fun _ => ?_) fun _ => ?_
    · exact okBind (addInfoFlag_ok hA hb (by omega)) fun a ha => okPure ha
    exact okIte (fun _ => baBoundary_ok hA hb (by omega)) fun _ => okPure hb

theorem findOpen_ok (out : List Wc) : ∀ j, j ≤ out.length → Ok (findOpen out j) (fun r => (r.1 = true → r.2 < j) ∧ r.2 ≤ j
    ∧ (r.1 = false → r.2 = 0)) := by
  intro j
  induction j with
  | zero => intro _; exact okSome ⟨fun h => (by cases h), Nat.le_refl _, fun _ => rfl⟩
  | succ j ih =>
    intro h
    rw [findOpen]
    refine okBind (okRdz (by omega)) fun c _ => ?_
    refine okIte (fun _ => okPure ⟨fun _ => by simp, by simp, fun h => (by cases h)⟩) fun _ => ?_
    refine okMono (ih (by omega)) fun r hr => ⟨fun h => ?_, ?_, hr.2.2⟩
    · have := hr.1 h; omega
    · have := hr.2.1; omega

theorem baLoop_ok (hA : AllowedBasic A) (out : List Wc) : ∀ (f i : Nat) (b : BState), i < f → i < out.length → GoodB A b →
    (b.a.getValue .cls = none ∨ 4 ≤ out.length) → Ok (baLoop out f i b) (GoodB A) := by
  intro f
  induction f with
  | zero => intro i b h; omega
  | succ f ih =>
    intro i b hf hi hb h4
    rw [baLoop]
    refine okIte (fun h2 => ?_) fun _ => okSome hb
    rw [rdz_lt hi]
    refine okBind (okSome (P := fun c => c = out[i]) rfl) fun c hc => ?_
    refine okIte (fun hc5 => ?_) fun _ => ih (i - 1) b (by omega) (by omega) hb h4
    refine okBind (findOpen_ok out i (by omega)) fun r hr => ?_
    obtain ⟨found, j⟩ := r
    simp only
    refine okBind (P := fun b' => GoodB A b') ?_ fun b' hb' => ?_
    · refine okIte (fun hfo => ?_) fun _ => okSome hb
      exact baTag_ok hA hb (hr.1 hfo) hi (hc ▸ hc5) h4
    · refine okIte (fun _ => okPure hb') fun hj => ?_
      exact ih (j - 1) b' (by have := hr.2.1; simp only at this; omega) (by have := hr.2.1; simp only at this; omega) hb'
        (Or.inr (by have := hr.2.1; simp only at this; omega))

theorem parseBasicAttributes_ok (hA : AllowedBasic A) {a : Ana} (ha : Good A a) (hcls : a.getValue .cls = none) {out : List Wc}
    (h : out ≠ []) (hlen : out.length < 2 ^ 64) : Ok (parseBasicAttributes a out) (Good A) := by
  have hpos : 0 < out.length := List.length_pos_iff.2 h
  have hm : (out.length + (2 ^ 64 - 1)) % 2 ^ 64 = out.length - 1 := by
    rw [show out.length + (2 ^ 64 - 1) = (out.length - 1) + 2 ^ 64 by omega, Nat.add_mod_right,
      Nat.mod_eq_of_lt (by omega)]
  rw [parseBasicAttributes, hm]
  exact okBind (baLoop_ok hA out _ _ { a := a } (by omega) (by omega) ha (Or.inl hcls)) fun b hb => okPure hb

end Verif
