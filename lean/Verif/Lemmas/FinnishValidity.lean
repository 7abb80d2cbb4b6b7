import Mathlib.Data.List.Induction
import Verif.Spec.Validity
import Verif.Lemmas.FinnishStructure
/-!
# The check of analyses of compounds as a run over events (for C77)
-/

set_option linter.unusedSimpArgs false
set_option linter.unusedVariables false

namespace Verif.Validity
open Verif

/-! ### The check as a run over the events -/

/-- The effect of an event. -/
def evStep (v : VState) : Ev → Option VState
  | .letter c => vaChar c v
  | .gap true => some { v with startsProper := false, endsNonIca := false, boundaryPassed := true, hyphenPresent := true }
  | .gap false =>
    if v.missing then none
    else some { v with boundaryPassed := true, hyphenPresent := false, missing := v.required }
  | .hyphen => some { v with startsProper := false, endsNonIca := false }
  | .free => some { v with allowed := true, justSet := true }
  | .must => some { v with boundaryPassed := false, allowed := true, required := true }
  | .place => some { v with missing := false, endsNonIca := false }
  | .proper => some { v with startsProper := true, endsNonIca := false }
  | .noun => some { v with endsNonIca := true }
  | .derived => some { v with startsProper := false }

def evRun : VState → List Ev → Option VState
  | v, [] => some v
  | v, e :: es => (evStep v e).bind fun v => evRun v es

def verdict : Option VState → Bool
  | none => false
  | some v => !v.missing && (!v.startsProper || !v.endsNonIca)

theorem drop_pre (pre s : List Wc) (j : Nat) : (pre ++ s).drop (pre.length + j) = s.drop j := by
  rw [List.drop_append]; simp

theorem prefix_stop {l : List Wc} (h : 0x5D ∉ l) : ∀ (a r : List Wc), l.isPrefixOf (a ++ 0x5D :: r) = l.isPrefixOf a := by
  induction l with
  | nil => intro a r; simp
  | cons c l ih =>
    intro a r
    have h1 : c ≠ 0x5D := fun e => h (by simp [e])
    have h2 : 0x5D ∉ l := fun e => h (by simp [e])
    cases a with
    | nil =>
      show List.isPrefixOf (c :: l) (0x5D :: r) = List.isPrefixOf (c :: l) []
      simp [List.isPrefixOf, h1]
    | cons b a =>
      show List.isPrefixOf (c :: l) (b :: (a ++ 0x5D :: r)) = List.isPrefixOf (c :: l) (b :: a)
      simp only [List.isPrefixOf, ih h2]

theorem cmpz_name {pre name rest l : List Wc} (k : Nat) (hk : k ≤ name.length) (h0 : 0 ∉ l) (h1 : 0x5D ∉ l) :
    cmpz (pre ++ 0x5B :: (name ++ 0x5D :: rest)) (pre.length + (k + 1)) l = some (l.isPrefixOf (name.drop k)) := by
  rw [cmpz_eq (by simp; omega) h0, drop_pre]
  have : List.drop (k + 1) (0x5B :: (name ++ 0x5D :: rest)) = name.drop k ++ 0x5D :: rest := by
    rw [List.drop_succ_cons, List.drop_append_of_le_length hk]
  rw [this, prefix_stop h1]

theorem vaTag_skip (rest : List Wc) : ∀ (name pre : List Wc) (x : Wc) (f : Nat), 0x5D ∉ name → name.length < f →
    vaTag (pre ++ x :: (name ++ 0x5D :: rest)) f pre.length = some (pre.length + name.length + 1) := by
  intro name
  induction name with
  | nil =>
    intro pre x f _ hf
    obtain ⟨f, rfl⟩ : ∃ g, f = g + 1 := ⟨f - 1, by simp at hf; omega⟩
    rw [vaTag, if_pos (by simp)]
    have : rdz (pre ++ x :: ([] ++ 0x5D :: rest)) (pre.length + 1) = some 0x5D := by rw [rdz_app]; rfl
    rw [this]; rfl
  | cons c name ih =>
    intro pre x f h hf
    obtain ⟨f, rfl⟩ : ∃ g, f = g + 1 := ⟨f - 1, by simp at hf; omega⟩
    have h1 : c ≠ 0x5D := fun e => h (by simp [e])
    rw [vaTag, if_pos (by simp)]
    have : rdz (pre ++ x :: (c :: name ++ 0x5D :: rest)) (pre.length + 1) = some c := by rw [rdz_app]; rfl
    rw [this]
    show (if c ≠ 0x5D then _ else _) = _
    rw [if_pos h1]
    have := ih (pre ++ [x]) c f (fun e => h (by simp [e])) (by simp at hf; omega)
    simp only [List.append_assoc, List.singleton_append, List.length_append, List.length_singleton, List.cons_append, List.nil_append] at this
    rw [List.cons_append, this]
    simp; omega

theorem vaSection_skip (rest : List Wc) : ∀ (body pre : List Wc) (x : Wc) (f : Nat), 0x5B ∉ body → body.length < f →
    vaSection (pre ++ x :: (body ++ 0x5B :: 0x58 :: 0x5D :: rest)) f pre.length = some (pre.length + body.length + 3) := by
  intro body
  induction body with
  | nil =>
    intro pre x f _ hf
    obtain ⟨f, rfl⟩ : ∃ g, f = g + 1 := ⟨f - 1, by simp at hf; omega⟩
    rw [vaSection, if_pos (by simp)]
    have h1 : rdz (pre ++ x :: ([] ++ 0x5B :: 0x58 :: 0x5D :: rest)) (pre.length + 1) = some 0x5B := by rw [rdz_app]; rfl
    have h2 : rdz (pre ++ x :: ([] ++ 0x5B :: 0x58 :: 0x5D :: rest)) (pre.length + 2) = some 0x58 := by rw [rdz_app]; rfl
    have h3 : rdz (pre ++ x :: ([] ++ 0x5B :: 0x58 :: 0x5D :: rest)) (pre.length + 3) = some 0x5D := by rw [rdz_app]; rfl
    rw [h1, h2, h3]; rfl
  | cons c body ih =>
    intro pre x f h hf
    obtain ⟨f, rfl⟩ : ∃ g, f = g + 1 := ⟨f - 1, by simp at hf; omega⟩
    have h1 : c ≠ 0x5B := fun e => h (by simp [e])
    rw [vaSection, if_pos (by simp; omega)]
    have k1 : rdz (pre ++ x :: (c :: body ++ 0x5B :: 0x58 :: 0x5D :: rest)) (pre.length + 1) = some c := by rw [rdz_app]; rfl
    obtain ⟨c1, k2⟩ : ∃ c1, rdz (pre ++ x :: (c :: body ++ 0x5B :: 0x58 :: 0x5D :: rest)) (pre.length + 2) = some c1 :=
      ⟨_, rdz_lt (by simp; omega)⟩
    obtain ⟨c2, k3⟩ : ∃ c1, rdz (pre ++ x :: (c :: body ++ 0x5B :: 0x58 :: 0x5D :: rest)) (pre.length + 3) = some c1 :=
      ⟨_, rdz_lt (by simp; omega)⟩
    rw [k1, k2, k3]
    show (if c = 0x5B ∧ c1 = 0x58 ∧ c2 = 0x5D then _ else _) = _
    rw [if_neg (fun h => h1 h.1)]
    have := ih (pre ++ [x]) c f (fun e => h (by simp [e])) (by simp at hf; omega)
    simp only [List.append_assoc, List.singleton_append, List.length_append, List.length_singleton, List.cons_append, List.nil_append] at this
    rw [List.cons_append, this]
    simp; omega

/-- The effect of the mark-up of a tag. -/
theorem vaStep_name (v : VState) (pre name rest : List Wc) (hn : name ≠ []) (h1 : 0x5D ∉ name) (hx : name.head? ≠ some 0x58)
    (hb : (lit "Bh").isPrefixOf name → name = lit "Bh") :
    vaStep (pre ++ 0x5B :: (name ++ 0x5D :: rest)) pre.length v =
      some (match evRun v (tagEv name) with | none => .inl false | some v => .inr (pre.length + name.length + 1, v)) := by
  obtain ⟨c, n, rfl⟩ : ∃ c n, name = c :: n := by cases name with | nil => exact absurd rfl hn | cons c n => exact ⟨c, n, rfl⟩
  have hcX : c ≠ 0x58 := by simpa using hx
  have r0 : rdz (pre ++ 0x5B :: (c :: n ++ 0x5D :: rest)) pre.length = some 0x5B := by rw [rdz_app0]; rfl
  have r1 : rdz (pre ++ 0x5B :: (c :: n ++ 0x5D :: rest)) (pre.length + 1) = some c := by rw [rdz_app]; rfl
  have hflags : vaFlags (pre ++ 0x5B :: (c :: n ++ 0x5D :: rest)) pre.length v =
      some (if c :: n = lit "Bh" then v else ((evRun v (tagEv (c :: n))).getD v)) := by
    unfold vaFlags
    by_cases hlen : pre.length + 3 < (pre ++ 0x5B :: (c :: n ++ 0x5D :: rest)).length
    · rw [if_pos hlen, r1]
      simp only [Option.bind_eq_bind, Option.bind_some]
      have e2 : ∀ l : List Wc, 0 ∉ l → 0x5D ∉ l → cmpz (pre ++ 0x5B :: (c :: n ++ 0x5D :: rest)) (pre.length + 2) l = some (l.isPrefixOf n) :=
        fun l a b => cmpz_name (name := c :: n) 1 (by simp) a b
      have e1 : ∀ l : List Wc, 0 ∉ l → 0x5D ∉ l → cmpz (pre ++ 0x5B :: (c :: n ++ 0x5D :: rest)) (pre.length + 1) l = some (l.isPrefixOf (c :: n)) :=
        fun l a b => cmpz_name (name := c :: n) 0 (by simp) a b
      by_cases hI : c = 0x49
      · subst hI
        rw [if_pos rfl, e2 (lit "sf") (by decide) (by decide), e2 (lit "cu") (by decide) (by decide), e2 (lit "ca") (by decide) (by decide)]
        have g1 : (lit "Isf").isPrefixOf (0x49 :: n) = (lit "sf").isPrefixOf n := by
          show List.isPrefixOf (0x49 :: lit "sf") (0x49 :: n) = _
          simp [List.isPrefixOf]
        have g2 : (lit "Icu").isPrefixOf (0x49 :: n) = (lit "cu").isPrefixOf n := by
          show List.isPrefixOf (0x49 :: lit "cu") (0x49 :: n) = _
          simp [List.isPrefixOf]
        have g3 : (lit "Ica").isPrefixOf (0x49 :: n) = (lit "ca").isPrefixOf n := by
          show List.isPrefixOf (0x49 :: lit "ca") (0x49 :: n) = _
          simp [List.isPrefixOf]
        have g4 : (lit "Le").isPrefixOf (0x49 :: n) = false := rfl
        have g5 : (lit "Ln").isPrefixOf (0x49 :: n) = false := rfl
        have g6 : (lit "Dg").isPrefixOf (0x49 :: n) = false := rfl
        have g7 : (0x49 :: n) ≠ lit "Bh" := by intro h; cases h
        rw [if_neg g7]
        unfold tagEv
        rw [if_neg g7, g1, g2, g3, g4, g5, g6]
        simp only [Option.bind_some]
        cases (lit "sf").isPrefixOf n <;> cases (lit "cu").isPrefixOf n <;> cases (lit "ca").isPrefixOf n <;> rfl
      · rw [if_neg hI]
        have g1 : (lit "Isf").isPrefixOf (c :: n) = false := by
          show List.isPrefixOf (0x49 :: lit "sf") (c :: n) = _
          have : (73 == c) = false := by simpa using fun h => hI h.symm
          simp only [List.isPrefixOf, this, Bool.false_and]
        have g2 : (lit "Icu").isPrefixOf (c :: n) = false := by
          show List.isPrefixOf (0x49 :: lit "cu") (c :: n) = _
          have : (73 == c) = false := by simpa using fun h => hI h.symm
          simp only [List.isPrefixOf, this, Bool.false_and]
        have g3 : (lit "Ica").isPrefixOf (c :: n) = false := by
          show List.isPrefixOf (0x49 :: lit "ca") (c :: n) = _
          have : (73 == c) = false := by simpa using fun h => hI h.symm
          simp only [List.isPrefixOf, this, Bool.false_and]
        by_cases hL : c = 0x4C
        · subst hL
          rw [if_pos rfl]
          have g7 : (0x4C :: n) ≠ lit "Bh" := by intro h; cases h
          have g8 : (lit "Dg").isPrefixOf (0x4C :: n) = false := rfl
          rw [if_neg g7]
          unfold tagEv
          rw [if_neg g7, g1, g2, g3, g8]
          cases n with
          | nil =>
            have r2 : rdz (pre ++ 0x5B :: ([0x4C] ++ 0x5D :: rest)) (pre.length + 2) = some 0x5D := by rw [rdz_app]; rfl
            rw [r2]; rfl
          | cons d n =>
            have r2 : rdz (pre ++ 0x5B :: (0x4C :: d :: n ++ 0x5D :: rest)) (pre.length + 2) = some d := by rw [rdz_app]; rfl
            rw [r2]
            have g4 : (lit "Le").isPrefixOf (0x4C :: d :: n) = (0x65 == d) := by
              show List.isPrefixOf [0x4C, 0x65] (0x4C :: d :: n) = _
              simp [List.isPrefixOf]
            have g5 : (lit "Ln").isPrefixOf (0x4C :: d :: n) = (0x6E == d) := by
              show List.isPrefixOf [0x4C, 0x6E] (0x4C :: d :: n) = _
              simp [List.isPrefixOf]
            rw [g4, g5]
            simp only [Option.bind_some]
            by_cases a : d = 0x65
            · subst a; rfl
            · by_cases b : d = 0x6E
              · subst b; rfl
              · have a' : (0x65 == d) = false := by simpa using fun h => a h.symm
                have b' : (0x6E == d) = false := by simpa using fun h => b h.symm
                rw [if_neg a, if_neg b, a', b']; rfl
        · rw [if_neg hL, e1 (lit "Dg") (by decide) (by decide)]
          have g4 : (lit "Le").isPrefixOf (c :: n) = false := by
            show List.isPrefixOf (0x4C :: lit "e") (c :: n) = _
            have : (76 == c) = false := by simpa using fun h => hL h.symm
            simp only [List.isPrefixOf, this, Bool.false_and]
          have g5 : (lit "Ln").isPrefixOf (c :: n) = false := by
            show List.isPrefixOf (0x4C :: lit "n") (c :: n) = _
            have : (76 == c) = false := by simpa using fun h => hL h.symm
            simp only [List.isPrefixOf, this, Bool.false_and]
          unfold tagEv
          simp only [Option.bind_some]
          by_cases hB : c :: n = lit "Bh"
          · rw [if_pos hB, hB]; rfl
          · rw [if_neg hB, if_neg hB, g1, g2, g3, g4, g5]
            cases (lit "Dg").isPrefixOf (c :: n) <;> rfl
    · rw [if_neg hlen]
      have hn0 : n = [] := by
        cases n with
        | nil => rfl
        | cons d n => exfalso; apply hlen; simp; omega
      subst hn0
      have : tagEv [c] = [] := by
        unfold tagEv
        have a : ∀ x y : Wc, ∀ l, List.isPrefixOf (x :: y :: l) [c] = false := fun x y l => by simp [List.isPrefixOf]
        have b : [c] ≠ lit "Bh" := by intro h; cases h
        rw [if_neg b]
        have k1 : (lit "Isf").isPrefixOf [c] = false := a 0x49 0x73 _
        have k2 : (lit "Icu").isPrefixOf [c] = false := a 0x49 0x63 _
        have k3 : (lit "Ica").isPrefixOf [c] = false := a 0x49 0x63 _
        have k4 : (lit "Le").isPrefixOf [c] = false := a 0x4C 0x65 _
        have k5 : (lit "Ln").isPrefixOf [c] = false := a 0x4C 0x6E _
        have k6 : (lit "Dg").isPrefixOf [c] = false := a 0x44 0x67 _
        rw [k1, k2, k3, k4, k5, k6]; rfl
      rw [this]
      simp [evRun]
  have eB : cmpz (pre ++ 0x5B :: (c :: n ++ 0x5D :: rest)) (pre.length + 1) (lit "Bh") = some ((lit "Bh").isPrefixOf (c :: n)) :=
    cmpz_name (name := c :: n) 0 (by simp) (by decide) (by decide)
  unfold vaStep
  rw [r0]
  simp only [Option.bind_eq_bind, Option.bind_some]
  rw [if_pos (by trivial), if_neg (by simp), hflags]
  simp only [Option.bind_some]
  rw [r1]
  simp only [Option.bind_some]
  rw [if_neg hcX, eB]
  simp only [Option.bind_some]
  by_cases hB : c :: n = lit "Bh"
  · rw [if_pos hB, hB]
    have : (lit "Bh").isPrefixOf (lit "Bh") = true := by decide
    rw [this, if_pos rfl]
    have ht : tagEv (lit "Bh") = [.gap false] := by decide
    rw [ht]
    simp only [evRun, evStep]
    have hl : (lit "Bh").length = 2 := rfl
    cases v.missing <;> cases v.required <;> rfl
  · rw [if_neg hB]
    have hBf : (lit "Bh").isPrefixOf (c :: n) = false := by
      cases hq : (lit "Bh").isPrefixOf (c :: n) with
      | false => rfl
      | true => exact absurd (hb hq) hB
    rw [hBf, if_neg (by simp), vaTag_skip rest (c :: n) pre 0x5B _ h1 (by simp; omega)]
    have : ∃ v', evRun v (tagEv (c :: n)) = some v' := by
      unfold tagEv
      rw [if_neg hB]
      repeat' split
      all_goals exact ⟨_, rfl⟩
    obtain ⟨v', hv'⟩ := this
    rw [hv']
    simp only [Option.bind_some, Option.getD_some]
    rfl

theorem vaStep_section (v : VState) (pre body rest : List Wc) (c : Wc) (hc : c ≠ 0x5B) (hb : 0x5B ∉ body) :
    vaStep (pre ++ 0x5B :: 0x58 :: c :: 0x5D :: (body ++ 0x5B :: 0x58 :: 0x5D :: rest)) pre.length v =
      some (.inr (pre.length + body.length + 6, v)) := by
  have r0 : rdz (pre ++ 0x5B :: 0x58 :: c :: 0x5D :: (body ++ 0x5B :: 0x58 :: 0x5D :: rest)) pre.length = some 0x5B := by rw [rdz_app0]; rfl
  have r1 : rdz (pre ++ 0x5B :: 0x58 :: c :: 0x5D :: (body ++ 0x5B :: 0x58 :: 0x5D :: rest)) (pre.length + 1) = some 0x58 := by rw [rdz_app]; rfl
  have hflags : vaFlags (pre ++ 0x5B :: 0x58 :: c :: 0x5D :: (body ++ 0x5B :: 0x58 :: 0x5D :: rest)) pre.length v = some v := by
    unfold vaFlags
    rw [if_pos (by simp), r1]
    simp only [Option.bind_eq_bind, Option.bind_some]
    rw [if_neg (by decide), if_neg (by decide), cmpz_eq (by simp) (by decide), drop_pre]
    rfl
  unfold vaStep
  rw [r0]
  simp only [Option.bind_eq_bind, Option.bind_some]
  rw [if_pos (by trivial), if_neg (by simp), hflags]
  simp only [Option.bind_some]
  rw [r1]
  simp only [Option.bind_some]
  rw [if_pos (by trivial)]
  have := vaSection_skip rest (0x58 :: c :: 0x5D :: body) pre 0x5B
    ((pre ++ 0x5B :: 0x58 :: c :: 0x5D :: (body ++ 0x5B :: 0x58 :: 0x5D :: rest)).length + 2) (by simp [hb]; exact fun h => hc h.symm) (by simp; omega)
  simp only [List.cons_append] at this
  rw [this]
  simp; omega

theorem vaStep_letter (v : VState) (pre rest : List Wc) (c : Wc) (hc : c ≠ 0x5B) (hh : c ≠ 0x2D) :
    vaStep (pre ++ c :: rest) pre.length v = some (match vaChar c v with | none => .inl false | some v => .inr (pre.length, v)) := by
  have r0 : rdz (pre ++ c :: rest) pre.length = some c := by rw [rdz_app0]; rfl
  unfold vaStep
  rw [r0]
  simp only [Option.bind_eq_bind, Option.bind_some]
  rw [if_neg hc, if_neg hh]
  cases vaChar c v <;> rfl

theorem vaStep_hyphen (v : VState) (pre rest : List Wc) :
    vaStep (pre ++ 0x2D :: rest) pre.length v =
      some (if (lit "[Bh]").isPrefixOf rest ∧ 4 < rest.length then .inr (pre.length + 4, { v with startsProper := false, endsNonIca := false, boundaryPassed := true, hyphenPresent := true })
        else .inr (pre.length, { v with startsProper := false, endsNonIca := false })) := by
  have r0 : rdz (pre ++ 0x2D :: rest) pre.length = some 0x2D := by rw [rdz_app0]; rfl
  unfold vaStep
  rw [r0]
  simp only [Option.bind_eq_bind, Option.bind_some]
  rw [if_neg (by decide), if_pos (by trivial)]
  by_cases h : pre.length + 5 < (pre ++ 0x2D :: rest).length
  · rw [if_pos h, cmpz_eq (by simp) (by decide), drop_pre]
    have hl : 4 < rest.length := by simp at h; omega
    have hd : List.drop 1 (0x2D :: rest) = rest := rfl
    rw [hd]
    cases hq : (lit "[Bh]").isPrefixOf rest with
    | true => rw [if_pos ⟨rfl, hl⟩]; rfl
    | false => rw [if_neg (fun h => by cases h.1)]; rfl
  · rw [if_neg h]
    have hl : ¬ 4 < rest.length := by simp at h; omega
    rw [if_neg (fun x => hl x.2)]
    rfl

theorem render_nonempty (x : SItem) : 0 < x.render.length := by
  cases x <;> simp [SItem.render]

/-- The check of an output is the run over its events. -/
theorem vaLoop_events : ∀ (n : Nat) (its : List SItem) (pre : List Wc) (v : VState) (f : Nat), its.length ≤ n → (∀ x ∈ its, PlainItem x) →
    (∀ p, its ≠ p ++ [.chr 0x2D, .tag (lit "Bh")]) → (render its).length < f →
    vaLoop (pre ++ render its) f pre.length v = some (verdict (evRun v (events its))) := by
  intro n
  induction n with
  | zero =>
    intro its pre v f hl _ _ hf
    have : its = [] := List.length_eq_zero_iff.1 (by omega)
    subst this
    obtain ⟨f, rfl⟩ : ∃ g, f = g + 1 := ⟨f - 1, by omega⟩
    rw [vaLoop, if_neg (by simp [render])]
    rfl
  | succ n ih =>
    intro its pre v f hl hp he hf
    obtain ⟨f, rfl⟩ : ∃ g, f = g + 1 := ⟨f - 1, by omega⟩
    cases its with
    | nil => rw [vaLoop, if_neg (by simp [render])]; rfl
    | cons x r =>
      have hpr : ∀ y ∈ r, PlainItem y := fun y hy => hp y (by simp [hy])
      have her : ∀ p, r ≠ p ++ [.chr 0x2D, .tag (lit "Bh")] := fun p h => he (x :: p) (by rw [h]; rfl)
      have hlr : r.length ≤ n := by simp at hl; omega
      have hfr : (render r).length + x.render.length < f + 1 := by simp [render] at hf; omega
      have hx0 := render_nonempty x
      have hlt : pre.length < (pre ++ render (x :: r)).length := by simp [render]; omega
      have go : ∀ (w : List Ev) (k : Nat), k + 1 = pre.length + x.render.length → events (x :: r) = w ++ events r →
          vaStep (pre ++ render (x :: r)) pre.length v = some (match evRun v w with | none => .inl false | some v => .inr (k, v)) →
          vaLoop (pre ++ render (x :: r)) (f + 1) pre.length v = some (verdict (evRun v (events (x :: r)))) := by
        intro w k hk hev hs
        rw [vaLoop, if_pos hlt, hs, hev]
        have hrun : ∀ (w : List Ev) (v : VState), evRun v (w ++ events r) = (evRun v w).bind fun v => evRun v (events r) := by
          intro w
          induction w with
          | nil => intro v; rfl
          | cons e w ihw =>
            intro v
            show (evStep v e).bind _ = ((evStep v e).bind _).bind _
            rw [Option.bind_assoc]
            congr 1
            funext v'
            exact ihw v'
        rw [hrun]
        cases hv : evRun v w with
        | none => rfl
        | some v' =>
          simp only [Option.bind_eq_bind, Option.bind_some]
          have := ih r (pre ++ x.render) v' f hlr hpr her (by omega)
          rw [hk]
          simp only [render, List.length_append, List.append_assoc] at this ⊢
          exact this
      have tag : ∀ name : List Wc, x.render = 0x5B :: (name ++ [0x5D]) → name ≠ [] → 0x5D ∉ name → name.head? ≠ some 0x58 →
          ((lit "Bh").isPrefixOf name → name = lit "Bh") → events (x :: r) = tagEv name ++ events r →
          vaLoop (pre ++ render (x :: r)) (f + 1) pre.length v = some (verdict (evRun v (events (x :: r)))) := by
        intro name hr h1 h2 h3 h4 hev
        refine go (tagEv name) (pre.length + name.length + 1) (by rw [hr]; simp; omega) hev ?_
        have := vaStep_name v pre name (render r) h1 h2 h3 h4
        rw [render, hr]
        simp only [List.cons_append, List.append_assoc, List.singleton_append, List.nil_append] at this ⊢
        exact this
      have hxp := hp x (by simp)
      cases x with
      | cls c => exact tag [0x4C, c] rfl (by simp) (by simpa using fun h => hxp h.symm) (by simp) (fun h => by simp [lit, List.isPrefixOf] at h) rfl
      | cls2 c d =>
        refine tag [0x4C, c, d] rfl (by simp) ?_ (by simp) (fun h => by simp [lit, List.isPrefixOf] at h) rfl
        simpa using ⟨fun h => hxp.1 h.symm, fun h => hxp.2 h.symm⟩
      | tag name => exact tag name rfl hxp.1 hxp.2.1 hxp.2.2.1 hxp.2.2.2 rfl
      | bound c =>
        refine tag [0x42, c] rfl (by simp) (by simpa using fun h => hxp.1 h.symm) (by simp) (fun h => ?_) ?_
        · exfalso
          have : (0x68 == c) = true := by simpa [lit, List.isPrefixOf] using h
          exact hxp.2 (by simpa using (beq_iff_eq.1 this).symm)
        · have : tagEv [0x42, c] = [] := by
            unfold tagEv
            rw [if_neg (fun h => hxp.2 (by simpa [lit] using h))]
            rfl
          rw [this]; rfl
      | sect c b =>
        refine go [] (pre.length + b.length + 6) (by simp [SItem.render]; omega) rfl ?_
        have := vaStep_section v pre b (render r) c hxp.1 hxp.2
        rw [render]
        simp only [SItem.render, List.cons_append, List.append_assoc, List.singleton_append, List.nil_append] at this ⊢
        exact this
      | pat p =>
        refine go [] (pre.length + p.length + 6) (by simp [SItem.render]; omega) rfl ?_
        have := vaStep_section v pre p (render r) 0x72 (by decide) hxp
        rw [render]
        simp only [SItem.render, List.cons_append, List.append_assoc, List.singleton_append, List.nil_append] at this ⊢
        exact this
      | chr c =>
        by_cases hc : c = 0x2D
        · subst hc
          by_cases hb : ∃ r', r = .tag (lit "Bh") :: r'
          · obtain ⟨r', rfl⟩ := hb
            have hne : r' ≠ [] := fun h => he [] (by rw [h]; rfl)
            obtain ⟨y, r'', rfl⟩ : ∃ y r'', r' = y :: r'' := by
              cases r' with
              | nil => exact absurd rfl hne
              | cons y r'' => exact ⟨y, r'', rfl⟩
            have hy0 := render_nonempty y
            have hs := vaStep_hyphen v pre (render (.tag (lit "Bh") :: y :: r''))
            have hren4 : render (SItem.tag (lit "Bh") :: y :: r'') = lit "[Bh]" ++ (y.render ++ render r'') := rfl
            have hl4 : (lit "[Bh]").length = 4 := rfl
            rw [if_pos ⟨by rw [hren4]; exact List.isPrefixOf_iff_prefix.2 (List.prefix_append _ _), by
              rw [hren4, List.length_append, List.length_append, hl4]; omega⟩] at hs
            rw [vaLoop, if_pos hlt]
            have hren : render (SItem.chr 0x2D :: .tag (lit "Bh") :: y :: r'') = 0x2D :: render (.tag (lit "Bh") :: y :: r'') := rfl
            rw [hren, hs]
            simp only [Option.bind_eq_bind, Option.bind_some]
            have hev : events (SItem.chr 0x2D :: .tag (lit "Bh") :: y :: r'') = .gap true :: events (y :: r'') := by
              rw [events, if_pos ⟨rfl, rfl⟩]
            rw [hev]
            have := ih (y :: r'') (pre ++ lit "-[Bh]") { v with startsProper := false, endsNonIca := false, boundaryPassed := true, hyphenPresent := true } f
              (by simp at hlr ⊢; omega) (fun z hz => hpr z (by simp at hz ⊢; exact .inr hz)) (fun p h => her (.tag (lit "Bh") :: p) (by rw [h]; rfl))
              (by
                have : (render (SItem.tag (lit "Bh") :: y :: r'')).length = 4 + (render (y :: r'')).length := by
                  show (lit "[Bh]" ++ render (y :: r'')).length = _
                  simp [lit]; omega
                rw [this] at hfr
                simp [SItem.render] at hfr; omega)
            rw [List.append_assoc] at this
            have hl5 : (pre ++ lit "-[Bh]").length = pre.length + 4 + 1 := by simp [lit]
            rw [hl5] at this
            exact this
          · have hev : events (SItem.chr 0x2D :: r) = [.hyphen] ++ events r := by
              cases r with
              | nil => rfl
              | cons y r' =>
                cases y with
                | tag n =>
                  have hn : n ≠ lit "Bh" := fun h => hb ⟨r', by rw [h]⟩
                  rw [events, if_neg (fun h => hn h.2)]; rfl
                | _ => rfl
            refine go [.hyphen] pre.length rfl hev ?_
            have hs := vaStep_hyphen v pre (render r)
            have : ¬ ((lit "[Bh]").isPrefixOf (render r) ∧ 4 < (render r).length) := by
              rintro ⟨h1, h2⟩
              apply hb
              cases r with
              | nil => simp [render] at h2
              | cons y r' =>
                have hy := hpr y (by simp)
                have key : ∀ name t : List Wc, render (y :: r') = 0x5B :: (name ++ 0x5D :: t) → name ≠ [] → 0x5D ∉ name → (lit "Bh").isPrefixOf name = true := by
                  intro name t h hn h5
                  rw [h] at h1
                  have h1' : (0x5B :: lit "Bh]").isPrefixOf (0x5B :: (name ++ 0x5D :: t)) = true := h1
                  simp only [List.isPrefixOf, beq_self_eq_true, Bool.true_and] at h1'
                  have h3 : (lit "Bh" ++ [0x5D]) <+: (name ++ 0x5D :: t) := List.isPrefixOf_iff_prefix.1 h1'
                  have h4 : lit "Bh" <+: (name ++ 0x5D :: t) := (List.prefix_append _ _).trans h3
                  rw [← prefix_stop (l := lit "Bh") (by decide) name t]
                  exact List.isPrefixOf_iff_prefix.2 h4
                cases y with
                | cls c => have := key [0x4C, c] (render r') rfl (by simp) (by simpa using fun h => hy h.symm); simp [lit, List.isPrefixOf] at this
                | cls2 c d =>
                  have := key [0x4C, c, d] (render r') rfl (by simp) (by simpa using ⟨fun h => hy.1 h.symm, fun h => hy.2 h.symm⟩)
                  simp [lit, List.isPrefixOf] at this
                | tag name =>
                  have := key name (render r') (by simp [render, SItem.render]) hy.1 hy.2.1
                  exact ⟨r', by rw [hy.2.2.2 this]⟩
                | bound c =>
                  have := key [0x42, c] (render r') rfl (by simp) (by simpa using fun h => hy.1 h.symm)
                  have : (0x68 == c) = true := by simpa [lit, List.isPrefixOf] using this
                  exact absurd (by simpa using (beq_iff_eq.1 this).symm) hy.2
                | sect c b => exact absurd h1 (by simp [render, SItem.render, lit, List.isPrefixOf])
                | pat p => exact absurd h1 (by simp [render, SItem.render, lit, List.isPrefixOf])
                | chr c =>
                  have : (0x5B == c) = true := by
                    have h1' : (0x5B :: lit "Bh]").isPrefixOf (c :: render r') = true := h1
                    simp only [List.isPrefixOf, Bool.and_eq_true] at h1'
                    exact h1'.1
                  exact absurd (beq_iff_eq.1 this).symm hy.1
            rw [if_neg this] at hs
            exact hs
        · have hev : events (SItem.chr c :: r) = [.letter c] ++ events r := by
            cases r with
            | nil => simp [events, hc]
            | cons y r' =>
              cases y with
              | tag n => rw [events, if_neg (fun h => hc h.1), if_neg hc]; rfl
              | _ => simp [events, hc]
          refine go [.letter c] pre.length rfl hev ?_
          have := vaStep_letter v pre (render r) c hxp.1 hc
          show vaStep (pre ++ c :: render r) _ _ = _
          rw [this]
          simp only [evRun, evStep]
          cases vaChar c v <;> rfl

/-! ### What the state of the run means -/

theorem snoc_split {w x y : List Ev} {e a : Ev} : w ++ [e] = x ++ a :: y ↔ (y = [] ∧ x = w ∧ a = e) ∨ ∃ y', y = y' ++ [e] ∧ w = x ++ a :: y' := by
  constructor
  · intro h
    rcases List.eq_nil_or_concat y with rfl | ⟨y', b, rfl⟩
    · left
      have := List.append_inj' h rfl
      exact ⟨rfl, this.1.symm, by simpa using this.2.symm⟩
    · right
      rw [List.concat_eq_append] at h ⊢
      have h' : w ++ [e] = (x ++ a :: y') ++ [b] := by simpa using h
      have := List.append_inj' h' rfl
      exact ⟨y', by simpa using this.2.symm, this.1⟩
  · rintro (⟨rfl, rfl, rfl⟩ | ⟨y', rfl, rfl⟩) <;> simp

theorem since_snoc {on off : Ev → Prop} {w : List Ev} {e : Ev} : Since on off (w ++ [e]) ↔ on e ∨ (Since on off w ∧ ¬ off e) := by
  constructor
  · rintro ⟨u, a, t, h, ho, ht⟩
    rcases snoc_split.1 h with ⟨_, _, rfl⟩ | ⟨y', rfl, h'⟩
    · exact .inl ho
    · exact .inr ⟨⟨u, a, y', h', ho, fun x hx => ht x (by simp [hx])⟩, ht e (by simp)⟩
  · rintro (h | ⟨⟨u, a, t, rfl, ho, ht⟩, hoff⟩)
    · exact ⟨w, e, [], rfl, h, by simp⟩
    · refine ⟨u, a, t ++ [e], by simp, ho, fun x hx => ?_⟩
      rcases List.mem_append.1 hx with h | h
      · exact ht x h
      · simp at h; subst h; exact hoff

theorem since_nil {on off : Ev → Prop} : ¬ Since on off [] := by
  rintro ⟨u, a, t, h, _⟩
  simp at h

theorem crossing_snoc {w x : List Ev} {e : Ev} :
    Crossing (w ++ [e]) x ↔ Crossing w x ∨ (x = w ∧ (∃ c, e = .letter c) ∧ ∃ h, Pending w h) := by
  constructor
  · rintro ⟨c, y, h, hp⟩
    rcases snoc_split.1 h with ⟨_, rfl, rfl⟩ | ⟨y', rfl, h'⟩
    · exact .inr ⟨rfl, ⟨c, rfl⟩, hp⟩
    · exact .inl ⟨c, y', h', hp⟩
  · rintro (⟨c, y, rfl, hp⟩ | ⟨rfl, ⟨c, rfl⟩, hp⟩)
    · exact ⟨c, y ++ [e], by simp, hp⟩
    · exact ⟨c, [], rfl, hp⟩

theorem crossing_lt {w x : List Ev} (h : Crossing w x) : x.length < w.length := by
  obtain ⟨c, y, rfl, _⟩ := h
  simp

/-- The next letter uses up no freedom. -/
def Just (w : List Ev) : Prop := ∃ u t, w = u ++ .free :: t ∧ ∀ x, Crossing w x → ¬ u.length < x.length

theorem free_of_just {w : List Ev} (h : Just w) : Free w := by
  obtain ⟨u, t, hw, hx⟩ := h
  exact .inl ⟨u, t, hw, fun x _ h _ hl _ => absurd hl (hx x h)⟩

/-- An event that is not the first letter of a later word. -/
theorem crossing_other {w : List Ev} {e : Ev} (he : ¬ ((∃ c, e = .letter c) ∧ ∃ h, Pending w h)) (x : List Ev) :
    Crossing (w ++ [e]) x ↔ Crossing w x := by
  rw [crossing_snoc]
  constructor
  · rintro (h | ⟨_, h⟩)
    · exact h
    · exact absurd h he
  · exact .inl

theorem free_other {w : List Ev} {e : Ev} (he : ¬ ((∃ c, e = .letter c) ∧ ∃ h, Pending w h)) :
    Free (w ++ [e]) ↔ e = .free ∨ e = .must ∨ Free w := by
  have hc := crossing_other he
  constructor
  · rintro (⟨u, t, h, hx⟩ | ⟨u, t, h, hx⟩)
    · rcases snoc_split.1 h with ⟨_, _, rfl⟩ | ⟨y', rfl, h'⟩
      · exact .inl rfl
      · exact .inr (.inr (.inl ⟨u, y', h', fun x x' a b => hx x x' ((hc x).2 a) ((hc x').2 b)⟩))
    · rcases snoc_split.1 h with ⟨_, _, rfl⟩ | ⟨y', rfl, h'⟩
      · exact .inr (.inl rfl)
      · exact .inr (.inr (.inr ⟨u, y', h', fun x a => hx x ((hc x).2 a)⟩))
  · rintro (rfl | rfl | ⟨u, t, h, hx⟩ | ⟨u, t, h, hx⟩)
    · refine .inl ⟨w, [], rfl, fun x _ a _ hl _ => ?_⟩
      have := crossing_lt ((hc x).1 a)
      omega
    · refine .inr ⟨w, [], rfl, fun x a hl => ?_⟩
      have := crossing_lt ((hc x).1 a)
      omega
    · exact .inl ⟨u, t ++ [e], by simp [h], fun x x' a b => hx x x' ((hc x).1 a) ((hc x').1 b)⟩
    · exact .inr ⟨u, t ++ [e], by simp [h], fun x a => hx x ((hc x).1 a)⟩

theorem just_other {w : List Ev} {e : Ev} (he : ¬ ((∃ c, e = .letter c) ∧ ∃ h, Pending w h)) :
    Just (w ++ [e]) ↔ e = .free ∨ Just w := by
  have hc := crossing_other he
  constructor
  · rintro ⟨u, t, h, hx⟩
    rcases snoc_split.1 h with ⟨_, _, rfl⟩ | ⟨y', rfl, h'⟩
    · exact .inl rfl
    · exact .inr ⟨u, y', h', fun x a => hx x ((hc x).2 a)⟩
  · rintro (rfl | ⟨u, t, h, hx⟩)
    · refine ⟨w, [], rfl, fun x a hl => ?_⟩
      have := crossing_lt ((hc x).1 a)
      omega
    · exact ⟨u, t ++ [e], by simp [h], fun x a => hx x ((hc x).1 a)⟩

theorem free_cross {w : List Ev} {c : Wc} (hp : ∃ h, Pending w h) : Free (w ++ [.letter c]) ↔ Just w := by
  have hw : Crossing (w ++ [.letter c]) w := ⟨c, [], rfl, hp⟩
  have hm : ∀ x, Crossing w x → Crossing (w ++ [.letter c]) x := fun x h => crossing_snoc.2 (.inl h)
  constructor
  · rintro (⟨u, t, h, hx⟩ | ⟨u, t, h, hx⟩)
    · rcases snoc_split.1 h with ⟨_, _, e⟩ | ⟨y', rfl, h'⟩
      · cases e
      · refine ⟨u, y', h', fun x a hl => ?_⟩
        have e := hx x w (hm x a) hw hl (by rw [h']; simp)
        have := crossing_lt a
        rw [e] at this
        omega
    · rcases snoc_split.1 h with ⟨_, _, e⟩ | ⟨y', rfl, h'⟩
      · cases e
      · exact absurd (by rw [h']; simp) (hx w hw)
  · rintro ⟨u, t, h, hx⟩
    refine .inl ⟨u, t ++ [.letter c], by simp [h], fun x x' a b hl hl' => ?_⟩
    rcases crossing_snoc.1 a with a | ⟨a, _⟩
    · exact absurd hl (hx x a)
    · rcases crossing_snoc.1 b with b | ⟨b, _⟩
      · exact absurd hl' (hx x' b)
      · rw [a, b]

theorem just_cross {w : List Ev} {c : Wc} (hp : ∃ h, Pending w h) : ¬ Just (w ++ [.letter c]) := by
  rintro ⟨u, t, h, hx⟩
  rcases snoc_split.1 h with ⟨_, _, e⟩ | ⟨y', rfl, h'⟩
  · cases e
  · exact hx w ⟨c, [], rfl, hp⟩ (by rw [h']; simp)

theorem owed_snoc {w : List Ev} {e : Ev} : Owed (w ++ [e]) ↔ e = .must ∨ (Owed w ∧ ¬ ((∃ c, e = .letter c) ∧ Pending w true)) := by
  constructor
  · rintro ⟨u, t, h, hx⟩
    rcases snoc_split.1 h with ⟨_, _, rfl⟩ | ⟨y', rfl, h'⟩
    · exact .inl rfl
    · refine .inr ⟨⟨u, y', h', fun x c y hw hl => hx x c (y ++ [e]) (by simp [hw]) hl⟩, ?_⟩
      rintro ⟨⟨c, rfl⟩, hp⟩
      exact hx w c [] rfl (by rw [h']; simp) hp
  · rintro (rfl | ⟨⟨u, t, h, hx⟩, hn⟩)
    · refine ⟨w, [], rfl, fun x c y h hl => ?_⟩
      rcases snoc_split.1 h with ⟨_, _, e⟩ | ⟨y', _, h'⟩
      · cases e
      · rw [h'] at hl; simp at hl; omega
    · refine ⟨u, t ++ [e], by simp [h], fun x c y hw hl hp => ?_⟩
      rcases snoc_split.1 hw with ⟨_, rfl, e⟩ | ⟨y', _, h'⟩
      · exact hn ⟨⟨c, e.symm⟩, hp⟩
      · exact hx x c y' h' hl hp

/-- Words met without a hyphen although one must be used, and `place` has not followed. -/
def Missing (w : List Ev) : Prop := ∃ u t, w = u ++ .gap false :: t ∧ Owed u ∧ .place ∉ t

theorem missing_snoc {w : List Ev} {e : Ev} : Missing (w ++ [e]) ↔ (e = .gap false ∧ Owed w) ∨ (Missing w ∧ e ≠ .place) := by
  constructor
  · rintro ⟨u, t, h, ho, hp⟩
    rcases snoc_split.1 h with ⟨_, rfl, rfl⟩ | ⟨y', rfl, h'⟩
    · exact .inl ⟨rfl, ho⟩
    · exact .inr ⟨⟨u, y', h', ho, fun hm => hp (by simp [hm])⟩, fun e' => hp (by simp [e'])⟩
  · rintro (⟨rfl, ho⟩ | ⟨⟨u, t, rfl, ho, hp⟩, he⟩)
    · exact ⟨w, [], rfl, ho, by simp⟩
    · exact ⟨u, t ++ [e], by simp, ho, by simpa [hp] using fun e' => he e'.symm⟩

theorem letters_append (a b : List Ev) : letters (a ++ b) = letters a ++ letters b := by
  induction a with
  | nil => rfl
  | cons e a ih => cases e <;> simp [letters, ih]

/-- What the state means after the events `w`. -/
structure Means (w : List Ev) (v : VState) : Prop where
  last : v.last = ((letters w).getLast?).getD 0
  before : v.beforeLast = ((letters w).dropLast.getLast?).getD 0
  passed : v.boundaryPassed = true ↔ ∃ h, Pending w h
  hyph : ∀ h, Pending w h → v.hyphenPresent = h
  allowed : v.allowed = true ↔ Free w
  just : v.justSet = true ↔ Just w
  required : v.required = true ↔ Owed w
  missing : v.missing = true ↔ Missing w
  proper : v.startsProper = true ↔ Since (· = .proper) (fun e => e = .derived ∨ e = .hyphen ∨ e = .gap true) w
  noun : v.endsNonIca = true ↔ Since (· = .noun) (fun e => e = .proper ∨ e = .place ∨ e = .hyphen ∨ e = .gap true) w
  right : HyphensRight w
  used : ∀ u t, w = u ++ .gap false :: t → Owed u → (∃ a b, t = a ++ .place :: b ∧ .gap false ∉ a) ∨ (.place ∉ t ∧ .gap false ∉ t)

theorem means_nil : Means [] {} := by
  have h1 : ∀ {on off : Ev → Prop}, Since on off [] ↔ False := fun {_ _} => iff_false_intro since_nil
  have h2 : ∀ (x : List Ev) (a : Ev) (y : List Ev), [] ≠ x ++ a :: y := by intro x a y h; simp at h
  refine ⟨rfl, rfl, ?_, ?_, ?_, ?_, ?_, ?_, ?_, ?_, ?_, ?_⟩
  · simp only [Pending, h1]; simp
  · intro h hp; exact absurd hp since_nil
  · refine iff_of_false (by simp) ?_
    rintro (⟨u, t, h, _⟩ | ⟨u, t, h, _⟩) <;> exact h2 _ _ _ h
  · refine iff_of_false (by simp) ?_
    rintro ⟨u, t, h, _⟩; exact h2 _ _ _ h
  · refine iff_of_false (by simp) ?_
    rintro ⟨u, t, h, _⟩; exact h2 _ _ _ h
  · refine iff_of_false (by simp) ?_
    rintro ⟨u, t, h, _⟩; exact h2 _ _ _ h
  · rw [h1]; simp
  · rw [h1]; simp
  · intro x c y h; exact absurd h (h2 _ _ _)
  · intro u t h; exact absurd h (h2 _ _ _)

theorem pending_letter {w : List Ev} {c : Wc} {h : Bool} : ¬ Pending (w ++ [.letter c]) h := by
  intro hp
  rcases since_snoc.1 hp with e | ⟨_, hn⟩
  · cases e
  · exact hn (.inl ⟨c, rfl⟩)

theorem right_snoc {w : List Ev} {e : Ev} : HyphensRight (w ++ [e]) ↔ HyphensRight w ∧ ∀ c h, e = .letter c → Pending w h → RightHyphen w c h := by
  constructor
  · intro hr
    exact ⟨fun x c y h => hr x c (y ++ [e]) (by simp [h]), fun c h he => hr w c [] (by rw [he]) h⟩
  · rintro ⟨h1, h2⟩ x c y h k hp
    rcases snoc_split.1 h with ⟨_, rfl, e'⟩ | ⟨y', _, h'⟩
    · exact h2 c k e'.symm hp
    · exact h1 x c y' h' k hp

/-- The state after the first letter of a later word. -/
theorem vaChar_cross {w : List Ev} {v : VState} {c : Wc} {h : Bool} (m : Means w v) (hlow : ∀ a ∈ letters w, a ≠ 0 ∧ lower a = a)
    (hc : c ≠ 0 ∧ lower c = c) (hp : Pending w h) :
    (RightHyphen w c h ∧ vaChar c v = some { v with
        required := v.required && !h, boundaryPassed := false, justSet := false, allowed := v.justSet, beforeLast := v.last, last := c }) ∨
    (¬ RightHyphen w c h ∧ vaChar c v = none) := by
  have hP : v.boundaryPassed = true := m.passed.2 ⟨h, hp⟩
  have hH : v.hyphenPresent = h := m.hyph h hp
  have hlow0 : lower v.last = v.last := by
    rw [m.last]
    cases hl : (letters w).getLast? with
    | none => decide
    | some a => exact (hlow a (List.mem_of_getLast? hl)).2
  have hzero : v.last = 0 ↔ letters w = [] := by
    rw [m.last]
    cases hl : (letters w).getLast? with
    | none => simpa using hl
    | some a =>
      have := (hlow a (List.mem_of_getLast? hl)).1
      constructor
      · intro h; exact absurd h this
      · intro h; rw [h] at hl; cases hl
  have his : (v.beforeLast = 0x69 ∧ v.last = 0x73) ↔ ∃ p, letters w = p ++ lit "is" := by
    rw [m.last, m.before]
    constructor
    · rintro ⟨h1, h2⟩
      rcases List.eq_nil_or_concat (letters w) with h | ⟨l', b, h⟩
      · rw [h] at h2; cases h2
      · rw [List.concat_eq_append] at h
        rw [h] at h1 h2
        rw [List.dropLast_concat] at h1
        rw [List.getLast?_concat] at h2
        rcases List.eq_nil_or_concat l' with h' | ⟨l'', b', h'⟩
        · rw [h'] at h1; cases h1
        · rw [List.concat_eq_append] at h'
          rw [h', List.getLast?_concat] at h1
          have e1 : b' = 0x69 := h1
          have e2 : b = 0x73 := h2
          exact ⟨l'', by rw [h, h', e1, e2]; simp [lit]⟩
    · rintro ⟨p, hp⟩
      have : letters w = (p ++ [0x69]) ++ [0x73] := by rw [hp]; simp [lit]
      rw [this, List.dropLast_concat, List.getLast?_concat, List.getLast?_concat]
      exact ⟨rfl, rfl⟩
  have hneed : Needs (letters w) c ↔ ((v.last == lower c && wcschr voikkoVowels v.last) || (0x30 ≤ v.last && v.last ≤ 0x39)) = true := by
    unfold Needs
    rw [m.last, hc.2]
    cases hl : (letters w).getLast? with
    | none =>
      have : (((none : Option Wc).getD 0) == c) = false := by simpa using fun e => hc.1 e.symm
      rw [this]
      simp
    | some a =>
      have ha := (hlow a (List.mem_of_getLast? hl)).1
      have hw : wcschr voikkoVowels a = decide (a ∈ voikkoVowels) := by unfold wcschr; simp [ha]
      simp only [Option.getD_some, hw, Bool.or_eq_true, Bool.and_eq_true, beq_iff_eq, decide_eq_true_iff]
      constructor
      · rintro ⟨b, hb, h⟩
        cases hb
        exact h
      · intro h
        exact ⟨a, rfl, h⟩
  have hja : v.justSet = true → v.allowed = true := fun h => m.allowed.2 (free_of_just (m.just.1 h))
  have hR : RightHyphen w c h ↔ (h = true ∧ (v.allowed = true ∨ v.last = 0 ∨ (v.beforeLast = 0x69 ∧ v.last = 0x73))) ∨
      (((v.last == lower c && wcschr voikkoVowels v.last) || (0x30 ≤ v.last && v.last ≤ 0x39)) = h) := by
    unfold RightHyphen
    rw [m.allowed, hzero, his, hneed]
    refine or_congr Iff.rfl ?_
    generalize ((v.last == lower c && wcschr voikkoVowels v.last) || (decide (0x30 ≤ v.last) && decide (v.last ≤ 0x39))) = N
    cases N <;> cases h <;> simp
  rw [hR]
  unfold vaChar
  clear hR hneed his hzero hp m
  obtain ⟨bl, l, bp, hy, al, ju, re, mi, sp, en⟩ := v
  simp only at hP hH hlow0 hja ⊢
  subst hP hH
  generalize hN : ((l == lower c && wcschr voikkoVowels l) || (decide (0x30 ≤ l) && decide (l ≤ 0x39))) = N
  by_cases hq : l = 0 ∨ bl = 0x69 ∧ l = 0x73
  · cases hy <;> cases al <;> cases ju <;> cases re <;>
      simp only [hq, if_true, hlow0, hN, Bool.false_eq_true, false_and, and_false, if_false, and_self, if_true, Bool.and_false, Bool.and_true,
        Bool.not_false, Bool.not_true] <;>
      clear hN hlow hc hlow0 <;> cases N <;> simp_all
  · cases hy <;> cases al <;> cases ju <;> cases re <;>
      simp only [hq, if_false, hlow0, hN, Bool.false_eq_true, false_and, and_false, if_false, and_self, if_true, Bool.and_false, Bool.and_true,
        Bool.not_false, Bool.not_true] <;>
      clear hN hlow hc hlow0 <;> cases N <;> simp_all

theorem used_snoc {w : List Ev} {e : Ev}
    (hu : ∀ u t, w = u ++ .gap false :: t → Owed u → (∃ a b, t = a ++ .place :: b ∧ .gap false ∉ a) ∨ (.place ∉ t ∧ .gap false ∉ t))
    (hm : e = .gap false → ¬ Missing w) (u t : List Ev) (h : w ++ [e] = u ++ .gap false :: t) (ho : Owed u) :
    (∃ a b, t = a ++ .place :: b ∧ .gap false ∉ a) ∨ (.place ∉ t ∧ .gap false ∉ t) := by
  rcases snoc_split.1 h with ⟨rfl, _, _⟩ | ⟨y', rfl, h'⟩
  · exact .inr ⟨by simp, by simp⟩
  · rcases hu u y' h' ho with ⟨a, b, rfl, ha⟩ | ⟨h1, h2⟩
    · exact .inl ⟨a, b ++ [e], by simp, ha⟩
    · by_cases hp : e = .place
      · exact .inl ⟨y', [], by rw [hp], h2⟩
      · by_cases hg : e = .gap false
        · exact absurd ⟨u, y', h', ho, h1⟩ (hm hg)
        · refine .inr ⟨?_, ?_⟩
          · simpa [h1] using fun x => hp x.symm
          · simpa [h2] using fun x => hg x.symm

theorem pending_other {w : List Ev} {e : Ev} (h1 : ∀ c, e ≠ .letter c) (h2 : ∀ g, e ≠ .gap g) (h3 : e ≠ .must) (h : Bool) :
    Pending (w ++ [e]) h ↔ Pending w h := by
  unfold Pending
  rw [since_snoc]
  constructor
  · rintro (x | x)
    · exact absurd x (h2 h)
    · exact x.1
  · intro x
    refine .inr ⟨x, ?_⟩
    rintro (⟨c, hc⟩ | ⟨g, hg⟩ | hm)
    · exact h1 c hc
    · exact h2 g hg
    · exact h3 hm

theorem pending_gap {w : List Ev} {g h : Bool} : Pending (w ++ [.gap g]) h ↔ g = h := by
  unfold Pending
  rw [since_snoc]
  constructor
  · rintro (x | x)
    · simpa using x
    · exact absurd (.inr (.inl ⟨g, rfl⟩)) x.2
  · rintro rfl; exact .inl rfl

theorem pending_must {w : List Ev} {h : Bool} : ¬ Pending (w ++ [.must]) h := by
  unfold Pending
  rw [since_snoc]
  rintro (x | x)
  · cases x
  · exact absurd (.inr (.inr rfl)) x.2

/-- An event keeps the meaning of the state, or no continuation is valid. -/
theorem means_step {w : List Ev} {v : VState} {e : Ev} (m : Means w v) (hlow : ∀ a ∈ letters (w ++ [e]), a ≠ 0 ∧ lower a = a) :
    (∃ v', evStep v e = some v' ∧ Means (w ++ [e]) v') ∨ (evStep v e = none ∧ ∀ y, ¬ Valid (w ++ e :: y)) := by
  have hlw : ∀ a ∈ letters w, a ≠ 0 ∧ lower a = a := fun a ha => hlow a (by rw [letters_append]; simp [ha])
  have hlet : (∀ c, e ≠ .letter c) → letters (w ++ [e]) = letters w := by
    intro h
    rw [letters_append]
    cases e <;> simp_all [letters]
  have hright : (∀ c, e ≠ .letter c) → HyphensRight (w ++ [e]) := fun h => right_snoc.2 ⟨m.right, fun c _ he => absurd he (h c)⟩
  have hot : (∀ c, e ≠ .letter c) → ¬ ((∃ c, e = .letter c) ∧ ∃ h, Pending w h) := fun h x => by obtain ⟨⟨c, hc⟩, _⟩ := x; exact h c hc
  cases e with
  | letter c =>
    have hl : letters (w ++ [.letter c]) = letters w ++ [c] := by rw [letters_append]; rfl
    have hcc := hlow c (by rw [hl]; simp)
    by_cases hp : ∃ h, Pending w h
    · obtain ⟨h, hp⟩ := hp
      rcases vaChar_cross m hlw hcc hp with ⟨hr, hv⟩ | ⟨hr, hv⟩
      · refine .inl ⟨_, hv, ?_⟩
        have hH := m.hyph h hp
        refine ⟨?_, ?_, ?_, ?_, ?_, ?_, ?_, ?_, ?_, ?_, ?_, ?_⟩
        · rw [hl, List.getLast?_concat]; rfl
        · rw [hl, List.dropLast_concat]; exact m.last
        · exact iff_of_false (by simp) (fun ⟨g, hg⟩ => pending_letter hg)
        · exact fun g hg => absurd hg pending_letter
        · rw [free_cross ⟨h, hp⟩]; exact m.just
        · exact iff_of_false (by simp) (just_cross ⟨h, hp⟩)
        · rw [owed_snoc, ← m.required]
          simp only [Bool.and_eq_true, Bool.not_eq_true']
          constructor
          · rintro ⟨h1, h2⟩
            refine .inr ⟨h1, ?_⟩
            rintro ⟨_, hq⟩
            have := m.hyph true hq
            rw [hH, h2] at this
            cases this
          · rintro (x | ⟨h1, h2⟩)
            · cases x
            · refine ⟨h1, ?_⟩
              cases h with
              | false => rfl
              | true => exact absurd ⟨⟨c, rfl⟩, hp⟩ h2
        · rw [missing_snoc, ← m.missing]; simp
        · rw [since_snoc, ← m.proper]; simp
        · rw [since_snoc, ← m.noun]; simp
        · refine right_snoc.2 ⟨m.right, fun c' h' he hp' => ?_⟩
          cases he
          have e1 := m.hyph h' hp'
          rw [hH] at e1
          subst e1
          exact hr
        · exact used_snoc m.used (fun x => by cases x)
      · refine .inr ⟨hv, fun y hy => hr (hy.1 w c y rfl h hp)⟩
    · have hb : v.boundaryPassed = false := by
        cases hb : v.boundaryPassed with
        | false => rfl
        | true => exact absurd (m.passed.1 hb) hp
      refine .inl ⟨{ v with beforeLast := v.last, last := c }, by simp [evStep, vaChar, hb], ?_⟩
      have hot' : ¬ ((∃ d, Ev.letter c = .letter d) ∧ ∃ h, Pending w h) := fun x => hp x.2
      refine ⟨?_, ?_, ?_, ?_, ?_, ?_, ?_, ?_, ?_, ?_, ?_, ?_⟩
      · rw [hl, List.getLast?_concat]; rfl
      · rw [hl, List.dropLast_concat]; exact m.last
      · exact iff_of_false (by simp [hb]) (fun ⟨g, hg⟩ => pending_letter hg)
      · exact fun g hg => absurd hg pending_letter
      · rw [free_other hot', ← m.allowed]; simp
      · rw [just_other hot', ← m.just]; simp
      · rw [owed_snoc, ← m.required]
        have : ¬ Pending w true := fun x => hp ⟨_, x⟩
        simp [this]
      · rw [missing_snoc, ← m.missing]; simp
      · rw [since_snoc, ← m.proper]; simp
      · rw [since_snoc, ← m.noun]; simp
      · exact right_snoc.2 ⟨m.right, fun c' h' he hp' => absurd ⟨h', hp'⟩ hp⟩
      · exact used_snoc m.used (fun x => by cases x)
  | gap g =>
    have hno : ∀ c, Ev.gap g ≠ .letter c := by simp
    cases g with
    | true =>
      refine .inl ⟨_, rfl, ?_⟩
      refine ⟨by rw [hlet hno]; exact m.last, by rw [hlet hno]; exact m.before, ?_, ?_, ?_, ?_, ?_, ?_, ?_, ?_, hright hno, used_snoc m.used (fun x => by cases x)⟩
      · exact iff_of_true rfl ⟨true, pending_gap.2 rfl⟩
      · intro h hp; exact pending_gap.1 hp
      · rw [free_other (hot hno), ← m.allowed]; simp
      · rw [just_other (hot hno), ← m.just]; simp
      · rw [owed_snoc, ← m.required]; simp
      · rw [missing_snoc, ← m.missing]; simp
      · rw [since_snoc]; simp
      · rw [since_snoc]; simp
    | false =>
      by_cases hmi : v.missing = true
      · refine .inr ⟨by simp [evStep, hmi], fun y hy => ?_⟩
        obtain ⟨u, t, rfl, ho, hp⟩ := m.missing.1 hmi
        obtain ⟨a, b, hab, hg⟩ := hy.2.1 u (t ++ .gap false :: y) (by simp) ho
        rcases List.append_eq_append_iff.1 hab with ⟨c, rfl, h2⟩ | ⟨c, rfl, h2⟩
        · cases c with
          | nil => cases h2
          | cons x c => cases h2; exact hg (by simp)
        · cases c with
          | nil => cases h2
          | cons x c => cases h2; exact hp (by simp)
      · have hmi' : v.missing = false := by simpa using hmi
        have hM : ¬ Missing w := fun x => hmi (m.missing.2 x)
        refine .inl ⟨{ v with boundaryPassed := true, hyphenPresent := false, missing := v.required }, by simp [evStep, hmi'], ?_⟩
        refine ⟨by rw [hlet hno]; exact m.last, by rw [hlet hno]; exact m.before, ?_, ?_, ?_, ?_, ?_, ?_, ?_, ?_, hright hno, used_snoc m.used (fun _ => hM)⟩
        · exact iff_of_true rfl ⟨false, pending_gap.2 rfl⟩
        · intro h hp; exact pending_gap.1 hp
        · rw [free_other (hot hno), ← m.allowed]; simp
        · rw [just_other (hot hno), ← m.just]; simp
        · rw [owed_snoc, ← m.required]; simp
        · rw [missing_snoc, ← m.required]; simp [hM]
        · rw [since_snoc, ← m.proper]; simp
        · rw [since_snoc, ← m.noun]; simp
  | must =>
    have hno : ∀ c, Ev.must ≠ .letter c := by simp
    refine .inl ⟨_, rfl, ?_⟩
    refine ⟨by rw [hlet hno]; exact m.last, by rw [hlet hno]; exact m.before, ?_, ?_, ?_, ?_, ?_, ?_, ?_, ?_, hright hno, used_snoc m.used (fun x => by cases x)⟩
    · exact iff_of_false (by simp) (fun ⟨g, hg⟩ => pending_must hg)
    · exact fun g hg => absurd hg pending_must
    · rw [free_other (hot hno)]; simp
    · rw [just_other (hot hno), ← m.just]; simp
    · rw [owed_snoc]; simp
    · rw [missing_snoc, ← m.missing]; simp
    · rw [since_snoc, ← m.proper]; simp
    · rw [since_snoc, ← m.noun]; simp
  | hyphen =>
    have hno : ∀ c, Ev.hyphen ≠ .letter c := by simp
    have hpe := pending_other (w := w) (e := .hyphen) hno (by simp) (by simp)
    refine .inl ⟨_, rfl, ?_⟩
    refine ⟨by rw [hlet hno]; exact m.last, by rw [hlet hno]; exact m.before, ?_, ?_, ?_, ?_, ?_, ?_, ?_, ?_, hright hno, used_snoc m.used (fun x => by cases x)⟩
    · simp only [hpe]; exact m.passed
    · intro h hp; exact m.hyph h ((hpe h).1 hp)
    · rw [free_other (hot hno), ← m.allowed]; simp
    · rw [just_other (hot hno), ← m.just]; simp
    · rw [owed_snoc, ← m.required]; simp
    · rw [missing_snoc, ← m.missing]; simp
    · rw [since_snoc]; simp
    · rw [since_snoc]; simp
  | free =>
    have hno : ∀ c, Ev.free ≠ .letter c := by simp
    have hpe := pending_other (w := w) (e := .free) hno (by simp) (by simp)
    refine .inl ⟨_, rfl, ?_⟩
    refine ⟨by rw [hlet hno]; exact m.last, by rw [hlet hno]; exact m.before, ?_, ?_, ?_, ?_, ?_, ?_, ?_, ?_, hright hno, used_snoc m.used (fun x => by cases x)⟩
    · simp only [hpe]; exact m.passed
    · intro h hp; exact m.hyph h ((hpe h).1 hp)
    · rw [free_other (hot hno)]; simp
    · rw [just_other (hot hno)]; simp
    · rw [owed_snoc, ← m.required]; simp
    · rw [missing_snoc, ← m.missing]; simp
    · rw [since_snoc, ← m.proper]; simp
    · rw [since_snoc, ← m.noun]; simp
  | place =>
    have hno : ∀ c, Ev.place ≠ .letter c := by simp
    have hpe := pending_other (w := w) (e := .place) hno (by simp) (by simp)
    refine .inl ⟨_, rfl, ?_⟩
    refine ⟨by rw [hlet hno]; exact m.last, by rw [hlet hno]; exact m.before, ?_, ?_, ?_, ?_, ?_, ?_, ?_, ?_, hright hno, used_snoc m.used (fun x => by cases x)⟩
    · simp only [hpe]; exact m.passed
    · intro h hp; exact m.hyph h ((hpe h).1 hp)
    · rw [free_other (hot hno), ← m.allowed]; simp
    · rw [just_other (hot hno), ← m.just]; simp
    · rw [owed_snoc, ← m.required]; simp
    · rw [missing_snoc]; simp
    · rw [since_snoc, ← m.proper]; simp
    · rw [since_snoc]; simp
  | proper =>
    have hno : ∀ c, Ev.proper ≠ .letter c := by simp
    have hpe := pending_other (w := w) (e := .proper) hno (by simp) (by simp)
    refine .inl ⟨_, rfl, ?_⟩
    refine ⟨by rw [hlet hno]; exact m.last, by rw [hlet hno]; exact m.before, ?_, ?_, ?_, ?_, ?_, ?_, ?_, ?_, hright hno, used_snoc m.used (fun x => by cases x)⟩
    · simp only [hpe]; exact m.passed
    · intro h hp; exact m.hyph h ((hpe h).1 hp)
    · rw [free_other (hot hno), ← m.allowed]; simp
    · rw [just_other (hot hno), ← m.just]; simp
    · rw [owed_snoc, ← m.required]; simp
    · rw [missing_snoc, ← m.missing]; simp
    · rw [since_snoc]; simp
    · rw [since_snoc]; simp
  | noun =>
    have hno : ∀ c, Ev.noun ≠ .letter c := by simp
    have hpe := pending_other (w := w) (e := .noun) hno (by simp) (by simp)
    refine .inl ⟨_, rfl, ?_⟩
    refine ⟨by rw [hlet hno]; exact m.last, by rw [hlet hno]; exact m.before, ?_, ?_, ?_, ?_, ?_, ?_, ?_, ?_, hright hno, used_snoc m.used (fun x => by cases x)⟩
    · simp only [hpe]; exact m.passed
    · intro h hp; exact m.hyph h ((hpe h).1 hp)
    · rw [free_other (hot hno), ← m.allowed]; simp
    · rw [just_other (hot hno), ← m.just]; simp
    · rw [owed_snoc, ← m.required]; simp
    · rw [missing_snoc, ← m.missing]; simp
    · rw [since_snoc, ← m.proper]; simp
    · rw [since_snoc]; simp
  | derived =>
    have hno : ∀ c, Ev.derived ≠ .letter c := by simp
    have hpe := pending_other (w := w) (e := .derived) hno (by simp) (by simp)
    refine .inl ⟨_, rfl, ?_⟩
    refine ⟨by rw [hlet hno]; exact m.last, by rw [hlet hno]; exact m.before, ?_, ?_, ?_, ?_, ?_, ?_, ?_, ?_, hright hno, used_snoc m.used (fun x => by cases x)⟩
    · simp only [hpe]; exact m.passed
    · intro h hp; exact m.hyph h ((hpe h).1 hp)
    · rw [free_other (hot hno), ← m.allowed]; simp
    · rw [just_other (hot hno), ← m.just]; simp
    · rw [owed_snoc, ← m.required]; simp
    · rw [missing_snoc, ← m.missing]; simp
    · rw [since_snoc]; simp
    · rw [since_snoc, ← m.noun]; simp

/-- A run over events of letters that are small is what the rules say. -/
theorem run_valid : ∀ (es w : List Ev) (v : VState), Means w v → (∀ a ∈ letters (w ++ es), a ≠ 0 ∧ lower a = a) →
    (verdict (evRun v es) = true ↔ Valid (w ++ es)) := by
  intro es
  induction es with
  | nil =>
    intro w v m _
    rw [List.append_nil]
    simp only [evRun, verdict, Valid, NoClash, ← m.proper, ← m.noun]
    have hu : HyphensUsed w ↔ v.missing = false := by
      constructor
      · intro h
        cases hm : v.missing with
        | false => rfl
        | true =>
          obtain ⟨u, t, hw, ho, hp⟩ := m.missing.1 hm
          obtain ⟨a, b, rfl, _⟩ := h u t hw ho
          exact absurd (by simp) hp
      · intro hm u t hw ho
        rcases m.used u t hw ho with h | ⟨h, _⟩
        · exact h
        · have := m.missing.2 ⟨u, t, hw, ho, h⟩
          rw [hm] at this
          cases this
    rw [hu]
    have := m.right
    cases v.missing <;> cases v.startsProper <;> cases v.endsNonIca <;> simp [this]
  | cons e es ih =>
    intro w v m hlow
    have h1 : ∀ a ∈ letters (w ++ [e]), a ≠ 0 ∧ lower a = a := fun a ha => hlow a (by
      have : w ++ e :: es = (w ++ [e]) ++ es := by simp
      rw [this, letters_append]
      simp [ha])
    rcases means_step m h1 with ⟨v', hv, m'⟩ | ⟨hv, hn⟩
    · have := ih (w ++ [e]) v' m' (by simpa using hlow)
      rw [evRun, hv, Option.bind_some, this]
      simp
    · rw [evRun, hv]
      exact iff_of_false (by simp [verdict]) (hn es)

end Verif.Validity
