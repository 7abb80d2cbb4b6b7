import Verif.Lemmas.FinnishLetters
import Verif.Lemmas.FinnishGrammatical
/-!
# Lemmas about `fixStructure`
-/

namespace Verif.Letters
open Verif Verif.Attrs

set_option linter.unusedSimpArgs false
set_option linter.unusedVariables false

theorem fixDg_ge (k : Nat) : ∀ (l : List Wc) (n : Nat), k < n → fixDg k n l = l := by
  intro l
  induction l with
  | nil => intro n _; rfl
  | cons c r ih =>
    intro n hn
    have hne : ¬ n = k := by omega
    rw [fixDg, ih n hn, ih (n + 1) (by omega), if_neg hne]
    simp

theorem fixDg_lower : ∀ (l : List Wc) (n h : Nat), fixDg (n + h) n l = lowerPart h l := by
  intro l
  induction l with
  | nil => intro n h; cases h <;> rfl
  | cons c r ih =>
    intro n h
    rw [fixDg]
    cases h with
    | zero =>
      rw [lowerPart, ih, fixDg_ge _ _ _ (show n + 0 < n + 1 by omega)]
      by_cases h1 : c = 0x69
      · subst h1; simp
      · rw [if_neg h1, if_neg h1]
    | succ h =>
      have := ih (n + 1) h
      rw [show n + 1 + h = n + (h + 1) by omega] at this
      have hne : ¬ n = n + (h + 1) := by omega
      rw [lowerPart, ih, this, if_neg hne]
      by_cases h1 : c = 0x2D
      · subst h1; simp
      · simp [h1]

theorem fixDg_none (k : Nat) : ∀ (l : List Wc) (n : Nat), 0x69 ∉ l → fixDg k n l = l := by
  intro l
  induction l with
  | nil => intro n _; rfl
  | cons c r ih =>
    intro n hn
    have h1 : c ≠ 0x69 := fun e => hn (by simp [e])
    have h2 : 0x69 ∉ r := fun e => hn (by simp [e])
    rw [fixDg, if_neg h1, ih n h2, ih (n + 1) h2]
    split <;> rfl

theorem strip_cons (c : Wc) (l : List Wc) : strip (c :: l) = if c = 0x3D then strip l else c :: strip l := by
  simp only [strip, List.filter_cons]
  by_cases h : c = 0x3D
  · simp [h]
  · simp [h]

theorem strip_lower : ∀ (l : List Wc) (h : Nat), strip (lowerPart h l) = lowerPart h (strip l) := by
  intro l
  induction l with
  | nil => intro h; cases h <;> rfl
  | cons c r ih =>
    intro h
    rw [strip_cons c r]
    cases h with
    | zero =>
      rw [lowerPart]
      by_cases h1 : c = 0x2D
      · subst h1
        rw [if_pos rfl, if_neg (by decide), strip_cons, if_neg (by decide), lowerPart, if_pos rfl]
      · rw [if_neg h1, strip_cons, ih]
        by_cases h2 : c = 0x3D
        · subst h2; rfl
        · rw [if_neg h2, lowerPart, if_neg h1]
          split <;> rfl
    | succ h =>
      rw [lowerPart, strip_cons, ih]
      by_cases h2 : c = 0x3D
      · subst h2; rfl
      · rw [if_neg h2, if_neg h2, lowerPart]

theorem strip_capital : ∀ l : List Wc, strip (firstCapital l) = firstCapital (strip l) := by
  intro l
  induction l with
  | nil => rfl
  | cons c r ih =>
    rw [firstCapital, strip_cons c r]
    by_cases h1 : c = 0x69 ∨ c = 0x70
    · rw [if_pos h1, if_neg (by rcases h1 with h | h <;> subst h <;> decide), strip_cons, if_neg (by decide), firstCapital, if_pos h1]
    · rw [if_neg h1, strip_cons]
      by_cases h2 : c = 0x3D
      · rw [if_pos h2, if_pos h2, ih]
      · rw [if_neg h2, if_neg h2, firstCapital, if_neg h1, ih]

theorem fixUpper_some : ∀ {l s : List Wc}, fixUpper l = some s → s = firstCapital l := by
  intro l
  induction l with
  | nil => intro s h; cases h
  | cons c r ih =>
    intro s h
    rw [fixUpper] at h
    rw [firstCapital]
    split at h
    · rename_i h1
      rw [if_pos h1]; exact (Option.some.inj h).symm
    · rename_i h1
      rw [if_neg h1]
      cases hr : fixUpper r with
      | none => rw [hr] at h; cases h
      | some t => rw [hr] at h; rw [← ih hr]; exact (Option.some.inj h).symm

theorem fixUpper_none : ∀ {l : List Wc}, fixUpper l = none → firstCapital l = l ∧ 0x69 ∉ l := by
  intro l
  induction l with
  | nil => intro _; exact ⟨rfl, by simp⟩
  | cons c r ih =>
    intro h
    rw [fixUpper] at h
    rw [firstCapital]
    split at h
    · cases h
    · rename_i h1
      rw [if_neg h1]
      have hr : fixUpper r = none := by simpa using h
      obtain ⟨e1, e2⟩ := ih hr
      refine ⟨by rw [e1], ?_⟩
      intro hm
      rcases List.mem_cons.1 hm with e | e
      · exact h1 (Or.inl e.symm)
      · exact e2 e

theorem fixLoop_fixed (out : List Wc) : ∀ (f j : Nat) (de : Bool) (h : Nat) (st s : List Wc), fixUpper st = none →
    fixLoop out f j de h st = some s → s = st := by
  intro f
  induction f with
  | zero => intro j de h st s _ hs; cases hs
  | succ f ih =>
    intro j de h st s hu hs
    have hd : fixDg h 0 st = st := fixDg_none _ _ _ (fixUpper_none hu).2
    rw [fixLoop] at hs
    split at hs
    · obtain ⟨c, _, hs⟩ := Option.bind_eq_some_iff.1 hs
      split at hs
      · obtain ⟨c1, _, hs⟩ := Option.bind_eq_some_iff.1 hs
        obtain ⟨c2, _, hs⟩ := Option.bind_eq_some_iff.1 hs
        obtain ⟨ln, _, hs⟩ := Option.bind_eq_some_iff.1 hs
        rw [hd] at hs
        split at hs
        · split at hs
          · exact ih _ _ _ _ _ hu hs
          · split at hs <;> exact ih _ _ _ _ _ hu hs
        · split at hs <;> exact ih _ _ _ _ _ hu hs
      · split at hs
        · split at hs
          · obtain ⟨⟨b, j'⟩, _, hs⟩ := Option.bind_eq_some_iff.1 hs
            dsimp only at hs
            rw [hu] at hs
            split at hs <;> exact ih _ _ _ _ _ hu hs
          · exact ih _ _ _ _ _ hu hs
        · exact ih _ _ _ _ _ hu hs
    · exact (Option.some.inj hs).symm

/-- A hyphen after which the first letter is made a capital letter. -/
theorem capital_after {out st s : List Wc} {f j h : Nat} {de : Bool}
    (hs : (match fixUpper st with | some st => (some st : UB (List Wc)) | none => fixLoop out f j de h st) = some s) : s = firstCapital st := by
  cases hu : fixUpper st with
  | none =>
    rw [hu] at hs
    rw [fixLoop_fixed _ _ _ _ _ _ _ hu hs, (fixUpper_none hu).1]
  | some t =>
    rw [hu] at hs
    rw [← Option.some.inj hs, fixUpper_some hu]

/-! ### The search for the name of a place -/

theorem wcsstr_short {q : List Wc} : ∀ {l : List Wc}, l.length < q.length → wcsstr q l = false := by
  intro l
  induction l with
  | nil => intro _; rfl
  | cons c l ih =>
    intro h
    rw [wcsstr, ih (by simp only [List.length_cons] at h; omega), Bool.or_false]
    cases hp : q.isPrefixOf (c :: l) with
    | false => rfl
    | true =>
      have := (List.isPrefixOf_iff_prefix.1 hp).length_le
      omega

theorem fixFind_spec : ∀ (u pre : List Wc) (f : Nat), u.length < f →
    ∃ b j, fixFind (pre ++ u) f pre.length = some (b, j) ∧ b = wcsstr (lit "[Lep]") u ∧
      (b = false → j = max pre.length ((pre ++ u).length - 4)) := by
  intro u
  induction u with
  | nil =>
    intro pre f hf
    obtain ⟨f, rfl⟩ : ∃ g, f = g + 1 := ⟨f - 1, by omega⟩
    exact ⟨false, pre.length, by rw [fixFind, if_neg (by simp)], rfl, fun _ => by simp⟩
  | cons c u ih =>
    intro pre f hf
    obtain ⟨f, rfl⟩ : ∃ g, f = g + 1 := ⟨f - 1, by omega⟩
    rw [List.length_cons] at hf
    have hl : (pre ++ c :: u).length = pre.length + u.length + 1 := by simp; omega
    rw [fixFind]
    by_cases h4 : pre.length + 4 < (pre ++ c :: u).length
    · rw [if_pos h4, cmpz_eq (by omega) (by decide)]
      have hd : (pre ++ c :: u).drop pre.length = c :: u := List.drop_left
      rw [hd]
      cases hp : (lit "[Lep]").isPrefixOf (c :: u) with
      | true => exact ⟨true, pre.length + 1, rfl, by rw [wcsstr, hp]; rfl, fun e => by cases e⟩
      | false =>
        obtain ⟨b, j, h1, h2, h3⟩ := ih (pre ++ [c]) f (by omega)
        have e : pre ++ c :: u = pre ++ [c] ++ u := by simp
        have e2 : (pre ++ [c]).length = pre.length + 1 := by simp
        rw [e2, ← e] at h1 h3
        refine ⟨b, j, h1, by rw [wcsstr, hp]; exact h2, fun hb => ?_⟩
        rw [h3 hb]
        omega
    · rw [if_neg h4]
      exact ⟨false, pre.length, rfl, (wcsstr_short (by show (c :: u).length < 5; rw [List.length_cons]; omega)).symm, fun _ => by omega⟩

theorem wcsstr_lep : ∀ {r : List SItem} {need : List Wc} {pb : Bool}, Tidy r → WfItems need pb r →
    (wcsstr (lit "[Lep]") (render r) = true ↔ SItem.cls2 0x65 0x70 ∈ r) := by
  intro r need pb ht hw
  have h := wcsstr_render (q := lit "Lep") (by decide) (by decide) (by decide) r [] ht
  rw [show lit "[Lep]" = 0x5B :: (lit "Lep" ++ [0x5D]) from rfl, h]
  clear h
  have key : ∀ (r : List SItem) (p need : List Wc) (pb : Bool), WfItems need pb r →
      ((tagsFrom p r).any (fun x => x.name == lit "Lep") = true ↔ SItem.cls2 0x65 0x70 ∈ r) := by
    intro r
    induction r with
    | nil => intro p need pb _; simp [tagsFrom]
    | cons x r ih =>
      intro p need pb hw
      rw [tagsFrom, List.any_append, Bool.or_eq_true, List.mem_cons]
      have hw' : ∃ need' pb', WfItems need' pb' r := by
        cases x with
        | cls c => rw [WfItems] at hw; exact ⟨_, _, hw.2⟩
        | cls2 c d => rw [WfItems] at hw; exact ⟨_, _, hw.2⟩
        | tag n => rw [WfItems] at hw; exact ⟨_, _, hw.2.2⟩
        | bound c => rw [WfItems] at hw; exact ⟨_, _, hw.2.2.2.2⟩
        | sect c b => rw [WfItems] at hw; exact ⟨_, _, hw.2.2⟩
        | pat q => rw [WfItems] at hw; exact ⟨_, _, hw.2.2.2.2.2.2⟩
        | chr c =>
          cases need with
          | nil => rw [WfItems] at hw; exact ⟨_, _, hw.2⟩
          | cons q qs => rw [WfItems] at hw; exact ⟨_, _, hw.2.2.2⟩
      obtain ⟨n', pb', hw'⟩ := hw'
      rw [ih (p ++ x.render) n' pb' hw']
      refine or_congr ?_ Iff.rfl
      cases x with
      | cls c => simp [nameOf, lit]
      | cls2 c d =>
        rw [SItem.cls2.injEq]
        simp only [nameOf, lit, Option.map_some, Option.toList_some, List.any_cons, List.any_nil, Bool.or_false, beq_iff_eq]
        constructor
        · intro e; injection e with _ e; injection e with e1 e; injection e with e2 _; exact ⟨e1.symm, e2.symm⟩
        · rintro ⟨rfl, rfl⟩; rfl
      | tag n =>
        rw [WfItems] at hw
        obtain ⟨c, t, rfl, hc⟩ := hw.1
        have hL : c ≠ 0x4C := by
          rcases hc with hc | hc
          · exact hc.2.1
          · cases hc; decide
        simp [nameOf, lit]
        intro e; exact absurd e hL
      | bound c => simp [nameOf, lit]
      | sect c b => simp [nameOf]
      | pat q => simp [nameOf]
      | chr c => simp [nameOf]
  exact key r [] need pb hw

/-! ### The loop -/

theorem fixLoop_end (out : List Wc) (f j : Nat) (de : Bool) (h : Nat) (st : List Wc) (hj : out.length ≤ j) :
    fixLoop out (f + 1) j de h st = some st := by
  rw [fixLoop, if_neg (by omega)]

theorem fixLoop_plain {c : Wc} (h1 : c ≠ 0x5B) (h2 : c ≠ 0x2D) (pre t : List Wc) (f : Nat) (de : Bool) (h : Nat) (st : List Wc) :
    fixLoop (pre ++ c :: t) (f + 1) pre.length de h st = fixLoop (pre ++ c :: t) f (pre.length + 1) de h st := by
  rw [fixLoop, if_pos (by simp), rdz_app0]
  show (if pre.length + 3 < (pre ++ c :: t).length ∧ c = 0x5B then _ else _) = _
  rw [if_neg (fun e => h1 e.2), if_neg h2]

theorem fixLoop_skip : ∀ (body pre t : List Wc) (f : Nat) (de : Bool) (h : Nat) (st : List Wc), 0x5B ∉ body → 0x2D ∉ body →
    fixLoop (pre ++ (body ++ t)) (f + body.length) pre.length de h st = fixLoop (pre ++ (body ++ t)) f (pre ++ body).length de h st := by
  intro body
  induction body with
  | nil => intro pre t f de h st _ _; simp
  | cons c body ih =>
    intro pre t f de h st h1 h2
    have := ih (pre ++ [c]) t f de h st (fun e => h1 (by simp [e])) (fun e => h2 (by simp [e]))
    have e : pre ++ [c] ++ (body ++ t) = pre ++ (c :: body ++ t) := by simp
    have e2 : pre ++ [c] ++ body = pre ++ c :: body := by simp
    have e3 : (pre ++ [c]).length = pre.length + 1 := by simp
    rw [e, e2, e3] at this
    rw [← this, List.length_cons]
    have := fixLoop_plain (c := c) (fun e => h1 (by simp [e])) (fun e => h2 (by simp [e])) pre (body ++ t) (f + body.length) de h st
    exact this

/-- A bracket that is not the beginning of `[D…` or `[L…`. -/
theorem fixLoop_bracket {c : Wc} (h1 : c ≠ 0x44) (h2 : c ≠ 0x4C) (pre t : List Wc) (f : Nat) (de : Bool) (h : Nat) (st : List Wc) :
    fixLoop (pre ++ 0x5B :: c :: t) (f + 1) pre.length de h st = fixLoop (pre ++ 0x5B :: c :: t) f (pre.length + 1) de h st := by
  rw [fixLoop, if_pos (by simp), rdz_app0]
  show (if pre.length + 3 < (pre ++ 0x5B :: c :: t).length ∧ 0x5B = 0x5B then _ else _) = _
  by_cases hl : pre.length + 3 < (pre ++ 0x5B :: c :: t).length
  · rw [if_pos ⟨hl, rfl⟩]
    have e1 : rdz (pre ++ 0x5B :: c :: t) (pre.length + 1) = some c := by rw [rdz_app]; rfl
    obtain ⟨c2, e2, -⟩ := okRdz (out := pre ++ 0x5B :: c :: t) (i := pre.length + 2) (by omega)
    have e3 : cmpz (pre ++ 0x5B :: c :: t) (pre.length + 1) (lit "Ln]") = some false := by
      rw [cmpz_eq (by omega) (by decide)]
      have : (pre ++ 0x5B :: c :: t).drop (pre.length + 1) = c :: t := by
        rw [List.drop_append]; simp
      rw [this]
      have : (0x4C == c) = false := by simpa using fun e => h2 e.symm
      simp [lit, List.isPrefixOf, this]
    rw [e1, e2, e3]
    show (if c = 0x44 then _ else _) = _
    rw [if_neg h1]
    rfl
  · rw [if_neg (fun e => hl e.1), if_neg (by decide)]

/-- A bracket with three characters behind it. -/
theorem fixLoop_tag (a b d : Wc) (pre t : List Wc) (f : Nat) (de : Bool) (h : Nat) (st : List Wc) :
    fixLoop (pre ++ 0x5B :: a :: b :: d :: t) (f + 1) pre.length de h st =
      fixLoop (pre ++ 0x5B :: a :: b :: d :: t) f (pre.length + 1)
        (if a = 0x44 ∧ b = 0x65 then true else if [a, b, d] = lit "Ln]" then false else de) h
        (if a = 0x44 ∧ b = 0x67 then lowerPart h st else st) := by
  rw [fixLoop, if_pos (by simp), rdz_app0]
  show (if pre.length + 3 < (pre ++ 0x5B :: a :: b :: d :: t).length ∧ 0x5B = 0x5B then _ else _) = _
  rw [if_pos ⟨by simp, rfl⟩]
  have e1 : rdz (pre ++ 0x5B :: a :: b :: d :: t) (pre.length + 1) = some a := by rw [rdz_app]; rfl
  have e2 : rdz (pre ++ 0x5B :: a :: b :: d :: t) (pre.length + 2) = some b := by rw [rdz_app]; rfl
  have e3 : cmpz (pre ++ 0x5B :: a :: b :: d :: t) (pre.length + 1) (lit "Ln]") = some ([a, b, d] == lit "Ln]") := by
    rw [cmpz_eq (by simp) (by decide)]
    have : (pre ++ 0x5B :: a :: b :: d :: t).drop (pre.length + 1) = a :: b :: d :: t := by
      rw [List.drop_append]; simp
    rw [this]
    congr 1
    rw [Bool.eq_iff_iff, List.isPrefixOf_iff_prefix, beq_iff_eq]
    simp only [lit]
    constructor
    · rintro ⟨w, hw⟩
      injection hw with w1 hw; injection hw with w2 hw; injection hw with w3 hw
      rw [← w1, ← w2, ← w3]; rfl
    · intro e
      injection e with w1 e; injection e with w2 e; injection e with w3 e
      exact ⟨t, by rw [w1, w2, w3]; rfl⟩
  rw [e1, e2, e3]
  show (if a = 0x44 then _ else _) = _
  have hdg : fixDg h 0 st = lowerPart h st := by have := fixDg_lower st 0 h; rwa [Nat.zero_add] at this
  rw [hdg]
  by_cases ha : a = 0x44
  · subst ha
    have hln : ¬ [0x44, b, d] = lit "Ln]" := by
      intro e; injection e with e1 _; exact absurd e1 (by decide)
    rw [if_pos rfl, if_neg hln]
    by_cases hg : b = 0x67
    · subst hg; simp
    · by_cases he : b = 0x65
      · subst he; simp
      · simp [hg, he]
  · rw [if_neg ha]
    by_cases hln : [a, b, d] = lit "Ln]"
    · rw [if_pos (show ([a, b, d] == lit "Ln]") = true by simpa using hln), if_neg (fun e : a = 0x44 ∧ b = 0x65 => ha e.1),
        if_neg (fun e : a = 0x44 ∧ b = 0x67 => ha e.1), if_pos hln]
    · rw [if_neg (show ¬ ([a, b, d] == lit "Ln]") = true by simpa using hln), if_neg (fun e : a = 0x44 ∧ b = 0x65 => ha e.1),
        if_neg (fun e : a = 0x44 ∧ b = 0x67 => ha e.1), if_neg hln]

/-- No two hyphens together. -/
def Lone (l : List Wc) : Prop := ∀ i : Nat, l[i]? = some 0x2D → l[i + 1]? ≠ some 0x2D

theorem Lone.tail {c : Wc} {l : List Wc} (h : Lone (c :: l)) : Lone l := fun i h1 h2 => h (i + 1) (by simpa using h1) (by simpa using h2)

/-- The last three characters, after a hyphen that follows `[De]`. -/
theorem fixLoop_tail : ∀ (n : Nat) (u pre : List Wc) (f h : Nat) (st s : List Wc), u.length ≤ n → u.length ≤ 3 → Lone u →
    fixLoop (pre ++ u) f pre.length true h st = some s →
    s = if u.getLast? = some 0x2D then firstCapital st else st := by
  intro n
  induction n with
  | zero =>
    intro u pre f h st s hn _ _ hs
    have : u = [] := List.length_eq_zero_iff.1 (by omega)
    subst this
    cases f with
    | zero => cases hs
    | succ f =>
      rw [fixLoop_end _ _ _ _ _ _ (by simp)] at hs
      simpa using (Option.some.inj hs).symm
  | succ n ih =>
    intro u pre f h st s hn h3 hl hs
    cases f with
    | zero => cases hs
    | succ f =>
      cases u with
      | nil =>
        rw [fixLoop_end _ _ _ _ _ _ (by simp)] at hs
        simpa using (Option.some.inj hs).symm
      | cons c u =>
        rw [List.length_cons] at hn h3
        have hlen : (pre ++ c :: u).length = pre.length + u.length + 1 := by simp; omega
        have e : pre ++ c :: u = pre ++ [c] ++ u := by simp
        have e1 : (pre ++ [c]).length = pre.length + 1 := by simp
        rw [fixLoop, if_pos (by omega), rdz_app0] at hs
        replace hs := bindO (a := c) rfl hs
        rw [if_neg (fun k => by omega)] at hs
        have skip : ∀ f h, u ≠ [] → fixLoop (pre ++ c :: u) f (pre.length + 1) true h st = some s →
            s = if (c :: u).getLast? = some 0x2D then firstCapital st else st := by
          intro f h hu hs
          rw [e, ← e1] at hs
          rw [ih u (pre ++ [c]) f h st s (by omega) (by omega) hl.tail hs]
          obtain ⟨d, v, rfl⟩ : ∃ d v, u = d :: v := by cases u with | nil => exact absurd rfl hu | cons d v => exact ⟨d, v, rfl⟩
          rw [List.getLast?_cons_cons]
        by_cases hc : c = 0x2D
        · rw [if_pos hc, if_pos rfl] at hs
          subst hc
          cases u with
          | nil =>
            rw [if_pos (by simp)] at hs
            replace hs := bindO (a := (true, pre.length + 1)) rfl hs
            rw [capital_after hs]
            rfl
          | cons d u =>
            rw [List.length_cons] at hn h3 hlen
            have hd : d ≠ 0x2D := fun e => hl 0 rfl (by rw [e]; rfl)
            rw [if_neg (by omega)] at hs
            have hf : fixFind (pre ++ 0x2D :: d :: u) ((pre ++ 0x2D :: d :: u).length + 1) (pre.length + 1) = some (false, pre.length + 1) := by
              rw [fixFind, if_neg (by omega)]
            replace hs := bindO hf hs
            dsimp only at hs
            rw [if_neg (by decide)] at hs
            have e2 : pre ++ 0x2D :: d :: u = pre ++ [0x2D, d] ++ u := by simp
            have e3 : (pre ++ [0x2D, d]).length = pre.length + 1 + 1 := by simp
            rw [e2, ← e3] at hs
            rw [ih u (pre ++ [0x2D, d]) f (h + 1) st s (by omega) (by omega) hl.tail.tail hs]
            cases u with
            | nil => simp [hd]
            | cons x v => rw [List.getLast?_cons_cons, List.getLast?_cons_cons]
        · rw [if_neg hc] at hs
          cases u with
          | nil =>
            have : s = st := by
              cases f with
              | zero => cases hs
              | succ f =>
                rw [fixLoop_end _ _ _ _ _ _ (by simp)] at hs
                exact (Option.some.inj hs).symm
            simp [this, hc]
          | cons d u => exact skip f h (by simp) hs

theorem render_ne {x : SItem} : x.render ≠ [] := by
  cases x <;> simp [SItem.render]

theorem render_nil {r : List SItem} : render r = [] ↔ r = [] := by
  cases r with
  | nil => simp [render]
  | cons x r => simp [render, render_ne]

theorem item_last (x : SItem) : x.render.getLast? = some 0x2D ↔ x = .chr 0x2D := by
  have close : ∀ l : List Wc, x.render = l ++ [0x5D] → (∀ c, x ≠ .chr c) → (x.render.getLast? = some 0x2D ↔ x = .chr 0x2D) := by
    intro l h1 h2
    rw [h1, List.getLast?_concat]
    exact ⟨fun e => absurd (Option.some.inj e) (by decide), fun e => absurd e (h2 _)⟩
  cases x with
  | chr c => simp [SItem.render]
  | cls a => exact close [0x5B, 0x4C, a] rfl (by simp)
  | cls2 a b => exact close [0x5B, 0x4C, a, b] rfl (by simp)
  | tag n => exact close (0x5B :: n) rfl (by simp)
  | bound a => exact close [0x5B, 0x42, a] rfl (by simp)
  | sect a b => exact close (0x5B :: 0x58 :: a :: 0x5D :: (b ++ [0x5B, 0x58])) (by simp [SItem.render]) (by simp)
  | pat p => exact close (0x5B :: 0x58 :: 0x72 :: 0x5D :: (p ++ [0x5B, 0x58])) (by simp [SItem.render]) (by simp)

theorem render_last : ∀ {r : List SItem}, (render r).getLast? = some 0x2D ↔ r.getLast? = some (.chr 0x2D) := by
  intro r
  induction r with
  | nil => simp [render]
  | cons x r ih =>
    rw [render]
    cases r with
    | nil =>
      have := item_last x
      simpa [render] using this
    | cons y r =>
      rw [List.getLast?_cons_cons, ← ih, List.getLast?_append]
      have : render (y :: r) ≠ [] := by rw [Ne, render_nil]; simp
      rw [List.getLast?_eq_some_getLast this]
      rfl

theorem render_head {r : List SItem} : (render r).head? = some 0x2D → r.head? = some (.chr 0x2D) := by
  cases r with
  | nil => intro h; cases h
  | cons x r => cases x <;> simp [render, SItem.render]

theorem plain_lone : ∀ {r : List SItem}, Plain r → Lone (render r) := by
  intro r
  induction r with
  | nil => intro _ i h; simp [render] at h
  | cons x r ih =>
    have other : 0x2D ∉ x.render → Plain r → Lone (render (x :: r)) := by
      intro h1 h2 i hi hi2
      rw [render] at hi hi2
      by_cases hlt : i < x.render.length
      · rw [List.getElem?_append_left hlt] at hi
        exact h1 (List.mem_of_getElem? hi)
      · rw [List.getElem?_append_right (by omega)] at hi
        rw [List.getElem?_append_right (by omega), show i + 1 - x.render.length = i - x.render.length + 1 by omega] at hi2
        exact ih h2 _ hi hi2
    intro h
    cases x with
    | chr c =>
      rw [Plain] at h
      intro i hi hi2
      cases i with
      | zero =>
        have hc : c = 0x2D := by simpa [render, SItem.render] using hi
        refine h.1 hc (render_head ?_)
        rw [List.head?_eq_getElem?]
        simpa [render, SItem.render] using hi2
      | succ i => exact ih h.2 i (by simpa [render, SItem.render] using hi) (by simpa [render, SItem.render] using hi2)
    | cls a => rw [Plain] at h; exact other h.1 h.2; simp
    | cls2 a b => rw [Plain] at h; exact other h.1 h.2; simp
    | tag n => rw [Plain] at h; exact other h.1 h.2; simp
    | bound a => rw [Plain] at h; exact other h.1 h.2; simp
    | sect a b => rw [Plain] at h; exact other h.1 h.2; simp
    | pat p => rw [Plain] at h; exact other h.1 h.2; simp

theorem Lone.drop {l : List Wc} (h : Lone l) (n : Nat) : Lone (l.drop n) := by
  intro i h1 h2
  rw [List.getElem?_drop] at h1 h2
  exact h (n + i) h1 h2

/-- The items. -/
theorem fixLoop_items : ∀ (r : List SItem) (pre need : List Wc) (pb : Bool) (f : Nat) (de : Bool) (h : Nat) (st s : List Wc),
    WfItems need pb r → Tidy r → Plain r → (render r).length < f → fixLoop (pre ++ render r) f pre.length de h st = some s →
    strip s = adjusted h de (strip st) r := by
  intro r
  induction r with
  | nil =>
    intro pre need pb f de h st s _ _ _ hf hs
    obtain ⟨f, rfl⟩ : ∃ g, f = g + 1 := ⟨f - 1, by omega⟩
    rw [fixLoop_end _ _ _ _ _ _ (by simp [render])] at hs
    rw [← Option.some.inj hs, adjusted]
  | cons x r ih =>
    intro pre need pb f de h st s hw ht hp hf hs
    have htr : Tidy r := fun y hy => ht y (List.mem_cons_of_mem _ hy)
    have htx : TidyItem x := ht x List.mem_cons_self
    rw [render, List.length_append] at hf
    -- the rest, after an item
    have next : ∀ (f' : Nat) (need' : List Wc) (pb' de' : Bool) (h' : Nat) (st' : List Wc), WfItems need' pb' r → Plain r →
        (render r).length < f' → fixLoop (pre ++ (x.render ++ render r)) f' (pre ++ x.render).length de' h' st' = some s →
        strip s = adjusted h' de' (strip st') r := by
      intro f' need' pb' de' h' st' hw' hp' hf' hs'
      rw [← List.append_assoc] at hs'
      exact ih (pre ++ x.render) need' pb' f' de' h' st' s hw' htr hp' hf' hs'
    -- a tag: a bracket and a text without brackets and hyphens
    have tag : ∀ (name : List Wc) (f' : Nat) (de' : Bool) (st' : List Wc), x.render = 0x5B :: (name ++ [0x5D]) → 0x5B ∉ name → 0x2D ∉ name →
        f' + (name.length + 1) + 1 = f → fixLoop (pre ++ (x.render ++ render r)) (f' + (name.length + 1)) (pre.length + 1) de' h st' = some s →
        fixLoop (pre ++ (x.render ++ render r)) f' (pre ++ x.render).length de' h st' = some s := by
      intro name f' de' st' hx h1 h2 _ hs'
      have := fixLoop_skip (name ++ [0x5D]) (pre ++ [0x5B]) (render r) f' de' h st'
        (by rw [List.mem_append, not_or]; exact ⟨h1, by decide⟩) (by rw [List.mem_append, not_or]; exact ⟨h2, by decide⟩)
      have e1 : pre ++ [0x5B] ++ (name ++ [0x5D] ++ render r) = pre ++ (x.render ++ render r) := by rw [hx]; simp
      have e2 : (pre ++ [0x5B]).length = pre.length + 1 := by simp
      have e3 : pre ++ [0x5B] ++ (name ++ [0x5D]) = pre ++ x.render := by rw [hx]; simp
      have e4 : (name ++ [0x5D]).length = name.length + 1 := by simp
      rw [e1, e2, e3, e4] at this
      rw [← this]; exact hs'
    -- a section
    have sect : ∀ (k : Wc) (body : List Wc), x.render = 0x5B :: 0x58 :: k :: 0x5D :: (body ++ [0x5B, 0x58, 0x5D]) → k ≠ 0x5B → 0x5B ∉ body →
        0x2D ∉ x.render → ∀ f', f' + (body.length + 7) = f →
        fixLoop (pre ++ (x.render ++ render r)) f pre.length de h st = some s →
        fixLoop (pre ++ (x.render ++ render r)) f' (pre ++ x.render).length de h st = some s := by
      intro k body hx h1 h2 h3 f' hf' hs'
      have hk : k ≠ 0x2D := fun e => h3 (by rw [hx, e]; simp)
      have hb : 0x2D ∉ body := fun e => h3 (by rw [hx]; simp [e])
      have b1 := fixLoop_bracket (c := 0x58) (by decide) (by decide) pre (k :: 0x5D :: (body ++ 0x5B :: 0x58 :: 0x5D :: render r)) (f' + (body.length + 6)) de h st
      have e1 : pre ++ 0x5B :: 0x58 :: k :: 0x5D :: (body ++ 0x5B :: 0x58 :: 0x5D :: render r) = pre ++ (x.render ++ render r) := by rw [hx]; simp
      rw [e1] at b1
      have b2 := fixLoop_skip (0x58 :: k :: 0x5D :: body) (pre ++ [0x5B]) (0x5B :: 0x58 :: 0x5D :: render r) (f' + 3) de h st
        (by simp only [List.mem_cons, not_or]; exact ⟨by decide, fun e => h1 e.symm, by decide, h2⟩)
        (by simp only [List.mem_cons, not_or]; exact ⟨by decide, fun e => hk e.symm, by decide, hb⟩)
      have e2 : pre ++ [0x5B] ++ (0x58 :: k :: 0x5D :: body ++ 0x5B :: 0x58 :: 0x5D :: render r) = pre ++ (x.render ++ render r) := by rw [hx]; simp
      have e3 : (pre ++ [0x5B]).length = pre.length + 1 := by simp
      rw [e2, e3] at b2
      have b3 := fixLoop_bracket (c := 0x58) (by decide) (by decide) (pre ++ [0x5B] ++ (0x58 :: k :: 0x5D :: body)) (0x5D :: render r) (f' + 2) de h st
      have e4 : pre ++ [0x5B] ++ (0x58 :: k :: 0x5D :: body) ++ 0x5B :: 0x58 :: 0x5D :: render r = pre ++ (x.render ++ render r) := by rw [hx]; simp
      rw [e4] at b3
      have b4 := fixLoop_skip [0x58, 0x5D] (pre ++ [0x5B] ++ (0x58 :: k :: 0x5D :: body) ++ [0x5B]) (render r) f' de h st (by decide) (by decide)
      have e5 : pre ++ [0x5B] ++ (0x58 :: k :: 0x5D :: body) ++ [0x5B] ++ ([0x58, 0x5D] ++ render r) = pre ++ (x.render ++ render r) := by rw [hx]; simp
      have e6 : pre ++ [0x5B] ++ (0x58 :: k :: 0x5D :: body) ++ [0x5B] ++ [0x58, 0x5D] = pre ++ x.render := by rw [hx]; simp
      have e7 : (pre ++ [0x5B] ++ (0x58 :: k :: 0x5D :: body) ++ [0x5B]).length = (pre ++ [0x5B] ++ (0x58 :: k :: 0x5D :: body)).length + 1 := by rw [List.length_append]; rfl
      rw [e5, e6, e7] at b4
      rw [← b4]
      rw [show f' + [0x58, 0x5D].length = f' + 2 from rfl, ← b3]
      rw [show f' + 2 + 1 = f' + 3 by omega, ← b2]
      rw [show f' + 3 + (0x58 :: k :: 0x5D :: body).length = f' + (body.length + 6) by simp only [List.length_cons]; omega, ← b1]
      rw [show f' + (body.length + 6) + 1 = f by omega]
      exact hs'
    rw [render] at hs
    cases x with
    | cls k =>
      rw [Plain] at hp
      · rw [WfItems] at hw
        have hk : k ≠ 0x2D := fun e => hp.1 (by simp [SItem.render, e])
        have hfl : 4 + (render r).length < f := by simpa [SItem.render] using hf
        obtain ⟨f', rfl⟩ : ∃ g, f = g + 3 + 1 := ⟨f - 4, by omega⟩
        have e : pre ++ ((SItem.cls k).render ++ render r) = pre ++ 0x5B :: 0x4C :: k :: 0x5D :: render r := by simp [SItem.render]
        have hs1 := hs
        rw [e, fixLoop_tag, ← e, if_neg (fun e : 0x4C = 0x44 ∧ k = 0x65 => absurd e.1 (by decide)),
          if_neg (fun e : 0x4C = 0x44 ∧ k = 0x67 => absurd e.1 (by decide))] at hs1
        have hs2 := tag [0x4C, k] f' _ _ rfl (by simpa using fun e => htx.1 e.symm) (by simpa using fun e => hk e.symm) rfl hs1
        have := next f' need pb _ h st hw.2 hp.2 (by omega) hs2
        rw [this]
        by_cases hn : k = 0x6E
        · subst hn
          rw [adjusted, if_pos (by decide)]
        · rw [if_neg (by intro e; injection e with _ e; injection e with e _; exact hn e), adjusted]
          all_goals simp [hn]
      all_goals simp
    | cls2 k d =>
      rw [Plain] at hp
      · rw [WfItems] at hw
        have hk : k ≠ 0x2D := fun e => hp.1 (by simp [SItem.render, e])
        have hd : d ≠ 0x2D := fun e => hp.1 (by simp [SItem.render, e])
        have hfl : 5 + (render r).length < f := by simpa [SItem.render] using hf
        obtain ⟨f', rfl⟩ : ∃ g, f = g + 4 + 1 := ⟨f - 5, by omega⟩
        have e : pre ++ ((SItem.cls2 k d).render ++ render r) = pre ++ 0x5B :: 0x4C :: k :: d :: 0x5D :: render r := by simp [SItem.render]
        have hs1 := hs
        have hno : ¬ [0x4C, k, d] = lit "Ln]" := by
          intro e; injection e with _ e; injection e with _ e; injection e with e _; exact htx.2.2.2 e
        rw [e, fixLoop_tag, ← e, if_neg (fun e : 0x4C = 0x44 ∧ k = 0x65 => absurd e.1 (by decide)), if_neg hno,
          if_neg (fun e : 0x4C = 0x44 ∧ k = 0x67 => absurd e.1 (by decide))] at hs1
        have hs2 := tag [0x4C, k, d] f' _ _ rfl (by simp; exact ⟨fun e => htx.1 e.symm, fun e => htx.2.2.1 e.symm⟩)
          (by simp; exact ⟨fun e => hk e.symm, fun e => hd e.symm⟩) rfl hs1
        rw [next f' need pb _ h st hw.2 hp.2 (by omega) hs2, adjusted]
        all_goals simp
      all_goals simp
    | tag name =>
      rw [Plain] at hp
      · rw [WfItems] at hw
        obtain ⟨⟨c, u, rfl, hc⟩, h5, hw⟩ := hw
        have hm : 0x2D ∉ c :: u := fun e => hp.1 (by rw [SItem.render]; exact List.mem_cons_of_mem _ (List.mem_append_left _ e))
        have hfl : u.length + 3 + (render r).length < f := by simpa [SItem.render] using hf
        have hL : c ≠ 0x4C := by
          rcases hc with hc | hc
          · exact hc.2.1
          · cases hc; decide
        cases u with
        | nil =>
          obtain ⟨f', rfl⟩ : ∃ g, f = g + 2 + 1 := ⟨f - 3, by simp at hfl; omega⟩
          have e : pre ++ ((SItem.tag [c]).render ++ render r) = pre ++ 0x5B :: c :: 0x5D :: render r := by simp [SItem.render]
          have hs1 : fixLoop (pre ++ ((SItem.tag [c]).render ++ render r)) (f' + 2) (pre.length + 1) de h st = some s := by
            cases hr : render r with
            | nil =>
              have hs1 := hs
              rw [fixLoop, if_pos (by simp [SItem.render]), e, rdz_app0] at hs1
              replace hs1 := bindO (a := 0x5B) rfl hs1
              rw [if_neg (fun k => by have := k.1; simp [hr] at this), if_neg (by decide), ← e, hr] at hs1
              exact hs1
            | cons d t =>
              have hs1 := hs
              rw [e, hr, fixLoop_tag, if_neg (fun e : c = 0x44 ∧ 0x5D = 0x65 => absurd e.2 (by decide)),
                if_neg (fun e : [c, 0x5D, d] = lit "Ln]" => by injection e with e _; exact hL e),
                if_neg (fun e : c = 0x44 ∧ 0x5D = 0x67 => absurd e.2 (by decide)), ← hr, ← e] at hs1
              rw [← hr]; exact hs1
          have hs2 := tag [c] f' _ _ rfl htx.2.1 hm rfl hs1
          rw [next f' need pb _ h st hw hp.2 (by simp at hfl; omega) hs2, adjusted, if_neg (by simp), if_neg (by simp)]
        | cons d u =>
          rw [List.length_cons] at hfl
          obtain ⟨f', rfl⟩ : ∃ g, f = g + (u.length + 3) + 1 := ⟨f - (u.length + 4), by omega⟩
          obtain ⟨z, v, hz⟩ : ∃ z v, u ++ 0x5D :: render r = z :: v := by
            cases u with
            | nil => exact ⟨_, _, rfl⟩
            | cons z v => exact ⟨z, _, rfl⟩
          have e : pre ++ ((SItem.tag (c :: d :: u)).render ++ render r) = pre ++ 0x5B :: c :: d :: z :: v := by rw [← hz]; simp [SItem.render]
          have hs1 := hs
          rw [e, fixLoop_tag, ← e] at hs1
          have hno : ¬ [c, d, z] = lit "Ln]" := by intro e; injection e with e _; exact hL e
          rw [if_neg hno] at hs1
          have hs2 := tag (c :: d :: u) f' _ _ rfl htx.2.1 hm (by simp only [List.length_cons]) hs1
          rw [next f' need pb _ h _ hw hp.2 (by omega) hs2, adjusted]
          have hpre : ∀ y : Wc, [0x44, y] <+: c :: d :: u ↔ c = 0x44 ∧ d = y := by
            intro y
            rw [List.cons_prefix_cons, List.cons_prefix_cons]
            exact ⟨fun e => ⟨e.1.symm, e.2.1.symm⟩, fun e => ⟨e.1.symm, e.2.symm, List.nil_prefix⟩⟩
          simp only [hpre]
          by_cases hg : c = 0x44 ∧ d = 0x67
          · rw [if_pos hg, if_pos hg, if_neg (fun e : c = 0x44 ∧ d = 0x65 => by have := e.2.symm.trans hg.2; revert this; decide), strip_lower]
          · rw [if_neg hg, if_neg hg]
            split <;> rfl
      all_goals simp
    | bound k =>
      rw [Plain] at hp
      · rw [WfItems] at hw
        have hk : k ≠ 0x2D := fun e => hp.1 (by simp [SItem.render, e])
        have hfl : 4 + (render r).length < f := by simpa [SItem.render] using hf
        obtain ⟨f', rfl⟩ : ∃ g, f = g + 3 + 1 := ⟨f - 4, by omega⟩
        have e : pre ++ ((SItem.bound k).render ++ render r) = pre ++ 0x5B :: 0x42 :: k :: 0x5D :: render r := by simp [SItem.render]
        have hs1 := hs
        rw [e, fixLoop_bracket (by decide) (by decide), ← e] at hs1
        have hs2 := tag [0x42, k] f' _ _ rfl (by simpa using fun e => htx.1 e.symm) (by simpa using fun e => hk e.symm) rfl hs1
        rw [next f' [] false _ h st hw.2.2.2.2 hp.2 (by omega) hs2, adjusted]
        all_goals simp
      all_goals simp
    | sect k body =>
      rw [Plain] at hp
      · rw [WfItems] at hw
        have hfl : body.length + 7 + (render r).length < f := by simp [SItem.render] at hf; omega
        obtain ⟨f', rfl⟩ : ∃ g, f = g + (body.length + 7) := ⟨f - (body.length + 7), by omega⟩
        have hs2 := sect k body rfl htx.1 htx.2 hp.1 f' rfl hs
        rw [next f' need pb _ h st hw.2.2 hp.2 (by omega) hs2, adjusted]
        all_goals simp
      all_goals simp
    | pat q =>
      rw [Plain] at hp
      · rw [WfItems] at hw
        have hfl : q.length + 7 + (render r).length < f := by simp [SItem.render] at hf; omega
        obtain ⟨f', rfl⟩ : ∃ g, f = g + (q.length + 7) := ⟨f - (q.length + 7), by omega⟩
        have hs2 := sect 0x72 q rfl (by decide) htx hp.1 f' rfl hs
        rw [next f' _ _ _ h st hw.2.2.2.2.2.2 hp.2 (by omega) hs2, adjusted]
        all_goals simp
      all_goals simp
    | chr c =>
      rw [Plain] at hp
      have hw' : ∃ need' pb', WfItems need' pb' r := by
        cases need with
        | nil => rw [WfItems] at hw; exact ⟨_, _, hw.2⟩
        | cons q qs => rw [WfItems] at hw; exact ⟨_, _, hw.2.2.2⟩
      obtain ⟨n', pb', hw'⟩ := hw'
      have hfl : 1 + (render r).length < f := by simpa [SItem.render] using hf
      obtain ⟨f', rfl⟩ : ∃ g, f = g + 1 := ⟨f - 1, by omega⟩
      have e : pre ++ ((SItem.chr c).render ++ render r) = pre ++ c :: render r := by simp [SItem.render]
      have el : (pre ++ (SItem.chr c).render).length = pre.length + 1 := by simp [SItem.render]
      by_cases hc : c = 0x2D
      · subst hc
        rw [adjusted]
        have hs1 := hs
        rw [fixLoop, if_pos (by simp [SItem.render]), e, rdz_app0] at hs1
        replace hs1 := bindO (a := 0x2D) rfl hs1
        rw [if_neg (fun k => absurd k.2 (by decide)), if_pos rfl, ← e] at hs1
        cases de with
        | false =>
          rw [if_neg (by decide)] at hs1 ⊢
          rw [← el] at hs1
          exact next f' n' pb' false (h + 1) st hw' hp.2 (by omega) hs1
        | true =>
          rw [if_pos rfl] at hs1 ⊢
          have hne : (pre ++ ((SItem.chr 0x2D).render ++ render r)).length = pre.length + (render r).length + 1 := by
            simp [SItem.render]; omega
          by_cases hr : r = []
          · subst hr
            rw [if_pos (by simp [SItem.render, render])] at hs1
            replace hs1 := bindO (a := (true, pre.length + 1)) rfl hs1
            rw [capital_after hs1, strip_capital, if_pos (Or.inl (by simp))]
          · have hrl : 0 < (render r).length := List.length_pos_iff.2 (by rw [Ne, render_nil]; exact hr)
            rw [if_neg (by omega)] at hs1
            obtain ⟨b, j, k1, k2, k3⟩ := fixFind_spec (render r) (pre ++ [0x2D]) ((pre ++ ((SItem.chr 0x2D).render ++ render r)).length + 1) (by omega)
            have e1 : pre ++ [0x2D] ++ render r = pre ++ ((SItem.chr 0x2D).render ++ render r) := by simp [SItem.render]
            have e2 : (pre ++ [0x2D]).length = pre.length + 1 := by simp
            rw [e1, e2] at k1
            rw [e1, e2, hne] at k3
            replace hs1 := bindO k1 hs1
            dsimp only at hs1
            have hlast : (SItem.chr 0x2D :: r).getLast? = some (.chr 0x2D) ↔ (render r).getLast? = some 0x2D := by
              rw [render_last]
              cases r with
              | nil => exact absurd rfl hr
              | cons y r => rw [List.getLast?_cons_cons]
            have hlep : b = true ↔ SItem.cls2 0x65 0x70 ∈ r := by rw [k2]; exact wcsstr_lep htr hw'
            cases b with
            | true =>
              rw [if_pos rfl] at hs1
              rw [capital_after hs1, strip_capital, if_pos (Or.inr (hlep.1 rfl))]
            | false =>
              rw [if_neg (by decide)] at hs1
              have hj := k3 rfl
              -- the characters that are still looked at
              have hsplit : pre ++ ((SItem.chr 0x2D).render ++ render r)
                  = (pre ++ 0x2D :: (render r).take (j - pre.length)) ++ (render r).drop (j - pre.length) := by
                simp [SItem.render]
              have hjl : (pre ++ 0x2D :: (render r).take (j - pre.length)).length = j + 1 := by
                simp only [List.length_append, List.length_cons, List.length_take]
                omega
              rw [hsplit, ← hjl] at hs1
              have := fixLoop_tail 3 ((render r).drop (j - pre.length)) _ f' _ st s (by rw [List.length_drop]; omega) (by rw [List.length_drop]; omega)
                ((plain_lone hp.2).drop _) hs1
              have hcond : ((render r).drop (j - pre.length)).getLast? = some 0x2D ↔ (render r).getLast? = some 0x2D := by
                by_cases hd : j - pre.length < (render r).length
                · rw [List.getLast?_drop, if_neg (by omega)]
                · have hone : (render r).length = 1 := by omega
                  rw [List.drop_eq_nil_of_le (by omega)]
                  constructor
                  · intro e; cases e
                  · intro e
                    exfalso
                    refine hp.1 rfl (render_head ?_)
                    obtain ⟨w, hw⟩ := List.length_eq_one_iff.1 hone
                    rw [hw] at e ⊢
                    exact e
              rw [this]
              by_cases hg : (render r).getLast? = some 0x2D
              · rw [if_pos (hcond.2 hg), if_pos (Or.inl (hlast.2 hg)), strip_capital]
              · rw [if_neg (fun e => hg (hcond.1 e)), if_neg]
                rintro (k | k)
                · exact hg (hlast.1 k)
                · exact absurd (hlep.2 k) (by decide)
      · have hs1 := hs
        rw [e, fixLoop_plain htx.1 hc, ← e, ← el] at hs1
        rw [next f' n' pb' de h st hw' hp.2 (by omega) hs1, adjusted]
        all_goals simp [hc]

/-- The corrections of a structure string. -/
theorem fixStructure_letters {its : List SItem} (hw : WellFormed its) (ht : Tidy its) (hp : Plain its) {st s : List Wc}
    (hs : fixStructure st (render its) = some s) : strip s = adjusted 0 false (strip st) its :=
  fixLoop_items its [] [] false _ false 0 st s hw.1 ht hp (by omega) hs

end Verif.Letters
