import Verif.Spec.Baseform
import Verif.Lemmas.FinnishReadings
import Mathlib.Tactic.SplitIfs
/-!
# The loop that makes the base form of a numeral (for C80)
-/

set_option linter.unusedSimpArgs false
set_option linter.unusedVariables false

namespace Verif.Baseform
open Verif
open Verif.Validity (drop_pre)
open Verif.Attrs (Tidy TidyItem nameOf tagsFrom tidy_name prefix_name tag_at render_app)

/-- What the dictionary guarantees about an item. -/
def UItem : SItem → Prop
  | .tag n => n.head? ≠ some 0x58 ∧ n.head? ≠ some 0x4C ∧ n ≠ [0x42, 0x63]
  | .cls2 c _ => c ≠ 0x6C
  | .sect c _ => c = 0x70 ∨ c = 0x6A ∨ c = 0x73
  | _ => True

/-- The loop ends with `r`. -/
def NRuns (out : List Wc) (cap i : Nat) (s : NState) (r : Option (List Wc)) : Prop := ∃ f, nbLoop out cap f i s = some r

variable {out : List Wc} {cap i : Nat} {s : NState} {r : Option (List Wc)}

theorem nruns_cases (h : NRuns out cap i s r) (hi : i < out.length) : ∃ v, nbStep out cap i s = some v ∧
    ((v = none ∧ r = none) ∨ ∃ j s', v = some (j, s') ∧ NRuns out cap (j + 1) s' r) := by
  obtain ⟨f, h⟩ := h
  cases f with
  | zero => cases h
  | succ f =>
    rw [nbLoop, if_pos hi] at h
    obtain ⟨v, hv, h⟩ := Option.bind_eq_some_iff.1 h
    refine ⟨v, hv, ?_⟩
    cases v with
    | none => exact Or.inl ⟨rfl, (Option.some.inj h).symm⟩
    | some v => exact Or.inr ⟨v.1, v.2, rfl, f, h⟩

theorem nruns_step (h : NRuns out cap i s r) (hi : i < out.length) {j : Nat} {s' : NState} (hs : nbStep out cap i s = some (some (j, s'))) :
    NRuns out cap (j + 1) s' r := by
  obtain ⟨v, hv, h⟩ := nruns_cases h hi
  rw [hs] at hv
  cases hv
  rcases h with ⟨h, _⟩ | ⟨j', s2, h, h2⟩
  · cases h
  · cases h; exact h2

/-- The state in which a character is looked at. -/
def enter (i : Nat) (c : Wc) (s : NState) : NState := if i = 0 ∧ (isDigit c ∨ c = 0x2D) then { s with isInDigits := true } else s

theorem nstep_char {pre rest : List Wc} {c : Wc} (hc : c ≠ 0x5B) : nbStep (pre ++ c :: rest) cap pre.length s =
    let s := enter pre.length c s
    if s.isInXr then some (some (pre.length, s))
    else if s.isInTag then some (some (pre.length, if c = 0x5D then { s with isInTag := false } else s))
    else if s.isInXp ∨ s.isInDigits then (push cap s.bf c).bind fun bf => some (some (pre.length, { s with bf := bf }))
    else if !s.xpPassed ∨ c = 0x2D then (push cap s.bf c).bind fun bf => some (some (pre.length, { s with bf := bf }))
    else some (some (pre.length, s)) := by
  rw [nbStep, show rdz (pre ++ c :: rest) pre.length = some c by rw [rdz_app0]; rfl]
  simp only [Option.bind_eq_bind, Option.bind_some, if_neg hc, Option.pure_def]
  rfl

theorem enter_pos {i : Nat} {c : Wc} {s : NState} (h : i ≠ 0) : enter i c s = s := if_neg fun e => h e.1

/-- The state after the bracket of a tag has been seen. -/
def seenBracket (s : NState) : NState := if s.isInDigits then { s with isInDigits := false, xpPassed := true } else s

theorem nstep_bracket {pre n rest : List Wc} (hn : 0x5D ∉ n) (hne : n ≠ []) : nbStep (pre ++ 0x5B :: (n ++ 0x5D :: rest)) cap pre.length s =
    let s := seenBracket s
    let i := pre.length
    let len := (pre ++ 0x5B :: (n ++ 0x5D :: rest)).length
    some (if i + 6 < len ∧ (n = lit "Xp" ∨ n = lit "Xj") then some (i + 3, { s with isInXp := true })
    else if i + 6 < len ∧ n = lit "Xr" then some (i + 3, { s with isInXr := true })
    else if i + 4 = len ∧ n = lit "Bc" then none
    else if i + 6 < len ∧ n = lit "Bc" then some (i + 3, { s with xpPassed := false })
    else if i + 6 < len ∧ (n = lit "Ln" ∨ n = lit "Ll" ∨ n = lit "Lnl") then none
    else if n = lit "X" then
      some (i + 2, { (if s.isInXp then { s with isInXp := false, xpPassed := true } else s) with isInXr := false })
    else some (i, { s with isInTag := true })) := by
  have hen : enter pre.length 0x5B s = s := if_neg fun e => by rcases e.2 with e | e <;> revert e <;> decide
  have hl : 1 ≤ n.length := by cases n with | nil => exact absurd rfl hne | cons a m => simp
  have cm : ∀ q, 0x5D ∉ q → 0 ∉ q → cmpz (pre ++ 0x5B :: (n ++ 0x5D :: rest)) pre.length (0x5B :: (q ++ [0x5D])) = some (n == q) := by
    intro q h1 h2
    rw [cmpz_eq (by simp) (by simp [h2])]
    have e : (pre ++ 0x5B :: (n ++ 0x5D :: rest)).drop pre.length = 0x5B :: (n ++ 0x5D :: rest) := by simp
    rw [e]
    show some ((q ++ [0x5D]).isPrefixOf (n ++ 0x5D :: rest)) = _
    rw [prefix_name h1 n rest hn]
  rw [nbStep, show rdz (pre ++ 0x5B :: (n ++ 0x5D :: rest)) pre.length = some 0x5B by rw [rdz_app0]; rfl]
  simp only [Option.bind_eq_bind, Option.bind_some, if_true]
  rw [show (if pre.length = 0 ∧ (isDigit 0x5B = true ∨ 0x5B = 0x2D) then { s with isInDigits := true } else s) = s from hen]
  rw [nbBracket]
  simp only []
  rw [if_neg (by simp; omega)]
  have c1 := cm (lit "Xp") (by decide) (by decide)
  have c2 := cm (lit "Xj") (by decide) (by decide)
  have c3 := cm (lit "Xr") (by decide) (by decide)
  have c4 := cm (lit "Bc") (by decide) (by decide)
  have c5 := cm (lit "Ln") (by decide) (by decide)
  have c6 := cm (lit "Ll") (by decide) (by decide)
  have c7 := cm (lit "Lnl") (by decide) (by decide)
  have c8 := cm (lit "X") (by decide) (by decide)
  rw [show lit "[Xp]" = 0x5B :: (lit "Xp" ++ [0x5D]) by decide, show lit "[Xj]" = 0x5B :: (lit "Xj" ++ [0x5D]) by decide,
    show lit "[Xr]" = 0x5B :: (lit "Xr" ++ [0x5D]) by decide, show lit "[Bc]" = 0x5B :: (lit "Bc" ++ [0x5D]) by decide,
    show lit "[Ln]" = 0x5B :: (lit "Ln" ++ [0x5D]) by decide, show lit "[Ll]" = 0x5B :: (lit "Ll" ++ [0x5D]) by decide,
    show lit "[Lnl]" = 0x5B :: (lit "Lnl" ++ [0x5D]) by decide, show lit "[X]" = 0x5B :: (lit "X" ++ [0x5D]) by decide,
    c1, c2, c3, c4, c5, c6, c7, c8]
  simp only [Option.bind_eq_bind, Option.bind_some, Option.pure_def, beq_iff_eq]
  unfold seenBracket
  generalize (if s.isInDigits = true then { s with isInDigits := false, xpPassed := true } else s) = s1
  split_ifs <;> rfl

/-- The inside of a tag. -/
theorem nskip_tag {rest : List Wc} : ∀ (n pre : List Wc), 0x5B ∉ n → 0x5D ∉ n → pre ≠ [] → s.isInTag = true → s.isInXr = false →
    NRuns (pre ++ (n ++ 0x5D :: rest)) cap pre.length s r → NRuns (pre ++ (n ++ 0x5D :: rest)) cap (pre.length + n.length + 1) { s with isInTag := false } r := by
  intro n
  induction n with
  | nil =>
    intro pre _ _ hp ht hx h
    have hp' : pre.length ≠ 0 := by simpa using hp
    have := nruns_step (j := pre.length) (s' := { s with isInTag := false }) h (by simp) (by
      rw [List.nil_append, nstep_char (by decide), enter_pos hp']; simp only []; rw [hx, ht]; rfl)
    simpa using this
  | cons c n ih =>
    intro pre h1 h2 hp ht hx h
    have hp' : pre.length ≠ 0 := by simpa using hp
    have hc1 : c ≠ 0x5B := fun e => h1 (by simp [e])
    have hc2 : c ≠ 0x5D := fun e => h2 (by simp [e])
    have h3 := nruns_step (j := pre.length) (s' := s) h (by simp) (by
      rw [List.cons_append, nstep_char hc1, enter_pos hp']; simp only []; rw [hx, ht]; simp [hc2])
    have e : pre ++ (c :: n ++ 0x5D :: rest) = (pre ++ [c]) ++ (n ++ 0x5D :: rest) := by simp
    have e2 : pre.length + 1 = (pre ++ [c]).length := by simp
    rw [e, e2] at h3
    have := ih (pre ++ [c]) (fun m => h1 (by simp [m])) (fun m => h2 (by simp [m])) (by simp) ht hx h3
    rw [e]
    have e3 : pre.length + (c :: n).length + 1 = (pre ++ [c]).length + n.length + 1 := by simp; omega
    rw [e3]
    exact this

theorem nskip_xr {rest : List Wc} : ∀ (n pre : List Wc), 0x5B ∉ n → pre ≠ [] → s.isInXr = true →
    NRuns (pre ++ (n ++ rest)) cap pre.length s r → NRuns (pre ++ (n ++ rest)) cap (pre.length + n.length) s r := by
  intro n
  induction n with
  | nil => intro pre _ _ _ h; exact h
  | cons c n ih =>
    intro pre h1 hp hx h
    have hp' : pre.length ≠ 0 := by simpa using hp
    have hc1 : c ≠ 0x5B := fun e => h1 (by simp [e])
    have h3 := nruns_step (j := pre.length) (s' := s) h (by simp) (by
      rw [List.cons_append, nstep_char hc1, enter_pos hp']; simp only []; rw [hx]; rfl)
    have e : pre ++ (c :: n ++ rest) = (pre ++ [c]) ++ (n ++ rest) := by simp
    have e2 : pre.length + 1 = (pre ++ [c]).length := by simp
    rw [e, e2] at h3
    have := ih (pre ++ [c]) (fun m => h1 (by simp [m])) (by simp) hx h3
    rw [e]
    have e3 : pre.length + (c :: n).length = (pre ++ [c]).length + n.length := by simp; omega
    rw [e3]
    exact this

theorem push_eq {bf bf' : List Wc} {c : Wc} (h : push cap bf c = some bf') : bf' = bf ++ [c] := by
  rw [push] at h
  split at h
  · exact (Option.some.inj h).symm
  · cases h

/-- A base form is copied. -/
theorem ncopy_xp {rest : List Wc} : ∀ (n pre : List Wc) (s : NState), 0x5B ∉ n → pre ≠ [] → s.isInXp = true → s.isInXr = false → s.isInTag = false →
    NRuns (pre ++ (n ++ rest)) cap pre.length s r → NRuns (pre ++ (n ++ rest)) cap (pre.length + n.length) { s with bf := s.bf ++ n } r := by
  intro n
  induction n with
  | nil => intro pre s _ _ _ _ _ h; simpa using h
  | cons c n ih =>
    intro pre s h1 hp hx hr ht h
    have hp' : pre.length ≠ 0 := by simpa using hp
    have hc1 : c ≠ 0x5B := fun e => h1 (by simp [e])
    obtain ⟨v, hv, h3⟩ := nruns_cases h (by simp)
    rw [List.cons_append, nstep_char hc1, enter_pos hp'] at hv
    simp only [] at hv
    rw [if_neg (by simp [hr]), if_neg (by simp [ht]), if_pos (Or.inl hx)] at hv
    obtain ⟨bf, hbf, hv⟩ := Option.bind_eq_some_iff.1 hv
    cases hv
    rcases h3 with ⟨h3, _⟩ | ⟨j, s', hj, h3⟩
    · cases h3
    · cases hj
      rw [push_eq hbf] at h3
      have e : pre ++ (c :: n ++ rest) = (pre ++ [c]) ++ (n ++ rest) := by simp
      have e2 : pre.length + 1 = (pre ++ [c]).length := by simp
      rw [e, e2] at h3
      have := ih (pre ++ [c]) _ (fun m => h1 (by simp [m])) (by simp) (by exact hx) (by exact hr) (by exact ht) h3
      rw [e]
      have e3 : pre.length + (c :: n).length = (pre ++ [c]).length + n.length := by simp; omega
      rw [e3]
      simpa using this

/-- Text outside of base forms: something is written or not. -/
theorem nskip_text {rest : List Wc} : ∀ (n pre : List Wc) (s : NState), 0x5B ∉ n → pre ≠ [] → s.isInXp = false → s.isInXr = false → s.isInTag = false →
    s.isInDigits = false → NRuns (pre ++ (n ++ rest)) cap pre.length s r → ∃ t, NRuns (pre ++ (n ++ rest)) cap (pre.length + n.length) { s with bf := t } r := by
  intro n
  induction n with
  | nil => intro pre s _ _ _ _ _ _ h; exact ⟨s.bf, by simpa using h⟩
  | cons c n ih =>
    intro pre s h1 hp hx hr ht hd h
    have hp' : pre.length ≠ 0 := by simpa using hp
    have hc1 : c ≠ 0x5B := fun e => h1 (by simp [e])
    obtain ⟨v, hv, h3⟩ := nruns_cases h (by simp)
    rw [List.cons_append, nstep_char hc1, enter_pos hp'] at hv
    simp only [] at hv
    rw [if_neg (by simp [hr]), if_neg (by simp [ht]), if_neg (by simp [hx, hd])] at hv
    have key : ∃ t, v = some (pre.length, { s with bf := t }) := by
      split at hv
      · obtain ⟨bf, hbf, hv⟩ := Option.bind_eq_some_iff.1 hv
        cases hv
        exact ⟨bf, rfl⟩
      · cases hv; exact ⟨s.bf, rfl⟩
    obtain ⟨t, rfl⟩ := key
    rcases h3 with ⟨h3, _⟩ | ⟨j, s', hj, h3⟩
    · cases h3
    · cases hj
      have e : pre ++ (c :: n ++ rest) = (pre ++ [c]) ++ (n ++ rest) := by simp
      have e2 : pre.length + 1 = (pre ++ [c]).length := by simp
      rw [e, e2] at h3
      obtain ⟨t', this⟩ := ih (pre ++ [c]) _ (fun m => h1 (by simp [m])) (by simp) (by exact hx) (by exact hr) (by exact ht) (by exact hd) h3
      rw [e]
      have e3 : pre.length + (c :: n).length = (pre ++ [c]).length + n.length := by simp; omega
      rw [e3]
      exact ⟨t', this⟩

/-- A tag. -/
theorem nruns_tag {pre rest n : List Wc} (hs : s.isInXp = false ∧ s.isInXr = false ∧ s.isInTag = false) (h1 : 0x5B ∉ n) (h2 : 0x5D ∉ n) (hne : n ≠ [])
    (hX : n.head? ≠ some 0x58) (h : NRuns (pre ++ 0x5B :: (n ++ 0x5D :: rest)) cap pre.length s r) :
    (n = lit "Bc" ∧ rest = [] ∧ r = none) ∨
    (n = lit "Bc" ∧ 7 ≤ (0x5B :: (n ++ 0x5D :: rest)).length ∧ NRuns (pre ++ 0x5B :: (n ++ 0x5D :: rest)) cap (pre.length + n.length + 2) { seenBracket s with xpPassed := false } r) ∨
    ((n = lit "Ln" ∨ n = lit "Ll" ∨ n = lit "Lnl") ∧ 7 ≤ (0x5B :: (n ++ 0x5D :: rest)).length ∧ r = none) ∨
    (¬ (n = lit "Bc" ∧ (7 ≤ (0x5B :: (n ++ 0x5D :: rest)).length ∨ rest = [])) ∧ ¬ ((n = lit "Ln" ∨ n = lit "Ll" ∨ n = lit "Lnl") ∧ 7 ≤ (0x5B :: (n ++ 0x5D :: rest)).length)
      ∧ NRuns (pre ++ 0x5B :: (n ++ 0x5D :: rest)) cap (pre.length + n.length + 2) (seenBracket s) r) := by
  obtain ⟨v, hv, h3⟩ := nruns_cases h (by simp)
  rw [nstep_bracket h2 hne] at hv
  simp only [Option.some.injEq] at hv
  have hlen : (pre ++ 0x5B :: (n ++ 0x5D :: rest)).length = pre.length + (0x5B :: (n ++ 0x5D :: rest)).length := by simp
  have n1 : ∀ q : List Wc, q.head? = some 0x58 → n ≠ q := fun q hq e => hX (by rw [e]; exact hq)
  rw [if_neg (by rintro ⟨_, e | e⟩ <;> exact n1 _ (by decide) e), if_neg (by rintro ⟨_, e⟩; exact n1 _ (by decide) e)] at hv
  by_cases hb : n = lit "Bc"
  · have hl4 : (0x5B :: (n ++ 0x5D :: rest)).length = 4 + rest.length := by rw [hb, show lit "Bc" = [0x42, 0x63] by decide]; simp; omega
    by_cases h4 : pre.length + 4 = (pre ++ 0x5B :: (n ++ 0x5D :: rest)).length
    · rw [if_pos ⟨h4, hb⟩] at hv
      subst hv
      rcases h3 with ⟨_, h3⟩ | ⟨_, _, h3, _⟩
      · exact Or.inl ⟨hb, List.length_eq_zero_iff.1 (by omega), h3⟩
      · cases h3
    · rw [if_neg (fun e => h4 e.1)] at hv
      by_cases h6 : pre.length + 6 < (pre ++ 0x5B :: (n ++ 0x5D :: rest)).length
      · rw [if_pos ⟨h6, hb⟩] at hv
        subst hv
        rcases h3 with ⟨h3, _⟩ | ⟨_, _, hj, h3⟩
        · cases h3
        · cases hj
          have hl : n.length = 2 := by rw [hb]; decide
          exact Or.inr (Or.inl ⟨hb, by omega, by rw [show pre.length + n.length + 2 = pre.length + 3 + 1 by omega]; exact h3⟩)
      · rw [if_neg (fun e => h6 e.1), if_neg (fun e => h6 e.1), if_neg (n1 _ (by decide))] at hv
        subst hv
        rcases h3 with ⟨h3, _⟩ | ⟨_, _, hj, h3⟩
        · cases h3
        · cases hj
          refine Or.inr (Or.inr (Or.inr ⟨fun e => ?_, fun e => by omega, ?_⟩))
          · rcases e.2 with e | e
            · omega
            · have hr0 : rest.length = 0 := by rw [e]; rfl
              omega
          · have e2 : pre ++ 0x5B :: (n ++ 0x5D :: rest) = (pre ++ [0x5B]) ++ (n ++ 0x5D :: rest) := by simp
            have e3 : pre.length + 1 = (pre ++ [0x5B]).length := by simp
            rw [e2, e3] at h3
            have hxr : (seenBracket s).isInXr = false := by unfold seenBracket; split <;> exact hs.2.1
            have hxt : (seenBracket s).isInTag = false := by unfold seenBracket; split <;> exact hs.2.2
            have := nskip_tag n (pre ++ [0x5B]) h1 h2 (by simp) (by rfl) (by exact hxr) h3
            rw [e2, show pre.length + n.length + 2 = (pre ++ [0x5B]).length + n.length + 1 by simp; omega]
            have e6 : ({ ({ seenBracket s with isInTag := true } : NState) with isInTag := false } : NState) = seenBracket s := by
              cases hq : seenBracket s; rw [hq] at hxt; simp at hxt; simp [hxt]
            rw [e6] at this
            exact this
  · rw [if_neg (fun e => hb e.2), if_neg (fun e => hb e.2)] at hv
    by_cases hn : pre.length + 6 < (pre ++ 0x5B :: (n ++ 0x5D :: rest)).length ∧ (n = lit "Ln" ∨ n = lit "Ll" ∨ n = lit "Lnl")
    · rw [if_pos hn] at hv
      subst hv
      rcases h3 with ⟨_, h3⟩ | ⟨_, _, h3, _⟩
      · exact Or.inr (Or.inr (Or.inl ⟨hn.2, by omega, h3⟩))
      · cases h3
    · rw [if_neg hn, if_neg (n1 _ (by decide))] at hv
      subst hv
      rcases h3 with ⟨h3, _⟩ | ⟨_, _, hj, h3⟩
      · cases h3
      · cases hj
        refine Or.inr (Or.inr (Or.inr ⟨fun e => hb e.1, fun e => hn ⟨by omega, e.1⟩, ?_⟩))
        have e2 : pre ++ 0x5B :: (n ++ 0x5D :: rest) = (pre ++ [0x5B]) ++ (n ++ 0x5D :: rest) := by simp
        have e3 : pre.length + 1 = (pre ++ [0x5B]).length := by simp
        rw [e2, e3] at h3
        have hxr : (seenBracket s).isInXr = false := by unfold seenBracket; split <;> exact hs.2.1
        have hxt : (seenBracket s).isInTag = false := by unfold seenBracket; split <;> exact hs.2.2
        have := nskip_tag n (pre ++ [0x5B]) h1 h2 (by simp) (by rfl) (by exact hxr) h3
        rw [e2, show pre.length + n.length + 2 = (pre ++ [0x5B]).length + n.length + 1 by simp; omega]
        have e6 : ({ ({ seenBracket s with isInTag := true } : NState) with isInTag := false } : NState) = seenBracket s := by
          cases hq : seenBracket s; rw [hq] at hxt; simp at hxt; simp [hxt]
        rw [e6] at this
        exact this

theorem seen_flags (hs : s.isInXp = false ∧ s.isInXr = false ∧ s.isInTag = false) :
    (seenBracket s).isInXp = false ∧ (seenBracket s).isInXr = false ∧ (seenBracket s).isInTag = false ∧ (seenBracket s).isInDigits = false := by
  unfold seenBracket
  cases hd : s.isInDigits with
  | true => exact ⟨hs.1, hs.2.1, hs.2.2, rfl⟩
  | false => exact ⟨hs.1, hs.2.1, hs.2.2, hd⟩

theorem seen_id (h : s.isInDigits = false) : seenBracket s = s := by unfold seenBracket; rw [h]; rfl

/-- The end of a section. -/
theorem nruns_end {pre rest : List Wc} (hd : s.isInDigits = false) (h : NRuns (pre ++ 0x5B :: 0x58 :: 0x5D :: rest) cap pre.length s r) :
    NRuns (pre ++ 0x5B :: 0x58 :: 0x5D :: rest) cap (pre.length + 3)
      { (if s.isInXp then { s with isInXp := false, xpPassed := true } else s) with isInXr := false } r := by
  have hb := nstep_bracket (cap := cap) (s := s) (pre := pre) (n := [0x58]) (rest := rest) (by decide) (by decide)
  simp only [seen_id hd] at hb
  rw [if_neg (by rintro ⟨_, e | e⟩ <;> revert e <;> decide), if_neg (by rintro ⟨_, e⟩; revert e; decide),
    if_neg (by rintro ⟨_, e⟩; revert e; decide), if_neg (by rintro ⟨_, e⟩; revert e; decide),
    if_neg (by rintro ⟨_, e | e | e⟩ <;> revert e <;> decide), if_pos (by decide)] at hb
  exact nruns_step h (by simp) hb

theorem nruns_sect {pre rest body : List Wc} {c : Wc} (hs : s.isInXp = false ∧ s.isInXr = false ∧ s.isInTag = false) (h1 : 0x5B ∉ body)
    (hc : c = 0x70 ∨ c = 0x6A ∨ c = 0x72 ∨ c = 0x73)
    (h : NRuns (pre ++ 0x5B :: 0x58 :: c :: 0x5D :: (body ++ 0x5B :: 0x58 :: 0x5D :: rest)) cap pre.length s r) :
    ∃ s', NRuns (pre ++ 0x5B :: 0x58 :: c :: 0x5D :: (body ++ 0x5B :: 0x58 :: 0x5D :: rest)) cap (pre.length + body.length + 7) s' r
      ∧ (s'.isInXp = false ∧ s'.isInXr = false ∧ s'.isInTag = false) ∧ s'.isInDigits = false
      ∧ (c = 0x70 ∨ c = 0x6A → s'.bf = s.bf ++ body ∧ s'.xpPassed = true) ∧ (c = 0x72 → s' = seenBracket s) := by
  obtain ⟨f1, f2, f3, f4⟩ := seen_flags hs
  have hbf : (seenBracket s).bf = s.bf := by unfold seenBracket; split <;> rfl
  have hl : pre.length + 6 < (pre ++ 0x5B :: ([0x58, c] ++ 0x5D :: (body ++ 0x5B :: 0x58 :: 0x5D :: rest))).length := by simp; omega
  have hb := nstep_bracket (cap := cap) (s := s) (pre := pre) (n := [0x58, c]) (rest := body ++ 0x5B :: 0x58 :: 0x5D :: rest)
    (by rcases hc with rfl | rfl | rfl | rfl <;> decide) (by simp)
  simp only [] at hb
  have e1 : pre ++ 0x5B :: ([0x58, c] ++ 0x5D :: (body ++ 0x5B :: 0x58 :: 0x5D :: rest)) = pre ++ 0x5B :: 0x58 :: c :: 0x5D :: (body ++ 0x5B :: 0x58 :: 0x5D :: rest) := by simp
  have e2 : pre ++ 0x5B :: 0x58 :: c :: 0x5D :: (body ++ 0x5B :: 0x58 :: 0x5D :: rest) = (pre ++ [0x5B, 0x58, c, 0x5D]) ++ (body ++ 0x5B :: 0x58 :: 0x5D :: rest) := by simp
  have e3 : pre.length + 3 + 1 = (pre ++ [0x5B, 0x58, c, 0x5D]).length := by simp
  have e4 : pre ++ 0x5B :: 0x58 :: c :: 0x5D :: (body ++ 0x5B :: 0x58 :: 0x5D :: rest) = (pre ++ 0x5B :: 0x58 :: c :: 0x5D :: body) ++ 0x5B :: 0x58 :: 0x5D :: rest := by simp
  have e5 : (pre ++ [0x5B, 0x58, c, 0x5D]).length + body.length = (pre ++ 0x5B :: 0x58 :: c :: 0x5D :: body).length := by simp; omega
  have e6 : pre.length + body.length + 7 = (pre ++ 0x5B :: 0x58 :: c :: 0x5D :: body).length + 3 := by simp; omega
  have hi : pre.length < (pre ++ 0x5B :: 0x58 :: c :: 0x5D :: (body ++ 0x5B :: 0x58 :: 0x5D :: rest)).length := by simp
  rw [e1] at hb hl
  by_cases hpj : c = 0x70 ∨ c = 0x6A
  · rw [if_pos ⟨hl, by rcases hpj with rfl | rfl <;> decide⟩] at hb
    have h2 := nruns_step h hi hb
    rw [e2, e3] at h2
    have h3 := ncopy_xp body _ _ h1 (by simp) (by rfl) (by exact f2) (by exact f3) h2
    rw [e5, ← e2, e4] at h3
    have h4 := nruns_end (by exact f4) h3
    rw [← e4, ← e6] at h4
    refine ⟨_, h4, ⟨by rfl, by rfl, by exact f3⟩, by exact f4, fun _ => ⟨by show (seenBracket s).bf ++ body = _; rw [hbf], rfl⟩, fun e => ?_⟩
    rcases hpj with rfl | rfl <;> cases e
  · rw [if_neg (fun e => hpj (by
      rcases e.2 with e | e
      · left; rw [show lit "Xp" = [0x58, 0x70] by decide] at e; cases e; rfl
      · right; rw [show lit "Xj" = [0x58, 0x6A] by decide] at e; cases e; rfl))] at hb
    by_cases hr : c = 0x72
    · subst hr
      rw [if_pos ⟨hl, by decide⟩] at hb
      have h2 := nruns_step h hi hb
      rw [e2, e3] at h2
      have h3 := nskip_xr body _ h1 (by simp) (by rfl) h2
      rw [e5, ← e2, e4] at h3
      have h4 := nruns_end (by exact f4) h3
      rw [← e4, ← e6] at h4
      have e7 : ({ (if ({ seenBracket s with isInXr := true } : NState).isInXp then { ({ seenBracket s with isInXr := true } : NState) with isInXp := false, xpPassed := true } else ({ seenBracket s with isInXr := true } : NState)) with isInXr := false } : NState) = seenBracket s := by
        cases hq : seenBracket s; rw [hq] at f1 f2; simp at f1 f2; simp [f1, f2]
      rw [e7] at h4
      exact ⟨_, h4, ⟨f1, f2, f3⟩, f4, fun e => absurd e hpj, fun _ => rfl⟩
    · have hc' : c = 0x73 := by
        rcases hc with h | h | h | h
        · exact absurd (Or.inl h) hpj
        · exact absurd (Or.inr h) hpj
        · exact absurd h hr
        · exact h
      subst hc'
      rw [if_neg (by rintro ⟨_, e⟩; revert e; decide), if_neg (by rintro ⟨_, e⟩; revert e; decide), if_neg (by rintro ⟨_, e⟩; revert e; decide),
        if_neg (by rintro ⟨_, e | e | e⟩ <;> revert e <;> decide), if_neg (by decide)] at hb
      have h2 := nruns_step h hi hb
      have g1 : pre ++ 0x5B :: 0x58 :: 0x73 :: 0x5D :: (body ++ 0x5B :: 0x58 :: 0x5D :: rest) = (pre ++ [0x5B]) ++ ([0x58, 0x73] ++ 0x5D :: (body ++ 0x5B :: 0x58 :: 0x5D :: rest)) := by simp
      have g2 : pre.length + 1 = (pre ++ [0x5B]).length := by simp
      rw [g1, g2] at h2
      have h3 := nskip_tag [0x58, 0x73] _ (by decide) (by decide) (by simp) (by rfl) (by exact f2) h2
      have g3 : (pre ++ [0x5B]).length + [0x58, 0x73].length + 1 = (pre ++ [0x5B, 0x58, 0x73, 0x5D]).length := by simp
      rw [g3, ← g1, e2] at h3
      obtain ⟨t, h4⟩ := nskip_text body _ _ h1 (by simp) (by exact f1) (by exact f2) (by rfl) (by exact f4) h3
      rw [e5, ← e2, e4] at h4
      have h5 := nruns_end (by exact f4) h4
      rw [← e4, ← e6] at h5
      refine ⟨_, h5, ⟨?_, by rfl, ?_⟩, ?_, fun e => absurd e hpj, fun e => absurd e (by decide)⟩
      · show (if (seenBracket s).isInXp = true then _ else _ : NState).isInXp = false
        rw [if_neg (by rw [f1]; simp)]; exact f1
      · show (if (seenBracket s).isInXp = true then _ else _ : NState).isInTag = false
        rw [if_neg (by rw [f1]; simp)]
      · show (if (seenBracket s).isInXp = true then _ else _ : NState).isInDigits = false
        rw [if_neg (by rw [f1]; simp)]; exact f4

/-- What is still to be written. -/
def textFrom (s : NState) (R : List SItem) : List Wc :=
  if s.isInDigits then leading R ++ numeralText false (after R) else numeralText (!s.xpPassed) R

theorem textFrom_seen (s : NState) (x : SItem) (R : List SItem) (hx : ∀ c, x ≠ .chr c) :
    textFrom (seenBracket s) (x :: R) = textFrom s (x :: R) := by
  unfold seenBracket
  cases hd : s.isInDigits with
  | false => rfl
  | true =>
    have e1 : leading (x :: R) = [] := by cases x <;> first | rfl | exact absurd rfl (hx _)
    have e2 : after (x :: R) = x :: R := by cases x <;> first | rfl | exact absurd rfl (hx _)
    unfold textFrom
    rw [e1, e2, hd]
    rfl

theorem nominal_name {x : SItem} {n : List Wc} (hu : UItem x) (h : nameOf x = some n) : (n = lit "Ln" ∨ n = lit "Ll" ∨ n = lit "Lnl") ↔ Nominal x := by
  rw [show lit "Ln" = [0x4C, 0x6E] by decide, show lit "Ll" = [0x4C, 0x6C] by decide, show lit "Lnl" = [0x4C, 0x6E, 0x6C] by decide]
  unfold Nominal
  cases x with
  | cls c => cases h; simp
  | cls2 c d => cases h; simp
  | tag m =>
    cases h
    have := hu.2.1
    simp only [reduceCtorEq, or_self, iff_false]
    rintro (e | e | e) <;> rw [e] at this <;> exact this rfl
  | bound c => cases h; simp
  | sect c b => cases h
  | pat p => cases h
  | chr c => cases h

theorem bound_name {x : SItem} {n : List Wc} (hu : UItem x) (h : nameOf x = some n) : n = lit "Bc" ↔ x = .bound 0x63 := by
  rw [show lit "Bc" = [0x42, 0x63] by decide]
  cases x with
  | cls c => cases h; simp
  | cls2 c d => cases h; simp
  | tag m => cases h; simp only [reduceCtorEq, iff_false]; exact hu.2.2
  | bound c => cases h; simp
  | sect c b => cases h
  | pat p => cases h
  | chr c => cases h

theorem goesOn_cons {x : SItem} {R : List SItem} : GoesOn (x :: R) ↔ (Nominal x ∧ 7 ≤ (render (x :: R)).length) ∨ GoesOn R := by
  constructor
  · rintro ⟨A, y, B, h, h2, h3⟩
    cases A with
    | nil => cases h; exact Or.inl ⟨h2, h3⟩
    | cons a A => cases h; exact Or.inr ⟨A, y, B, rfl, h2, h3⟩
  · rintro (⟨h1, h2⟩ | ⟨A, y, B, rfl, h2, h3⟩)
    · exact ⟨[], x, R, rfl, h1, h2⟩
    · exact ⟨x :: A, y, B, rfl, h2, h3⟩

theorem plain_cons {x : SItem} {R : List SItem} (h : PlainNumeral (x :: R)) : PlainNumeral R :=
  ⟨fun b hb => h.1 b (List.mem_cons_of_mem _ hb), fun A c B e => h.2 (x :: A) c B (by rw [e]; rfl)⟩

/-- The whole loop. -/
theorem nruns_items : ∀ (R : List SItem) (pre : List Wc) (s : NState), Tidy R → (∀ x ∈ R, UItem x) →
    (s.isInXp = false ∧ s.isInXr = false ∧ s.isInTag = false) → (pre = [] → digitFirst R = true → s.isInDigits = true) →
    NRuns (pre ++ render R) cap pre.length s r →
    (GoesOn R → r = none) ∧ (¬ GoesOn R → PlainNumeral R → r = some (s.bf ++ textFrom s R)) := by
  intro R
  induction R with
  | nil =>
    intro pre s _ _ _ _ h
    obtain ⟨f, h⟩ := h
    cases f with
    | zero => cases h
    | succ f =>
      rw [nbLoop, if_neg (by simp [render])] at h
      refine ⟨fun ⟨A, x, B, e, _⟩ => by simp at e, fun _ _ => ?_⟩
      split at h
      · rw [← Option.some.inj h]
        unfold textFrom
        split <;> simp [leading, after, numeralText]
      · cases h
  | cons x R ih =>
    intro pre s ht hu hs hd h
    have ht' : Tidy R := fun y hy => ht y (List.mem_cons_of_mem _ hy)
    have hu' : ∀ y ∈ R, UItem y := fun y hy => hu y (List.mem_cons_of_mem _ hy)
    have hxu := hu x List.mem_cons_self
    have hxt := ht x List.mem_cons_self
    have e0 : pre ++ render (x :: R) = (pre ++ x.render) ++ render R := by rw [render, List.append_assoc]
    -- the next items
    have go : ∀ s' : NState, (s'.isInXp = false ∧ s'.isInXr = false ∧ s'.isInTag = false) → x.render ≠ [] →
        NRuns (pre ++ render (x :: R)) cap (pre.length + x.render.length) s' r →
        (GoesOn R → r = none) ∧ (¬ GoesOn R → PlainNumeral R → r = some (s'.bf ++ textFrom s' R)) := by
      intro s' hs' hne h'
      rw [e0, ← List.length_append] at h'
      exact ih (pre ++ x.render) s' ht' hu' hs' (fun e => absurd (List.append_eq_nil_iff.1 e).2 hne) h'
    -- the same text, by items that are not nominal classes
    have join : ∀ s' : NState, ¬ Nominal x → (PlainNumeral (x :: R) → s'.bf ++ textFrom s' R = s.bf ++ textFrom s (x :: R)) →
        (GoesOn R → r = none) ∧ (¬ GoesOn R → PlainNumeral R → r = some (s'.bf ++ textFrom s' R)) →
        (GoesOn (x :: R) → r = none) ∧ (¬ GoesOn (x :: R) → PlainNumeral (x :: R) → r = some (s.bf ++ textFrom s (x :: R))) := by
      intro s' hnn htx hg
      refine ⟨fun hgo => ?_, fun hno hp => ?_⟩
      · rcases goesOn_cons.1 hgo with hgo | hgo
        · exact absurd hgo.1 hnn
        · exact hg.1 hgo
      · rw [← htx hp]
        exact hg.2 (fun hgo => hno (goesOn_cons.2 (Or.inr hgo))) (plain_cons hp)
    -- tags
    have tagged : ∀ n, nameOf x = some n → n.head? ≠ some 0x58 → (∀ c, x ≠ .chr c) →
        (∀ on, x ≠ .bound 0x63 → numeralText on (x :: R) = numeralText on R) →
        (GoesOn (x :: R) → r = none) ∧ (¬ GoesOn (x :: R) → PlainNumeral (x :: R) → r = some (s.bf ++ textFrom s (x :: R))) := by
      intro n hn hX hchr hskip
      obtain ⟨h1, h2, h3, h4⟩ := tidy_name hxt hn
      obtain ⟨f1, f2, f3, f4⟩ := seen_flags hs
      have hbf : (seenBracket s).bf = s.bf := by unfold seenBracket; split <;> rfl
      have e1 : pre ++ render (x :: R) = pre ++ 0x5B :: (n ++ 0x5D :: render R) := by rw [render, h4]; simp
      have hlen : (render (x :: R)).length = (0x5B :: (n ++ 0x5D :: render R)).length := by rw [render, h4]; simp
      have hxl : x.render.length = n.length + 2 := by rw [h4]; simp
      have hne : x.render ≠ [] := by rw [h4]; simp
      have hh := h
      rw [e1] at hh
      rcases nruns_tag hs h2 h3 h1 hX hh with ⟨g1, g2, g3⟩ | ⟨g1, g2, g3⟩ | ⟨g1, g2, g3⟩ | ⟨g1, g2, g3⟩
      · have hb := (bound_name hxu hn).1 g1
        refine ⟨fun _ => g3, fun _ hp => ?_⟩
        have := hp.2 [] 0x63 R (by rw [hb]; rfl)
        rw [← hb, hlen, g2, g1] at this
        exact absurd this (by decide)
      · have hb := (bound_name hxu hn).1 g1
        rw [← e1, Nat.add_assoc, ← hxl] at g3
        refine join { seenBracket s with xpPassed := false } (by rw [hb]; rintro (e | e | e) <;> cases e) (fun _ => ?_)
          (go { seenBracket s with xpPassed := false } ⟨f1, f2, f3⟩ hne g3)
        show (seenBracket s).bf ++ _ = _
        rw [hbf, ← textFrom_seen s x R hchr, hb]
        unfold textFrom
        rw [if_neg (by simp [f4]), if_neg (by simp [f4]), numeralText]
        simp
      · have hnm := (nominal_name hxu hn).1 g1
        refine ⟨fun _ => g3, fun hno _ => absurd (goesOn_cons.2 (Or.inl ⟨hnm, by omega⟩)) hno⟩
      · rw [← e1, Nat.add_assoc, ← hxl] at g3
        have hg := go _ ⟨f1, f2, f3⟩ hne g3
        refine ⟨fun hgo => ?_, fun hno hp => ?_⟩
        · rcases goesOn_cons.1 hgo with hgo | hgo
          · exact absurd ⟨(nominal_name hxu hn).2 hgo.1, by rw [← hlen]; exact hgo.2⟩ g2
          · exact hg.1 hgo
        · rw [hg.2 (fun hgo => hno (goesOn_cons.2 (Or.inr hgo))) (plain_cons hp), hbf, ← textFrom_seen s x R hchr]
          have hnb : x ≠ .bound 0x63 := by
            intro hb
            have := hp.2 [] 0x63 R (by rw [hb]; rfl)
            rw [← hb, hlen] at this
            exact g1 ⟨(bound_name hxu hn).2 hb, Or.inl this⟩
          unfold textFrom
          rw [if_neg (by simp [f4]), if_neg (by simp [f4]), hskip _ hnb]
    have sect : ∀ c body, x.render = 0x5B :: 0x58 :: c :: 0x5D :: (body ++ [0x5B, 0x58, 0x5D]) → 0x5B ∉ body → (c = 0x70 ∨ c = 0x6A ∨ c = 0x72 ∨ c = 0x73) →
        ∃ s', NRuns (pre ++ render (x :: R)) cap (pre.length + x.render.length) s' r ∧ (s'.isInXp = false ∧ s'.isInXr = false ∧ s'.isInTag = false)
          ∧ s'.isInDigits = false ∧ (c = 0x70 ∨ c = 0x6A → s'.bf = s.bf ++ body ∧ s'.xpPassed = true) ∧ (c = 0x72 → s' = seenBracket s) := by
      intro c body h3 hb hc
      have e1 : pre ++ render (x :: R) = pre ++ 0x5B :: 0x58 :: c :: 0x5D :: (body ++ 0x5B :: 0x58 :: 0x5D :: render R) := by rw [render, h3]; simp
      have e2 : pre.length + x.render.length = pre.length + body.length + 7 := by rw [h3]; simp; omega
      rw [e1, e2]
      rw [e1] at h
      exact nruns_sect hs hb hc h
    cases x with
    | cls c => exact tagged [0x4C, c] rfl (by simp) (by simp) (fun on _ => rfl)
    | cls2 c d => exact tagged [0x4C, c, d] rfl (by simp) (by simp) (fun on _ => rfl)
    | tag n => exact tagged n rfl hxu.1 (by simp) (fun on _ => rfl)
    | bound c =>
      refine tagged [0x42, c] rfl (by simp) (by simp) (fun on hb => ?_)
      have : c ≠ 0x63 := fun e => hb (by rw [e])
      rw [numeralText]
      simp [this]
    | sect c body =>
      have hc : c = 0x70 ∨ c = 0x6A ∨ c = 0x73 := hxu
      obtain ⟨s', g1, g2, g3, g4, _⟩ := sect c body rfl hxt.2 (by rcases hc with rfl | rfl | rfl <;> decide)
      refine join s' (by rintro (e | e | e) <;> cases e) (fun hp => ?_) (go s' g2 (by simp [SItem.render]) g1)
      have hpj : c = 0x70 ∨ c = 0x6A := by
        rcases hc with h | h | h
        · exact Or.inl h
        · exact Or.inr h
        · exact absurd (by rw [h]; simp) (hp.1 body)
      obtain ⟨g5, g6⟩ := g4 hpj
      rw [g5, ← textFrom_seen s _ R (by simp)]
      obtain ⟨f1, f2, f3, f4⟩ := seen_flags hs
      unfold textFrom
      rw [if_neg (by simp [g3]), if_neg (by simp [f4]), numeralText, if_pos hpj, g6, List.append_assoc]
      rfl
    | pat p =>
      obtain ⟨s', g1, g2, g3, _, g4⟩ := sect 0x72 p rfl hxt (by decide)
      have g4' := g4 rfl
      subst g4'
      have hbf : (seenBracket s).bf = s.bf := by unfold seenBracket; split <;> rfl
      refine join _ (by rintro (e | e | e) <;> cases e) (fun hp => ?_) (go _ g2 (by simp [SItem.render]) g1)
      rw [hbf, ← textFrom_seen s _ R (by simp)]
      unfold textFrom
      rw [if_neg (by simp [g3]), if_neg (by simp [g3]), numeralText]
      all_goals simp
    | chr c =>
      have hc : c ≠ 0x5B := hxt.1
      have hen : enter pre.length c s = s := by
        unfold enter
        split
        · rename_i hcond
          have : s.isInDigits = true := hd (List.length_eq_zero_iff.1 hcond.1) (by unfold digitFirst; simpa using hcond.2)
          cases s; simp at this; simp [this]
        · rfl
      obtain ⟨v, hv, h3⟩ := nruns_cases h (by simp [render, SItem.render])
      have e1 : pre ++ render (.chr c :: R) = pre ++ c :: render R := rfl
      rw [e1, nstep_char hc, hen] at hv
      simp only [] at hv
      rw [if_neg (by simp [hs.2.1]), if_neg (by simp [hs.2.2])] at hv
      have hnn : ¬ Nominal (.chr c) := by rintro (e | e | e) <;> cases e
      have written : ∀ bf, push cap s.bf c = some bf → v = some (pre.length, { s with bf := bf }) → textFrom s (.chr c :: R) = c :: textFrom s R →
          (GoesOn (.chr c :: R) → r = none) ∧ (¬ GoesOn (.chr c :: R) → PlainNumeral (.chr c :: R) → r = some (s.bf ++ textFrom s (.chr c :: R))) := by
        intro bf hbf hv htx
        subst hv
        rcases h3 with ⟨h3, _⟩ | ⟨_, _, hj, h3⟩
        · cases h3
        · cases hj
          refine join { s with bf := bf } hnn (fun _ => ?_) (go _ hs (by simp [SItem.render]) h3)
          show bf ++ textFrom s R = _
          rw [push_eq hbf, htx]; simp
      by_cases hdg : s.isInDigits = true
      · rw [if_pos (Or.inr hdg)] at hv
        obtain ⟨bf, hbf, hv⟩ := Option.bind_eq_some_iff.1 hv
        refine written bf hbf (Option.some.inj hv).symm ?_
        unfold textFrom
        rw [if_pos hdg, if_pos hdg]
        rfl
      · rw [if_neg (by simp [hs.1, hdg])] at hv
        by_cases hon : (!s.xpPassed) = true ∨ c = 0x2D
        · rw [if_pos hon] at hv
          obtain ⟨bf, hbf, hv⟩ := Option.bind_eq_some_iff.1 hv
          refine written bf hbf (Option.some.inj hv).symm ?_
          unfold textFrom
          rw [if_neg hdg, if_neg hdg, numeralText, if_pos hon]
        · rw [if_neg hon] at hv
          cases hv
          rcases h3 with ⟨h3, _⟩ | ⟨_, _, hj, h3⟩
          · cases h3
          · cases hj
            refine join s hnn (fun _ => ?_) (go _ hs (by simp [SItem.render]) h3)
            unfold textFrom
            rw [if_neg hdg, if_neg hdg, numeralText, if_neg hon]

/-- The base form of a numeral. -/
theorem parseNumeral_spec {R : List SItem} {q : Option (List Wc)} (ht : Tidy R) (hu : ∀ x ∈ R, UItem x)
    (h : parseNumeralBaseform (render R) cap = some q) :
    (GoesOn R → q = none) ∧ (¬ GoesOn R → PlainNumeral R → q = some (numeralBase R)) := by
  have hr : NRuns ([] ++ render R) cap 0 {} q := ⟨_, h⟩
  by_cases hd : digitFirst R = true
  · have hr2 : NRuns ([] ++ render R) cap 0 { isInDigits := true } q := by
      obtain ⟨f, hr⟩ := hr
      cases f with
      | zero => cases hr
      | succ f =>
        refine ⟨f + 1, ?_⟩
        rw [nbLoop] at hr ⊢
        have : nbStep ([] ++ render R) cap 0 {} = nbStep ([] ++ render R) cap 0 { isInDigits := true } := by
          cases R with
          | nil => cases hd
          | cons x R =>
            cases x with
            | chr c =>
              have hc : c ≠ 0x5B := (ht _ List.mem_cons_self).1
              have hdc : isDigit c = true ∨ c = 0x2D := by unfold digitFirst at hd; simpa using hd
              have e1 := nstep_char (cap := cap) (s := {}) (pre := []) (rest := render R) hc
              have e2 := nstep_char (cap := cap) (s := { isInDigits := true }) (pre := []) (rest := render R) hc
              have e3 : enter ([] : List Wc).length c {} = enter ([] : List Wc).length c { isInDigits := true } := by
                unfold enter; rw [if_pos ⟨rfl, hdc⟩, if_pos ⟨rfl, hdc⟩]
              rw [e3] at e1
              exact e1.trans e2.symm
            | cls c => cases hd
            | cls2 c d => cases hd
            | tag n => cases hd
            | bound c => cases hd
            | sect c b => cases hd
            | pat p => cases hd
        rw [← this]
        exact hr
    have := nruns_items R [] _ ht hu ⟨rfl, rfl, rfl⟩ (fun _ _ => rfl) hr2
    unfold numeralBase
    rw [if_pos hd]
    exact this
  · have := nruns_items R [] _ ht hu ⟨rfl, rfl, rfl⟩ (fun _ h => absurd h hd) hr
    unfold numeralBase
    rw [if_neg hd]
    exact this

end Verif.Baseform
