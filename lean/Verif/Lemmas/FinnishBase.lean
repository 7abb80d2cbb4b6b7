import Verif.Spec.Baseform
import Verif.Lemmas.FinnishNumeral
import Mathlib.Data.List.Induction
/-!
# The loop that makes the base form, item by item (for C80)
-/

set_option linter.unusedSimpArgs false
set_option linter.unusedVariables false

namespace Verif.Baseform
open Verif
open Verif.Validity (drop_pre)
open Verif.Attrs (Tidy TidyItem nameOf tagsFrom tidy_name prefix_name tag_at render_app)

/-- The loop ends with `r`. -/
def Runs (out : List Wc) (cap i : Nat) (s : FState) (r : Option (List Wc)) : Prop := ∃ f, bfLoop out cap f i s = some r

variable {out : List Wc} {cap i : Nat} {s : FState} {r : Option (List Wc)}

theorem runs_cases (h : Runs out cap i s r) (hi : i < out.length) : ∃ v, bfStep out cap i s = some v ∧
    (v = .inl r ∨ ∃ j s', v = .inr (j, s') ∧ Runs out cap (j + 1) s' r) := by
  obtain ⟨f, h⟩ := h
  cases f with
  | zero => cases h
  | succ f =>
    rw [bfLoop, if_pos hi] at h
    obtain ⟨v, hv, h⟩ := Option.bind_eq_some_iff.1 h
    refine ⟨v, hv, ?_⟩
    cases v with
    | inl q => cases h; exact Or.inl rfl
    | inr q => obtain ⟨j, s'⟩ := q; exact Or.inr ⟨j, s', rfl, f, h⟩

theorem runs_step (h : Runs out cap i s r) (hi : i < out.length) {j : Nat} {s' : FState} (hs : bfStep out cap i s = some (.inr (j, s'))) :
    Runs out cap (j + 1) s' r := by
  obtain ⟨v, hv, h⟩ := runs_cases h hi
  rw [hs] at hv
  cases hv
  rcases h with h | ⟨j', s2, h, h2⟩
  · cases h
  · cases h; exact h2

theorem read_at (pre rest : List Wc) (c : Wc) : rdz (pre ++ c :: rest) pre.length = some c := by rw [rdz_app0]; rfl

theorem bfStep_plain {pre rest : List Wc} {c : Wc} (hc : c ≠ 0x5B) : bfStep (pre ++ c :: rest) cap pre.length s =
    if s.isInXr then some (.inr (pre.length, s))
    else if s.isInTag then some (.inr (pre.length, if c = 0x5D then { s with isInTag := false } else s))
    else if s.isInXp then some (.inr (pre.length, if c = 0x2D then { s with xpHyphens := s.xpHyphens + 1 } else s))
    else (if c = 0x2D then bfHyphen (pre ++ c :: rest) cap pre.length s else some s).bind fun s =>
      (push cap s.bf (applyPattern c s.sp).1).bind fun bf => some (.inr (pre.length, { s with bf := bf, sp := (applyPattern c s.sp).2 })) := by
  rw [bfStep, read_at]
  simp only [Option.bind_eq_bind, Option.bind_some, if_neg hc, Option.pure_def]

theorem runs_char {pre rest : List Wc} {c : Wc} {s' : FState} (h : Runs (pre ++ c :: rest) cap pre.length s r)
    (hs : bfStep (pre ++ c :: rest) cap pre.length s = some (.inr (pre.length, s'))) : Runs (pre ++ c :: rest) cap (pre ++ [c]).length s' r := by
  have := runs_step h (by simp) hs
  rw [List.length_append]
  exact this

theorem skip_tag {rest : List Wc} : ∀ (n pre : List Wc), 0x5B ∉ n → 0x5D ∉ n → s.isInTag = true → s.isInXr = false →
    Runs (pre ++ (n ++ 0x5D :: rest)) cap pre.length s r → Runs (pre ++ (n ++ 0x5D :: rest)) cap (pre.length + n.length + 1) { s with isInTag := false } r := by
  intro n
  induction n with
  | nil =>
    intro pre _ _ ht hx h
    have := runs_char (c := 0x5D) (rest := rest) (s' := { s with isInTag := false }) h (by rw [bfStep_plain (by decide), hx, ht]; rfl)
    simpa using this
  | cons c n ih =>
    intro pre h1 h2 ht hx h
    have hc1 : c ≠ 0x5B := fun e => h1 (by simp [e])
    have hc2 : c ≠ 0x5D := fun e => h2 (by simp [e])
    have h3 := runs_char (c := c) (rest := n ++ 0x5D :: rest) (s' := s) h (by rw [bfStep_plain hc1, hx, ht]; simp [hc2])
    have e : pre ++ c :: (n ++ 0x5D :: rest) = (pre ++ [c]) ++ (n ++ 0x5D :: rest) := by simp
    rw [e] at h3
    have h4 := ih (pre ++ [c]) (fun e => h1 (List.mem_cons_of_mem _ e)) (fun e => h2 (List.mem_cons_of_mem _ e)) ht hx h3
    rw [← e] at h4
    have e2 : (pre ++ [c]).length + n.length + 1 = pre.length + (c :: n).length + 1 := by simp; omega
    rw [e2] at h4
    exact h4

theorem skip_xr {rest : List Wc} : ∀ (n pre : List Wc), 0x5B ∉ n → s.isInXr = true →
    Runs (pre ++ (n ++ rest)) cap pre.length s r → Runs (pre ++ (n ++ rest)) cap (pre.length + n.length) s r := by
  intro n
  induction n with
  | nil => intro pre _ _ h; exact h
  | cons c n ih =>
    intro pre h1 hx h
    have hc1 : c ≠ 0x5B := fun e => h1 (by simp [e])
    have h3 := runs_char (c := c) (rest := n ++ rest) (s' := s) h (by rw [bfStep_plain hc1, hx]; rfl)
    have e : pre ++ c :: (n ++ rest) = (pre ++ [c]) ++ (n ++ rest) := by simp
    rw [e] at h3
    have h4 := ih (pre ++ [c]) (fun e => h1 (List.mem_cons_of_mem _ e)) hx h3
    rw [← e] at h4
    have e2 : (pre ++ [c]).length + n.length = pre.length + (c :: n).length := by simp; omega
    rw [e2] at h4
    exact h4

theorem skip_xp {rest : List Wc} : ∀ (n pre : List Wc) (s : FState), 0x5B ∉ n → s.isInXp = true → s.isInXr = false → s.isInTag = false →
    Runs (pre ++ (n ++ rest)) cap pre.length s r →
    Runs (pre ++ (n ++ rest)) cap (pre.length + n.length) { s with xpHyphens := s.xpHyphens + hyphens n } r := by
  intro n
  induction n with
  | nil => intro pre s _ _ _ _ h; exact h
  | cons c n ih =>
    intro pre s h1 hx hr ht h
    have hc1 : c ≠ 0x5B := fun e => h1 (by simp [e])
    have h3 := runs_char (c := c) (rest := n ++ rest) (s' := if c = 0x2D then { s with xpHyphens := s.xpHyphens + 1 } else s) h
      (by rw [bfStep_plain hc1, if_neg (by rw [hr]; decide), if_neg (by rw [ht]; decide), if_pos hx])
    have e : pre ++ c :: (n ++ rest) = (pre ++ [c]) ++ (n ++ rest) := by simp
    rw [e] at h3
    have e2 : (pre ++ [c]).length + n.length = pre.length + (c :: n).length := by simp; omega
    by_cases hc : c = 0x2D
    · rw [if_pos hc] at h3
      have h4 := ih (pre ++ [c]) _ (fun e => h1 (List.mem_cons_of_mem _ e)) (by exact hx) (by exact hr) (by exact ht) h3
      rw [← e, e2] at h4
      have e3 : s.xpHyphens + hyphens (c :: n) = s.xpHyphens + 1 + hyphens n := by
        unfold hyphens; rw [hc, List.count_cons_self]; omega
      have e4 : ({ s with xpHyphens := s.xpHyphens + hyphens (c :: n) } : FState) = { s with xpHyphens := s.xpHyphens + 1 + hyphens n } := by rw [e3]
      rw [e4]
      exact h4
    · rw [if_neg hc] at h3
      have h4 := ih (pre ++ [c]) _ (fun e => h1 (List.mem_cons_of_mem _ e)) (by exact hx) (by exact hr) (by exact ht) h3
      rw [← e, e2] at h4
      have e3 : hyphens (c :: n) = hyphens n := by
        unfold hyphens; rw [List.count_cons_of_ne (fun e => hc e)]
      rw [e3]
      exact h4

/-- What the loop does at a bracket. -/
theorem bracket_eq {pre t : List Wc} {a b : Wc} {lu de : Bool} (h2 : pre.length + 2 < (pre ++ 0x5B :: a :: b :: t).length)
    (hlu : (lit "Lu]").isPrefixOf (a :: b :: t) = lu) (hde : (lit "De]").isPrefixOf (a :: b :: t) = de) :
    bfStep (pre ++ 0x5B :: a :: b :: t) cap pre.length s =
    ((if pre.length + 6 < (pre ++ 0x5B :: a :: b :: t).length then rdz (pre ++ 0x5B :: a :: b :: t) (pre.length + 3) else some 0).bind fun c3 =>
    if a = 0x58 then
      if b = 0x5D then some (.inr (pre.length + 2, { s with isInXp := false, isInXr := false }))
      else if pre.length + 6 < (pre ++ 0x5B :: a :: b :: t).length ∧ c3 = 0x5D then
        if b = 0x70 ∨ b = 0x6A then
          some (.inr (pre.length + 3, { s with isInXp := true, xpFst := pre.length + 4, xpBase := s.bf.length, xpHyphens := 0 }))
        else if b = 0x72 ∨ b = 0x73 then some (.inr (pre.length + 3, { s with isInXr := true }))
        else some (.inr (pre.length, s))
      else some (.inr (pre.length, s))
    else if !s.classTagSeen ∧ pre.length + 6 < (pre ++ 0x5B :: a :: b :: t).length ∧ lu then
      (parseNumeralBaseform ((pre ++ 0x5B :: a :: b :: t).drop (pre.length + 4)) (cap - s.bf.length)).bind fun r =>
      match r with
      | some nb => some (.inl (some (s.bf ++ nb)))
      | none => some (.inr (pre.length + 3, { s with classTagSeen := true }))
    else if de then some (.inr (pre.length + 3, { s with isDe := !s.ignoreNextDe }))
    else if a = 0x4C then
      (if pre.length + 3 ≥ (pre ++ 0x5B :: a :: b :: t).length then some true
        else (cmpz (pre ++ 0x5B :: a :: b :: t) (pre.length + 2) (lit "nl")).bind fun nl => some (decide (b ≠ 0x6C ∧ (!nl) = true)) : UB Bool).bind fun ig =>
      some (.inr (pre.length, { s with classTagSeen := true, isDe := false, ignoreNextDe := ig, isInTag := true }))
    else some (.inr (pre.length, { s with isInTag := true }))) := by
  rw [bfStep, read_at]
  simp only [Option.bind_eq_bind, Option.bind_some, if_true]
  rw [bfBracket, if_neg (by omega)]
  have r1 : rdz (pre ++ 0x5B :: a :: b :: t) (pre.length + 1) = some a := by rw [rdz_app]; rfl
  have r2 : rdz (pre ++ 0x5B :: a :: b :: t) (pre.length + 2) = some b := by rw [rdz_app]; rfl
  have r3 : cmpz (pre ++ 0x5B :: a :: b :: t) (pre.length + 1) (lit "Lu]") = some lu := by
    rw [cmpz_eq (by omega) (by decide), drop_pre]; exact congrArg some hlu
  have r4 : cmpz (pre ++ 0x5B :: a :: b :: t) (pre.length + 1) (lit "De]") = some de := by
    rw [cmpz_eq (by omega) (by decide), drop_pre]; exact congrArg some hde
  rw [r1, r2, r3, r4]
  simp only [Option.bind_eq_bind, Option.bind_some, Option.pure_def]
  rfl

theorem lu_iff {n rest : List Wc} (h : 0x5D ∉ n) : (lit "Lu]").isPrefixOf (n ++ 0x5D :: rest) = (n == lit "Lu") :=
  prefix_name (q := lit "Lu") (by decide) n rest h

theorem de_iff {n rest : List Wc} (h : 0x5D ∉ n) : (lit "De]").isPrefixOf (n ++ 0x5D :: rest) = (n == lit "De") :=
  prefix_name (q := lit "De") (by decide) n rest h

/-- A tag `[a...]`. -/
theorem runs_tag {pre rest m : List Wc} {a : Wc} (h1 : 0x5B ∉ a :: m) (h2 : 0x5D ∉ a :: m) (hX : a ≠ 0x58) (hL : a = 0x4C → m ≠ [])
    (hlu : a :: m = lit "Lu" → s.classTagSeen = true ∨ rest.length < 3) (hr : s.isInXr = false) (ht : s.isInTag = false)
    (h : Runs (pre ++ 0x5B :: (a :: m ++ 0x5D :: rest)) cap pre.length s r) :
    Runs (pre ++ 0x5B :: (a :: m ++ 0x5D :: rest)) cap (pre.length + m.length + 3)
      (if a :: m = lit "De" then { s with isDe := !s.ignoreNextDe }
       else if a = 0x4C then { s with classTagSeen := true, isDe := false, ignoreNextDe := decide (m.head? ≠ some 0x6C ∧ ¬ (lit "nl").isPrefixOf m = true) }
       else s) r := by
  obtain ⟨b, t, hbt⟩ : ∃ b t, m ++ 0x5D :: rest = b :: t := by cases m with | nil => exact ⟨_, _, rfl⟩ | cons b m => exact ⟨b, m ++ 0x5D :: rest, rfl⟩
  have e : pre ++ 0x5B :: (a :: m ++ 0x5D :: rest) = pre ++ 0x5B :: a :: b :: t := by rw [← hbt]; rfl
  have hlu' : (lit "Lu]").isPrefixOf (a :: b :: t) = (a :: m == lit "Lu") := by rw [← hbt]; exact lu_iff h2
  have hde' : (lit "De]").isPrefixOf (a :: b :: t) = (a :: m == lit "De") := by rw [← hbt]; exact de_iff h2
  have hlen : pre.length + 2 < (pre ++ 0x5B :: a :: b :: t).length := by simp
  have hi : pre.length < (pre ++ 0x5B :: a :: b :: t).length := by omega
  have hc3 : ∃ c3, (if pre.length + 6 < (pre ++ 0x5B :: a :: b :: t).length then rdz (pre ++ 0x5B :: a :: b :: t) (pre.length + 3) else some 0) = some c3 := by
    by_cases h6 : pre.length + 6 < (pre ++ 0x5B :: a :: b :: t).length
    · rw [if_pos h6, rdz_lt (by omega)]; exact ⟨_, rfl⟩
    · rw [if_neg h6]; exact ⟨_, rfl⟩
  obtain ⟨c3, hc3⟩ := hc3
  have hb := bracket_eq (cap := cap) (s := s) hlen hlu' hde'
  rw [hc3, Option.bind_some, if_neg hX] at hb
  have hlu2 : ¬ ((!s.classTagSeen) = true ∧ pre.length + 6 < (pre ++ 0x5B :: a :: b :: t).length ∧ (a :: m == lit "Lu") = true) := by
    rintro ⟨h3, h6, h4⟩
    have h4' : a :: m = lit "Lu" := by simpa using h4
    rcases hlu h4' with h5 | h5
    · rw [h5] at h3
      cases h3
    · rw [← e, h4', show lit "Lu" = [0x4C, 0x75] by decide] at h6
      simp at h6
      omega
  rw [if_neg hlu2] at hb
  rw [e] at h ⊢
  -- the rest of the tag
  have close : ∀ s' : FState, s'.isInTag = true → s'.isInXr = false → bfStep (pre ++ 0x5B :: a :: b :: t) cap pre.length s = some (.inr (pre.length, s')) →
      Runs (pre ++ 0x5B :: a :: b :: t) cap (pre.length + m.length + 3) { s' with isInTag := false } r := by
    intro s' g1 g2 g3
    have h3 := runs_step h hi g3
    have e2 : pre ++ 0x5B :: a :: b :: t = (pre ++ [0x5B]) ++ ((a :: m) ++ 0x5D :: rest) := by rw [← e]; simp
    have e3 : pre.length + 1 = (pre ++ [0x5B]).length := by simp
    rw [e3] at h3
    rw [e2] at h3 ⊢
    have h4 := skip_tag (a :: m) (pre ++ [0x5B]) h1 h2 g1 g2 h3
    have e4 : (pre ++ [0x5B]).length + (a :: m).length + 1 = pre.length + m.length + 3 := by simp; omega
    rw [e4] at h4
    exact h4
  by_cases hd : a :: m = lit "De"
  · rw [if_pos hd]
    rw [if_pos (by simpa using hd)] at hb
    have h3 := runs_step h hi hb
    have e4 : pre.length + m.length + 3 = pre.length + 3 + 1 := by
      have : m.length = 1 := by
        have := congrArg List.length hd
        simpa [lit] using this
      omega
    rw [e4]
    exact h3
  · rw [if_neg hd]
    rw [if_neg (by simpa using hd)] at hb
    by_cases hl : a = 0x4C
    · rw [if_pos hl]
      rw [if_pos hl] at hb
      obtain ⟨d, m', rfl⟩ : ∃ d m', m = d :: m' := by cases m with | nil => exact absurd rfl (hL hl) | cons d m' => exact ⟨d, m', rfl⟩
      have hbd : b = d ∧ t = m' ++ 0x5D :: rest := by cases hbt; exact ⟨rfl, rfl⟩
      obtain ⟨rfl, ht'⟩ := hbd
      have hcm : cmpz (pre ++ 0x5B :: a :: b :: t) (pre.length + 2) (lit "nl") = some ((lit "nl").isPrefixOf (b :: m')) := by
        rw [← e]
        exact Validity.cmpz_name (name := a :: b :: m') 1 (by simp) (by decide) (by decide)
      have hl3 : ¬ pre.length + 3 ≥ (pre ++ 0x5B :: a :: b :: t).length := by
        rw [ht']; simp
      rw [if_neg hl3, hcm, Option.bind_some, Option.bind_some] at hb
      have := close _ (by rfl) (by exact hr) hb
      have e5 : (decide (b ≠ 0x6C ∧ (!(lit "nl").isPrefixOf (b :: m')) = true)) = decide ((b :: m').head? ≠ some 0x6C ∧ ¬ (lit "nl").isPrefixOf (b :: m') = true) := by
        refine decide_eq_decide.2 ⟨fun q => ⟨fun q2 => q.1 (Option.some.inj q2), fun q2 => by rw [q2] at q; exact absurd q.2 (by decide)⟩,
          fun q => ⟨fun q2 => q.1 (by rw [q2]; rfl), by cases hh : (lit "nl").isPrefixOf (b :: m') with
            | false => rfl
            | true => exact absurd hh q.2⟩⟩
      rw [e5] at this
      have e7 : ∀ ig, ({ s with classTagSeen := true, isDe := false, ignoreNextDe := ig, isInTag := false } : FState)
          = { s with classTagSeen := true, isDe := false, ignoreNextDe := ig } := by intro ig; cases s; simp at ht; simp [ht]
      rw [← e7]
      exact this
    · rw [if_neg hl]
      rw [if_neg hl] at hb
      have := close _ (by rfl) (by exact hr) hb
      have e6 : ({ ({ s with isInTag := true } : FState) with isInTag := false } : FState) = s := by cases s; simp at ht; simp [ht]
      rw [e6] at this
      exact this

/-- The end of a section. -/
theorem runs_end {pre rest : List Wc} (h : Runs (pre ++ 0x5B :: 0x58 :: 0x5D :: rest) cap pre.length s r) :
    Runs (pre ++ 0x5B :: 0x58 :: 0x5D :: rest) cap (pre.length + 3) { s with isInXp := false, isInXr := false } r := by
  have hc3 : ∃ c3, (if pre.length + 6 < (pre ++ 0x5B :: 0x58 :: 0x5D :: rest).length then rdz (pre ++ 0x5B :: 0x58 :: 0x5D :: rest) (pre.length + 3) else some 0) = some c3 := by
    by_cases h6 : pre.length + 6 < (pre ++ 0x5B :: 0x58 :: 0x5D :: rest).length
    · rw [if_pos h6, rdz_lt (by omega)]; exact ⟨_, rfl⟩
    · rw [if_neg h6]; exact ⟨_, rfl⟩
  obtain ⟨c3, hc3⟩ := hc3
  have hb := bracket_eq (pre := pre) (t := rest) (a := 0x58) (b := 0x5D) (cap := cap) (s := s) (by simp) rfl rfl
  rw [hc3, Option.bind_some, if_pos rfl, if_pos rfl] at hb
  exact runs_step h (by simp) hb

/-- A section `[Xc]body[X]`. -/
theorem runs_sect {pre rest body : List Wc} {c : Wc} (h1 : 0x5B ∉ body) (hx : s.isInXp = false) (hr : s.isInXr = false) (ht : s.isInTag = false)
    (hc : c = 0x70 ∨ c = 0x6A ∨ c = 0x72 ∨ c = 0x73)
    (h : Runs (pre ++ 0x5B :: 0x58 :: c :: 0x5D :: (body ++ 0x5B :: 0x58 :: 0x5D :: rest)) cap pre.length s r) :
    Runs (pre ++ 0x5B :: 0x58 :: c :: 0x5D :: (body ++ 0x5B :: 0x58 :: 0x5D :: rest)) cap (pre.length + body.length + 7)
      (if c = 0x70 ∨ c = 0x6A then { s with xpFst := pre.length + 4, xpBase := s.bf.length, xpHyphens := hyphens body } else s) r := by
  have hl : pre.length + 6 < (pre ++ 0x5B :: 0x58 :: c :: 0x5D :: (body ++ 0x5B :: 0x58 :: 0x5D :: rest)).length := by simp; omega
  have hb := bracket_eq (pre := pre) (t := 0x5D :: (body ++ 0x5B :: 0x58 :: 0x5D :: rest)) (a := 0x58) (b := c) (cap := cap) (s := s) (by omega) rfl rfl
  have r3 : rdz (pre ++ 0x5B :: 0x58 :: c :: 0x5D :: (body ++ 0x5B :: 0x58 :: 0x5D :: rest)) (pre.length + 3) = some 0x5D := by rw [rdz_app]; rfl
  have hc' : c ≠ 0x5D := by rcases hc with rfl | rfl | rfl | rfl <;> decide
  rw [if_pos hl, r3, Option.bind_some, if_pos rfl, if_neg hc', if_pos ⟨hl, rfl⟩] at hb
  have e : pre ++ 0x5B :: 0x58 :: c :: 0x5D :: (body ++ 0x5B :: 0x58 :: 0x5D :: rest)
      = (pre ++ [0x5B, 0x58, c, 0x5D]) ++ (body ++ 0x5B :: 0x58 :: 0x5D :: rest) := by simp
  have e' : pre.length + 3 + 1 = (pre ++ [0x5B, 0x58, c, 0x5D]).length := by simp
  have e2 : (pre ++ [0x5B, 0x58, c, 0x5D]) ++ (body ++ 0x5B :: 0x58 :: 0x5D :: rest)
      = (pre ++ [0x5B, 0x58, c, 0x5D] ++ body) ++ 0x5B :: 0x58 :: 0x5D :: rest := by simp
  have e2' : (pre ++ [0x5B, 0x58, c, 0x5D]).length + body.length = (pre ++ [0x5B, 0x58, c, 0x5D] ++ body).length := by simp; omega
  have e3 : (pre ++ [0x5B, 0x58, c, 0x5D] ++ body).length + 3 = pre.length + body.length + 7 := by simp; omega
  have hi : pre.length < (pre ++ 0x5B :: 0x58 :: c :: 0x5D :: (body ++ 0x5B :: 0x58 :: 0x5D :: rest)).length := by omega
  by_cases hp : c = 0x70 ∨ c = 0x6A
  · rw [if_pos hp] at hb ⊢
    have h3 : Runs ((pre ++ [0x5B, 0x58, c, 0x5D]) ++ (body ++ 0x5B :: 0x58 :: 0x5D :: rest)) cap (pre ++ [0x5B, 0x58, c, 0x5D]).length
        { s with isInXp := true, xpFst := pre.length + 4, xpBase := s.bf.length, xpHyphens := 0 } r := by
      rw [← e', ← e]; exact runs_step h hi hb
    have h4 := skip_xp body _ _ h1 (by rfl) (by exact hr) (by exact ht) h3
    rw [e2', e2] at h4
    have h5 := runs_end h4
    rw [e3, ← e2, ← e] at h5
    simp only [Nat.zero_add] at h5
    have e6 : ({ s with isInXp := false, isInXr := false, xpFst := pre.length + 4, xpBase := s.bf.length, xpHyphens := hyphens body } : FState)
        = { s with xpFst := pre.length + 4, xpBase := s.bf.length, xpHyphens := hyphens body } := by
      cases s; simp at hx hr; simp [hx, hr]
    rw [← e6]
    exact h5
  · rw [if_neg hp] at hb ⊢
    have hq : c = 0x72 ∨ c = 0x73 := by
      rcases hc with h | h | h | h
      · exact absurd (Or.inl h) hp
      · exact absurd (Or.inr h) hp
      · exact Or.inl h
      · exact Or.inr h
    rw [if_pos hq] at hb
    have h3 := runs_step h hi hb
    rw [e', e] at h3
    have h4 := skip_xr body _ h1 (by rfl) h3
    rw [e2', e2] at h4
    have h5 := runs_end h4
    rw [e3, ← e2, ← e] at h5
    have e6 : ({ s with isInXp := false, isInXr := false } : FState) = s := by cases s; simp at hx hr; simp [hx, hr]
    rw [e6] at h5
    exact h5

/-! ### Characters -/

theorem copy_eq {rest : List Wc} {up : Option Nat} : ∀ (body pre bf bf' : List Wc) (f : Nat), 0x5B ∉ body →
    copyXp (pre ++ (body ++ 0x5B :: rest)) cap up f pre.length bf = some bf' →
    bf' = bf ++ (body.zipIdx pre.length).filterMap fun x => if x.1 = 0x3D then none else some (if up = some x.2 then upper x.1 else x.1) := by
  intro body
  induction body with
  | nil =>
    intro pre bf bf' f _ h
    cases f with
    | zero => cases h
    | succ f =>
      rw [copyXp, if_pos (by simp)] at h
      rw [List.nil_append, read_at] at h
      simp only [Option.bind_eq_bind, Option.bind_some, ne_eq, not_true_eq_false, if_false, Option.pure_def] at h
      cases h
      simp
  | cons c body ih =>
    intro pre bf bf' f hb h
    have hc : c ≠ 0x5B := fun e => hb (by simp [e])
    have hb' : 0x5B ∉ body := fun e => hb (List.mem_cons_of_mem _ e)
    have e : pre ++ (c :: body ++ 0x5B :: rest) = (pre ++ [c]) ++ (body ++ 0x5B :: rest) := by simp
    have e1 : pre.length + 1 = (pre ++ [c]).length := by simp
    cases f with
    | zero => cases h
    | succ f =>
      rw [copyXp, if_pos (by simp)] at h
      have hrd : rdz (pre ++ (c :: body ++ 0x5B :: rest)) pre.length = some c := read_at _ _ _
      rw [hrd] at h
      simp only [Option.bind_eq_bind, Option.bind_some] at h
      rw [if_pos hc] at h
      rw [List.zipIdx_cons, List.filterMap_cons]
      by_cases he : c = 0x3D
      · rw [if_neg (by simpa using he), e, e1] at h
        have := ih _ _ _ _ hb' h
        rw [this]
        simp [he]
      · rw [if_pos he] at h
        obtain ⟨bf2, h2, h3⟩ := Option.bind_eq_some_iff.1 h
        rw [e, e1] at h3
        have := ih _ _ _ _ hb' h3
        unfold push at h2
        split at h2
        · cases h2
          rw [this]
          simp [he]
        · cases h2

theorem filterMap_plain (up : Option Nat) : ∀ (body : List Wc) (k : Nat), (∀ n, up = some n → n < k) →
    ((body.zipIdx k).filterMap fun x => if x.1 = 0x3D then none else some (if up = some x.2 then upper x.1 else x.1)) = strip body := by
  intro body
  induction body with
  | nil => intro k _; rfl
  | cons c body ih =>
    intro k hk
    rw [List.zipIdx_cons, List.filterMap_cons]
    have hne : up ≠ some k := fun e => by have := hk k e; omega
    have ih' := ih (k + 1) (fun n e => by have := hk n e; omega)
    by_cases hc : c = 0x3D
    · simp only [if_pos hc]
      rw [ih']
      simp [strip, hc]
    · simp only [if_neg hc, if_neg hne]
      rw [ih']
      simp [strip, hc]

theorem copy_none {rest body pre bf bf' : List Wc} {f : Nat} (hb : 0x5B ∉ body)
    (h : copyXp (pre ++ (body ++ 0x5B :: rest)) cap none f pre.length bf = some bf') : bf' = bf ++ strip body := by
  rw [copy_eq body pre bf bf' f hb h, filterMap_plain none body _ (fun n e => by cases e)]

theorem copy_capital {rest body pre bf bf' : List Wc} {f : Nat} (hb : 0x5B ∉ body)
    (h : copyXp (pre ++ (body ++ 0x5B :: rest)) cap (some pre.length) f pre.length bf = some bf') : bf' = bf ++ capital body := by
  rw [copy_eq body pre bf bf' f hb h]
  congr 1
  cases body with
  | nil => rfl
  | cons c body =>
    rw [List.zipIdx_cons, List.filterMap_cons]
    have := filterMap_plain (some pre.length) body (pre.length + 1) (fun n e => by cases e; omega)
    unfold capital
    by_cases hc : c = 0x3D
    · simp only [if_pos hc]
      exact this
    · simp only [if_neg hc, if_true]
      rw [this]

theorem pattern_spec (c : Wc) : ∀ sp : List Wc, strip (applyPattern c sp).2 = (strip sp).drop 1 ∧
    (applyPattern c sp).1 = if (strip sp)[0]? = some 0x69 ∨ (strip sp)[0]? = some 0x6A then upper c else c := by
  intro sp
  induction sp with
  | nil => exact ⟨rfl, by rw [if_neg (by simp [strip])]; rfl⟩
  | cons k sp ih =>
    rw [applyPattern]
    by_cases hk : k = 0x3D
    · rw [if_neg (by simpa using hk)]
      have e : strip (k :: sp) = strip sp := by simp [strip, hk]
      rw [e]
      exact ih
    · rw [if_pos hk]
      have e : strip (k :: sp) = k :: strip sp := by simp [strip, hk]
      rw [e]
      refine ⟨rfl, ?_⟩
      show (if k = 0x69 ∨ k = 0x6A then upper c else c) = _
      simp

theorem pattern_shown {st sp : List Wc} {n : Nat} (h : strip sp = (strip st).drop n) (c : Wc) :
    strip (applyPattern c sp).2 = (strip st).drop (n + 1) ∧ (applyPattern c sp).1 = shown st n c := by
  obtain ⟨h1, h2⟩ := pattern_spec c sp
  rw [h1, h2, h, List.drop_drop]
  refine ⟨rfl, ?_⟩
  unfold shown
  rw [List.getElem?_drop, Nat.add_zero]

theorem findLep_spec (out : List Wc) : ∀ f j b, findLep out f j = some b →
    (b = true ↔ ∃ k, j ≤ k ∧ (lit "[Lep]").isPrefixOf (out.drop k) = true) := by
  intro f
  induction f with
  | zero => intro j b h; cases h
  | succ f ih =>
    intro j b h
    rw [findLep] at h
    by_cases hj : j + 4 < out.length
    · rw [if_pos hj, cmpz_eq (by omega) (by decide)] at h
      simp only [Option.bind_eq_bind, Option.bind_some] at h
      by_cases hp : (lit "[Lep]").isPrefixOf (out.drop j) = true
      · rw [if_pos hp] at h
        cases h
        simp only [true_iff]
        exact ⟨j, Nat.le_refl _, hp⟩
      · rw [if_neg hp] at h
        rw [ih _ _ h]
        constructor
        · rintro ⟨k, h1, h2⟩; exact ⟨k, by omega, h2⟩
        · rintro ⟨k, h1, h2⟩
          by_cases hk : k = j
          · subst hk; exact absurd h2 hp
          · exact ⟨k, by omega, h2⟩
    · rw [if_neg hj] at h
      cases h
      constructor
      · intro e; cases e
      · rintro ⟨k, h1, h2⟩
        have := (List.isPrefixOf_iff_prefix.1 h2).length_le
        rw [List.length_drop] at this
        have e : (lit "[Lep]").length = 5 := rfl
        omega

/-! ### Splitting at the end -/

theorem content_append (a b : List SItem) : content (a ++ b) = content a ++ content b := by
  induction a with
  | nil => rfl
  | cons x a ih => cases x <;> simp [content, ih]

theorem snoc_split {P Q R : List SItem} {x y : SItem} (h : P ++ [x] = Q ++ y :: R) : (R = [] ∧ Q = P ∧ y = x) ∨ ∃ R', R = R' ++ [x] ∧ P = Q ++ y :: R' := by
  rcases List.eq_nil_or_concat R with rfl | ⟨R', z, rfl⟩
  · have := List.append_inj' h rfl
    exact Or.inl ⟨rfl, this.1.symm, by have := this.2; cases this; rfl⟩
  · rw [List.concat_eq_append] at h ⊢
    have h' : P ++ [x] = (Q ++ y :: R') ++ [z] := by rw [h]; simp
    have := List.append_inj' h' rfl
    exact Or.inr ⟨R', by have := this.2; cases this; rfl, this.1⟩

theorem lastBase_snoc {P A M : List SItem} {body : List Wc} {x : SItem} (hx : ∀ b, ¬ BaseSect x b) :
    LastBase (P ++ [x]) A body M ↔ ∃ M', M = M' ++ [x] ∧ LastBase P A body M' := by
  constructor
  · rintro ⟨y, h, hy, hM⟩
    rcases snoc_split h with ⟨_, _, rfl⟩ | ⟨R', rfl, h2⟩
    · exact absurd hy (hx _)
    · exact ⟨R', rfl, y, h2, hy, fun z hz => hM z (List.mem_append_left _ hz)⟩
  · rintro ⟨M', rfl, y, h, hy, hM⟩
    refine ⟨y, by rw [h]; simp, hy, fun z hz => ?_⟩
    rcases List.mem_append.1 hz with hz | hz
    · exact hM z hz
    · rw [List.mem_singleton] at hz; subst hz; exact hx

theorem base_unique {x : SItem} {b c : List Wc} (h1 : BaseSect x b) (h2 : BaseSect x c) : b = c := by
  rcases h1 with rfl | rfl <;> rcases h2 with h2 | h2 <;> cases h2 <;> rfl

theorem lastBase_base {P A M : List SItem} {body b : List Wc} {x : SItem} (hx : BaseSect x b) :
    LastBase (P ++ [x]) A body M ↔ A = P ∧ body = b ∧ M = [] := by
  constructor
  · rintro ⟨y, h, hy, hM⟩
    rcases snoc_split h with ⟨rfl, rfl, rfl⟩ | ⟨R', rfl, h2⟩
    · exact ⟨rfl, base_unique hy hx, rfl⟩
    · exact absurd hx (hM x (by simp) b)
  · rintro ⟨rfl, rfl, rfl⟩
    exact ⟨x, rfl, hx, fun z hz => by cases hz⟩

theorem lastBase_unique {P A A' M M' : List SItem} {b b' : List Wc} (h : LastBase P A b M) (h' : LastBase P A' b' M') : A = A' ∧ b = b' ∧ M = M' := by
  obtain ⟨x, h1, h2, h3⟩ := h
  obtain ⟨y, g1, g2, g3⟩ := h'
  rw [h1] at g1
  rcases List.append_eq_append_iff.1 g1 with ⟨c, hc1, hc2⟩ | ⟨c, hc1, hc2⟩
  · cases c with
    | nil =>
      simp only [List.nil_append] at hc2
      have hxy := (List.cons.inj hc2)
      subst hc1
      obtain ⟨rfl, rfl⟩ := hxy
      exact ⟨by simp, base_unique h2 g2, rfl⟩
    | cons z c =>
      have := (List.cons.inj hc2).2
      exact absurd g2 (h3 y (by rw [this]; simp) b')
  · cases c with
    | nil =>
      simp only [List.nil_append] at hc2
      have hxy := (List.cons.inj hc2)
      subst hc1
      obtain ⟨rfl, rfl⟩ := hxy
      exact ⟨by simp, base_unique h2 g2, rfl⟩
    | cons z c =>
      have := (List.cons.inj hc2).2
      exact absurd h2 (g3 x (by rw [this]; simp) b)

theorem adj_snoc {P : List SItem} {x : SItem} (hx : ¬ IsClass x) : AdjectiveLast (P ++ [x]) ↔ AdjectiveLast P := by
  constructor
  · intro h Q y R hP hy hR
    refine h Q y (R ++ [x]) (by rw [hP]; simp) hy fun z hz => ?_
    rcases List.mem_append.1 hz with hz | hz
    · exact hR z hz
    · rw [List.mem_singleton] at hz; subst hz; exact hx
  · intro h Q y R hP hy hR
    rcases snoc_split hP with ⟨_, _, rfl⟩ | ⟨R', rfl, h2⟩
    · exact absurd hy hx
    · exact h Q y R' h2 hy fun z hz => hR z (List.mem_append_left _ hz)

theorem adj_class {P : List SItem} {x : SItem} (hx : IsClass x) : AdjectiveLast (P ++ [x]) ↔ x = .cls 0x6C ∨ x = .cls2 0x6E 0x6C := by
  constructor
  · intro h
    exact h P x [] rfl hx (fun z hz => by cases hz)
  · intro h Q y R hP hy hR
    rcases snoc_split hP with ⟨_, _, rfl⟩ | ⟨R', rfl, h2⟩
    · exact h
    · exact absurd hx (hR x (by simp))

theorem marked_snoc {P : List SItem} {x : SItem} (h1 : ¬ IsClass x) (h2 : x ≠ .chr 0x2D) (h3 : x ≠ .tag (lit "De")) : Marked (P ++ [x]) ↔ Marked P := by
  constructor
  · rintro ⟨Q, R, h, hR, hQ⟩
    rcases snoc_split h with ⟨_, _, e⟩ | ⟨R', rfl, h4⟩
    · exact absurd e.symm h3
    · exact ⟨Q, R', h4, fun y hy => hR y (List.mem_append_left _ hy), hQ⟩
  · rintro ⟨Q, R, h, hR, hQ⟩
    refine ⟨Q, R ++ [x], by rw [h]; simp, fun y hy => ?_, hQ⟩
    rcases List.mem_append.1 hy with hy | hy
    · exact hR y hy
    · rw [List.mem_singleton] at hy; subst hy; exact ⟨h1, h2⟩

theorem marked_stop {P : List SItem} {x : SItem} (h : IsClass x ∨ x = .chr 0x2D) : ¬ Marked (P ++ [x]) := by
  rintro ⟨Q, R, h1, hR, _⟩
  rcases snoc_split h1 with ⟨_, _, e⟩ | ⟨R', rfl, _⟩
  · rcases h with (⟨c, h⟩ | ⟨c, d, h⟩) | h <;> rw [h] at e <;> cases e
  · rcases h with h | h
    · exact (hR x (by simp)).1 h
    · exact (hR x (by simp)).2 h

theorem marked_de {P : List SItem} : Marked (P ++ [.tag (lit "De")]) ↔ AdjectiveLast P := by
  have hde : ¬ IsClass (.tag (lit "De")) := by rintro (⟨c, h⟩ | ⟨c, d, h⟩) <;> cases h
  constructor
  · rintro ⟨Q, R, h, hR, hQ⟩
    rcases snoc_split h with ⟨_, rfl, _⟩ | ⟨R', rfl, rfl⟩
    · exact hQ
    · intro Q' y S hP hy hS
      -- the last class is in `Q`
      have : AdjectiveLast (Q ++ .tag (lit "De") :: R') := by
        have hno : ∀ T : List SItem, (∀ z ∈ T, ¬ IsClass z) → AdjectiveLast (Q ++ T) := by
          intro T
          induction T using List.reverseRecOn with
          | nil => intro _; simpa using hQ
          | append_singleton T z ih =>
            intro hT
            rw [← List.append_assoc, adj_snoc (hT z (by simp))]
            exact ih fun w hw => hT w (List.mem_append_left _ hw)
        refine hno _ fun z hz => ?_
        rcases List.mem_cons.1 hz with rfl | hz
        · exact hde
        · exact (hR z (List.mem_append_left _ hz)).1
      exact this Q' y S hP hy hS
  · intro h
    exact ⟨P, [], rfl, fun z hz => (by cases hz), h⟩

/-! ### What the variables of the loop mean -/

structure BMeans (its : List SItem) (st : List Wc) (P : List SItem) (s : FState) : Prop where
  xp : s.isInXp = false
  xr : s.isInXr = false
  tag : s.isInTag = false
  pat : strip s.sp = (strip st).drop (content P).length
  text : Written its st P s.bf
  seen : s.classTagSeen = true ↔ ∃ x ∈ P, IsClass x
  ig : .tag (lit "De") ∈ its → (s.ignoreNextDe = false ↔ AdjectiveLast P)
  de : s.isDe = true ↔ Marked P
  base : (s.xpFst = 0 ∧ s.xpHyphens = 0 ∧ ∀ A body M, LastBase P A body M → hyphens body < hyphens (content M)) ∨
    ∃ A body M, LastBase P A body M ∧ hyphens (content M) + s.xpHyphens = hyphens body ∧ s.xpFst = (render A).length + 4
      ∧ s.xpBase ≤ s.bf.length ∧ Written its st A (s.bf.take s.xpBase)

variable {its P : List SItem} {st : List Wc}

/-- An item that is not a character and not a base form leaves the base alone. -/
theorem base_quiet {x : SItem} {s s' : FState} (h : BMeans its st P s) (hx : ∀ c, x ≠ .chr c) (hb : ∀ b, ¬ BaseSect x b)
    (e1 : s'.xpFst = s.xpFst) (e2 : s'.xpHyphens = s.xpHyphens) (e3 : s'.xpBase = s.xpBase) (e4 : s'.bf = s.bf) :
    (s'.xpFst = 0 ∧ s'.xpHyphens = 0 ∧ ∀ A body M, LastBase (P ++ [x]) A body M → hyphens body < hyphens (content M)) ∨
    ∃ A body M, LastBase (P ++ [x]) A body M ∧ hyphens (content M) + s'.xpHyphens = hyphens body ∧ s'.xpFst = (render A).length + 4
      ∧ s'.xpBase ≤ s'.bf.length ∧ Written its st A (s'.bf.take s'.xpBase) := by
  have hc : ∀ M, content (M ++ [x]) = content M := by
    intro M
    rw [content_append]
    cases x <;> simp [content] at hx ⊢
  rw [e1, e2, e3, e4]
  rcases h.base with ⟨h1, h2, h3⟩ | ⟨A, body, M, h1, h2, h3⟩
  · refine Or.inl ⟨h1, h2, fun A body M hL => ?_⟩
    obtain ⟨M', rfl, hL'⟩ := (lastBase_snoc hb).1 hL
    rw [hc]
    exact h3 A body M' hL'
  · exact Or.inr ⟨A, body, M ++ [x], (lastBase_snoc hb).2 ⟨M, rfl, h1⟩, by rw [hc]; exact h2, h3⟩

theorem content_quiet {x : SItem} (hx : ∀ c, x ≠ .chr c) (M : List SItem) : content (M ++ [x]) = content M := by
  rw [content_append]
  cases x <;> simp [content] at hx ⊢

/-- An item without effect. -/
theorem means_none {x : SItem} (h : BMeans its st P s) (hx : ∀ c, x ≠ .chr c) (hb : ∀ b, ¬ BaseSect x b) (hc : ¬ IsClass x) (hd : x ≠ .tag (lit "De")) :
    BMeans its st (P ++ [x]) s :=
  ⟨h.xp, h.xr, h.tag, by rw [content_quiet hx]; exact h.pat, .mark h.text hx,
    h.seen.trans ⟨fun ⟨y, hy, hy2⟩ => ⟨y, List.mem_append_left _ hy, hy2⟩, fun ⟨y, hy, hy2⟩ => by
      rcases List.mem_append.1 hy with hy | hy
      · exact ⟨y, hy, hy2⟩
      · rw [List.mem_singleton] at hy; subst hy; exact absurd hy2 hc⟩,
    (fun hd => (h.ig hd).trans (adj_snoc hc).symm), h.de.trans (marked_snoc hc (hx _) hd).symm, base_quiet h hx hb rfl rfl rfl rfl⟩

theorem means_class {x : SItem} {ig : Bool} (h : BMeans its st P s) (hc : IsClass x) (hig : ig = false ↔ x = .cls 0x6C ∨ x = .cls2 0x6E 0x6C) :
    BMeans its st (P ++ [x]) { s with classTagSeen := true, isDe := false, ignoreNextDe := ig } := by
  have hx : ∀ c, x ≠ .chr c := by rintro c rfl; rcases hc with ⟨_, e⟩ | ⟨_, _, e⟩ <;> cases e
  have hb : ∀ b, ¬ BaseSect x b := by
    rintro b (rfl | rfl) <;> rcases hc with ⟨_, e⟩ | ⟨_, _, e⟩ <;> cases e
  exact ⟨h.xp, h.xr, h.tag, by rw [content_quiet hx]; exact h.pat, .mark h.text hx, by simp only [true_iff]; exact ⟨x, by simp, hc⟩,
    (fun _ => hig.trans (adj_class hc).symm), ⟨(fun e => by cases e), fun e => absurd e (marked_stop (Or.inl hc))⟩, base_quiet h hx hb rfl rfl rfl rfl⟩

theorem means_de (hm : .tag (lit "De") ∈ its) (h : BMeans its st P s) : BMeans its st (P ++ [.tag (lit "De")]) { s with isDe := !s.ignoreNextDe } := by
  have hx : ∀ c, SItem.tag (lit "De") ≠ .chr c := by intro c e; cases e
  have hc : ¬ IsClass (.tag (lit "De")) := by rintro (⟨c, h⟩ | ⟨c, d, h⟩) <;> cases h
  refine ⟨h.xp, h.xr, h.tag, by rw [content_quiet hx]; exact h.pat, .mark h.text hx,
    h.seen.trans ⟨fun ⟨y, hy, hy2⟩ => ⟨y, List.mem_append_left _ hy, hy2⟩, fun ⟨y, hy, hy2⟩ => ?_⟩,
    (fun hd => (h.ig hd).trans (adj_snoc hc).symm), ?_, base_quiet h hx (by rintro b (e | e) <;> cases e) rfl rfl rfl rfl⟩
  · rcases List.mem_append.1 hy with hy | hy
    · exact ⟨y, hy, hy2⟩
    · rw [List.mem_singleton] at hy; subst hy; exact absurd hy2 hc
  · rw [marked_de, ← h.ig hm]
    show (!s.ignoreNextDe) = true ↔ _
    cases s.ignoreNextDe <;> simp

theorem means_base {x : SItem} {body : List Wc} (h : BMeans its st P s) (hb : BaseSect x body) :
    BMeans its st (P ++ [x]) { s with xpFst := (render P).length + 4, xpBase := s.bf.length, xpHyphens := hyphens body } := by
  have hx : ∀ c, x ≠ .chr c := by rintro c rfl; rcases hb with e | e <;> cases e
  have hc : ¬ IsClass x := by rintro (⟨c, rfl⟩ | ⟨c, d, rfl⟩) <;> rcases hb with e | e <;> cases e
  have hd : x ≠ .tag (lit "De") := by rintro rfl; rcases hb with e | e <;> cases e
  refine ⟨h.xp, h.xr, h.tag, by rw [content_quiet hx]; exact h.pat, .mark h.text hx,
    h.seen.trans ⟨fun ⟨y, hy, hy2⟩ => ⟨y, List.mem_append_left _ hy, hy2⟩, fun ⟨y, hy, hy2⟩ => ?_⟩,
    (fun hd => (h.ig hd).trans (adj_snoc hc).symm), h.de.trans (marked_snoc hc (hx _) hd).symm,
    Or.inr ⟨P, body, [], (lastBase_base hb).2 ⟨rfl, rfl, rfl⟩, ?_, rfl, Nat.le_refl _, ?_⟩⟩
  · rcases List.mem_append.1 hy with hy | hy
    · exact ⟨y, hy, hy2⟩
    · rw [List.mem_singleton] at hy; subst hy; exact absurd hy2 hc
  · show hyphens (content []) + hyphens body = hyphens body
    simp [content, hyphens]
  · show Written its st P (s.bf.take s.bf.length)
    rw [List.take_length]; exact h.text

/-! ### The items of a reading -/

theorem usual_items : ∀ (l : List SItem) (need : List Wc) (pend : Bool), WfItems need pend l → KnownSections l → ∀ x ∈ l, UItem x := by
  intro l
  induction l with
  | nil => intro _ _ _ _ x hx; cases hx
  | cons y l ih =>
    intro need pend hw hk x hx
    have hk' : KnownSections l := fun c b h => hk c b (List.mem_cons_of_mem _ h)
    rcases List.mem_cons.1 hx with rfl | hx
    · cases x with
      | cls c => trivial
      | cls2 c d =>
        obtain ⟨h1, _⟩ := hw
        rcases h1 with h1 | ⟨h1, _⟩ | ⟨h1, _⟩ <;> (show c ≠ 0x6C; rw [h1]; decide)
      | tag n =>
        obtain ⟨⟨c, t, rfl, h1⟩, _⟩ := hw
        rcases h1 with ⟨h1, h2, h3⟩ | h1
        · exact ⟨by simpa using h1, by simpa using h2, fun e => h3 (List.cons.inj e).1⟩
        · rw [h1]; exact ⟨by decide, by decide, by decide⟩
      | bound c => trivial
      | sect c b => exact hk c b List.mem_cons_self
      | pat p => trivial
      | chr c => trivial
    · have : ∃ need' pend', WfItems need' pend' l := by
        cases y with
        | cls c => exact ⟨_, _, hw.2⟩
        | cls2 c d => exact ⟨_, _, hw.2⟩
        | tag n => exact ⟨_, _, hw.2.2⟩
        | bound c => exact ⟨_, _, hw.2.2.2.2⟩
        | sect c b => exact ⟨_, _, hw.2.2⟩
        | pat p => exact ⟨_, _, hw.2.2.2.2.2.2⟩
        | chr c =>
          cases need with
          | nil => exact ⟨_, _, hw.2⟩
          | cons q qs => exact ⟨_, _, hw.2.2.2⟩
      obtain ⟨n', p', h'⟩ := this
      exact ih n' p' h' hk' x hx

theorem lep_tags : ∀ (R : List SItem) (pre : List Wc), (∀ x ∈ R, UItem x) → ((∃ x ∈ tagsFrom pre R, x.name = lit "Lep") ↔ .cls2 0x65 0x70 ∈ R) := by
  intro R
  induction R with
  | nil => intro pre _; simp [tagsFrom]
  | cons y R ih =>
    intro pre hu
    rw [tagsFrom]
    have ih' := ih (pre ++ y.render) fun x hx => hu x (List.mem_cons_of_mem _ hx)
    have first : (∃ x ∈ ((nameOf y).map (Attrs.Mk.mk pre)).toList, x.name = lit "Lep") ↔ y = .cls2 0x65 0x70 := by
      have hy := hu y List.mem_cons_self
      have e : lit "Lep" = [0x4C, 0x65, 0x70] := by decide
      rw [e]
      cases y with
      | cls c => simp [nameOf]
      | cls2 c d => simp [nameOf]
      | tag n =>
        simp [nameOf]
        rintro rfl
        exact hy.2.1 rfl
      | bound c => simp [nameOf]
      | sect c b => simp [nameOf]
      | pat p => simp [nameOf]
      | chr c => simp [nameOf]
    rw [List.mem_cons, ← ih']
    constructor
    · rintro ⟨x, hx, hn⟩
      rcases List.mem_append.1 hx with hx | hx
      · exact Or.inl (first.1 ⟨x, hx, hn⟩).symm
      · exact Or.inr ⟨x, hx, hn⟩
    · rintro (h | ⟨x, hx, hn⟩)
      · obtain ⟨x, hx, hn⟩ := first.2 h.symm
        exact ⟨x, List.mem_append_left _ hx, hn⟩
      · exact ⟨x, List.mem_append_right _ hx, hn⟩

theorem lep_after {P R : List SItem} {f : Nat} {b : Bool} (ht : Tidy (P ++ R)) (hu : ∀ x ∈ R, UItem x)
    (h : findLep (render (P ++ R)) f (render P).length = some b) : b = true ↔ .cls2 0x65 0x70 ∈ R := by
  rw [findLep_spec _ _ _ _ h, ← lep_tags R [] hu]
  have ht' : Tidy R := fun x hx => ht x (List.mem_append_right _ hx)
  constructor
  · rintro ⟨k, hk, h2⟩
    obtain ⟨j, rfl⟩ : ∃ j, k = (render P).length + j := ⟨k - (render P).length, by omega⟩
    rw [render_app, drop_pre] at h2
    obtain ⟨x, hx, _, hn⟩ := (tag_at (q := lit "Lep") (by decide) (by decide) (by decide) (by decide) R [] j ht').1 h2
    exact ⟨x, hx, hn⟩
  · rintro ⟨x, hx, hn⟩
    refine ⟨(render P).length + x.before.length, by omega, ?_⟩
    rw [render_app, drop_pre]
    exact (tag_at (q := lit "Lep") (by decide) (by decide) (by decide) (by decide) R [] x.before.length ht').2 ⟨x, hx, by simp, hn⟩

theorem is_before {pre rest : List Wc} {b : Bool} (hl : 2 ≤ pre.length) (h : cmpz (pre ++ rest) (pre.length - 2) (lit "is") = some b) :
    b = true ↔ lit "is" <:+ pre := by
  rw [cmpz_eq (by simp; omega) (by decide)] at h
  cases h
  obtain ⟨q, a, c, rfl⟩ : ∃ q a c, pre = q ++ [a, c] := by
    rcases List.eq_nil_or_concat pre with rfl | ⟨q, c, rfl⟩
    · simp at hl
    · rcases List.eq_nil_or_concat q with rfl | ⟨q, a, rfl⟩
      · simp at hl
      · exact ⟨q, a, c, by simp⟩
  have e : (q ++ [a, c] ++ rest).drop ((q ++ [a, c]).length - 2) = a :: c :: rest := by simp
  rw [e]
  have e2 : lit "is" = [0x69, 0x73] := by decide
  rw [e2]
  constructor
  · intro h
    simp only [List.isPrefixOf, Bool.and_eq_true, beq_iff_eq] at h
    obtain ⟨rfl, rfl, _⟩ := h
    exact ⟨q, rfl⟩
  · rintro ⟨t, h⟩
    have := (List.append_inj' h rfl).2
    cases this
    simp

theorem means_chr {c : Wc} {t : List Wc} {xf xh : Nat} {d : Bool} (h : BMeans its st P s) (hw : Written its st (P ++ [.chr c]) t)
    (hd : d = true ↔ Marked (P ++ [.chr c]))
    (hb : (xf = 0 ∧ xh = 0 ∧ ∀ A body M, LastBase (P ++ [.chr c]) A body M → hyphens body < hyphens (content M)) ∨
      ∃ A body M, LastBase (P ++ [.chr c]) A body M ∧ hyphens (content M) + xh = hyphens body ∧ xf = (render A).length + 4
        ∧ s.xpBase ≤ t.length ∧ Written its st A (t.take s.xpBase)) :
    BMeans its st (P ++ [.chr c]) { s with bf := t, sp := (applyPattern c s.sp).2, xpFst := xf, xpHyphens := xh, isDe := d } := by
  have hc : ¬ IsClass (.chr c) := by rintro (⟨c, h⟩ | ⟨c, d, h⟩) <;> cases h
  refine ⟨h.xp, h.xr, h.tag, ?_, hw, h.seen.trans ⟨fun ⟨y, hy, hy2⟩ => ⟨y, List.mem_append_left _ hy, hy2⟩, fun ⟨y, hy, hy2⟩ => ?_⟩,
    (fun hd => (h.ig hd).trans (adj_snoc hc).symm), hd, hb⟩
  · rw [content_append]
    have := (pattern_shown h.pat c).1
    simpa [content] using this
  · rcases List.mem_append.1 hy with hy | hy
    · exact ⟨y, hy, hy2⟩
    · rw [List.mem_singleton] at hy; subst hy; exact absurd hy2 hc

theorem base_chr (c b) : ¬ BaseSect (.chr c) b := by rintro (e | e) <;> cases e

theorem hyphens_chr (M : List SItem) (c : Wc) : hyphens (content (M ++ [.chr c])) = hyphens (content M) + if c = 0x2D then 1 else 0 := by
  rw [content_append]
  show hyphens (content M ++ [c]) = _
  unfold hyphens
  rw [List.count_append]
  by_cases hc : c = 0x2D
  · simp [hc]
  · simp [hc]

/-- A character other than a hyphen. -/
theorem means_letter {c : Wc} (h : BMeans its st P s) (hc : c ≠ 0x2D) :
    BMeans its st (P ++ [.chr c]) { s with bf := s.bf ++ [(applyPattern c s.sp).1], sp := (applyPattern c s.sp).2 } := by
  have hcl : ¬ IsClass (.chr c) := by rintro (⟨c, h⟩ | ⟨c, d, h⟩) <;> cases h
  refine means_chr (xf := s.xpFst) (xh := s.xpHyphens) (d := s.isDe) h ?_ (h.de.trans (marked_snoc hcl (by simpa using hc) (by simp)).symm) ?_
  · rw [(pattern_shown h.pat c).2]
    exact .letter h.text fun e => absurd e hc
  · rcases h.base with ⟨h1, h2, h3⟩ | ⟨A, body, M, h1, h2, h3, h4, h5⟩
    · refine Or.inl ⟨h1, h2, fun A body M hL => ?_⟩
      obtain ⟨M', rfl, hL'⟩ := (lastBase_snoc (base_chr c)).1 hL
      rw [hyphens_chr, if_neg hc]
      exact h3 A body M' hL'
    · refine Or.inr ⟨A, body, M ++ [.chr c], (lastBase_snoc (base_chr c)).2 ⟨M, rfl, h1⟩, by rw [hyphens_chr, if_neg hc]; exact h2, h3, by rw [List.length_append]; omega, ?_⟩
      rw [List.take_append_of_le_length h4]
      exact h5

/-- The text of a section is where `xpFst` points to. -/
theorem sect_text {P A M : List SItem} {body : List Wc} (h : LastBase P A body M) (rest : List SItem) :
    ∃ k, render (P ++ rest) = (render A ++ [0x5B, 0x58, k, 0x5D]) ++ (body ++ 0x5B :: (0x58 :: 0x5D :: render (M ++ rest))) := by
  obtain ⟨x, rfl, hx, _⟩ := h
  rcases hx with rfl | rfl
  · exact ⟨0x70, by rw [List.append_assoc, render_app, List.cons_append, render]; simp [SItem.render]⟩
  · exact ⟨0x6A, by rw [List.append_assoc, render_app, List.cons_append, render]; simp [SItem.render]⟩

theorem sect_tidy {P A M : List SItem} {body : List Wc} (h : LastBase P A body M) (ht : Tidy P) : 0x5B ∉ body := by
  obtain ⟨x, rfl, hx, _⟩ := h
  have := ht x (by simp)
  rcases hx with rfl | rfl
  · exact this.2
  · exact this.2

/-- A hyphen. -/
theorem means_hyphen {R : List SItem} {s' : FState} (hit : its = P ++ .chr 0x2D :: R) (ht : Tidy its) (hu : ∀ x ∈ its, UItem x) (h : BMeans its st P s)
    (hs : bfHyphen (render its) cap (render P).length s = some s') :
    BMeans its st (P ++ [.chr 0x2D]) { s' with bf := s'.bf ++ [(applyPattern 0x2D s'.sp).1], sp := (applyPattern 0x2D s'.sp).2 } := by
  have hno : false = true ↔ Marked (P ++ [.chr 0x2D]) := ⟨(fun e => by cases e), fun e => absurd e (marked_stop (Or.inr rfl))⟩
  rw [bfHyphen] at hs
  by_cases hx : s.xpHyphens > 0
  · rw [if_pos hx] at hs
    cases hs
    rcases h.base with ⟨h1, h2, h3⟩ | ⟨A, body, M, h1, h2, h3, h4, h5⟩
    · omega
    · have := means_chr (s := s) (c := 0x2D) (t := s.bf ++ [(applyPattern 0x2D s.sp).1]) (xf := s.xpFst) (xh := s.xpHyphens - 1) (d := false) h ?_ hno ?_
      · exact this
      · rw [(pattern_shown h.pat _).2]
        refine .letter h.text fun _ A' body' hR => ?_
        obtain ⟨⟨M', hL, he⟩, _⟩ := hR
        obtain ⟨rfl, rfl, rfl⟩ := lastBase_unique h1 hL
        omega
      · refine Or.inr ⟨A, body, M ++ [.chr 0x2D], (lastBase_snoc (base_chr _)).2 ⟨M, rfl, h1⟩, by rw [hyphens_chr, if_pos rfl]; omega, h3, by rw [List.length_append]; omega, ?_⟩
        rw [List.take_append_of_le_length h4]
        exact h5
  · rw [if_neg hx] at hs
    obtain ⟨s2, hs2, hs⟩ := Option.bind_eq_some_iff.1 hs
    cases hs
    have hb : ∀ A body M, LastBase (P ++ [.chr 0x2D]) A body M → hyphens body < hyphens (content M) := by
      intro A body M hL
      obtain ⟨M', rfl, hL'⟩ := (lastBase_snoc (base_chr _)).1 hL
      rw [hyphens_chr, if_pos rfl]
      rcases h.base with ⟨h1, h2, h3⟩ | ⟨A', body', M'', h1, h2, _⟩
      · have := h3 A body M' hL'; omega
      · obtain ⟨rfl, rfl, rfl⟩ := lastBase_unique h1 hL'
        omega
    -- only the text can change
    have key : ∃ t, s2 = { s with bf := t } ∧ Written its st (P ++ [.chr 0x2D]) (t ++ [shown st (content P).length 0x2D]) := by
      have same : (∀ A body, ¬ Replaced its P A body) → s2 = s → ∃ t, s2 = { s with bf := t } ∧ Written its st (P ++ [.chr 0x2D]) (t ++ [shown st (content P).length 0x2D]) :=
        fun h1 h2 => ⟨s.bf, h2, .letter h.text fun _ => h1⟩
      by_cases hd : s.isDe = true ∧ s.xpFst ≠ 0
      · rw [if_pos hd] at hs2
        by_cases hi : (render P).length < 2
        · rw [if_pos hi] at hs2; cases hs2
        · rw [if_neg hi] at hs2
          obtain ⟨is, his, hs2⟩ := Option.bind_eq_some_iff.1 hs2
          have e0 : render its = render P ++ render (.chr 0x2D :: R) := by rw [hit, render_app]
          have his' := is_before (pre := render P) (rest := render (.chr 0x2D :: R)) (by omega) (by rw [← e0]; exact his)
          cases is with
          | true =>
            simp only [Bool.not_true, Bool.false_eq_true, if_false, Option.pure_def, Option.some.injEq] at hs2
            exact same (fun A body hR => hR.2.2.1 (his'.1 rfl)) hs2.symm
          | false =>
            simp only [Bool.not_false, if_true] at hs2
            obtain ⟨lep, hlep, hs2⟩ := Option.bind_eq_some_iff.1 hs2
            rw [hit] at hlep
            have hlep' := lep_after (by rw [← hit]; exact ht) (fun x hx => hu x (by rw [hit]; exact List.mem_append_right _ hx)) hlep
            have hin : SItem.cls2 0x65 0x70 ∈ SItem.chr 0x2D :: R ↔ SItem.cls2 0x65 0x70 ∈ R := by simp
            rw [hin] at hlep'
            cases lep with
            | false =>
              simp only [Bool.false_eq_true, if_false, Option.pure_def, Option.some.injEq] at hs2
              refine same (fun A body hR => ?_) hs2.symm
              obtain ⟨R', hR', hm⟩ := hR.2.2.2
              rw [hit] at hR'
              have := (List.append_cancel_left hR')
              cases this
              exact Bool.noConfusion (hlep'.2 hm)
            | true =>
              simp only [if_true] at hs2
              obtain ⟨bf, hbk, hs2⟩ := Option.bind_eq_some_iff.1 hs2
              obtain ⟨bf2, hcp, hs2⟩ := Option.bind_eq_some_iff.1 hs2
              cases hs2
              rcases h.base with ⟨h1, h2, h3⟩ | ⟨A, body, M, h1, h2, h3, h4, h5⟩
              · exact absurd h1 hd.2
              · rw [back, if_pos h4] at hbk
                cases hbk
                obtain ⟨k, hk⟩ := sect_text h1 (.chr 0x2D :: R)
                have hl : s.xpFst = (render A ++ [0x5B, 0x58, k, 0x5D]).length := by rw [h3]; simp
                rw [hit, hk, hl] at hcp
                have := copy_capital (sect_tidy h1 fun x hx => ht x (by rw [hit]; exact List.mem_append_left _ hx)) hcp
                refine ⟨bf2, rfl, ?_⟩
                rw [this]
                exact .name h5 ⟨⟨M, h1, by omega⟩, h.de.1 hd.1, fun e => Bool.noConfusion (his'.2 e), R, hit, hlep'.1 rfl⟩
      · rw [if_neg hd] at hs2
        refine same (fun A body hR => hd ⟨h.de.2 hR.2.1, fun h0 => ?_⟩) (Option.some.inj hs2).symm
        obtain ⟨⟨M, hL, he⟩, _⟩ := hR
        rcases h.base with ⟨h1, h2, h3⟩ | ⟨A', body', M', h1, h2, h3, _⟩
        · have := h3 _ _ _ hL; omega
        · omega
    obtain ⟨t, rfl, ht⟩ := key
    have hx0 : s.xpHyphens = 0 := by omega
    have := means_chr (s := s) (c := 0x2D) (t := t ++ [(applyPattern 0x2D s.sp).1]) (xf := 0) (xh := s.xpHyphens) (d := false) h
      (by rw [(pattern_shown h.pat _).2]; exact ht) hno (Or.inl ⟨rfl, hx0, hb⟩)
    exact this

/-- The class of a numeral, if it comes first. -/
theorem runs_lu {pre rest : List Wc} (hseen : s.classTagSeen = false) (hl : 3 ≤ rest.length)
    (h : Runs (pre ++ 0x5B :: 0x4C :: 0x75 :: 0x5D :: rest) cap pre.length s r) :
    ∃ q, parseNumeralBaseform rest (cap - s.bf.length) = some q ∧ (∀ nb, q = some nb → r = some (s.bf ++ nb))
      ∧ (q = none → Runs (pre ++ 0x5B :: 0x4C :: 0x75 :: 0x5D :: rest) cap (pre.length + 4) { s with classTagSeen := true } r) := by
  have hlen : pre.length + 6 < (pre ++ 0x5B :: 0x4C :: 0x75 :: 0x5D :: rest).length := by simp; omega
  have hb := bracket_eq (pre := pre) (t := 0x5D :: rest) (a := 0x4C) (b := 0x75) (lu := true) (de := false) (cap := cap) (s := s) (by omega) (by rfl) (by rfl)
  have hd : (pre ++ 0x5B :: 0x4C :: 0x75 :: 0x5D :: rest).drop (pre.length + 4) = rest := by rw [drop_pre]; rfl
  rw [if_pos hlen, show rdz (pre ++ 0x5B :: 0x4C :: 0x75 :: 0x5D :: rest) (pre.length + 3) = some 0x5D by rw [rdz_app]; rfl, Option.bind_some,
    if_neg (by decide), if_pos ⟨by rw [hseen]; rfl, hlen, rfl⟩, hd] at hb
  obtain ⟨v, hv, h3⟩ := runs_cases h (by omega)
  rw [hb] at hv
  obtain ⟨q, hq, hv⟩ := Option.bind_eq_some_iff.1 hv
  refine ⟨q, hq, fun nb e => ?_, fun e => ?_⟩
  · subst e
    simp only [Option.some.injEq] at hv
    subst hv
    rcases h3 with h3 | ⟨_, _, h3, _⟩
    · exact (Sum.inl.inj h3).symm
    · cases h3
  · subst e
    simp only [Option.some.injEq] at hv
    subst hv
    rcases h3 with h3 | ⟨_, _, hj, h3⟩
    · cases h3
    · cases hj; exact h3

theorem means_lu (hd : .tag (lit "De") ∉ its) (hP : ∀ x ∈ P, x ∈ its) (h : BMeans its st P s) :
    BMeans its st (P ++ [.cls 0x75]) { s with classTagSeen := true } := by
  have hc : IsClass (.cls 0x75) := Or.inl ⟨_, rfl⟩
  have hx : ∀ c, SItem.cls 0x75 ≠ .chr c := by intro c e; cases e
  have hm : ¬ Marked P := by
    rintro ⟨Q, R, rfl, _⟩
    exact hd (hP _ (by simp))
  refine ⟨h.xp, h.xr, h.tag, by rw [content_quiet hx]; exact h.pat, .mark h.text hx, by simp only [true_iff]; exact ⟨_, by simp, hc⟩,
    fun e => absurd e hd, ⟨fun e => absurd (h.de.1 e) hm, fun e => absurd e (marked_stop (Or.inl hc))⟩,
    base_quiet h hx (by rintro b (e | e) <;> cases e) rfl rfl rfl rfl⟩

/-- One item. -/
theorem runs_item {x : SItem} {R : List SItem} (hit : its = P ++ x :: R) (ht : Tidy its) (hu : ∀ x ∈ its, UItem x) (hn : x = .cls 0x75 → FirstNumeral its P R → GoesOn R ∧ .tag (lit "De") ∉ its)
    (h : BMeans its st P s) (hr : Runs (render its) cap (render P).length s r) :
    ∃ s', BMeans its st (P ++ [x]) s' ∧ Runs (render its) cap (render (P ++ [x])).length s' r := by
  have hx : x ∈ its := by rw [hit]; simp
  have hlen : (render (P ++ [x])).length = (render P).length + x.render.length := by rw [render_app, List.length_append]; simp [render]
  rw [hlen]
  have e0 : render its = render P ++ (x.render ++ render R) := by rw [hit, render_app, render]
  -- the items that are tags
  have tagged : ∀ a m, nameOf x = some (a :: m) → a ≠ 0x58 → (a = 0x4C → m ≠ []) → (a :: m = lit "Lu" → s.classTagSeen = true ∨ (render R).length < 3) →
      Runs (render its) cap ((render P).length + x.render.length)
        (if a :: m = lit "De" then { s with isDe := !s.ignoreNextDe }
         else if a = 0x4C then { s with classTagSeen := true, isDe := false, ignoreNextDe := decide (m.head? ≠ some 0x6C ∧ ¬ (lit "nl").isPrefixOf m = true) }
         else s) r := by
    intro a m hnm ha hL hlu
    obtain ⟨_, h1, h2, h3⟩ := tidy_name (ht x hx) hnm
    have e1 : render its = render P ++ 0x5B :: (a :: m ++ 0x5D :: render R) := by rw [e0, h3]; simp
    have e2 : (render P).length + x.render.length = (render P).length + m.length + 3 := by rw [h3]; simp; omega
    rw [e1] at hr ⊢
    rw [e2]
    exact runs_tag h1 h2 ha hL hlu h.xr h.tag hr
  have sect : ∀ c body, x.render = 0x5B :: 0x58 :: c :: 0x5D :: (body ++ [0x5B, 0x58, 0x5D]) → 0x5B ∉ body → (c = 0x70 ∨ c = 0x6A ∨ c = 0x72 ∨ c = 0x73) →
      Runs (render its) cap ((render P).length + x.render.length)
        (if c = 0x70 ∨ c = 0x6A then { s with xpFst := (render P).length + 4, xpBase := s.bf.length, xpHyphens := hyphens body } else s) r := by
    intro c body h3 hb hc
    have e1 : render its = render P ++ 0x5B :: 0x58 :: c :: 0x5D :: (body ++ 0x5B :: 0x58 :: 0x5D :: render R) := by rw [e0, h3]; simp
    have e2 : (render P).length + x.render.length = (render P).length + body.length + 7 := by rw [h3]; simp; omega
    rw [e1] at hr ⊢
    rw [e2]
    exact runs_sect hb h.xp h.xr h.tag hc hr
  have quiet : (∀ c, x ≠ .chr c) → (∀ b, ¬ BaseSect x b) → ¬ IsClass x → x ≠ .tag (lit "De") →
      Runs (render its) cap ((render P).length + x.render.length) s r →
      ∃ s', BMeans its st (P ++ [x]) s' ∧ Runs (render its) cap ((render P).length + x.render.length) s' r :=
    fun h1 h2 h3 h4 h5 => ⟨s, means_none h h1 h2 h3 h4, h5⟩
  cases x with
  | cls c =>
    by_cases hlu : c = 0x75 ∧ s.classTagSeen = false ∧ 3 ≤ (render R).length
    · obtain ⟨rfl, hseen, hl⟩ := hlu
      have hf : FirstNumeral its P R := by
        refine ⟨hit, fun y hy hc => ?_, by simp [render, SItem.render]; omega⟩
        rw [h.seen.2 ⟨y, hy, hc⟩] at hseen
        cases hseen
      obtain ⟨hg, hde⟩ := hn rfl hf
      have e1 : render its = render P ++ 0x5B :: 0x4C :: 0x75 :: 0x5D :: render R := by rw [e0]; rfl
      have hr' := hr
      rw [e1] at hr'
      obtain ⟨q, hq, _, h3⟩ := runs_lu hseen hl hr'
      have hqn := (parseNumeral_spec (fun y hy => ht y (by rw [hit]; simp [hy])) (fun y hy => hu y (by rw [hit]; simp [hy])) hq).1 hg
      refine ⟨_, means_lu hde (fun y hy => by rw [hit]; simp [hy]) h, ?_⟩
      have := h3 hqn
      rw [← e1] at this
      exact this
    have := tagged 0x4C [c] rfl (by decide) (fun _ => by simp) (fun e => by
      have e3 : c = 0x75 := by
        have e4 : lit "Lu" = [0x4C, 0x75] := by decide
        rw [e4] at e; cases e; rfl
      subst e3
      cases hs : s.classTagSeen with
      | true => exact Or.inl rfl
      | false => exact Or.inr (Nat.lt_of_not_le fun h3 => hlu ⟨rfl, hs, h3⟩))
    rw [if_neg (by rw [show lit "De" = [0x44, 0x65] by decide]; intro e; cases e), if_pos rfl] at this
    refine ⟨_, means_class h (Or.inl ⟨c, rfl⟩) ?_, this⟩
    rw [show lit "nl" = [0x6E, 0x6C] by decide]
    simp [List.isPrefixOf]
  | cls2 c d =>
    have := tagged 0x4C [c, d] rfl (by decide) (fun _ => by simp) (fun e => by
      rw [show lit "Lu" = [0x4C, 0x75] by decide] at e; cases e)
    rw [if_neg (by rw [show lit "De" = [0x44, 0x65] by decide]; intro e; cases e), if_pos rfl] at this
    refine ⟨_, means_class h (Or.inr ⟨c, d, rfl⟩) ?_, this⟩
    rw [show lit "nl" = [0x6E, 0x6C] by decide]
    have hc : c ≠ 0x6C := hu _ hx
    rw [decide_eq_false_iff_not]
    constructor
    · intro h1
      have h2 : [0x6E, 0x6C].isPrefixOf [c, d] = true := Classical.byContradiction fun h3 => h1 ⟨by simpa using hc, h3⟩
      simp only [List.isPrefixOf, Bool.and_eq_true, beq_iff_eq] at h2
      obtain ⟨rfl, rfl, _⟩ := h2
      exact Or.inr rfl
    · rintro (e | e)
      · cases e
      · cases e
        rintro ⟨_, h1⟩
        exact h1 (by decide)
  | tag n =>
    obtain ⟨hne, _⟩ := ht _ hx
    obtain ⟨hX, hL, _⟩ : n.head? ≠ some 0x58 ∧ n.head? ≠ some 0x4C ∧ n ≠ [0x42, 0x63] := hu _ hx
    cases n with
    | nil => exact absurd rfl hne
    | cons a m =>
      have ha : a ≠ 0x4C := by simpa using hL
      have := tagged a m rfl (by simpa using hX) (fun e => absurd e ha) (fun e => by
        rw [show lit "Lu" = [0x4C, 0x75] by decide] at e
        exact absurd (List.cons.inj e).1 ha)
      by_cases hde : a :: m = lit "De"
      · rw [if_pos hde] at this
        rw [hde] at this ⊢
        exact ⟨_, means_de (by rw [← hde]; exact hx) h, this⟩
      · rw [if_neg hde, if_neg ha] at this
        exact quiet (by simp) (by rintro b (e | e) <;> cases e) (by rintro (⟨_, e⟩ | ⟨_, _, e⟩) <;> cases e) (by simpa using hde) this
  | bound c =>
    have := tagged 0x42 [c] rfl (by decide) (fun e => by cases e) (fun e => by
        rw [show lit "Lu" = [0x4C, 0x75] by decide] at e; cases e)
    rw [if_neg (by rw [show lit "De" = [0x44, 0x65] by decide]; intro e; cases e), if_neg (by decide)] at this
    exact quiet (by simp) (by rintro b (e | e) <;> cases e) (by rintro (⟨_, e⟩ | ⟨_, _, e⟩) <;> cases e) (by simp) this
  | sect c body =>
    have hc : c = 0x70 ∨ c = 0x6A ∨ c = 0x73 := hu _ hx
    have hb : 0x5B ∉ body := (ht _ hx).2
    have := sect c body rfl hb (by rcases hc with rfl | rfl | rfl <;> decide)
    by_cases hpj : c = 0x70 ∨ c = 0x6A
    · rw [if_pos hpj] at this
      exact ⟨_, means_base h (by rcases hpj with rfl | rfl; exacts [Or.inl rfl, Or.inr rfl]), this⟩
    · rw [if_neg hpj] at this
      exact quiet (by simp) (by rintro b (e | e) <;> cases e <;> exact hpj (by decide)) (by rintro (⟨_, e⟩ | ⟨_, _, e⟩) <;> cases e) (by simp) this
  | pat p =>
    have := sect 0x72 p rfl (ht _ hx) (by decide)
    rw [if_neg (by decide)] at this
    exact quiet (by simp) (by rintro b (e | e) <;> cases e) (by rintro (⟨_, e⟩ | ⟨_, _, e⟩) <;> cases e) (by simp) this
  | chr c =>
    have hc : c ≠ 0x5B := (ht _ hx).1
    have e1 : render its = render P ++ c :: render R := by rw [e0]; rfl
    obtain ⟨v, hv, hr⟩ := runs_cases hr (by rw [e1]; simp)
    rw [e1, bfStep_plain hc, h.xr, h.tag, h.xp] at hv
    simp only [Bool.false_eq_true, if_false] at hv
    obtain ⟨s2, hs2, hv⟩ := Option.bind_eq_some_iff.1 hv
    obtain ⟨bf, hbf, hv⟩ := Option.bind_eq_some_iff.1 hv
    have hbf' : bf = s2.bf ++ [(applyPattern c s2.sp).1] := by
      rw [push] at hbf
      split at hbf
      · exact (Option.some.inj hbf).symm
      · cases hbf
    subst hbf'
    cases hv
    rcases hr with hr | ⟨j, s', hj, hr⟩
    · cases hr
    · cases hj
      refine ⟨_, ?_, hr⟩
      by_cases hh : c = 0x2D
      · subst hh
        rw [if_pos rfl, ← e1] at hs2
        exact means_hyphen hit ht hu h hs2
      · rw [if_neg hh] at hs2
        cases hs2
        exact means_letter h hh

/-- All items. -/
theorem runs_items (ht : Tidy its) (hu : ∀ x ∈ its, UItem x) (hn : ∀ Q R, FirstNumeral its Q R → GoesOn R ∧ .tag (lit "De") ∉ its) : ∀ (R P : List SItem) (s : FState), its = P ++ R →
    BMeans its st P s → Runs (render its) cap (render P).length s r → ∃ s', BMeans its st its s' ∧ Runs (render its) cap (render its).length s' r := by
  intro R
  induction R with
  | nil => intro P s e h hr; rw [List.append_nil] at e; subst e; exact ⟨s, h, hr⟩
  | cons x R ih =>
    intro P s e h hr
    obtain ⟨s', h', hr'⟩ := runs_item e ht hu (fun _ => hn P R) h hr
    exact ih (P ++ [x]) s' (by rw [e]; simp) h' hr'

theorem means_start : BMeans its st [] { sp := st } :=
  ⟨rfl, rfl, rfl, rfl, .nil, ⟨(fun e => by cases e), fun ⟨x, hx, _⟩ => by cases hx⟩, (fun _ => ⟨fun _ Q x R h => by simp at h, fun _ => rfl⟩),
    ⟨(fun e => by cases e), fun ⟨Q, R, h, _⟩ => by simp at h⟩, Or.inl ⟨rfl, rfl, fun A body M ⟨x, h, _⟩ => by simp at h⟩⟩

/-- The end. -/
theorem runs_finish (ht : Tidy its) (h : BMeans its st its s) (hr : Runs (render its) cap (render its).length s r) :
    ∃ b, BaseForm its st b ∧ r = if b = [] then none else some b := by
  obtain ⟨f, hr⟩ := hr
  cases f with
  | zero => cases hr
  | succ f =>
    rw [bfLoop, if_neg (by omega)] at hr
    obtain ⟨bf, hbf, hr⟩ := Option.bind_eq_some_iff.1 hr
    refine ⟨bf, ?_, ?_⟩
    · rcases h.base with ⟨h1, h2, h3⟩ | ⟨A, body, M, h1, h2, h3, h4, h5⟩
      · rw [if_neg (by simpa using h1)] at hbf
        cases hbf
        exact Or.inr ⟨h3, h.text⟩
      · rw [if_pos (by omega)] at hbf
        obtain ⟨b1, hb1, hbf⟩ := Option.bind_eq_some_iff.1 hbf
        rw [back, if_pos h4] at hb1
        cases hb1
        obtain ⟨k, hk⟩ := sect_text h1 []
        have hl : s.xpFst = (render A ++ [0x5B, 0x58, k, 0x5D]).length := by rw [h3]; simp
        rw [List.append_nil] at hk
        rw [hl, hk] at hbf
        rw [copy_none (sect_tidy h1 ht) hbf]
        exact Or.inl ⟨A, body, M, _, h1, by omega, h5, rfl⟩
    · by_cases h0 : bf = []
      · subst h0
        simp only [List.length_nil, if_true, Option.pure_def, Option.some.injEq] at hr
        rw [← hr]; rfl
      · rw [if_neg (by simpa using h0)] at hr
        rw [if_neg h0]
        split at hr
        · exact (Option.some.inj hr).symm
        · cases hr

/-- The base form of a reading. -/
theorem parseBaseform_eq (its : List SItem) (st : List Wc) (hw : WellFormed its) (ht : Tidy its) (hk : KnownSections its)
    (hn : ∀ Q R, FirstNumeral its Q R → GoesOn R ∧ .tag (lit "De") ∉ its) :
    ∃ b, BaseForm its st b ∧ parseBaseform (render its) st = some (if b = [] then none else some b) := by
  obtain ⟨r, hr, _⟩ := parseBaseform_ok (render its) st
  obtain ⟨s', h1, h2⟩ := runs_items (cap := (render its).length + 1) (r := r) ht (usual_items its [] false hw.1 hk) hn its [] { sp := st } rfl means_start ⟨_, hr⟩
  obtain ⟨b, hb, rfl⟩ := runs_finish ht h1 h2
  exact ⟨b, hb, hr⟩

/-- The items before a numeral. -/
theorem runs_before (ht : Tidy its) (hu : ∀ x ∈ its, UItem x) : ∀ (Q P R : List SItem) (s : FState), its = P ++ (Q ++ R) →
    (∀ y ∈ P ++ Q, ¬ IsClass y) → BMeans its st P s → Runs (render its) cap (render P).length s r →
    ∃ s', BMeans its st (P ++ Q) s' ∧ Runs (render its) cap (render (P ++ Q)).length s' r := by
  intro Q
  induction Q with
  | nil => intro P R s e _ h hr; rw [List.append_nil]; exact ⟨s, h, hr⟩
  | cons x Q ih =>
    intro P R s e hc h hr
    obtain ⟨s', h', hr'⟩ := runs_item (x := x) (R := Q ++ R) (by rw [e]; rfl) ht hu
      (fun e2 _ => absurd (Or.inl ⟨_, e2⟩) (hc x (by simp))) h hr
    have ec : P ++ x :: Q = (P ++ [x]) ++ Q := by simp
    rw [ec] at hc ⊢
    exact ih (P ++ [x]) R s' (by rw [e]; simp) hc h' hr'

/-- The base form of a numeral. -/
theorem parseBaseform_numeral (its Q R : List SItem) (st : List Wc) (hw : WellFormed its) (ht : Tidy its) (hk : KnownSections its)
    (hf : FirstNumeral its Q R) (hg : ¬ GoesOn R) (hp : PlainNumeral R) :
    ∃ t, Written its st Q t ∧ parseBaseform (render its) st = some (some (t ++ numeralBase R)) := by
  obtain ⟨hit, hc, hl⟩ := hf
  have hu := usual_items its [] false hw.1 hk
  obtain ⟨r, hr, _⟩ := parseBaseform_ok (render its) st
  obtain ⟨s', h1, h2⟩ := runs_before (cap := (render its).length + 1) (r := r) ht hu Q [] (.cls 0x75 :: R) { sp := st } hit
    (by simpa using hc) means_start ⟨_, hr⟩
  rw [List.nil_append] at h1 h2
  have e1 : render its = render Q ++ 0x5B :: 0x4C :: 0x75 :: 0x5D :: render R := by rw [hit, render_app]; rfl
  rw [e1] at h2
  have hseen : s'.classTagSeen = false := by
    cases hs : s'.classTagSeen with
    | false => rfl
    | true =>
      obtain ⟨y, hy, hy2⟩ := h1.seen.1 hs
      exact absurd hy2 (hc y hy)
  obtain ⟨q, hq, h3, _⟩ := runs_lu hseen (by simp [render, SItem.render] at hl; omega) h2
  have := (parseNumeral_spec (fun y hy => ht y (by rw [hit]; simp [hy])) (fun y hy => hu y (by rw [hit]; simp [hy])) hq).2 hg hp
  refine ⟨s'.bf, h1.text, ?_⟩
  rw [hr, h3 _ this]

/-! ### There is only one -/

theorem written_inv {P' : List SItem} {t' : List Wc} (h : Written its st P' t') : (P' = [] ∧ t' = []) ∨
    (∃ P x, P' = P ++ [x] ∧ (∀ c, x ≠ .chr c) ∧ Written its st P t') ∨
    (∃ P c t, P' = P ++ [.chr c] ∧ t' = t ++ [shown st (content P).length c] ∧ Written its st P t ∧ (c = 0x2D → ∀ A body, ¬ Replaced its P A body)) ∨
    (∃ P A body t, P' = P ++ [.chr 0x2D] ∧ t' = t ++ capital body ++ [shown st (content P).length 0x2D] ∧ Written its st A t ∧ Replaced its P A body) := by
  cases h with
  | nil => exact Or.inl ⟨rfl, rfl⟩
  | mark h1 h2 => exact Or.inr (Or.inl ⟨_, _, rfl, h2, h1⟩)
  | letter h1 h2 => exact Or.inr (Or.inr (Or.inl ⟨_, _, _, rfl, rfl, h1, h2⟩))
  | name h1 h2 => exact Or.inr (Or.inr (Or.inr ⟨_, _, _, _, rfl, rfl, h1, h2⟩))

theorem replaced_unique {A A' : List SItem} {body body' : List Wc} (h : Replaced its P A body) (h' : Replaced its P A' body') : A = A' ∧ body = body' := by
  obtain ⟨⟨M, h1, _⟩, _⟩ := h
  obtain ⟨⟨M', h2, _⟩, _⟩ := h'
  obtain ⟨e1, e2, _⟩ := lastBase_unique h1 h2
  exact ⟨e1, e2⟩

theorem written_unique : ∀ (n : Nat) (P : List SItem), P.length ≤ n → ∀ t t', Written its st P t → Written its st P t' → t = t' := by
  intro n
  induction n with
  | zero =>
    intro P hP t t' h h'
    have : P = [] := List.length_eq_zero_iff.1 (by omega)
    subst this
    rcases written_inv h with ⟨_, e⟩ | ⟨_, _, e, _⟩ | ⟨_, _, _, e, _⟩ | ⟨_, _, _, _, e, _⟩
    · rcases written_inv h' with ⟨_, e'⟩ | ⟨_, _, e, _⟩ | ⟨_, _, _, e, _⟩ | ⟨_, _, _, _, e, _⟩
      · rw [e, e']
      all_goals simp at e
    all_goals simp at e
  | succ n ih =>
    intro P hP t t' h h'
    have app : ∀ {Q Q' : List SItem} {x x' : SItem}, Q ++ [x] = Q' ++ [x'] → Q = Q' ∧ x = x' := by
      intro Q Q' x x' e
      have := List.append_inj' e rfl
      exact ⟨this.1, by have := this.2; cases this; rfl⟩
    have less : ∀ {Q A : List SItem} {body : List Wc} {x : SItem}, (Q ++ [x]).length ≤ n + 1 → Replaced its Q A body → A.length ≤ n := by
      intro Q A body x hl hR
      obtain ⟨⟨M, ⟨y, rfl, _⟩, _⟩, _⟩ := hR
      simp at hl
      omega
    rcases written_inv h with ⟨rfl, e⟩ | ⟨Q, x, rfl, hx, hw⟩ | ⟨Q, c, u, rfl, rfl, hw, hc⟩ | ⟨Q, A, body, u, rfl, rfl, hw, hR⟩
    · rcases written_inv h' with ⟨_, e'⟩ | ⟨_, _, e, _⟩ | ⟨_, _, _, e, _⟩ | ⟨_, _, _, _, e, _⟩
      · rw [e, e']
      all_goals simp at e
    all_goals
      rcases written_inv h' with ⟨e, _⟩ | ⟨Q', x', e, hx', hw'⟩ | ⟨Q', c', u', e, rfl, hw', hc'⟩ | ⟨Q', A', body', u', e, rfl, hw', hR'⟩
    · simp at e
    · obtain ⟨rfl, rfl⟩ := app e
      exact ih Q (by simp at hP; omega) _ _ hw hw'
    · exact absurd (app e).2 (hx _)
    · exact absurd (app e).2 (hx _)
    · simp at e
    · exact absurd (app e).2.symm (hx' _)
    · obtain ⟨rfl, e2⟩ := app e
      cases e2
      rw [ih Q (by simp at hP; omega) _ _ hw hw']
    · obtain ⟨rfl, e2⟩ := app e
      cases e2
      exact absurd hR' (hc rfl _ _)
    · simp at e
    · exact absurd (app e).2.symm (hx' _)
    · obtain ⟨rfl, e2⟩ := app e
      cases e2
      exact absurd hR (hc' rfl _ _)
    · obtain ⟨rfl, _⟩ := app e
      obtain ⟨rfl, rfl⟩ := replaced_unique hR hR'
      rw [ih A (less hP hR) _ _ hw hw']

theorem baseForm_unique {b b' : List Wc} (h : BaseForm its st b) (h' : BaseForm its st b') : b = b' := by
  rcases h with ⟨A, body, M, t, h1, h2, h3, rfl⟩ | ⟨h1, h2⟩
  · rcases h' with ⟨A', body', M', t', g1, g2, g3, rfl⟩ | ⟨g1, _⟩
    · obtain ⟨rfl, rfl, rfl⟩ := lastBase_unique h1 g1
      rw [written_unique _ A (Nat.le_refl _) _ _ h3 g3]
    · have := g1 _ _ _ h1; omega
  · rcases h' with ⟨A', body', M', t', g1, g2, g3, rfl⟩ | ⟨_, g2⟩
    · have := h1 _ _ _ g1; omega
    · exact written_unique _ its (Nat.le_refl _) _ _ h2 g2

end Verif.Baseform
