import Verif.Model.Suggest
import Verif.Lemmas.Tweaks
import Verif.Lemmas.SpellerCache
import Mathlib.Tactic.Linarith
import Mathlib.Tactic.ByContra
/-!
# Suggestions: submission of candidate lists, memory lemmas
-/
set_option linter.unusedSimpArgs false
set_option linter.unusedVariables false

namespace Verif.Props
open Verif

/-- Submitting candidates one after the other. -/
def feed (an : Analyzer) : List (List Wc) → Gen
  | [], s => some s
  | c :: cs, s => do
    let s ← suggestForBuffer an s c
    feed an cs s

theorem suggest_abort (an : Analyzer) (s : SugStatus) (c : List Wc) (h : s.shouldAbort = true) :
    suggestForBuffer an s c = some s := by
  simp [suggestForBuffer, h]

theorem feed_abort (an : Analyzer) (cs : List (List Wc)) (s : SugStatus) (h : s.shouldAbort = true) :
    feed an cs s = some s := by
  induction cs with
  | nil => rfl
  | cons c cs ih => simp [feed, suggest_abort an s c h, ih]

theorem feed_append (an : Analyzer) (as bs : List (List Wc)) (s : SugStatus) :
    feed an (as ++ bs) s = (feed an as s).bind (feed an bs) := by
  induction as generalizing s with
  | nil => rfl
  | cons c cs ih =>
    simp only [List.cons_append, feed, Option.bind_eq_bind]
    cases suggestForBuffer an s c with
    | none => rfl
    | some s' => simp [ih]

theorem feed_cons (an : Analyzer) (c : List Wc) (cs : List (List Wc)) (s : SugStatus) :
    feed an (c :: cs) s = (suggestForBuffer an s c).bind (feed an cs) := rfl

/-- The constant part of the status. -/
def SameTask (s s' : SugStatus) : Prop := s'.word = s.word ∧ s'.maxSug = s.maxSug ∧ s'.maxCost = s.maxCost

theorem SameTask.refl (s : SugStatus) : SameTask s s := ⟨rfl, rfl, rfl⟩
theorem SameTask.trans {a b c : SugStatus} (h : SameTask a b) (h' : SameTask b c) : SameTask a c :=
  ⟨h'.1.trans h.1, h'.2.1.trans h.2.1, h'.2.2.trans h.2.2⟩

theorem add_sameTask {s s' : SugStatus} {w : List Wc} {p : Nat} (h : s.addSuggestion w p = some s') :
    SameTask s s' ∧ s'.cost = s.cost := by
  unfold SugStatus.addSuggestion at h
  split at h
  · unfold int32 at h
    split at h
    · simp only [Option.bind_eq_bind, Option.bind_some, Option.pure_def, Option.some.injEq] at h
      subst h; exact ⟨SameTask.refl _, rfl⟩
    · simp at h
  · simp only [Option.pure_def, Option.some.injEq] at h
    subst h; exact ⟨SameTask.refl _, rfl⟩

theorem suggest_sameTask {an : Analyzer} {s s' : SugStatus} {c : List Wc} (h : suggestForBuffer an s c = some s') :
    SameTask s s' ∧ s.cost ≤ s'.cost ∧ s'.cost ≤ s.cost + 2 := by
  unfold suggestForBuffer at h
  split at h
  · simp only [Option.pure_def, Option.some.injEq] at h
    subst h; exact ⟨SameTask.refl _, by omega, by omega⟩
  · simp only [Option.bind_eq_bind, Option.pure_def] at h
    cases hp : spellWithPriority an c with
    | none => rw [hp] at h; simp at h
    | some rp =>
      obtain ⟨r, p⟩ := rp
      rw [hp] at h
      simp only [Option.bind_some] at h
      cases r with
      | failed =>
        simp only [Option.some.injEq] at h
        subst h; exact ⟨⟨rfl, rfl, rfl⟩, by simp [SugStatus.charge], by simp [SugStatus.charge]⟩
      | ok =>
        simp only [Option.bind_eq_some_iff] at h
        obtain ⟨_, _, h⟩ := h
        have := add_sameTask h
        exact ⟨⟨this.1.1, this.1.2.1, this.1.2.2⟩, by simp [this.2, SugStatus.charge],
          by simp [this.2, SugStatus.charge]⟩
      | capFirst =>
        simp only [Option.bind_eq_some_iff] at h
        obtain ⟨_, _, _, _, h⟩ := h
        have := add_sameTask h
        exact ⟨⟨this.1.1, this.1.2.1, this.1.2.2⟩, by simp [this.2, SugStatus.charge],
          by simp [this.2, SugStatus.charge]⟩
      | capError =>
        simp only at h
        cases ha : an c with
        | nil =>
          rw [ha] at h
          simp only [Option.some.injEq] at h
          subst h; exact ⟨⟨rfl, rfl, rfl⟩, by simp [SugStatus.charge]; omega, by simp [SugStatus.charge]⟩
        | cons a as =>
          rw [ha] at h
          simp only [Option.bind_eq_some_iff] at h
          obtain ⟨_, _, _, _, _, _, h⟩ := h
          have := add_sameTask h
          exact ⟨⟨this.1.1, this.1.2.1, this.1.2.2⟩, by simp [this.2, SugStatus.charge]; omega,
            by simp [this.2, SugStatus.charge]⟩

theorem feed_sameTask {an : Analyzer} {cs : List (List Wc)} {s s' : SugStatus} (h : feed an cs s = some s') :
    SameTask s s' := by
  induction cs generalizing s with
  | nil => cases h; exact SameTask.refl _
  | cons c cs ih =>
    simp only [feed, Option.bind_eq_bind, Option.bind_eq_some_iff] at h
    obtain ⟨s1, h1, h2⟩ := h
    exact (suggest_sameTask h1).1.trans (ih h2)

/-! ### Memory -/

theorem newBuf_length (junk : Nat → Wc) (n : Nat) : (newBuf junk n).length = n := by simp [newBuf]

theorem takeWhile_nz (u : List Wc) (h : 0 ∉ u) : u.takeWhile (· ≠ 0) = u := by
  induction u with
  | nil => rfl
  | cons c cs ih =>
    simp only [List.mem_cons, not_or] at h
    rw [List.takeWhile_cons_of_pos (by simpa using fun e => h.1 e.symm), ih h.2]

/-- `wcsncpy` from a C string. -/
theorem wcsncpyR_str (u t : List Wc) (n : Nat) (h : 0 ∉ u) :
    wcsncpyR (u ++ 0 :: t) n = some (u.take n ++ List.replicate (n - u.length) 0) := by
  unfold wcsncpyR wcsncpy
  rcases Nat.lt_or_ge u.length n with hn | hn
  · have e : (u ++ 0 :: t).take n = u ++ 0 :: t.take (n - u.length - 1) := by
      rw [List.take_append, List.take_of_length_le (by omega)]
      congr 1
      obtain ⟨m, hm⟩ : ∃ m, n - u.length = m + 1 := ⟨n - u.length - 1, by omega⟩
      rw [hm]; simp
    have e2 : (u ++ 0 :: t.take (n - u.length - 1)).takeWhile (· ≠ 0) = u := by
      rw [List.takeWhile_append_of_pos (by intro a ha; simp; rintro rfl; exact h ha)]
      simp
    rw [e, if_pos (by simp), e2, List.take_of_length_le (by omega)]
  · have e : (u ++ 0 :: t).take n = u.take n := by rw [List.take_append_of_le_length hn]
    have h' : 0 ∉ u.take n := fun hm => h (List.mem_of_mem_take hm)
    rw [e, if_pos (by simp; right; omega), takeWhile_nz _ h']
    simp only [List.length_take, Option.some.injEq]
    congr 2
    omega

/-- `wcsncpy` of characters that are all there and contain no NUL. -/
theorem wcsncpyR_plain (u : List Wc) (n : Nat) (h : 0 ∉ u.take n) (hn : n ≤ u.length) :
    wcsncpyR u n = some (u.take n) := by
  unfold wcsncpyR wcsncpy
  rw [if_pos (by simp [hn]), takeWhile_nz _ h]
  simp [List.length_take, Nat.min_eq_left hn]

theorem cpy_str (buf : List Wc) (off : Nat) (u t : List Wc) (n : Nat) (h : 0 ∉ u) (hb : off + n ≤ buf.length) :
    cpy buf off (u ++ 0 :: t) n =
      some (buf.take off ++ (u.take n ++ List.replicate (n - u.length) 0) ++ buf.drop (off + n)) := by
  unfold cpy
  have hl : (u.take n ++ List.replicate (n - u.length) 0).length = n := by simp; omega
  simp only [wcsncpyR_str u t n h, Option.bind_eq_bind, Option.bind_some]
  rw [wrList_eq _ _ _ (by omega), hl]

theorem sub_eq (pre post : List Wc) (n : Nat) (h : pre.length = n) : sub (pre ++ post) n = some pre := by
  subst h
  simp [sub]

theorem drop_str (w : List Wc) (i : Nat) (h : i ≤ w.length) : (w ++ [0]).drop i = w.drop i ++ [0] := by
  rw [List.drop_append_of_le_length h]

theorem rd_str (w : List Wc) (i : Nat) (h : i < w.length) : rd (w ++ [0]) i = some w[i] := by
  rw [rd_eq_some (by simp; omega), List.getElem_append_left h]

theorem wr_mid (pre : List Wc) (x y : Wc) (post : List Wc) (i : Nat) (h : pre.length = i) :
    wr (pre ++ x :: post) i y = some (pre ++ y :: post) := by
  subst h
  rw [wr_eq_some _ (by simp)]
  simp [List.set_append]

theorem rd_mid (pre : List Wc) (x : Wc) (post : List Wc) (i : Nat) (h : pre.length = i) :
    rd (pre ++ x :: post) i = some x := by
  subst h; simp [rd]

theorem take_succ_snoc (w : List Wc) (i : Nat) (h : i < w.length) : w.take (i + 1) = w.take i ++ [w[i]] := by
  rw [List.take_add_one]; simp [h]

theorem not_mem_take {w : List Wc} (h : 0 ∉ w) (i : Nat) : 0 ∉ w.take i := fun hm => h (List.mem_of_mem_take hm)
theorem not_mem_drop {w : List Wc} (h : 0 ∉ w) (i : Nat) : 0 ∉ w.drop i := fun hm => h (List.mem_of_mem_drop hm)

end Verif.Props
