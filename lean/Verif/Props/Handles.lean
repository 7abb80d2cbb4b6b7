import Verif.Model.Handles
import Verif.Lemmas.LanguageTag
import Mathlib.Data.List.Perm.Basic
/-!
# C50: the handle table of the deprecated interface
-/

set_option linter.unusedSimpArgs false
set_option linter.unusedVariables false

namespace Verif.Props
open Verif

variable {H : Type}

/-- The object behind a handle. -/
def liveAt (t : HandleTable H) (h : Int) : Option H :=
  match t with
  | none => none
  | some a => if 1 ≤ h ∧ h < 5 then (a[h.toNat]?).join else none

/-- The table is null or has five slots, the first of which is not used. -/
def GoodTable (t : HandleTable H) : Prop := ∀ a, t = some a → ∃ s1 s2 s3 s4, a = [none, s1, s2, s3, s4]

/-- All objects behind handles. -/
def liveObjects (t : HandleTable H) : List H :=
  (liveAt t 1).toList ++ ((liveAt t 2).toList ++ ((liveAt t 3).toList ++ (liveAt t 4).toList))

/-- The array that a new call of `voikko_init` works with. -/
theorem findFree_eq {t : HandleTable H} (h : GoodTable t) :
    ∃ s1 s2 s3 s4, findFreeSlotForHandle t = some ([none, s1, s2, s3, s4],
      if s1.isNone then some 1 else if s2.isNone then some 2 else if s3.isNone then some 3 else if s4.isNone then some 4 else none) ∧
      ∀ i, liveAt t i = liveAt (some [none, s1, s2, s3, s4]) i := by
  cases t with
  | none =>
    refine ⟨none, none, none, none, rfl, ?_⟩
    intro i
    simp only [liveAt]
    split
    · rename_i hi
      have : i = 1 ∨ i = 2 ∨ i = 3 ∨ i = 4 := by omega
      rcases this with rfl | rfl | rfl | rfl <;> rfl
    · rfl
  | some a =>
    obtain ⟨s1, s2, s3, s4, rfl⟩ := h a rfl
    exact ⟨s1, s2, s3, s4, rfl, fun _ => rfl⟩

/-! ## Variants -/

theorem convertLoop_ok : ∀ (rest : List Nat) (buf : List Nat) (pos i : Nat), pos + 2 * rest.length < buf.length →
    ∃ mid buf', convertLoop buf pos i rest = some (buf', pos + mid.length) ∧ buf'.length = buf.length ∧
      buf'.take (pos + mid.length) = buf.take pos ++ mid ∧ mid.filter (· ≠ 45) = rest.filter (· ≠ 45) ∧ mid.length ≤ 2 * rest.length ∧
      (i % 8 = 0 → rest ≠ [] → ∃ m, mid = 45 :: m) ∧ (0 ∉ rest → 0 ∉ mid) := by
  intro rest
  induction rest with
  | nil =>
    intro buf pos i _
    exact ⟨[], buf, by simp [convertLoop], rfl, by simp, rfl, by simp, by simp, by simp⟩
  | cons c rest ih =>
    intro buf pos i hl
    rw [List.length_cons] at hl
    rw [convertLoop]
    split
    · rw [wr_eq_some _ (by omega), Option.bind_eq_bind, Option.bind_some, wr_eq_some _ (by simp; omega), Option.bind_some]
      obtain ⟨mid, buf', h1, h2, h3, h4, h5, h6, h7⟩ := ih ((buf.set pos 45).set (pos + 1) c) (pos + 2) (i + 1) (by simp; omega)
      refine ⟨45 :: c :: mid, buf', ?_, by simpa using h2, ?_, ?_, by simp; omega, fun _ _ => ⟨_, rfl⟩, ?_⟩
      · rw [h1]
        simp only [List.length_cons]
        congr 2
        omega
      · have e : pos + (45 :: c :: mid).length = pos + 2 + mid.length := by simp only [List.length_cons]; omega
        rw [e, h3]
        have : ((buf.set pos 45).set (pos + 1) c).take (pos + 2) = buf.take pos ++ [45, c] := by
          apply List.ext_getElem?
          intro j
          rw [List.getElem?_take, List.getElem?_append, List.length_take, Nat.min_eq_left (by omega)]
          by_cases hj : j < pos
          · rw [if_pos (by omega), if_pos hj, List.getElem?_take, if_pos hj, List.getElem?_set, if_neg (by omega), List.getElem?_set,
              if_neg (by omega)]
          · rw [if_neg hj]
            by_cases h1 : j = pos
            · subst h1
              rw [if_pos (by omega), List.getElem?_set, if_neg (by omega), List.getElem?_set, if_pos rfl, if_pos (by omega)]
              simp
            · by_cases h2 : j = pos + 1
              · subst h2
                rw [if_pos (by omega), List.getElem?_set, if_pos rfl, if_pos (by simp; omega)]
                have : pos + 1 - pos = 1 := by omega
                rw [this]; rfl
              · rw [if_neg (by omega)]
                symm
                rw [List.getElem?_eq_none_iff]
                simp only [List.length_cons, List.length_nil]
                omega
        rw [this]; simp
      · rw [List.filter_cons, if_neg (by simp), List.filter_cons, List.filter_cons, h4]
      · intro h0
        simp only [List.mem_cons, not_or] at h0 ⊢
        exact ⟨by omega, h0.1, h7 h0.2⟩
    · rename_i hi
      rw [wr_eq_some _ (by omega), Option.bind_eq_bind, Option.bind_some]
      obtain ⟨mid, buf', h1, h2, h3, h4, h5, h6, h7⟩ := ih (buf.set pos c) (pos + 1) (i + 1) (by simp; omega)
      refine ⟨c :: mid, buf', ?_, by simpa using h2, ?_, ?_, by simp; omega, fun h => absurd h hi, ?_⟩
      · rw [h1]
        simp only [List.length_cons]
        congr 2
        omega
      · have e : pos + (c :: mid).length = pos + 1 + mid.length := by simp only [List.length_cons]; omega
        rw [e, h3]
        have : (buf.set pos c).take (pos + 1) = buf.take pos ++ [c] := by
          rw [List.take_add_one, List.take_set_of_le (Nat.le_refl _), List.getElem?_set, if_pos rfl, if_pos (by omega)]
          rfl
        rw [this]; simp
      · rw [List.filter_cons, List.filter_cons, h4]
      · intro h0
        simp only [List.mem_cons, not_or] at h0 ⊢
        exact ⟨h0.1, h7 h0.2⟩

/-- Converting a variant stays inside the array of `2 * length + 5` bytes and gives a string that means Finnish with this variant
(in lower case, without hyphens). -/
theorem C50_variant {variant junk : List Nat} (h0 : variant ≠ []) (hz : 0 ∉ variant) (hj : junk.length = 2 * variant.length + 5) :
    ∃ buf, convertVariantToBCP47 junk variant = some buf ∧ buf.length = junk.length ∧ 0 ∈ buf ∧
      LanguageTag.setBcp47 {} (buf.takeWhile (· ≠ 0)) = ⟨lit "fi", [], lowercaseTagPart (variant.filter (· ≠ 45))⟩ := by
  unfold convertVariantToBCP47
  rw [wr_eq_some _ (by omega), Option.bind_eq_bind, Option.bind_some]
  rw [wr_eq_some _ (by simp; omega), Option.bind_some]
  rw [wr_eq_some _ (by simp; omega), Option.bind_some]
  rw [wr_eq_some _ (by simp; omega), Option.bind_some]
  rw [wr_eq_some _ (by simp; omega), Option.bind_some]
  have hfi : (((((junk.set 0 102).set 1 105).set 2 45).set 3 120).set 4 0).take 4 = [102, 105, 45, 120] := by
    match junk, hj with
    | a :: b :: c :: d :: rest, _ => cases rest <;> rfl
    | [], h => simp at h
    | [_], h => simp at h
    | [_, _], h => simp at h
    | [_, _, _], h => simp at h
  have hlen : (((((junk.set 0 102).set 1 105).set 2 45).set 3 120).set 4 0).length = 2 * variant.length + 5 := by simp [hj]
  generalize (((((junk.set 0 102).set 1 105).set 2 45).set 3 120).set 4 0) = b at hfi hlen
  obtain ⟨mid, buf', h1, h2, h3, h4, h5, h6, h7⟩ := convertLoop_ok variant b 4 0 (by omega)
  obtain ⟨m, rfl⟩ := h6 rfl h0
  rw [h1, Option.bind_eq_bind, Option.bind_some, wr_eq_some _ (by simp only; rw [h2, hlen]; omega)]
  have hsplit : buf'.set (4 + (45 :: m).length) 0 = ([102, 105] ++ [] ++ (lit "-x-" ++ m)) ++ 0 :: buf'.drop (4 + (45 :: m).length + 1) := by
    rw [List.set_eq_take_append_cons_drop, if_pos (by rw [h2, hlen]; omega), h3, hfi]
    have : lit "-x-" = [45, 120, 45] := rfl
    rw [this]
    simp
  refine ⟨_, rfl, by simp [h2, hlen, hj], ?_, ?_⟩
  · simp only
    rw [hsplit]; simp
  · simp only
    rw [hsplit, List.takeWhile_append_of_pos, List.takeWhile_cons_of_neg (by simp), List.append_nil]
    · rw [setBcp47_private {} (l := [102, 105]) (m := []) (by decide) (by simp), setPrivateUse_eq]
      have hf : m.filter (· ≠ 45) = variant.filter (· ≠ 45) := by
        rw [← h4, List.filter_cons, if_neg (by simp)]
      rw [hf]
      rfl
    · intro x hx
      have h8 := h7 hz
      have : lit "-x-" = [45, 120, 45] := rfl
      rw [this] at hx
      simp only [List.append_nil, List.mem_append, List.mem_cons, List.not_mem_nil, or_false] at hx
      simp only [List.mem_cons, not_or] at h8
      simp only [decide_eq_true_eq]
      rintro rfl
      rcases hx with (h | h) | (h | h | h) | h
      all_goals first | omega | exact h8.2 h

example : convertVariantToBCP47 (List.replicate 23 7) (lit "something") =
    some (lit "fi-x-somethin-g" ++ [0] ++ List.replicate 7 7) := by decide

/-- The string `s` means the language that the code `l` of the deprecated interface stands for: Finnish, without a variant for the
empty code, `default` and `fi_FI`, otherwise with the variant `l`. -/
def meansLegacy (l s : List Nat) : Prop :=
  LanguageTag.setBcp47 {} s =
    if l = [] ∨ l = lit "default" ∨ l = lit "fi_FI" then ⟨lit "fi", [], []⟩
    else ⟨lit "fi", [], lowercaseTagPart (l.filter (· ≠ 45))⟩

/-! ## Single calls -/

/-- `voikko_init`: no undefined behaviour; a new handle is one of 1, 2, 3, 4 that was not in use, and refers to the new object; the
other handles are unchanged. If there is an error no handle changes. The error about the number of handles comes exactly when
all four are in use. -/
theorem C50_init (junk : Nat → List Nat) (hjunk : ∀ n, (junk n).length = n) (make : List Nat → Option H) {t : HandleTable H}
    (ht : GoodTable t) (lang : Option (List Nat)) (hz : ∀ l, lang = some l → 0 ∉ l) :
    ∃ t' r, legacyInit junk make t lang = some (t', r) ∧ GoodTable t' ∧
      (∀ h, r = .ok h → 1 ≤ h ∧ h ≤ 4 ∧ liveAt t h = none ∧ (∃ l s x, lang = some l ∧ meansLegacy l s ∧ make s = some x ∧ liveAt t' h = some x) ∧
        ∀ i, i ≠ (h : Int) → liveAt t' i = liveAt t i) ∧
      ((∀ h, r ≠ .ok h) → ∀ i, liveAt t' i = liveAt t i) ∧
      (r = .full ↔ ∀ i : Int, 1 ≤ i → i ≤ 4 → liveAt t i ≠ none) := by
  obtain ⟨s1, s2, s3, s4, hf, hlive⟩ := findFree_eq ht
  -- the four slots
  have l1 : liveAt t 1 = s1 := by rw [hlive]; rfl
  have l2 : liveAt t 2 = s2 := by rw [hlive]; rfl
  have l3 : liveAt t 3 = s3 := by rw [hlive]; rfl
  have l4 : liveAt t 4 = s4 := by rw [hlive]; rfl
  have hfull : (∀ i : Int, 1 ≤ i → i ≤ 4 → liveAt t i ≠ none) ↔ s1 ≠ none ∧ s2 ≠ none ∧ s3 ≠ none ∧ s4 ≠ none := by
    constructor
    · intro h
      exact ⟨l1 ▸ h 1 (by omega) (by omega), l2 ▸ h 2 (by omega) (by omega), l3 ▸ h 3 (by omega) (by omega), l4 ▸ h 4 (by omega) (by omega)⟩
    · rintro ⟨h1, h2, h3, h4⟩ i hi hi'
      have : i = 1 ∨ i = 2 ∨ i = 3 ∨ i = 4 := by omega
      rcases this with rfl | rfl | rfl | rfl
      · rwa [l1]
      · rwa [l2]
      · rwa [l3]
      · rwa [l4]
  -- a free slot
  have free : ∀ (k : Nat), 1 ≤ k → k ≤ 4 → liveAt t k = none →
      ∃ t' r, (match lang with
        | none => some (some [none, s1, s2, s3, s4], InitResult.nullLanguage)
        | some code => do
          let language ← (if code = [] ∨ code = lit "default" ∨ code = lit "fi_FI" then some (lit "fi" ++ [0])
            else convertVariantToBCP47 (junk (2 * code.length + 5)) code : UB (List Nat))
          let h := make (language.takeWhile (· ≠ 0))
          let a ← wr [none, s1, s2, s3, s4] k h
          match h with
          | some _ => some (some a, InitResult.ok k)
          | none => some (some a, InitResult.error)) = some (t', r) ∧ GoodTable t' ∧
      (∀ h, r = .ok h → 1 ≤ h ∧ h ≤ 4 ∧ liveAt t h = none ∧ (∃ l s x, lang = some l ∧ meansLegacy l s ∧ make s = some x ∧ liveAt t' h = some x) ∧
        ∀ i, i ≠ (h : Int) → liveAt t' i = liveAt t i) ∧
      ((∀ h, r ≠ .ok h) → ∀ i, liveAt t' i = liveAt t i) ∧
      (r = .full ↔ ∀ i : Int, 1 ≤ i → i ≤ 4 → liveAt t i ≠ none) := by
    intro k hk1 hk4 hk
    have hnf : ¬ ∀ i : Int, 1 ≤ i → i ≤ 4 → liveAt t i ≠ none := fun h => h k (by omega) (by omega) hk
    cases lang with
    | none =>
      refine ⟨_, _, rfl, ?_, by simp, fun _ i => (hlive i).symm, by simp [hnf]⟩
      intro a ha
      cases ha
      exact ⟨_, _, _, _, rfl⟩
    | some code =>
      have hlang : ∃ language, (if code = [] ∨ code = lit "default" ∨ code = lit "fi_FI" then some (lit "fi" ++ [0])
            else convertVariantToBCP47 (junk (2 * code.length + 5)) code : UB (List Nat)) = some language ∧ meansLegacy code (language.takeWhile (· ≠ 0)) := by
        by_cases hc : code = [] ∨ code = lit "default" ∨ code = lit "fi_FI"
        · exact ⟨_, if_pos hc, by rw [meansLegacy, if_pos hc]; decide⟩
        · obtain ⟨buf, hb, _, _, hb4⟩ := C50_variant (variant := code) (junk := junk (2 * code.length + 5)) (fun h => hc (.inl h)) (hz _ rfl)
            (hjunk _)
          exact ⟨buf, (if_neg hc).trans hb, by rw [meansLegacy, if_neg hc]; exact hb4⟩
      obtain ⟨language, hlang, hmeans⟩ := hlang
      simp only [hlang, Option.bind_eq_bind, Option.bind_some]
      generalize hs : language.takeWhile (· ≠ 0) = s at hmeans
      rw [wr_eq_some _ (by simp only [List.length_cons, List.length_nil]; omega), Option.bind_some]
      have hgood : GoodTable (some ([none, s1, s2, s3, s4].set k (make s))) := by
        intro a ha
        cases ha
        have : k = 1 ∨ k = 2 ∨ k = 3 ∨ k = 4 := by omega
        rcases this with rfl | rfl | rfl | rfl <;> exact ⟨_, _, _, _, rfl⟩
      have hother : ∀ i : Int, i ≠ k → liveAt (some ([none, s1, s2, s3, s4].set k (make s))) i = liveAt t i := by
        intro i hi
        rw [hlive]
        simp only [liveAt]
        split
        · rw [List.getElem?_set, if_neg (by omega)]
        · rfl
      have hself : liveAt (some ([none, s1, s2, s3, s4].set k (make s))) k = make s := by
        simp only [liveAt]
        rw [if_pos (by omega), List.getElem?_set, if_pos (by omega), if_pos (by simp only [List.length_cons, List.length_nil, Int.toNat_natCast]; omega)]
        rfl
      cases hm : make s with
      | some x =>
        rw [hm] at hgood hother hself
        refine ⟨_, _, rfl, hgood, ?_, fun h => absurd rfl (h k), by simp [hnf]⟩
        intro h hh
        cases hh
        exact ⟨hk1, hk4, hk, ⟨code, s, x, rfl, hmeans, hm, hself⟩, hother⟩
      | none =>
        rw [hm] at hgood hother hself
        refine ⟨_, _, rfl, hgood, by simp, fun _ i => ?_, by simp [hnf]⟩
        by_cases hi : i = (k : Int)
        · rw [hi, hself, hk]
        · exact hother i hi
  unfold legacyInit
  rw [hf, Option.bind_eq_bind, Option.bind_some]
  simp only
  cases s1 with
  | none => exact free 1 (by omega) (by omega) l1
  | some x1 =>
    cases s2 with
    | none => exact free 2 (by omega) (by omega) l2
    | some x2 =>
      cases s3 with
      | none => exact free 3 (by omega) (by omega) l3
      | some x3 =>
        cases s4 with
        | none => exact free 4 (by omega) (by omega) l4
        | some x4 =>
          refine ⟨_, _, rfl, ?_, by simp, fun _ i => (hlive i).symm, ?_⟩
          · intro a ha
            cases ha
            exact ⟨_, _, _, _, rfl⟩
          · rw [hfull]; simp

/-- `voikko_terminate` on a live handle returns 1, gives its object (and no other) to `voikkoTerminate` and makes this handle (and
no other) free. -/
theorem C50_terminate_live {t : HandleTable H} (ht : GoodTable t) {h : Int} {x : H} (hx : liveAt t h = some x) :
    ∃ t', legacyTerminate t h = some (t', some x, 1) ∧ GoodTable t' ∧ liveAt t' h = none ∧
      ∀ i, i ≠ h → liveAt t' i = liveAt t i := by
  cases t with
  | none => cases hx
  | some a =>
    obtain ⟨s1, s2, s3, s4, rfl⟩ := ht a rfl
    simp only [liveAt] at hx
    split at hx
    · rename_i hh
      have : h = 1 ∨ h = 2 ∨ h = 3 ∨ h = 4 := by omega
      -- the slots afterwards
      have after : ∀ (r1 r2 r3 r4 : Option H), ∃ t', freeHandlesIfPossible [none, r1, r2, r3, r4] = some t' ∧ GoodTable t' ∧
          ∀ i, liveAt t' i = liveAt (some [none, r1, r2, r3, r4]) i := by
        intro r1 r2 r3 r4
        cases r1 with
        | some y => exact ⟨some [none, some y, r2, r3, r4], rfl, fun a ha => by cases ha; exact ⟨_, _, _, _, rfl⟩, fun _ => rfl⟩
        | none =>
          cases r2 with
          | some y => exact ⟨some [none, none, some y, r3, r4], rfl, fun a ha => by cases ha; exact ⟨_, _, _, _, rfl⟩, fun _ => rfl⟩
          | none =>
            cases r3 with
            | some y => exact ⟨some [none, none, none, some y, r4], rfl, fun a ha => by cases ha; exact ⟨_, _, _, _, rfl⟩, fun _ => rfl⟩
            | none =>
              cases r4 with
              | some y => exact ⟨some [none, none, none, none, some y], rfl, fun a ha => by cases ha; exact ⟨_, _, _, _, rfl⟩, fun _ => rfl⟩
              | none =>
                refine ⟨none, rfl, by simp [GoodTable], fun i => ?_⟩
                simp only [liveAt]
                split
                · rename_i hi
                  have : i = 1 ∨ i = 2 ∨ i = 3 ∨ i = 4 := by omega
                  rcases this with rfl | rfl | rfl | rfl <;> rfl
                · rfl
      rcases this with rfl | rfl | rfl | rfl
      · cases hx
        obtain ⟨t', h1, h2, h3⟩ := after none s2 s3 s4
        refine ⟨t', ?_, h2, by rw [h3]; rfl, fun i hi => ?_⟩
        · unfold legacyTerminate
          rw [if_pos (by omega)]
          have : ((freeHandlesIfPossible [none, none, s2, s3, s4]).bind fun t => some (t, some x, 1)) = some (t', some x, 1) := by rw [h1]; rfl
          exact this
        · rw [h3]
          simp only [liveAt]
          split
          · have : i = 2 ∨ i = 3 ∨ i = 4 := by omega
            rcases this with rfl | rfl | rfl <;> rfl
          · rfl
      · cases hx
        obtain ⟨t', h1, h2, h3⟩ := after s1 none s3 s4
        refine ⟨t', ?_, h2, by rw [h3]; rfl, fun i hi => ?_⟩
        · unfold legacyTerminate
          rw [if_pos (by omega)]
          have : ((freeHandlesIfPossible [none, s1, none, s3, s4]).bind fun t => some (t, some x, 1)) = some (t', some x, 1) := by rw [h1]; rfl
          exact this
        · rw [h3]
          simp only [liveAt]
          split
          · have : i = 1 ∨ i = 3 ∨ i = 4 := by omega
            rcases this with rfl | rfl | rfl <;> rfl
          · rfl
      · cases hx
        obtain ⟨t', h1, h2, h3⟩ := after s1 s2 none s4
        refine ⟨t', ?_, h2, by rw [h3]; rfl, fun i hi => ?_⟩
        · unfold legacyTerminate
          rw [if_pos (by omega)]
          have : ((freeHandlesIfPossible [none, s1, s2, none, s4]).bind fun t => some (t, some x, 1)) = some (t', some x, 1) := by rw [h1]; rfl
          exact this
        · rw [h3]
          simp only [liveAt]
          split
          · have : i = 1 ∨ i = 2 ∨ i = 4 := by omega
            rcases this with rfl | rfl | rfl <;> rfl
          · rfl
      · cases hx
        obtain ⟨t', h1, h2, h3⟩ := after s1 s2 s3 none
        refine ⟨t', ?_, h2, by rw [h3]; rfl, fun i hi => ?_⟩
        · unfold legacyTerminate
          rw [if_pos (by omega)]
          have : ((freeHandlesIfPossible [none, s1, s2, s3, none]).bind fun t => some (t, some x, 1)) = some (t', some x, 1) := by rw [h1]; rfl
          exact this
        · rw [h3]
          simp only [liveAt]
          split
          · have : i = 1 ∨ i = 2 ∨ i = 3 := by omega
            rcases this with rfl | rfl | rfl <;> rfl
          · rfl
    · cases hx

/-- `voikko_terminate` on a number that is not a live handle returns 0 and changes nothing, if the number is outside 1..4 or some
handle is live. Missing: the numbers 1 to 4 when no handle is live (see `C50_violation`). -/
theorem C50_terminate_other_partial {t : HandleTable H} (ht : GoodTable t) {h : Int} (hx : liveAt t h = none)
    (hp : h < 1 ∨ 4 < h ∨ ∃ i, liveAt t i ≠ none) : legacyTerminate t h = some (t, none, 0) := by
  unfold legacyTerminate
  by_cases hr : 1 ≤ h ∧ h < 5
  · rw [if_pos hr]
    rcases hp with hp | hp | ⟨i, hi⟩
    · omega
    · omega
    cases t with
    | none => exact absurd rfl hi
    | some a =>
      obtain ⟨s1, s2, s3, s4, rfl⟩ := ht a rfl
      simp only [liveAt, if_pos hr] at hx
      have : h = 1 ∨ h = 2 ∨ h = 3 ∨ h = 4 := by omega
      rcases this with rfl | rfl | rfl | rfl <;> (cases hx; rfl)
  · rw [if_neg hr]

/-- The full claim about `voikko_terminate` fails: before the first `voikko_init`, and again after the last live handle has been
terminated, `voikko_terminate(1)` dereferences a null pointer. -/
theorem C50_violation :
    legacyTerminate (H := Unit) none 1 = none ∧
    (∃ t, legacyInit (fun n => List.replicate n 0) (fun _ => some ()) none (some (lit "fi_FI")) = some (t, .ok 1) ∧
      ∃ t', legacyTerminate t 1 = some (t', some (), 1) ∧ legacyTerminate t' 1 = none) := by
  refine ⟨rfl, _, rfl, _, rfl, rfl⟩

/-! ## Histories -/

/-- A call of the deprecated interface. -/
inductive LegacyCall (H : Type) where
  /-- `voikko_init` with a language and what `voikkoInit` would give -/
  | init (lang : Option (List Nat)) (make : List Nat → Option H)
  | terminate (h : Int)

/-- Effect of a call on the table, on the list of created objects and on that of terminated objects. -/
def stepLegacy (junk : Nat → List Nat) (st : HandleTable H × List H × List H) : LegacyCall H → UB (HandleTable H × List H × List H)
  | .init lang make => do
    let (t', r) ← legacyInit junk make st.1 lang
    match r with
    | .ok h => some (t', st.2.1 ++ (liveAt t' h).toList, st.2.2)
    | _ => some (t', st.2.1, st.2.2)
  | .terminate h => do
    let (t', x, _) ← legacyTerminate st.1 h
    some (t', st.2.1, st.2.2 ++ x.toList)

/-- Effect of a list of calls. -/
def runLegacy (junk : Nat → List Nat) : HandleTable H × List H × List H → List (LegacyCall H) → UB (HandleTable H × List H × List H)
  | st, [] => some st
  | st, c :: cs => do
    let st' ← stepLegacy junk st c
    runLegacy junk st' cs

/-- The language strings have no NUL inside. -/
def CleanCall : LegacyCall H → Prop
  | .init lang _ => ∀ l, lang = some l → 0 ∉ l
  | .terminate _ => True

theorem legacyTerminate_cases {t : HandleTable H} (ht : GoodTable t) (h : Int) :
    legacyTerminate t h = none ∨ legacyTerminate t h = some (t, none, 0) ∨ ∃ x, liveAt t h = some x := by
  cases hx : liveAt t h with
  | some x => exact .inr (.inr ⟨x, rfl⟩)
  | none =>
    by_cases hp : h < 1 ∨ 4 < h ∨ ∃ i, liveAt t i ≠ none
    · exact .inr (.inl (C50_terminate_other_partial ht hx hp))
    · unfold legacyTerminate
      rw [if_pos (by omega)]
      cases t with
      | none => exact .inl rfl
      | some a =>
        obtain ⟨s1, s2, s3, s4, rfl⟩ := ht a rfl
        right; left
        simp only [liveAt] at hx
        have : h = 1 ∨ h = 2 ∨ h = 3 ∨ h = 4 := by omega
        rcases this with rfl | rfl | rfl | rfl <;> (cases hx; rfl)

theorem live_perm_add {t t' : HandleTable H} {h : Int} {x : H} (hr : 1 ≤ h ∧ h ≤ 4) (hn : liveAt t h = none)
    (hx : liveAt t' h = some x) (ho : ∀ i, i ≠ h → liveAt t' i = liveAt t i) :
    (liveObjects t').Perm (x :: liveObjects t) := by
  have : h = 1 ∨ h = 2 ∨ h = 3 ∨ h = 4 := by omega
  unfold liveObjects
  rcases this with rfl | rfl | rfl | rfl
  · rw [ho 2 (by omega), ho 3 (by omega), ho 4 (by omega), hn, hx]
    exact List.Perm.refl _
  · rw [ho 1 (by omega), ho 3 (by omega), ho 4 (by omega), hn, hx]
    exact List.perm_middle
  · rw [ho 1 (by omega), ho 2 (by omega), ho 4 (by omega), hn, hx]
    exact (List.perm_middle.append_left _).trans List.perm_middle
  · rw [ho 1 (by omega), ho 2 (by omega), ho 3 (by omega), hn, hx]
    exact ((List.perm_middle.append_left _).append_left _).trans ((List.perm_middle.append_left _).trans List.perm_middle)

theorem stepLegacy_inv (junk : Nat → List Nat) (hjunk : ∀ n, (junk n).length = n) {st st' : HandleTable H × List H × List H}
    {c : LegacyCall H} (hc : CleanCall c) (hg : GoodTable st.1) (hp : st.2.1.Perm (st.2.2 ++ liveObjects st.1))
    (h : stepLegacy junk st c = some st') : GoodTable st'.1 ∧ st'.2.1.Perm (st'.2.2 ++ liveObjects st'.1) := by
  have same : ∀ {t t' : HandleTable H}, (∀ i, liveAt t' i = liveAt t i) → liveObjects t' = liveObjects t := by
    intro t t' ho
    unfold liveObjects
    rw [ho 1, ho 2, ho 3, ho 4]
  cases c with
  | init lang make =>
    obtain ⟨t', r, h1, h2, h3, h4, _⟩ := C50_init junk hjunk make hg lang hc
    rw [stepLegacy, h1, Option.bind_eq_bind, Option.bind_some] at h
    simp only at h
    cases r with
    | ok k =>
      cases h
      obtain ⟨a1, a2, a3, ⟨_, s, x, _, _, a4, a5⟩, a6⟩ := h3 k rfl
      refine ⟨h2, ?_⟩
      simp only [a5, Option.toList_some]
      have := live_perm_add (h := (k : Int)) ⟨by omega, by omega⟩ a3 a5 a6
      refine (List.Perm.append_right _ hp).trans ?_
      rw [List.append_assoc]
      refine List.Perm.append_left _ ?_
      exact (List.perm_append_comm).trans this.symm
    | full => cases h; exact ⟨h2, by simpa only [same (h4 (by simp))] using hp⟩
    | nullLanguage => cases h; exact ⟨h2, by simpa only [same (h4 (by simp))] using hp⟩
    | error => cases h; exact ⟨h2, by simpa only [same (h4 (by simp))] using hp⟩
  | terminate k =>
    rw [stepLegacy] at h
    rcases legacyTerminate_cases hg k with hc | hc | ⟨x, hx⟩
    · rw [hc] at h; cases h
    · rw [hc] at h
      cases h
      exact ⟨hg, by simpa using hp⟩
    · obtain ⟨t', h1, h2, h3, h4⟩ := C50_terminate_live hg hx
      rw [h1] at h
      cases h
      refine ⟨h2, ?_⟩
      have hr : 1 ≤ k ∧ k ≤ 4 := by
        cases hst : st.1 with
        | none => rw [hst] at hx; cases hx
        | some a =>
          rw [hst] at hx
          simp only [liveAt] at hx
          split at hx
          · omega
          · cases hx
      have := live_perm_add hr h3 hx fun i hi => (h4 i hi).symm
      simp only [Option.toList_some]
      refine hp.trans ?_
      rw [List.append_assoc]
      exact List.Perm.append_left _ this

/-- After any calls, the objects that have been created are exactly those that have been given to `voikkoTerminate` (each once) and
those behind the handles, of which there are at most four. -/
theorem C50_history (junk : Nat → List Nat) (hjunk : ∀ n, (junk n).length = n) {calls : List (LegacyCall H)}
    (hc : ∀ c ∈ calls, CleanCall c) {t : HandleTable H} {created terminated : List H}
    (h : runLegacy junk (none, [], []) calls = some (t, created, terminated)) :
    created.Perm (terminated ++ liveObjects t) ∧ (liveObjects t).length ≤ 4 := by
  have gen : ∀ (cs : List (LegacyCall H)) (st st' : HandleTable H × List H × List H), (∀ c ∈ cs, CleanCall c) → GoodTable st.1 →
      st.2.1.Perm (st.2.2 ++ liveObjects st.1) → runLegacy junk st cs = some st' → GoodTable st'.1 ∧ st'.2.1.Perm (st'.2.2 ++ liveObjects st'.1) := by
    intro cs
    induction cs with
    | nil => intro st st' _ hg hp h; cases h; exact ⟨hg, hp⟩
    | cons c cs ih =>
      intro st st' hc hg hp h
      rw [runLegacy] at h
      cases hs : stepLegacy junk st c with
      | none => rw [hs] at h; cases h
      | some st1 =>
        rw [hs] at h
        obtain ⟨g1, p1⟩ := stepLegacy_inv junk hjunk (hc c List.mem_cons_self) hg hp hs
        exact ih st1 st' (fun x hx => hc x (List.mem_cons_of_mem _ hx)) g1 p1 h
  refine ⟨(gen calls _ _ hc (by simp [GoodTable]) (by simp [liveObjects, liveAt]) h).2, ?_⟩
  have one : ∀ o : Option H, o.toList.length ≤ 1 := by intro o; cases o <;> simp
  have := one (liveAt t 1); have := one (liveAt t 2); have := one (liveAt t 3); have := one (liveAt t 4)
  unfold liveObjects
  simp only [List.length_append]
  omega

/-- Calls that only terminate live handles (or numbers outside 1..4) have no undefined behaviour. -/
theorem C50_no_ub_partial (junk : Nat → List Nat) (hjunk : ∀ n, (junk n).length = n) (calls : List (LegacyCall H))
    (hc : ∀ c ∈ calls, CleanCall c)
    (hlive : ∀ pre h post st, calls = pre ++ .terminate h :: post → runLegacy junk (none, [], []) pre = some st →
      liveAt st.1 h ≠ none ∨ h < 1 ∨ 4 < h) :
    runLegacy junk (none, [], []) calls ≠ none := by
  have snoc : ∀ (cs : List (LegacyCall H)) (c : LegacyCall H) (st : HandleTable H × List H × List H),
      runLegacy junk st (cs ++ [c]) = (runLegacy junk st cs).bind fun s => stepLegacy junk s c := by
    intro cs
    induction cs with
    | nil =>
      intro c st
      simp only [List.nil_append, runLegacy, Option.bind_eq_bind, Option.bind_some]
      cases stepLegacy junk st c <;> rfl
    | cons a cs ih =>
      intro c st
      simp only [List.cons_append, runLegacy, Option.bind_eq_bind]
      cases stepLegacy junk st a with
      | none => rfl
      | some s => simp only [Option.bind_some]; exact ih c s
  have gen : ∀ n ≤ calls.length, ∃ st, runLegacy junk (none, [], []) (calls.take n) = some st ∧ GoodTable st.1 ∧
      st.2.1.Perm (st.2.2 ++ liveObjects st.1) := by
    intro n
    induction n with
    | zero => intro _; exact ⟨_, rfl, by simp [GoodTable], by simp [liveObjects, liveAt]⟩
    | succ n ih =>
      intro hn
      obtain ⟨st, h1, h2, h3⟩ := ih (by omega)
      have hlt : n < calls.length := by omega
      have htake : calls.take (n + 1) = calls.take n ++ [calls[n]] := by
        rw [List.take_add_one, List.getElem?_eq_getElem hlt]; rfl
      rw [htake, snoc, h1, Option.bind_some]
      have hclean := hc _ (List.getElem_mem hlt)
      have hsplit : calls = calls.take n ++ calls[n] :: calls.drop (n + 1) := by
        rw [← List.drop_eq_getElem_cons hlt, List.take_append_drop]
      have : ∃ st', stepLegacy junk st calls[n] = some st' := by
        cases hcall : calls[n] with
        | init lang make =>
          rw [hcall] at hclean
          obtain ⟨t', r, a1, _⟩ := C50_init junk hjunk make h2 lang hclean
          rw [stepLegacy, a1, Option.bind_eq_bind, Option.bind_some]
          simp only
          cases r <;> exact ⟨_, rfl⟩
        | terminate k =>
          rw [stepLegacy]
          cases hx : liveAt st.1 k with
          | some x =>
            obtain ⟨t', a1, _⟩ := C50_terminate_live h2 hx
            rw [a1]
            exact ⟨_, rfl⟩
          | none =>
            rw [hcall] at hsplit
            rcases hlive _ _ _ st hsplit h1 with hl | hl | hl
            · exact absurd hx hl
            · rw [C50_terminate_other_partial h2 hx (.inl hl)]
              exact ⟨_, rfl⟩
            · rw [C50_terminate_other_partial h2 hx (.inr (.inl hl))]
              exact ⟨_, rfl⟩
      obtain ⟨st', hst⟩ := this
      obtain ⟨g1, p1⟩ := stepLegacy_inv junk hjunk hclean h2 h3 hst
      exact ⟨st', hst, g1, p1⟩
  obtain ⟨st, h1, _⟩ := gen calls.length (Nat.le_refl _)
  rw [List.take_length] at h1
  rw [h1]
  simp

/-- Five calls of `voikko_init`, of which the last fails; then handle 2 is terminated and given out again. -/
def sampleCalls : List (LegacyCall Nat) :=
  [.init (some (lit "default")) (fun _ => some 10), .init (some (lit "Medicine")) (fun _ => some 11), .init none (fun _ => some 99),
    .init (some []) (fun _ => some 12), .init (some (lit "x")) (fun _ => some 13), .init (some (lit "x")) (fun _ => some 14),
    .terminate 2, .init (some (lit "x")) (fun _ => none), .init (some (lit "x")) (fun _ => some 15), .terminate 7]

example : runLegacy (fun n => List.replicate n 7) (none, [], []) sampleCalls =
    some (some [none, some 10, some 15, some 12, some 13], [10, 11, 12, 13, 15], [11]) := by decide +kernel

example : ∀ c ∈ sampleCalls, CleanCall c := by
  simp [sampleCalls, CleanCall]
  decide

end Verif.Props
