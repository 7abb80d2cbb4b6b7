import Mathlib.Data.List.Perm.Subperm
import Verif.Lemmas.FstWReach
import Verif.Spec.VfstSpell
/-!
# A checker for examples: all paths of a small transducer

These functions are used only to show that concrete transducers meet the hypotheses of the theorems, and what their readings are.
-/

set_option linter.unusedSimpArgs false
set_option linter.unusedVariables false

namespace Verif.Props
open Verif

def flagNew (op : FlagOp) (value old : Nat) : Option Nat :=
  match op with
  | .P => some value
  | .C => some 0
  | .U => if old = 0 then some value else if old = value then some old else none
  | .R => if (if value = 1 then old ≠ 0 else old = value) then some old else none
  | .D => if (if value = 1 then old = 0 else old ≠ value) then some old else none

theorem flagNew_spec (op : FlagOp) (value old new : Nat) : FlagRel op value old new ↔ flagNew op value old = some new := by
  cases op with
  | P => simp [FlagRel, flagNew, eq_comm]
  | C => simp [FlagRel, flagNew, eq_comm]
  | U =>
    simp only [FlagRel, flagNew]
    by_cases h0 : old = 0
    · simp [h0, eq_comm]
    · by_cases h1 : old = value
      · simp only [if_neg h0, if_pos h1, Option.some.injEq]
        constructor
        · rintro (h | h)
          · exact absurd h.1 h0
          · exact h.2.2.symm
        · rintro rfl
          exact .inr ⟨h0, h1, rfl⟩
      · simp only [if_neg h0, if_neg h1]
        constructor
        · rintro (h | h)
          · exact absurd h.1 h0
          · exact absurd h.2.1 h1
        · intro h; cases h
  | R =>
    simp only [FlagRel, flagNew]
    by_cases h1 : (if value = 1 then old ≠ 0 else old = value)
    · rw [if_pos h1, Option.some.injEq]
      exact ⟨fun h => h.1.symm, fun h => ⟨h.symm, h1⟩⟩
    · rw [if_neg h1]; simp [h1]
  | D =>
    simp only [FlagRel, flagNew]
    by_cases h1 : (if value = 1 then old = 0 else old ≠ value)
    · rw [if_pos h1, Option.some.injEq]
      exact ⟨fun h => h.1.symm, fun h => ⟨h.symm, h1⟩⟩
    · rw [if_neg h1]; simp [h1]

def flagNext (g : Fst) (flags : List Nat) (sym : Nat) : Option (List Nat) :=
  if g.featureCount = 0 ∨ sym = 0 then some flags
  else
    match g.diacritics[sym]? with
    | none => none
    | some ofv =>
      match flags[ofv.feature]? with
      | none => none
      | some old =>
        match flagNew ofv.op ofv.value old with
        | none => none
        | some new => some (flags.set ofv.feature new)

theorem flagNext_spec (g : Fst) (flags : List Nat) (sym : Nat) (F : List Nat) :
    FlagStep g flags sym F ↔ flagNext g flags sym = some F := by
  unfold FlagStep flagNext
  by_cases h : g.featureCount = 0 ∨ sym = 0
  · rw [if_pos h, if_pos h]; simp [eq_comm]
  · rw [if_neg h, if_neg h]
    cases h1 : g.diacritics[sym]? with
    | none => simp
    | some ofv =>
      simp only [Option.some.injEq]
      cases h2 : flags[ofv.feature]? with
      | none =>
        simp only [reduceCtorEq, iff_false]
        rintro ⟨o, old, new, rfl, h, _⟩
        rw [h2] at h
        cases h
      | some old =>
        simp only
        cases h3 : flagNew ofv.op ofv.value old with
        | none =>
          simp only [reduceCtorEq, iff_false]
          rintro ⟨o, old', new, rfl, h, hr, _⟩
          rw [h2] at h
          cases h
          rw [flagNew_spec, h3] at hr
          cases hr
        | some new =>
          simp only [Option.some.injEq]
          constructor
          · rintro ⟨o, old', new', rfl, h, hr, rfl⟩
            rw [h2] at h
            cases h
            rw [flagNew_spec, h3] at hr
            cases hr
            rfl
          · rintro rfl
            exact ⟨ofv, old, new, rfl, h2, (flagNew_spec _ _ _ _).2 h3, rfl⟩

def stepsFrom (g : Fst) (input : List Nat) (p : Point) : List (Nat × Point) :=
  (stateAddrs g p.state).filterMap fun a =>
    match g.cells[a]? with
    | none => none
    | some t =>
      if t.symIn = 0xFFFF then none
      else if g.firstNormal ≤ t.symIn then (if input[p.pos]? = some t.symIn then some (a, ⟨t.target, p.pos + 1, p.flags⟩) else none)
      else (flagNext g p.flags t.symIn).map fun F => (a, ⟨t.target, p.pos, F⟩)

theorem stepsFrom_mem {g : Fst} {input : List Nat} {p q : Point} {a : Nat} (h : Step g input p a q) : (a, q) ∈ stepsFrom g input p := by
  rw [stepsFrom, List.mem_filterMap]
  cases h with
  | symbol t h1 h2 h3 h4 h5 =>
    refine ⟨a, h1, ?_⟩
    rw [h2]
    simp only
    rw [if_neg h3, if_pos h4, if_pos h5]
  | flag t F h1 h2 h3 h4 h5 =>
    refine ⟨a, h1, ?_⟩
    rw [h2]
    simp only
    rw [if_neg h3, if_neg (by omega), (flagNext_spec _ _ _ _).1 h5]
    rfl

/-- All paths of at most `k` transitions. -/
def pathsFrom (g : Fst) (input : List Nat) : Nat → Point → List (List Nat × Point)
  | 0, p => [([], p)]
  | k + 1, p => ([], p) :: (stepsFrom g input p).flatMap fun x => (pathsFrom g input k x.2).map fun y => (x.1 :: y.1, y.2)

theorem pathsFrom_mem {g : Fst} {input : List Nat} {p e : Point} {q : List Nat} (h : Path g input p q e) :
    ∀ k, q.length ≤ k → (q, e) ∈ pathsFrom g input k p := by
  induction h with
  | nil p => intro k _; cases k <;> simp [pathsFrom]
  | cons p q r a as hs hp ih =>
    intro k hk
    cases k with
    | zero => simp at hk
    | succ k =>
      rw [pathsFrom]
      refine List.mem_cons_of_mem _ (List.mem_flatMap.2 ⟨(a, q), stepsFrom_mem hs, List.mem_map.2 ⟨(as, r), ih k ?_, rfl⟩⟩)
      simpa using hk

theorem path_take {g : Fst} {input : List Nat} {p e : Point} {q : List Nat} (h : Path g input p q e) :
    ∀ k, ∃ e', Path g input p (q.take k) e' := by
  induction h with
  | nil p => intro k; exact ⟨p, by rw [List.take_nil]; exact .nil _⟩
  | cons p q r a as hs hp ih =>
    intro k
    cases k with
    | zero => exact ⟨p, .nil _⟩
    | succ k =>
      obtain ⟨e', he⟩ := ih k
      exact ⟨e', .cons _ _ _ _ _ hs he⟩

/-- No path has `k` transitions. -/
def pathsShort (g : Fst) (input : List Nat) (k : Nat) : Bool :=
  (pathsFrom g input k (startPoint g)).all fun x => decide (x.1.length < k)

theorem pathsShort_spec {g : Fst} {input : List Nat} {k : Nat} (h : pathsShort g input k = true) {q : List Nat} {e : Point}
    (hp : Path g input (startPoint g) q e) : q.length < k ∧ (q, e) ∈ pathsFrom g input k (startPoint g) := by
  rw [pathsShort, List.all_eq_true] at h
  have hlt : q.length < k := by
    refine Classical.byContradiction fun hge => ?_
    obtain ⟨e', he⟩ := path_take hp k
    have := h _ (pathsFrom_mem he k (by rw [List.length_take]; omega))
    rw [decide_eq_true_eq] at this
    simp only [List.length_take] at this
    omega
  exact ⟨hlt, pathsFrom_mem hp k (Nat.le_of_lt hlt)⟩

/-- All readings of at most `k` transitions. -/
def readingsOf (f : WFst) (word : List Wc) (k : Nat) : List (List Nat) :=
  (pathsFrom (plainFst f) (word.map (plainFst f).symOf) k (startPoint (plainFst f))).flatMap fun x =>
    if x.2.pos = word.length then
      (stateAddrs (plainFst f) x.2.state).filterMap fun a =>
        match (plainFst f).cells[a]? with
        | none => none
        | some t => if t.symIn = 0xFFFF then some (x.1 ++ [a]) else none
    else []

theorem readingsOf_mem {f : WFst} {word : List Wc} {k : Nat}
    (h : pathsShort (plainFst f) (word.map (plainFst f).symOf) k = true) {q : List Nat} (hq : Reading f word q) :
    q ∈ readingsOf f word k := by
  obtain ⟨as, a, p, t, rfl, hp, ha, ht, hs, hm, _⟩ := hq
  have := (pathsShort_spec h hp).2
  refine List.mem_flatMap.2 ⟨(as, p), this, ?_⟩
  rw [if_pos hm, List.mem_filterMap]
  refine ⟨a, ha, ?_⟩
  rw [ht]
  simp only
  rw [if_pos hs]

/-- The conditions of `Within`, checked on all paths. -/
def withinCheck (f : WFst) (word : List Wc) (k : Nat) : Bool :=
  let g := plainFst f
  let input := word.map g.symOf
  let paths := pathsFrom g input k (startPoint g)
  pathsShort g input k && decide (k ≤ 1999) && decide (2 * paths.length < 100000) &&
  ((readingsOf f word k).all fun q => decide ((outputOf g q).length + 1 < 2000)) &&
  paths.all fun x => decide (x.2.pos ≠ input.length) || (stateAddrs g x.2.state).all fun a => (stateAddrs g x.2.state).all fun b =>
    decide (b ≤ a) ||
    match g.cells[a]?, g.cells[b]? with
    | some t, some u => decide (t.symIn = 0) || decide (g.firstNormal ≤ t.symIn) || decide (u.symIn = 0) ||
        decide (g.firstNormal ≤ u.symIn) || (flagNext g x.2.flags t.symIn).isSome || (flagNext g x.2.flags u.symIn).isNone
    | _, _ => true

theorem withinCheck_spec {f : WFst} {word : List Wc} {k : Nat} (h : withinCheck f word k = true) : Within f word := by
  unfold withinCheck at h
  simp only [Bool.and_eq_true, decide_eq_true_eq] at h
  obtain ⟨⟨⟨⟨h1, h2⟩, h3⟩, h4⟩, h5⟩ := h
  refine ⟨?_, ?_, ?_, ?_⟩
  · intro path p hp hpos a ha b hb hab t u ht hu t0 t1 u0 u1 hno F hF
    have hm := (pathsShort_spec h1 hp).2
    have hx := List.all_eq_true.1 h5 _ hm
    rw [Bool.or_eq_true] at hx
    rcases hx with hx | hx
    · rw [decide_eq_true_eq] at hx
      exact hx hpos
    · have := List.all_eq_true.1 (List.all_eq_true.1 hx a ha) b hb
      rw [Bool.or_eq_true] at this
      rcases this with this | this
      · rw [decide_eq_true_eq] at this
        omega
      · rw [ht, hu] at this
        simp only [Bool.or_eq_true, decide_eq_true_eq] at this
        rcases this with ((((this | this) | this) | this) | this) | this
        · omega
        · omega
        · omega
        · omega
        · obtain ⟨F', hF'⟩ := Option.isSome_iff_exists.1 this
          exact hno F' ((flagNext_spec _ _ _ _).2 hF')
        · rw [(flagNext_spec _ _ _ _).1 hF] at this
          cases this
  · intro q e hp
    have := (pathsShort_spec h1 hp).1
    omega
  · intro q hq
    have := List.all_eq_true.1 h4 q (readingsOf_mem h1 hq)
    rwa [decide_eq_true_eq] at this
  · intro L hL hall
    have hsub : L ⊆ (pathsFrom (plainFst f) (word.map (plainFst f).symOf) k (startPoint (plainFst f))).map (·.1) := by
      intro q hq
      obtain ⟨e, he⟩ := hall q hq
      exact List.mem_map.2 ⟨_, (pathsShort_spec h1 he).2, rfl⟩
    have hle := (List.subperm_of_subset hL hsub).length_le
    rw [List.length_map] at hle
    omega

end Verif.Props
