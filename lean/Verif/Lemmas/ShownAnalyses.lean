import Verif.Lemmas.FinnishReadings
import Verif.Lemmas.FinnishBaseValue
import Verif.Model.VoikkoSpellAnalyses
import Verif.Props.Analysis
/-!
# The published attributes of an analysis, and FSTOUTPUT (for C106)
-/

set_option linter.unusedSimpArgs false
set_option linter.unusedVariables false

namespace Verif.Shown
open Verif Verif.Props
open Verif.Attrs (adjustAttributes_spec orgCopy_values)

/-- The attributes of an analysis that have a value, in the order of their names. -/
def pairs (a : Ana) : List (List Wc × List Wc) := attributeNames.filterMap fun x => (a.getValue x.1).map fun v => (lit x.2, v)

theorem shownValues_eq (b : Ana) (g : AKey → Option (List Wc)) : ∀ L : List (AKey × String), (∀ x ∈ L, analysisValue b (lit x.2) = g x.1) →
    shownValues b ((L.filter fun x => (g x.1).isSome).map fun x => lit x.2) = some (L.filterMap fun x => (g x.1).map fun v => (lit x.2, v))
  | [], _ => rfl
  | x :: L, h => by
    have ih := shownValues_eq b g L fun y hy => h y (List.mem_cons_of_mem _ hy)
    have hx := h x List.mem_cons_self
    cases e : g x.1 with
    | none => simp [List.filter_cons, List.filterMap_cons, e, ih]
    | some v =>
      simp only [List.filter_cons, List.filterMap_cons, e, Option.isSome_some, if_true, List.map_cons, Option.map_some]
      rw [shownValues, hx, e]
      simp only
      rw [ih]
      rfl

theorem value_of_name (a : Ana) (x : AKey × String) (hx : x ∈ attributeNames) : analysisValue a (lit x.2) = a.getValue x.1 := by
  have hl : stringToKey.lookup (lit x.2) = some x.1 := by
    revert x
    decide
  simp only [analysisValue, Ana.getValueS, hl]

theorem published {a : Ana} (h : AnaOk a) : ∃ b, a.seal = some b ∧ b.destroy = some () ∧ shownAttributes b = some (pairs a) := by
  refine ⟨{ a with keys := some (a.attributes.map fun x => (keyToString[x.1.num]?).getD []) }, by rw [Ana.seal, sealLoop_ok]; rfl,
    destroy_ok (a := { a with keys := _ }) ⟨h.sorted, h.const⟩, ?_⟩
  rw [names_filter a.attributes h.sorted (fun k => (a.getValue k).isSome)
      (fun k => by
        simp only [Ana.getValue]
        cases List.lookup k a.attributes <;> rfl)
      attributeNames (by decide) (fun x _ => by
        obtain ⟨k, v⟩ := x
        cases k <;> exact ⟨_, by simp only [attributeNames, List.mem_cons, Prod.mk.injEq, reduceCtorEq, true_and, false_and, false_or]; exact Or.inl rfl⟩)
      (by decide)]
  show shownValues _ ((attributeNames.filter fun x => (a.getValue x.1).isSome).map fun x => lit x.2) = _
  exact shownValues_eq _ a.getValue attributeNames fun x hx => value_of_name _ x hx

/-- The names with which the keys are published are all different. -/
theorem mem_pairs (a : Ana) (x : AKey × String) (hx : x ∈ attributeNames) (v : List Wc) : (lit x.2, v) ∈ pairs a ↔ a.getValue x.1 = some v := by
  have inj : ∀ x ∈ attributeNames, ∀ y ∈ attributeNames, lit x.2 = lit y.2 → x.1 = y.1 := by decide
  unfold pairs
  rw [List.mem_filterMap]
  constructor
  · rintro ⟨y, hy, e⟩
    obtain ⟨w, hw, e⟩ := Option.map_eq_some_iff.1 e
    injection e with e1 e2
    rw [← inj y hy x hx e1, ← e2]
    exact hw
  · intro e
    exact ⟨x, hx, by rw [e]; rfl⟩

theorem pairs_order (a : Ana) : List.Sublist ((pairs a).map (·.1)) (attributeNames.map fun x => lit x.2) := by
  unfold pairs
  generalize attributeNames = L
  induction L with
  | nil => exact .slnil
  | cons x L ih =>
    rw [List.filterMap_cons]
    cases e : a.getValue x.1 with
    | none => exact ih.cons _
    | some v => exact ih.cons_cons _

theorem shown_published : ∀ l : List Ana, (∀ a ∈ l, AnaOk a) → ∃ m, sealEach l = some m ∧ shownAnalyses m = some (l.map pairs) ∧ freeAnalyses m = some ()
  | [], _ => ⟨[], rfl, rfl, rfl⟩
  | a :: l, h => by
    obtain ⟨m, h1, h2, h3⟩ := shown_published l fun x hx => h x (List.mem_cons_of_mem _ hx)
    obtain ⟨b, g1, g2, g3⟩ := published (h a List.mem_cons_self)
    refine ⟨b :: m, ?_, ?_, ?_⟩
    · rw [sealEach, g1, h1]; rfl
    · rw [shownAnalyses, g3, h2]; rfl
    · rw [freeAnalyses, g2]; exact h3

/-! ## FSTOUTPUT -/

theorem basic_noOutput {out : List Wc} (h : out ≠ []) (hlen : out.length < 2 ^ 64) :
    Ok (parseBasicAttributes {} out) (fun a => AnaOk a ∧ a.getValue .fstoutput = none) := by
  have hA : AllowedBasic (fun k _ => k ≠ .fstoutput) := by constructor <;> intros <;> decide
  refine okMono (parseBasicAttributes_ok hA good_empty rfl h hlen) fun a ha => ⟨ha.ok, ?_⟩
  cases hg : a.getValue .fstoutput with
  | none => rfl
  | some v => exact absurd rfl (ha.vals _ _ hg)

theorem org_noOutput {a : Ana} (ha : AnaOk a) (h0 : a.getValue .fstoutput = none) (out : List Wc) :
    Ok (duplicateOrgName a out) (fun r => ∀ b ∈ r.toList, b.getValue .fstoutput = none) := by
  have hn : ∀ b ∈ (none : Option Ana).toList, b.getValue .fstoutput = none := fun b hb => by cases hb
  rw [duplicateOrgName]
  refine okIte (fun _ => okSome hn) fun _ => okIte (fun _ => okSome hn) fun hlen => ?_
  rw [rdz_lt (by omega)]
  refine okBind (okSome (P := fun c => c = out[0]) rfl) fun c0 hc0 => ?_
  refine okBind (okCmpz (by omega) (by decide)) fun _ _ => ?_
  refine okIte (fun _ => okPure hn) fun hno => ?_
  refine okBind (orgLoop_ok out _ (by omega)) fun _ _ => ?_
  refine okIte (fun _ => ?_) fun _ => okPure hn
  refine okBind (orgCopy_values a.internalKeys {} none (internalKeys_some ha) anaOk_empty) fun r hr => ?_
  obtain ⟨n, ns⟩ := r
  obtain ⟨hok, hv⟩ := hr
  have hv0 : n.getValue .fstoutput = none := by
    have := hv .fstoutput (by decide)
    rw [h0] at this
    simpa [Ana.getValue] using this
  simp only
  cases ns with
  | none => exact okPure fun b hb => by rw [Option.mem_toList] at hb; cases hb; exact hv0
  | some s =>
    simp only
    refine okBind (parseBaseform_ok out s) fun bf _ => ?_
    cases bf with
    | none => exact okPure fun b hb => by rw [Option.mem_toList] at hb; cases hb; exact hv0
    | some w => exact okPure fun b hb => by rw [Option.mem_toList] at hb; cases hb; rw [getValue_add hok, if_neg (by decide)]; exact hv0

theorem debug_output {a : Ana} (ha : AnaOk a) {v : List Wc} (hv : a.getValue .fstoutput = some v) (out : List Wc) :
    Ok (parseDebugAttributes a out) (fun b => b.getValue .fstoutput = some v) := by
  rw [parseDebugAttributes]
  refine okBind (dbLoop_ok out _ 0 {} (by omega) (by omega) ?_) fun d hd => ?_
  · exact ⟨by show 0 + 0 + cS 0 false false ≤ _; exact Nat.zero_le _, by show 0 + cP 0 false false false ≤ _; exact Nat.zero_le _, by simp,
      by simp, Or.inl rfl, fun h => (by cases h), by simp, by simp, fun h => by cases h⟩
  refine okBind (dbEnd_ok out.length d hd) fun r _ => ?_
  obtain ⟨ids, bases⟩ := r
  simp only
  refine okPure ?_
  split
  · rw [getValue_add (anaOk_add ha _ _), if_neg (by decide), getValue_add ha, if_neg (by decide)]; exact hv
  · rw [getValue_add ha, if_neg (by decide)]; exact hv

/-- The first analysis of an output has it as FSTOUTPUT, and a second one has none. -/
theorem rest_output {out : List Wc} (h : out ≠ []) (hlen : out.length < 2 ^ 64) (st : List Wc) :
    Ok (restOfAnalysis true out st) (fun l => ∃ a r, l = a :: r ∧ a.getValue .fstoutput = some out ∧ ∀ b ∈ r, b.getValue .fstoutput = none) := by
  rw [restOfAnalysis]
  refine okBind (basic_noOutput h hlen) fun a ha => ?_
  refine okBind (fixStructure_ok st out) fun st' hst' => ?_
  have ha1 : AnaOk (a.add .structure_ st') ∧ (a.add .structure_ st').getValue .fstoutput = none :=
    ⟨anaOk_add ha.1 _ _, by rw [getValue_add ha.1, if_neg (by decide)]; exact ha.2⟩
  refine okBind (P := fun b => AnaOk b ∧ b.getValue .fstoutput = none)
    (okMono (adjustAttributes_spec ha1.1) fun c hc => ⟨hc.1, by rw [hc.2]; exact ha1.2⟩) fun b hb => ?_
  refine okBind (org_noOutput hb.1 hb.2 out) fun dup hdup => ?_
  refine okBind (P := fun c => c.getValue .fstoutput = some out) ?_ fun c hc => okPure ⟨c, _, rfl, hc, hdup⟩
  rw [if_pos rfl]
  have e0 : (b.add .fstoutput out).getValue .fstoutput = some out := by rw [getValue_add hb.1, if_pos rfl, hb.2]; rfl
  have o0 := anaOk_add hb.1 .fstoutput out
  refine okBind (parseBaseform_ok out st') fun bf _ => ?_
  cases bf with
  | none => exact debug_output o0 e0 out
  | some w => exact debug_output (anaOk_add o0 _ _) (by rw [getValue_add o0, if_neg (by decide)]; exact e0) out

end Verif.Shown
