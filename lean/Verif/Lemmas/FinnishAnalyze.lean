import Verif.Lemmas.FinnishBaseform
import Verif.Lemmas.FinnishStructure
/-!
# Lemmas about the STRUCTURE attribute of the analyses
-/

namespace Verif

/-- An analysis in good order with the given STRUCTURE. -/
structure Keep (s : Option (List Wc)) (a : Ana) : Prop where
  ok : AnaOk a
  str : a.getValue .structure_ = s

theorem keep_add {s : Option (List Wc)} {a : Ana} (h : Keep s a) {k : AKey} (hk : k ≠ .structure_) (v : List Wc) :
    Keep s (a.add k v) :=
  ⟨anaOk_add h.ok k v, by rw [getValue_add h.ok, if_neg (fun e => hk e.symm)]; exact h.str⟩

theorem keep_addConst {s : Option (List Wc)} {a : Ana} (h : Keep s a) {k : AKey} (hk : k ≠ .structure_) (v : List Wc) :
    Keep s (a.addConst k v) :=
  ⟨anaOk_addConst h.ok k v, by rw [getValue_addConst h.ok, if_neg (fun e => hk e.symm)]; exact h.str⟩

theorem keep_remove {s : Option (List Wc)} {a : Ana} (h : Keep s a) {k : AKey} (hk : k ≠ .structure_) :
    Ok (a.remove k) (Keep s) := by
  obtain ⟨b, h1, h2, h3⟩ := remove_spec h.ok k
  exact ⟨b, h1, h2, by rw [h3, if_neg (fun e => hk e.symm)]; exact h.str⟩

theorem adjustAttributes_keep {s : Option (List Wc)} {a : Ana} (ha : Keep s a) : Ok (adjustAttributes a) (Keep s) := by
  rw [adjustAttributes]
  simp only
  refine okBind (P := Keep s) (okIte (fun _ => keep_remove ha (by decide)) fun _ => okSome ha) fun b hb => ?_
  refine okBind (P := fun r => Keep s r.1) ?_ fun r hr => ?_
  · refine okIte (fun _ => ?_) fun _ => okSome hb
    exact okBind (keep_remove hb (by decide)) fun c hc => okPure (keep_addConst hc (by decide) _)
  · obtain ⟨c, w⟩ := r
    simp only at hr ⊢
    refine okBind (P := Keep s) (okIte (fun _ => keep_remove hr (by decide)) fun _ => okSome hr) fun e he => ?_
    refine okIte (fun _ => okIte (fun _ => okPure (keep_addConst he (by decide) _)) fun _ => okPure he) fun _ => ?_
    exact okIte (fun _ => keep_remove he (by decide)) fun _ => okPure he

theorem parseDebugAttributes_keep {s : Option (List Wc)} {a : Ana} (ha : Keep s a) (out : List Wc) :
    Ok (parseDebugAttributes a out) (Keep s) := by
  rw [parseDebugAttributes]
  refine okBind (dbLoop_ok out _ 0 {} (by omega) (by omega) ?_) fun d hd => ?_
  · exact ⟨by show 0 + 0 + cS 0 false false ≤ _; exact Nat.zero_le _, by show 0 + cP 0 false false false ≤ _; exact Nat.zero_le _, by simp,
      by simp, Or.inl rfl, fun h => (by cases h), by simp, by simp, fun h => by cases h⟩
  refine okBind (dbEnd_ok out.length d hd) fun r _ => ?_
  obtain ⟨ids, bases⟩ := r
  simp only
  refine okPure (keep_add ?_ (by decide) _)
  split
  · exact keep_add ha (by decide) _
  · exact ha

theorem orgCopy_keep {old : Ana} {v : List Wc} (hv : old.getValue .structure_ = some v) (hl : 2 ≤ v.length) :
    ∀ (ks : List AKey) (a : Ana) (ns : Option (List Wc)), (∀ k ∈ ks, (old.getValue k).isSome) → AnaOk a →
    Ok (orgCopy old ks (a, ns)) (fun r => AnaOk r.1 ∧ r.1.getValue .structure_
      = if AKey.structure_ ∈ ks ∧ a.getValue .structure_ = none then some (v.set 1 0x69) else a.getValue .structure_) := by
  intro ks
  induction ks with
  | nil => intro a ns _ ha; exact okSome ⟨ha, by simp⟩
  | cons k ks ih =>
    intro a ns hk ha
    have hk' := fun x hx => hk x (List.mem_cons_of_mem _ hx)
    -- a step that leaves STRUCTURE alone
    have step : k ≠ .structure_ → ∀ b ns', Keep (a.getValue .structure_) b → Ok (orgCopy old ks (b, ns')) (fun r => AnaOk r.1 ∧ r.1.getValue .structure_
      = if AKey.structure_ ∈ k :: ks ∧ a.getValue .structure_ = none then some (v.set 1 0x69) else a.getValue .structure_) := by
      intro hne b ns' hb
      refine okMono (ih b ns' hk' hb.ok) fun r hr => ⟨hr.1, ?_⟩
      rw [hr.2, hb.str]
      have : (AKey.structure_ ∈ k :: ks) ↔ (AKey.structure_ ∈ ks) := by
        rw [List.mem_cons]
        exact ⟨fun h => h.resolve_left (fun e => hne e.symm), Or.inr⟩
      simp only [this]
    have hK : Keep (a.getValue .structure_) a := ⟨ha, rfl⟩
    rw [orgCopy]
    refine okIte (fun hc => step (by rw [hc]; decide) _ _ (keep_addConst hK (by rw [hc]; decide) _)) fun _ => ?_
    cases hg : old.getValue k with
    | none => have := hk k (List.mem_cons_self ..); rw [hg] at this; cases this
    | some w =>
      simp only
      refine okIte (fun hs => ?_) fun hs => ?_
      · subst hs
        rw [hv] at hg
        cases hg
        rw [if_pos hl]
        refine okMono (ih _ _ hk' (anaOk_add ha _ _)) fun r hr => ⟨hr.1, ?_⟩
        rw [hr.2, getValue_add ha, if_pos rfl]
        cases ho : a.getValue .structure_ with
        | none => simp
        | some x => simp
      · refine okIte (fun _ => step hs _ _ hK) fun _ => step hs _ _ (keep_add hK hs _)

theorem duplicateOrgName_keep {a : Ana} {v : List Wc} (ha : Keep (some v) a) (out : List Wc)
    (hl : out.head? ≠ some 0x2D → 2 ≤ v.length) : Ok (duplicateOrgName a out) (fun r => ∀ b ∈ r.toList, Keep (some (v.set 1 0x69)) b ∧ out.head? ≠ some 0x2D) := by
  have hn : ∀ b ∈ (none : Option Ana).toList, Keep (some (v.set 1 0x69)) b ∧ out.head? ≠ some 0x2D := fun b hb => by cases hb
  rw [duplicateOrgName]
  refine okIte (fun _ => okSome hn) fun _ => okIte (fun _ => okSome hn) fun hlen => ?_
  rw [rdz_lt (by omega)]
  refine okBind (okSome (P := fun c => c = out[0]) rfl) fun c0 hc0 => ?_
  refine okBind (okCmpz (by omega) (by decide)) fun _ _ => ?_
  refine okIte (fun _ => okPure hn) fun hno => ?_
  have hhead : out.head? ≠ some 0x2D := by
    rw [List.head?_eq_getElem?, List.getElem?_eq_getElem (by omega), ← hc0]
    intro e
    exact hno (Or.inl (Option.some.inj e))
  refine okBind (orgLoop_ok out _ (by omega)) fun _ _ => ?_
  refine okIte (fun _ => ?_) fun _ => okPure hn
  refine okBind (orgCopy_keep ha.str (hl hhead) _ {} none (internalKeys_some ha.ok) anaOk_empty) fun r hr => ?_
  obtain ⟨n, ns⟩ := r
  simp only at hr ⊢
  have hmem : AKey.structure_ ∈ a.internalKeys := by
    have h := ha.str
    rw [Ana.getValue] at h
    cases hlk : List.lookup AKey.structure_ a.attributes with
    | none => rw [hlk] at h; cases h
    | some x =>
      obtain ⟨y, hy, hy2⟩ : ∃ y ∈ a.attributes, y.1 = AKey.structure_ := by
        revert hlk
        generalize a.attributes = l
        intro hlk
        induction l with
        | nil => cases hlk
        | cons e l ih =>
          obtain ⟨k, w⟩ := e
          rw [lookup_cons_ana] at hlk
          split at hlk
          · rename_i he; exact ⟨_, List.mem_cons_self .., he.symm⟩
          · obtain ⟨y, h1, h2⟩ := ih hlk
            exact ⟨y, List.mem_cons_of_mem _ h1, h2⟩
      exact List.mem_map.2 ⟨y, hy, hy2⟩
  have hkeep : Keep (some (v.set 1 0x69)) n := ⟨hr.1, by rw [hr.2, if_pos ⟨hmem, rfl⟩]⟩
  have one : ∀ c, Keep (some (v.set 1 0x69)) c → ∀ b ∈ (some c).toList, Keep (some (v.set 1 0x69)) b ∧ out.head? ≠ some 0x2D := by
    intro c hc b hb
    rw [Option.mem_toList] at hb
    cases hb; exact ⟨hc, hhead⟩
  cases ns with
  | none => exact okPure (one _ hkeep)
  | some s =>
    simp only
    refine okBind (parseBaseform_ok out s) fun bf _ => ?_
    cases bf with
    | none => exact okPure (one _ hkeep)
    | some b => exact okPure (one _ (keep_add hkeep (by decide) _))

/-- Predicate that excludes a STRUCTURE. -/
theorem notStructure_basic : AllowedBasic (fun k _ => k ≠ .structure_) := by
  constructor <;> intros <;> decide

theorem parseBasicAttributes_keep {out : List Wc} (h : out ≠ []) (hlen : out.length < 2 ^ 64) :
    Ok (parseBasicAttributes {} out) (Keep none) := by
  refine okMono (parseBasicAttributes_ok notStructure_basic good_empty rfl h hlen) fun a ha => ⟨ha.ok, ?_⟩
  cases hg : a.getValue .structure_ with
  | none => rfl
  | some v => exact absurd rfl (ha.vals _ _ hg)

/-- The STRUCTURE of the analyses: that of `parseStructure` up to the case of letters, or the same with the first
character changed for the name of an organisation. -/
theorem restOfAnalysis_keep (full : Bool) {out : List Wc} (h : out ≠ []) (hlen : out.length < 2 ^ 64) {st : List Wc}
    (hst : out.head? ≠ some 0x2D → 2 ≤ st.length) : Ok (restOfAnalysis full out st) (fun l => ∃ st', SameShape st st' ∧ ∀ a ∈ l, Keep (some st') a
      ∨ Keep (some (st'.set 1 0x69)) a ∧ out.head? ≠ some 0x2D) := by
  rw [restOfAnalysis]
  refine okBind (parseBasicAttributes_keep h hlen) fun a ha => ?_
  refine okBind (fixStructure_ok st out) fun st' hst' => ?_
  have ha1 : Keep (some st') (a.add .structure_ st') :=
    ⟨anaOk_add ha.ok _ _, by rw [getValue_add ha.ok, if_pos rfl, ha.str]; rfl⟩
  refine okBind (adjustAttributes_keep ha1) fun a ha => ?_
  refine okBind (duplicateOrgName_keep ha out (by rw [hst'.1]; exact hst)) fun dup hdup => ?_
  refine okBind (P := Keep (some st')) ?_ fun b hb => okPure ⟨st', hst', ?_⟩
  · refine okIte (fun _ => ?_) fun _ => okSome ha
    refine okBind (parseBaseform_ok out st') fun bf _ => ?_
    refine parseDebugAttributes_keep ?_ out
    cases bf with
    | none => exact keep_add ha (by decide) _
    | some b => exact keep_add (keep_add ha (by decide) _) (by decide) _
  · intro x hx
    rcases List.mem_cons.1 hx with rfl | hx
    · exact Or.inl hb
    · exact Or.inr (hdup x hx)

end Verif
