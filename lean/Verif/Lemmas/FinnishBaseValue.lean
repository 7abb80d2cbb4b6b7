import Verif.Lemmas.FinnishBase
import Verif.Lemmas.FinnishAnalyze
/-!
# Where the BASEFORM of an analysis comes from (for C80)
-/

set_option linter.unusedSimpArgs false
set_option linter.unusedVariables false

namespace Verif.Baseform
open Verif
open Verif.Attrs (adjusted adjustAttributes_spec)

/-- An analysis in good order with this STRUCTURE and BASEFORM. -/
structure KeepB (s b : Option (List Wc)) (a : Ana) : Prop where
  ok : AnaOk a
  str : a.getValue .structure_ = s
  base : a.getValue .baseform = b

theorem keepB_add {s b : Option (List Wc)} {a : Ana} (h : KeepB s b a) {k : AKey} (h1 : k ≠ .structure_) (h2 : k ≠ .baseform) (v : List Wc) :
    KeepB s b (a.add k v) :=
  ⟨anaOk_add h.ok k v, by rw [getValue_add h.ok, if_neg (fun e => h1 e.symm)]; exact h.str,
    by rw [getValue_add h.ok, if_neg (fun e => h2 e.symm)]; exact h.base⟩

theorem keepB_addConst {s b : Option (List Wc)} {a : Ana} (h : KeepB s b a) {k : AKey} (h1 : k ≠ .structure_) (h2 : k ≠ .baseform) (v : List Wc) :
    KeepB s b (a.addConst k v) :=
  ⟨anaOk_addConst h.ok k v, by rw [getValue_addConst h.ok, if_neg (fun e => h1 e.symm)]; exact h.str,
    by rw [getValue_addConst h.ok, if_neg (fun e => h2 e.symm)]; exact h.base⟩

theorem keepB_base {s : Option (List Wc)} {a : Ana} (h : KeepB s none a) (b : Option (List Wc)) :
    KeepB s b (match b with | some b => a.add .baseform b | none => a) := by
  cases b with
  | none => exact h
  | some b =>
    exact ⟨anaOk_add h.ok _ _, by rw [getValue_add h.ok, if_neg (by decide)]; exact h.str,
      by rw [getValue_add h.ok, if_pos rfl, h.base]; rfl⟩

theorem debug_keepB {s b : Option (List Wc)} {a : Ana} (ha : KeepB s b a) (out : List Wc) : Ok (parseDebugAttributes a out) (KeepB s b) := by
  rw [parseDebugAttributes]
  refine okBind (dbLoop_ok out _ 0 {} (by omega) (by omega) ?_) fun d hd => ?_
  · exact ⟨by show 0 + 0 + cS 0 false false ≤ _; exact Nat.zero_le _, by show 0 + cP 0 false false false ≤ _; exact Nat.zero_le _, by simp,
      by simp, Or.inl rfl, fun h => (by cases h), by simp, by simp, fun h => by cases h⟩
  refine okBind (dbEnd_ok out.length d hd) fun r _ => ?_
  obtain ⟨ids, bases⟩ := r
  simp only
  refine okPure (keepB_add ?_ (by decide) (by decide) _)
  split
  · exact keepB_add ha (by decide) (by decide) _
  · exact ha

theorem adjust_keepB {s b : Option (List Wc)} {a : Ana} (ha : KeepB s b a) : Ok (adjustAttributes a) (KeepB s b) :=
  okMono (adjustAttributes_spec ha.ok) fun c hc => ⟨hc.1, by rw [hc.2]; exact ha.str, by rw [hc.2]; exact ha.base⟩

theorem notBaseform_basic : AllowedBasic (fun k _ => k ≠ .structure_ ∧ k ≠ .baseform) := by
  constructor <;> intros <;> decide

theorem basic_keepB {out : List Wc} (h : out ≠ []) (hlen : out.length < 2 ^ 64) : Ok (parseBasicAttributes {} out) (KeepB none none) := by
  refine okMono (parseBasicAttributes_ok notBaseform_basic good_empty rfl h hlen) fun a ha => ⟨ha.ok, ?_, ?_⟩
  · cases hg : a.getValue .structure_ with
    | none => rfl
    | some v => exact absurd rfl (ha.vals _ _ hg).1
  · cases hg : a.getValue .baseform with
    | none => rfl
    | some v => exact absurd rfl (ha.vals _ _ hg).2

theorem orgCopy_keepB {old : Ana} {v : List Wc} (hv : old.getValue .structure_ = some v) (hl : 2 ≤ v.length) :
    ∀ (ks : List AKey) (a : Ana) (ns : Option (List Wc)), (∀ k ∈ ks, (old.getValue k).isSome) → KeepB ns none a → .baseform ∉ ks →
    (ns = none ∨ ns = some (v.set 1 0x69)) →
    Ok (orgCopy old ks (a, ns)) (fun r => KeepB r.2 none r.1 ∧ r.2 = if AKey.structure_ ∈ ks then some (v.set 1 0x69) else ns) := by
  intro ks
  induction ks with
  | nil => intro a ns _ ha _ _; exact okSome ⟨ha, by simp⟩
  | cons k ks ih =>
    intro a ns hk ha hb hns
    have hk' := fun x hx => hk x (List.mem_cons_of_mem _ hx)
    have hb' : AKey.baseform ∉ ks := fun e => hb (List.mem_cons_of_mem _ e)
    have hkb : k ≠ .baseform := fun e => hb (by rw [e]; simp)
    have step : k ≠ .structure_ → ∀ b, KeepB ns none b → Ok (orgCopy old ks (b, ns)) (fun r => KeepB r.2 none r.1
        ∧ r.2 = if AKey.structure_ ∈ k :: ks then some (v.set 1 0x69) else ns) := by
      intro hne b hbk
      refine okMono (ih b ns hk' hbk hb' hns) fun r hr => ⟨hr.1, ?_⟩
      rw [hr.2]
      have : (AKey.structure_ ∈ k :: ks) ↔ (AKey.structure_ ∈ ks) := by
        rw [List.mem_cons]
        exact ⟨fun h => h.resolve_left (fun e => hne e.symm), Or.inr⟩
      simp only [this]
    rw [orgCopy]
    refine okIte (fun hc => step (by rw [hc]; decide) _ (keepB_addConst ha (by rw [hc]; decide) hkb _)) fun _ => ?_
    cases hg : old.getValue k with
    | none => have := hk k List.mem_cons_self; rw [hg] at this; cases this
    | some w =>
      simp only
      refine okIte (fun hs => ?_) fun hs => ?_
      · subst hs
        rw [hv] at hg
        cases hg
        rw [if_pos hl]
        have hkeep : KeepB (some (v.set 1 0x69)) none (a.add .structure_ (v.set 1 0x69)) := by
          refine ⟨anaOk_add ha.ok _ _, ?_, by rw [getValue_add ha.ok, if_neg (by decide)]; exact ha.base⟩
          rw [getValue_add ha.ok, if_pos rfl, ha.str]
          rcases hns with e | e <;> rw [e] <;> rfl
        refine okMono (ih _ _ hk' hkeep hb' (Or.inr rfl)) fun r hr => ⟨hr.1, ?_⟩
        rw [hr.2]
        simp
      · refine okIte (fun _ => step hs _ ha) fun _ => step hs _ (keepB_add ha hs hkb _)

theorem mem_internalKeys {a : Ana} {k : AKey} {v : List Wc} (h : a.getValue k = some v) : k ∈ a.internalKeys := by
  rw [Ana.getValue] at h
  cases hlk : List.lookup k a.attributes with
  | none => rw [hlk] at h; cases h
  | some x =>
    obtain ⟨y, hy, hy2⟩ : ∃ y ∈ a.attributes, y.1 = k := by
      revert hlk
      generalize a.attributes = l
      intro hlk
      induction l with
      | nil => cases hlk
      | cons e l ih =>
        obtain ⟨k', w⟩ := e
        rw [lookup_cons_ana] at hlk
        split at hlk
        · rename_i he; exact ⟨_, List.mem_cons_self .., he.symm⟩
        · obtain ⟨y, h1, h2⟩ := ih hlk
          exact ⟨y, List.mem_cons_of_mem _ h1, h2⟩
    exact List.mem_map.2 ⟨y, hy, hy2⟩

/-- BASEFORM is what `parseBaseform` makes of STRUCTURE. -/
def Made (out : List Wc) (a : Ana) : Prop := ∃ s b, parseBaseform out s = some b ∧ KeepB (some s) b a

theorem orgName_made {a : Ana} {v : List Wc} (ha : KeepB (some v) none a) (out : List Wc)
    (hl : out.head? ≠ some 0x2D → 2 ≤ v.length) : Ok (duplicateOrgName a out) (fun r => ∀ b ∈ r.toList, Made out b) := by
  have hn : ∀ b ∈ (none : Option Ana).toList, Made out b := fun b hb => by cases hb
  rw [duplicateOrgName]
  refine okIte (fun _ => okSome hn) fun _ => okIte (fun _ => okSome hn) fun hlen => ?_
  rw [rdz_lt (by omega)]
  refine okBind (okSome (P := fun c => c = out[0]) rfl) fun c0 hc0 => ?_
  refine okBind (okCmpz (by omega) (by decide)) fun _ _ => ?_
  refine okIte (fun _ => okPure hn) fun hno => ?_
  have hhead : out.head? ≠ some 0x2D := by
    rw [List.head?_eq_getElem?, List.getElem?_eq_getElem (by omega), ← hc0]
    intro e
    exact hno (Or.inl (Option.some.inj e))
  refine okBind (orgLoop_ok out _ (by omega)) fun _ _ => ?_
  refine okIte (fun _ => ?_) fun _ => okPure hn
  have hnb : AKey.baseform ∉ a.internalKeys := fun e => by
    have := internalKeys_some ha.ok _ e
    rw [ha.base] at this
    cases this
  refine okBind (orgCopy_keepB ha.str (hl hhead) _ {} none (internalKeys_some ha.ok) ⟨anaOk_empty, rfl, rfl⟩ hnb (Or.inl rfl)) fun r hr => ?_
  obtain ⟨n, ns⟩ := r
  simp only at hr ⊢
  rw [if_pos (mem_internalKeys ha.str)] at hr
  obtain ⟨hkeep, rfl⟩ := hr
  simp only
  refine okBind (okMono (P := fun x => parseBaseform out (v.set 1 0x69) = some x) ?_ fun _ h => h) fun bf hbf => ?_
  · obtain ⟨x, hx, _⟩ := parseBaseform_ok out (v.set 1 0x69)
    exact ⟨x, hx, hx⟩
  have := keepB_base hkeep bf
  cases bf with
  | none => exact okPure fun b hb => by rw [Option.mem_toList] at hb; cases hb; exact ⟨_, _, hbf, this⟩
  | some b => exact okPure fun b hb => by rw [Option.mem_toList] at hb; cases hb; exact ⟨_, _, hbf, this⟩

/-- The analyses of a reading. -/
theorem rest_made (full : Bool) {out : List Wc} (h : out ≠ []) (hlen : out.length < 2 ^ 64) {st : List Wc}
    (hst : out.head? ≠ some 0x2D → 2 ≤ st.length) : Ok (restOfAnalysis full out st) (fun l => ∃ a r, l = a :: r ∧ (∀ b ∈ r, Made out b)
      ∧ (full = true → Made out a) ∧ (full = false → a.getValue .baseform = none)) := by
  rw [restOfAnalysis]
  refine okBind (basic_keepB h hlen) fun a ha => ?_
  refine okBind (fixStructure_ok st out) fun st' hst' => ?_
  have ha1 : KeepB (some st') none (a.add .structure_ st') :=
    ⟨anaOk_add ha.ok _ _, by rw [getValue_add ha.ok, if_pos rfl, ha.str]; rfl, by rw [getValue_add ha.ok, if_neg (by decide)]; exact ha.base⟩
  refine okBind (adjust_keepB ha1) fun a ha => ?_
  refine okBind (orgName_made ha out (by rw [hst'.1]; exact hst)) fun dup hdup => ?_
  refine okBind (P := fun b => (full = true → Made out b) ∧ (full = false → b.getValue .baseform = none)) ?_ fun b hb => okPure ⟨b, _, rfl, hdup, hb⟩
  cases full with
  | false => exact okSome ⟨(fun e => by cases e), fun _ => ha.base⟩
  | true =>
    rw [if_pos rfl]
    obtain ⟨x, hx, _⟩ := parseBaseform_ok out st'
    refine okBind (okMono (P := fun x => parseBaseform out st' = some x) ⟨x, hx, hx⟩ fun _ h => h) fun bf hbf => ?_
    refine okMono (debug_keepB (keepB_base (keepB_add ha (by decide) (by decide) _) bf) out) fun c hc =>
      ⟨fun _ => ⟨_, _, hbf, hc⟩, fun e => by cases e⟩

end Verif.Baseform
