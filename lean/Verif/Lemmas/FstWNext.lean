import Verif.Lemmas.FstCount
import Verif.Spec.FstWeighted
/-!
# The weighted look-up takes the same steps as the unweighted one
-/

set_option linter.unusedSimpArgs false
set_option linter.unusedVariables false

namespace Verif.Props
open Verif

section
variable {f : WFst} {S : Nat → Prop} {input : List Nat}

theorem plain_get {a : Nat} {t : WCell} (h : f.cells[a]? = some t) : (plainFst f).cells[a]? = some (WCell.plain t) := by
  show (f.cells.map WCell.plain)[a]? = _
  rw [List.getElem?_map, h]; rfl

theorem plain_of_get {a : Nat} {t : Cell} (h : (plainFst f).cells[a]? = some t) :
    ∃ c, f.cells[a]? = some c ∧ t = WCell.plain c := by
  have h' : (f.cells.map WCell.plain)[a]? = some t := h
  rw [List.getElem?_map] at h'
  cases hc : f.cells[a]? with
  | none => rw [hc] at h'; cases h'
  | some c => rw [hc] at h'; exact ⟨c, rfl, (Option.some.inj h').symm⟩

theorem plain_length : (plainFst f).cells.length = f.cells.length := List.length_map _

theorem wmaxTc_eq (wf : WWellFormed f S) {s : Nat} (hs : S s) : wgetMaxTc f s = getMaxTc (plainFst f) s := by
  obtain ⟨h, hh, hm⟩ := wf.plain.head s hs
  obtain ⟨h', hh', rfl⟩ := plain_of_get hh
  unfold wgetMaxTc getMaxTc
  simp only [rd, hh, hh', Option.bind_eq_bind, Option.bind_some]
  by_cases h255 : h'.more = 255
  · obtain ⟨oc, ho, hlt, h0⟩ := wf.overflow s hs h' hh' h255
    have h255' : (WCell.plain h').more = 255 := h255
    rw [if_pos h255, if_pos h255', ho, plain_get ho]
    simp only [Option.bind_some, Cell.overflow, WCell.plain, h0]
    rw [if_neg (by omega)]
  · have h255' : ¬ (WCell.plain h').more = 255 := h255
    rw [if_neg h255, if_neg h255']
    rfl

/-- The rows after a step with input symbol `sym`. -/
def rowsStep (f : WFst) (sym : Nat) (F : List Nat) (rows : List (List Nat)) : List (List Nat) :=
  if f.firstNormal ≤ sym ∨ f.featureCount = 0 ∨ sym = 0 then rows else F :: rows

theorem wflagCheck_spec {w : WConf} {F0 : List Nat} {rs : List (List Nat)} {sym : Nat} (hlt : sym < f.firstNormal)
    (hrows : w.rows = F0 :: rs) (hF : F0.length = f.featureCount)
    (hd : f.featureCount ≠ 0 → sym ≠ 0 → ∃ ofv, f.diacritics[sym]? = some ofv ∧ ofv.feature < f.featureCount)
    (hlen : w.rows.length < w.bufferSize) :
    (wflagCheck f w sym = some none ∧ ∀ F', ¬ FlagStep (plainFst f) F0 sym F') ∨
      ∃ F', wflagCheck f w sym = some (some (rowsStep f sym F' w.rows)) ∧ FlagStep (plainFst f) F0 sym F' := by
  by_cases hc : f.featureCount = 0 ∨ sym = 0
  · refine .inr ⟨F0, ?_, ?_⟩
    · simp only [wflagCheck, if_pos hc, rowsStep]
      rw [if_pos (.inr hc)]
      rfl
    · have hc' : (plainFst f).featureCount = 0 ∨ sym = 0 := hc
      simp only [FlagStep, if_pos hc']
  · obtain ⟨ofv, ho, hfe⟩ := hd (fun h => hc (.inl h)) (fun h => hc (.inr h))
    have hc' : ¬ ((plainFst f).featureCount = 0 ∨ sym = 0) := hc
    obtain ⟨cur, hcur⟩ : ∃ cur, F0[ofv.feature]? = some cur := ⟨_, List.getElem?_eq_getElem (by omega)⟩
    have hself : F0.set ofv.feature cur = F0 := by
      apply List.ext_getElem?
      intro i
      rw [List.getElem?_set]
      split
      · rename_i hi
        subst hi
        rw [if_pos (by omega), hcur]
      · rfl
    have e1 : wflagCheck f w sym = (match flagDecision ofv cur with
        | none => some none
        | some (v, update) => some (some ((if update then F0.set ofv.feature v else F0) :: w.rows))) := by
      have h0 : w.rows[0]? = some F0 := by rw [hrows]; rfl
      simp only [wflagCheck, if_neg hc, rd, ho, h0, hcur, Option.bind_eq_bind, Option.bind_some]
      cases flagDecision ofv cur with
      | none => rfl
      | some p => simp only [if_neg (by omega : ¬ w.bufferSize ≤ w.rows.length), Option.pure_def]
    have e3 : ∀ F', FlagStep (plainFst f) F0 sym F' ↔ ∃ new, FlagRel ofv.op ofv.value cur new ∧ F' = F0.set ofv.feature new := by
      intro F'
      simp only [FlagStep, if_neg hc']
      constructor
      · rintro ⟨o, old, new, a, b, x, y⟩
        have a' : f.diacritics[sym]? = some o := a
        rw [ho] at a'
        cases a'
        rw [hcur] at b
        cases b
        exact ⟨new, x, y⟩
      · rintro ⟨new, x, y⟩
        exact ⟨ofv, cur, new, ho, hcur, x, y⟩
    rcases flagDecision_spec ofv cur with ⟨h1, h2⟩ | ⟨v, u, h1, h2⟩
    · refine .inl ⟨by rw [e1, h1], fun F' h => ?_⟩
      obtain ⟨new, x, _⟩ := (e3 F').1 h
      exact h2 new x
    · refine .inr ⟨if u then F0.set ofv.feature v else F0, ?_, (e3 _).2 ⟨_, h2, ?_⟩⟩
      · rw [e1, h1, rowsStep, if_neg (by omega)]
      · cases u
        · simp [hself]
        · simp

/-! ## The binary search -/

theorem wsearch_spec {base inputSym M : Nat} (hb : base + M ≤ f.cells.length) :
    ∀ k lo hi, lo ≤ hi → hi ≤ M → (lo = 0 ∨ ∃ t, f.cells[base + lo]? = some t ∧ t.symIn < inputSym) →
      ∃ m, wsearch f base inputSym k lo hi = some m ∧ m ≤ M ∧ (m = 0 ∨ ∃ t, f.cells[base + m]? = some t ∧ t.symIn < inputSym) := by
  intro k
  induction k with
  | zero => intro lo hi h1 h2 h3; exact ⟨lo, rfl, by omega, h3⟩
  | succ k ih =>
    intro lo hi h1 h2 h3
    rw [wsearch]
    by_cases hlt : lo + 1 < hi
    · rw [if_pos hlt]
      have hr : base + (lo + hi) / 2 < f.cells.length := by omega
      simp only [rd, List.getElem?_eq_getElem hr, ub_bind]
      by_cases hs : f.cells[base + (lo + hi) / 2].symIn < inputSym
      · simp only [if_pos hs]
        exact ih _ _ (by omega) h2 (.inr ⟨_, List.getElem?_eq_getElem hr, hs⟩)
      · simp only [if_neg hs]
        exact ih _ _ (by omega) (by omega) h3
    · rw [if_neg hlt]
      exact ⟨lo, rfl, by omega, h3⟩

theorem fileRank_normal {f : WFst} (h0 : 0 < f.firstNormal) {x y : Nat} (hx : 0 < x) (hxf : x < 0xFFFFFFFF)
    (h : fileRank x ≤ fileRank y) : y ≠ 0xFFFFFFFF ∧ x ≤ y := by
  unfold fileRank at h
  rw [if_neg (by omega), if_neg (by omega)] at h
  split at h
  · omega
  · split at h
    · omega
    · rename_i h1 h2
      exact ⟨h2, by omega⟩

/-! ## The loop over the transitions of a state -/

/-- The point of the path reached by a configuration. -/
def WConf.pt (w : WConf) (F0 : List Nat) : Point := ⟨w.state, w.inputDepth, F0⟩

theorem wscan_spec (wf : WWellFormed f S) {w : WConf} {F0 : List Nat} {rs : List (List Nat)} (hS : S w.state)
    (hin : ∀ x ∈ w.input, f.firstNormal ≤ x) (hrows : w.rows = F0 :: rs) (hF : F0.length = f.featureCount)
    (hlen : w.rows.length < w.bufferSize) (hpos : w.inputDepth ≤ w.input.length)
    (hmask : w.inputDepth = w.input.length → ∀ a ∈ stateAddrs (plainFst f) w.state, ∀ b ∈ stateAddrs (plainFst f) w.state, a < b →
      ∀ t u, f.cells[a]? = some t → f.cells[b]? = some u → t.symIn < 0xFFFF → u.symIn < 0xFFFF → 0 < t.symIn →
      t.symIn < f.firstNormal → 0 < u.symIn → u.symIn < f.firstNormal → (∀ F, ¬ FlagStep (plainFst f) F0 t.symIn F) → ∀ F, ¬ FlagStep (plainFst f) F0 u.symIn F)
    {max : Nat} (hmax : getMaxTc (plainFst f) w.state = some max) :
    ∀ k tc0, max + 1 ≤ tc0 + k →
      ∃ r, wscan f w max k tc0 = some r ∧
        match r with
        | .stop => ∀ a, w.state + tc0 ≤ a → Dead (plainFst f) w.input false (WConf.pt w F0) a
        | .final idx t => w.state + tc0 ≤ idx ∧ f.cells[idx]? = some t ∧
            Finishes (plainFst f) w.input false (WConf.pt w F0) idx ∧
            ∀ a, w.state + tc0 ≤ a → a < idx → Dead (plainFst f) w.input false (WConf.pt w F0) a
        | .down idx t rows => w.state + tc0 ≤ idx ∧ f.cells[idx]? = some t ∧
            ∃ F, rows = rowsStep f t.symIn F w.rows ∧ Step (plainFst f) w.input (WConf.pt w F0) idx
              ⟨t.target, if f.firstNormal ≤ t.symIn then w.inputDepth + 1 else w.inputDepth, F⟩ ∧
            ∀ a, w.state + tc0 ≤ a → a < idx → Dead (plainFst f) w.input false (WConf.pt w F0) a := by
  obtain ⟨max', hmax', hbound, haddr⟩ := maxTc_spec wf.plain hS
  rw [hmax] at hmax'
  cases hmax'
  rw [plain_length] at hbound
  have dead_of_not_mem : ∀ a, a ∉ stateAddrs (plainFst f) w.state → Dead (plainFst f) w.input false (WConf.pt w F0) a :=
    fun a ha => ⟨fun h => ha h.1, fun q hq => ha (step_mem hq)⟩
  -- a transition of the state, as seen without weights
  have hsym : ∀ a ∈ stateAddrs (plainFst f) w.state, ∀ t, f.cells[a]? = some t →
      (t.symIn = 0xFFFFFFFF ∧ (WCell.plain t).symIn = 0xFFFF) ∨ (t.symIn < 0xFFFF ∧ (WCell.plain t).symIn = t.symIn) := by
    intro a ha t ht
    rcases wf.symbols _ hS a ha t ht with h | h
    · exact .inl ⟨h, by simp [WCell.plain, h]⟩
    · exact .inr ⟨h, by simp only [WCell.plain]; rw [if_neg (by omega)]⟩
  have hn0 := wf.normal
  -- normal symbols other than the next one are of no use
  have dead_normal : ∀ a t, f.cells[a]? = some t → t.symIn < 0xFFFF → f.firstNormal ≤ t.symIn →
      w.input[w.inputDepth]? ≠ some t.symIn → Dead (plainFst f) w.input false (WConf.pt w F0) a := by
    intro a t ht h1 h2 h3
    have hp : (WCell.plain t).symIn = t.symIn := by simp only [WCell.plain]; rw [if_neg (by omega)]
    refine ⟨?_, fun q hq => ?_⟩
    · rintro ⟨_, u, hu, hs, _⟩
      rw [plain_get ht] at hu
      cases hu
      omega
    · cases hq with
      | symbol u m hu n s i =>
        rw [plain_get ht] at hu
        cases hu
        rw [hp] at i
        exact h3 i
      | flag u F m hu n s i =>
        rw [plain_get ht] at hu
        cases hu
        have s' : (WCell.plain t).symIn < f.firstNormal := s
        omega
  have dead_flag : ∀ a t, f.cells[a]? = some t → t.symIn < 0xFFFF → t.symIn < f.firstNormal →
      (∀ F, ¬ FlagStep (plainFst f) F0 t.symIn F) → Dead (plainFst f) w.input false (WConf.pt w F0) a := by
    intro a t ht h1 h2 h3
    have hp : (WCell.plain t).symIn = t.symIn := by simp only [WCell.plain]; rw [if_neg (by omega)]
    refine ⟨?_, fun q hq => ?_⟩
    · rintro ⟨_, u, hu, hs, _⟩
      rw [plain_get ht] at hu
      cases hu
      omega
    · cases hq with
      | symbol u m hu n s i =>
        rw [plain_get ht] at hu
        cases hu
        have s' : f.firstNormal ≤ (WCell.plain t).symIn := s
        omega
      | flag u F m hu n s i =>
        rw [plain_get ht] at hu
        cases hu
        rw [hp] at i
        exact h3 F i
  -- the next input symbol
  have hisym : (w.inputDepth = w.input.length ∧ w.inputSym = 0 ∧ w.input[w.inputDepth]? = none) ∨
      (w.inputDepth < w.input.length ∧ f.firstNormal ≤ w.inputSym ∧ w.input[w.inputDepth]? = some w.inputSym) := by
    rcases Nat.lt_or_eq_of_le hpos with h | h
    · right
      have e : w.input[w.inputDepth]? = some w.input[w.inputDepth] := List.getElem?_eq_getElem h
      have e2 : w.inputSym = w.input[w.inputDepth] := by unfold WConf.inputSym; rw [e]; rfl
      exact ⟨h, by rw [e2]; exact hin _ (List.getElem_mem h), by rw [e2]; exact e⟩
    · left
      have e : w.input[w.inputDepth]? = none := List.getElem?_eq_none (by omega)
      exact ⟨h, by unfold WConf.inputSym; rw [e]; rfl, e⟩
  intro k
  induction k with
  | zero =>
    intro tc0 hk
    refine ⟨_, rfl, fun a ha => dead_of_not_mem a fun hm => ?_⟩
    have := (haddr a).1 hm
    omega
  | succ k ih =>
    intro tc0 hk
    by_cases hgt : max < tc0
    · refine ⟨.stop, ?_, fun a ha => dead_of_not_mem a fun hm => ?_⟩
      · simp only [wscan, if_pos hgt, Option.pure_def]
      · have := (haddr a).1 hm
        omega
    · obtain ⟨tc, htc⟩ : ∃ tc, tc = (if tc0 = 1 ∧ 255 ≤ max then 2 else tc0) := ⟨_, rfl⟩
      have htc1 : tc0 ≤ tc ∧ tc ≤ max ∧ ¬ (tc = 1 ∧ 255 ≤ max) ∧ (∀ a, tc0 ≤ a → a < tc → a = 1 ∧ 255 ≤ max) := by
        rw [htc]
        split <;> refine ⟨?_, ?_, ?_, ?_⟩ <;> omega
      have hmem : w.state + tc ∈ stateAddrs (plainFst f) w.state := (haddr _).2 (by omega)
      obtain ⟨t, ht⟩ : ∃ t, f.cells[w.state + tc]? = some t := ⟨_, List.getElem?_eq_getElem (by omega)⟩
      have hskip : ∀ a, w.state + tc0 ≤ a → a < w.state + tc → Dead (plainFst f) w.input false (WConf.pt w F0) a := by
        intro a h1 h2
        refine dead_of_not_mem a fun hm => ?_
        have := (haddr a).1 hm
        have := htc1.2.2.2 (a - w.state) (by omega) (by omega)
        omega
      -- later transitions
      have later : ∀ a ∈ stateAddrs (plainFst f) w.state, w.state + tc < a → ∃ u, f.cells[a]? = some u ∧
          fileRank t.symIn ≤ fileRank u.symIn := by
        intro a ha hlt
        have := (haddr a).1 ha
        obtain ⟨u, hu⟩ : ∃ u, f.cells[a]? = some u := ⟨_, List.getElem?_eq_getElem (by omega)⟩
        exact ⟨u, hu, wf.sorted _ hS _ hmem _ ha hlt _ _ ht hu⟩
      -- what remains if some transitions are of no use
      have cont : ∀ m, tc ≤ m → (∀ a, w.state + tc ≤ a → a ≤ w.state + m → Dead (plainFst f) w.input false (WConf.pt w F0) a) →
          ∃ r, wscan f w max k (m + 1) = some r ∧
          match r with
          | .stop => ∀ a, w.state + tc0 ≤ a → Dead (plainFst f) w.input false (WConf.pt w F0) a
          | .final idx t => w.state + tc0 ≤ idx ∧ f.cells[idx]? = some t ∧
              Finishes (plainFst f) w.input false (WConf.pt w F0) idx ∧
              ∀ a, w.state + tc0 ≤ a → a < idx → Dead (plainFst f) w.input false (WConf.pt w F0) a
          | .down idx t rows => w.state + tc0 ≤ idx ∧ f.cells[idx]? = some t ∧
              ∃ F, rows = rowsStep f t.symIn F w.rows ∧ Step (plainFst f) w.input (WConf.pt w F0) idx
                ⟨t.target, if f.firstNormal ≤ t.symIn then w.inputDepth + 1 else w.inputDepth, F⟩ ∧
              ∀ a, w.state + tc0 ≤ a → a < idx → Dead (plainFst f) w.input false (WConf.pt w F0) a := by
        intro m hm hdead
        obtain ⟨r, hr, hP⟩ := ih (m + 1) (by omega)
        have ext : ∀ a, w.state + tc0 ≤ a → (w.state + (m + 1) ≤ a → Dead (plainFst f) w.input false (WConf.pt w F0) a) →
            Dead (plainFst f) w.input false (WConf.pt w F0) a := by
          intro a h1 h2
          rcases Nat.lt_or_ge a (w.state + tc) with h | h
          · exact hskip a h1 h
          · rcases Nat.lt_or_ge (w.state + m) a with h' | h'
            · exact h2 (by omega)
            · exact hdead a h h'
        refine ⟨r, hr, ?_⟩
        cases r with
        | stop => exact fun a h1 => ext a h1 (hP a)
        | final idx t => exact ⟨by omega, hP.2.1, hP.2.2.1, fun a h1 h2 => ext a h1 fun h => hP.2.2.2 a h h2⟩
        | down idx t rows =>
          obtain ⟨g1, g2, F, g3, g4, g5⟩ := hP
          exact ⟨by omega, g2, F, g3, g4, fun a h1 h2 => ext a h1 fun h => g5 a h h2⟩
      have one : Dead (plainFst f) w.input false (WConf.pt w F0) (w.state + tc) →
          ∀ a, w.state + tc ≤ a → a ≤ w.state + tc → Dead (plainFst f) w.input false (WConf.pt w F0) a := by
        intro hd a h1 h2
        have : a = w.state + tc := by omega
        rw [this]
        exact hd
      -- the loop ends because nothing from here on is of use
      have stops : (∀ a ∈ stateAddrs (plainFst f) w.state, w.state + tc ≤ a →
          Dead (plainFst f) w.input false (WConf.pt w F0) a) →
          ∀ a, w.state + tc0 ≤ a → Dead (plainFst f) w.input false (WConf.pt w F0) a := by
        intro h a ha
        rcases Nat.lt_or_ge a (w.state + tc) with h' | h'
        · exact hskip a ha h'
        · by_cases hm : a ∈ stateAddrs (plainFst f) w.state
          · exact h a hm h'
          · exact dead_of_not_mem a hm
      rw [wscan, if_neg hgt]
      simp only [← htc, rd, ht, ub_bind]
      rcases hsym _ hmem t ht with ⟨hfin, hp⟩ | ⟨hlt, hp⟩
      · -- final marker
        rw [if_pos hfin]
        by_cases hd : w.inputDepth = w.input.length
        · rw [if_pos hd]
          exact ⟨_, rfl, by omega, ht, ⟨hmem, _, plain_get ht, hp, fun _ => hd⟩, fun a h1 h2 => hskip a h1 h2⟩
        · rw [if_neg hd]
          refine cont tc (Nat.le_refl _) (one ⟨?_, fun q hq => ?_⟩)
          · rintro ⟨_, u, hu, hs, hl⟩
            exact hd (hl rfl)
          · obtain ⟨u, hu, hne, _⟩ := step_cell hq
            rw [plain_get ht] at hu
            cases hu
            exact hne hp
      · rw [if_neg (by omega)]
        by_cases hbr : w.inputSym = 0 ∧ f.firstNormal ≤ t.symIn
        · -- only normal symbols are left and there is no input
          rw [if_pos hbr]
          refine ⟨_, rfl, stops fun a ha hle => ?_⟩
          rcases hisym with ⟨hi1, hi2, hi3⟩ | ⟨hi1, hi2, hi3⟩
          · rcases Nat.lt_or_eq_of_le hle with hl | hl
            · obtain ⟨u, hu, hrk⟩ := later a ha hl
              have hy := fileRank_normal (f := f) hn0 (by omega) (by omega) hrk
              rcases hsym a ha u hu with ⟨h, _⟩ | ⟨h, _⟩
              · exact absurd h hy.1
              · exact dead_normal a u hu h (by omega) (by rw [hi3]; simp)
            · rw [← hl]
              exact dead_normal _ t ht hlt hbr.2 (by rw [hi3]; simp)
          · omega
        · rw [if_neg hbr]
          by_cases hmt : w.inputDepth < w.input.length ∧ w.inputSym = t.symIn
          · -- the next input symbol
            rw [if_pos hmt]
            rcases hisym with ⟨hi1, hi2, hi3⟩ | ⟨hi1, hi2, hi3⟩
            · omega
            · have hnm : f.firstNormal ≤ t.symIn := by omega
              refine ⟨_, rfl, by omega, ht, F0, ?_, ?_, fun a h1 h2 => hskip a h1 h2⟩
              · rw [rowsStep, if_pos (.inl hnm)]
              · rw [if_pos hnm]
                exact Step.symbol (f := plainFst f) (WConf.pt w F0) _ (WCell.plain t) hmem (plain_get ht)
                  (by rw [hp]; omega) (by rw [hp]; exact hnm) (by rw [hp, ← hmt.2]; exact hi3)
          · rw [if_neg hmt]
            by_cases hfl : t.symIn < f.firstNormal
            · -- epsilon or flag
              have hdia : f.featureCount ≠ 0 → t.symIn ≠ 0 →
                  ∃ ofv, f.diacritics[t.symIn]? = some ofv ∧ ofv.feature < f.featureCount := by
                have := (wf.plain.trans _ hS _ hmem _ (plain_get ht) (by rw [hp]; omega)).2.2
                rw [hp] at this
                exact this hfl
              rcases wflagCheck_spec hfl hrows hF hdia hlen with ⟨h1, h2⟩ | ⟨F', h1, h2⟩
              · have hdead := dead_flag _ t ht hlt hfl h2
                have h0 : 0 < t.symIn := by
                  rcases Nat.eq_zero_or_pos t.symIn with h | h
                  · exfalso
                    apply h2 F0
                    rw [h]
                    simp [FlagStep]
                  · exact h
                rw [if_pos hfl, h1]
                simp only [ub_bind]
                by_cases hgt2 : w.inputSym < t.symIn
                · rw [if_pos hgt2]
                  refine ⟨_, rfl, stops fun a ha hle => ?_⟩
                  rcases hisym with ⟨hi1, hi2, hi3⟩ | ⟨hi1, hi2, hi3⟩
                  · rcases Nat.lt_or_eq_of_le hle with hl | hl
                    · obtain ⟨u, hu, hrk⟩ := later a ha hl
                      have hy := fileRank_normal (f := f) hn0 h0 (by omega) hrk
                      rcases hsym a ha u hu with ⟨h, _⟩ | ⟨h, _⟩
                      · exact absurd h hy.1
                      · by_cases hu2 : u.symIn < f.firstNormal
                        · exact dead_flag a u hu h hu2
                            (hmask hi1 _ hmem _ ha hl t u ht hu hlt h h0 hfl (by omega) hu2 h2)
                        · exact dead_normal a u hu h (by omega) (by rw [hi3]; simp)
                    · rw [← hl]
                      exact hdead
                  · omega
                · rw [if_neg hgt2, if_neg (by omega)]
                  exact cont tc (Nat.le_refl _) (one hdead)
              · rw [if_pos hfl, h1]
                refine ⟨_, rfl, by omega, ht, F', rfl, ?_, fun a h1 h2 => hskip a h1 h2⟩
                rw [if_neg (by omega)]
                exact Step.flag (f := plainFst f) (WConf.pt w F0) _ (WCell.plain t) F' hmem (plain_get ht)
                  (by rw [hp]; omega) (by rw [hp]; exact hfl) (by rw [hp]; exact h2)
            · -- another normal symbol
              rw [if_neg hfl]
              simp only [Option.pure_def, ub_bind]
              rcases hisym with ⟨hi1, hi2, hi3⟩ | ⟨hi1, hi2, hi3⟩
              · omega
              · have hne : w.inputSym ≠ t.symIn := fun h => hmt ⟨hi1, h⟩
                by_cases hgt2 : w.inputSym < t.symIn
                · rw [if_pos hgt2]
                  refine ⟨_, rfl, stops fun a ha hle => ?_⟩
                  rcases Nat.lt_or_eq_of_le hle with hl | hl
                  · obtain ⟨u, hu, hrk⟩ := later a ha hl
                    have hy := fileRank_normal (f := f) hn0 (by omega) (by omega) hrk
                    rcases hsym a ha u hu with ⟨h, _⟩ | ⟨h, _⟩
                    · exact absurd h hy.1
                    · refine dead_normal a u hu h (by omega) ?_
                      rw [hi3]
                      intro h
                      have := Option.some.inj h
                      omega
                  · rw [← hl]
                    refine dead_normal _ t ht hlt (by omega) ?_
                    rw [hi3]
                    exact fun h => hne (Option.some.inj h)
                · rw [if_neg hgt2]
                  by_cases hbs : 1 ≤ tc ∧ f.firstNormal ≤ t.symIn ∧ t.symIn < w.inputSym
                  · rw [if_pos hbs]
                    obtain ⟨m, hm1, hm2, hm3⟩ := wsearch_spec (f := f) (base := w.state + tc) (inputSym := w.inputSym)
                      (M := max - tc) (by omega) (max - tc) 0 (max - tc) (by omega) (Nat.le_refl _) (.inl rfl)
                    rw [hm1]
                    simp only [ub_bind]
                    refine cont (tc + m) (by omega) fun a h1 h2 => ?_
                    have hma : a ∈ stateAddrs (plainFst f) w.state := (haddr a).2 (by clear hm3; omega)
                    have hup : ∀ u, f.cells[a]? = some u → u.symIn < w.inputSym := by
                      intro u hu
                      rcases Nat.lt_or_eq_of_le h1 with hl | hl
                      · rcases hm3 with h | ⟨v, hv, hv2⟩
                        · omega
                        · have hmv : w.state + tc + m ∈ stateAddrs (plainFst f) w.state := (haddr _).2 (by omega)
                          rcases Nat.lt_or_eq_of_le h2 with hl2 | hl2
                          · have hr1 := wf.sorted _ hS _ hma _ hmv (by omega) _ _ hu hv
                            have hr0 := wf.sorted _ hS _ hmem _ hma hl _ _ ht hu
                            have hy0 := fileRank_normal (f := f) hn0 (by omega) (by omega) hr0
                            rcases hsym a hma u hu with ⟨h, _⟩ | ⟨h, _⟩
                            · exact absurd h hy0.1
                            · have hy := fileRank_normal (f := f) hn0 (by omega) (by omega) hr1
                              omega
                          · have : a = w.state + tc + m := by omega
                            rw [this, hv] at hu
                            cases hu
                            exact hv2
                      · rw [← hl, ht] at hu
                        cases hu
                        exact hbs.2.2
                    obtain ⟨u, hu⟩ : ∃ u, f.cells[a]? = some u := ⟨_, List.getElem?_eq_getElem (by omega)⟩
                    have hlow : u.symIn < 0xFFFF ∧ f.firstNormal ≤ u.symIn := by
                      rcases Nat.lt_or_eq_of_le h1 with hl | hl
                      · have hr0 := wf.sorted _ hS _ hmem _ hma hl _ _ ht hu
                        have hy0 := fileRank_normal (f := f) hn0 (by omega) (by omega) hr0
                        rcases hsym a hma u hu with ⟨h, _⟩ | ⟨h, _⟩
                        · exact absurd h hy0.1
                        · exact ⟨h, by omega⟩
                      · rw [← hl, ht] at hu
                        cases hu
                        exact ⟨hlt, by omega⟩
                    refine dead_normal a u hu hlow.1 hlow.2 ?_
                    rw [hi3]
                    intro h
                    have := Option.some.inj h
                    have := hup u hu
                    omega
                  · rw [if_neg hbs]
                    refine cont tc (Nat.le_refl _) (one (dead_normal _ t ht hlt (by omega) ?_))
                    rw [hi3]
                    exact fun h => hne (Option.some.inj h)

/-! ## Corresponding configurations -/

/-- The rows of flag values of the weighted look-up contain the current values and, for each entry of the log of the unweighted
look-up, the values before it. -/
inductive RowsRel : List Nat → List (Nat × Nat) → List (List Nat) → Prop
  | base (F : List Nat) : RowsRel F [] [F]
  | push (F F0 : List Nat) (ft old : Nat) (log : List (Nat × Nat)) (rows : List (List Nat)) : RowsRel F0 log rows →
      ft < F.length → F.set ft old = F0 → RowsRel F ((ft, old) :: log) (F :: rows)

theorem rowsRel_head {F : List Nat} {log : List (Nat × Nat)} {rows : List (List Nat)} (h : RowsRel F log rows) :
    ∃ rs, rows = F :: rs := by cases h <;> exact ⟨_, rfl⟩

theorem rowsRel_length {F : List Nat} {log : List (Nat × Nat)} {rows : List (List Nat)} (h : RowsRel F log rows) :
    rows.length = log.length + 1 := by
  induction h with
  | base => rfl
  | push => simp only [List.length_cons]; omega

theorem rowsRel_step {F0 F : List Nat} {log : List (Nat × Nat)} {rows : List (List Nat)} {p q : Point} {a : Nat} {t : WCell}
    (h : RowsRel F0 log rows) (ht : f.cells[a]? = some t) (hp : (WCell.plain t).symIn = t.symIn)
    (hs : Step (plainFst f) input p a q) (h1 : p.flags = F0) (h2 : q.flags = F) :
    RowsRel F (logStep (plainFst f) F0 t.symIn log) (rowsStep f t.symIn F rows) := by
  cases hs with
  | symbol u m hu n s i =>
    rw [plain_get ht] at hu
    cases hu
    rw [hp] at s
    have s' : f.firstNormal ≤ t.symIn := s
    simp only at h2
    have this : (plainFst f).firstNormal ≤ t.symIn := s
    rw [← h2, h1, logStep, if_pos this, rowsStep, if_pos (Or.inl s')]
    exact h
  | flag u F' m hu n s i =>
    rw [plain_get ht] at hu
    cases hu
    rw [hp] at s i
    simp only at h2
    subst h2
    have s' : t.symIn < f.firstNormal := s
    rw [logStep, if_neg (by omega)]
    by_cases hc : f.featureCount = 0 ∨ t.symIn = 0
    · have hc' : (plainFst f).featureCount = 0 ∨ t.symIn = 0 := hc
      rw [if_pos hc', rowsStep, if_pos (.inr hc)]
      rw [FlagStep, if_pos hc'] at i
      rw [i, h1]
      exact h
    · have hc' : ¬ ((plainFst f).featureCount = 0 ∨ t.symIn = 0) := hc
      rw [if_neg hc', rowsStep, if_neg (by omega)]
      rw [FlagStep, if_neg hc'] at i
      obtain ⟨ofv, old, new, ho, hold, _, rfl⟩ := i
      rw [h1] at hold ⊢
      simp only [ho, hold, Option.getD_some]
      have hlt := (List.getElem?_eq_some_iff.1 hold).1
      refine .push _ F0 _ _ _ _ h (by rw [List.length_set]; exact hlt) ?_
      rw [List.set_set]
      apply List.ext_getElem?
      intro i
      rw [List.getElem?_set]
      split
      · rename_i hi
        subst hi
        exact hold.symm
      · rfl

/-- The weighted configuration for an unweighted one. -/
def toW (c : Conf) (rows : List (List Nat)) : WConf :=
  { bufferSize := c.bufferSize, below := c.below, state := c.state, cur := c.cur, inputDepth := c.inputDepth, input := c.input,
    rows }

/-- Corresponding ends of the loop over the transitions of a state. -/
inductive ScanRel (f : WFst) : ScanRes → WScanRes → Prop
  | stop : ScanRel f .stop .stop
  | final (idx : Nat) (t : WCell) : f.cells[idx]? = some t → ScanRel f (.final idx) (.final idx t)
  | down (idx : Nat) (t : WCell) (F : List Nat) (log : List (Nat × Nat)) (rows : List (List Nat)) : RowsRel F log rows →
      f.cells[idx]? = some t → (WCell.plain t).symIn = t.symIn → ScanRel f (.down idx (WCell.plain t) F log) (.down idx t rows)

theorem scan_match (wf : WWellFormed f S) (hin : ∀ x ∈ input, f.firstNormal ≤ x) (hmask : NoMaskedFlag (plainFst f) input)
    {c : Conf} (hc : Inv (plainFst f) input c) {rows : List (List Nat)} (hr : RowsRel c.flags c.log rows) {max : Nat}
    (hmax : getMaxTc (plainFst f) c.state = some max) :
    ∃ r r', scanFrom (plainFst f) c false max (startIndex c.cur c.state) = some r ∧
      wscanFrom f (toW c rows) max (startIndex c.cur c.state) = some r' ∧ ScanRel f r r' := by
  have htab := wf.plain.table
  obtain ⟨hS, hF, hpos, hlg⟩ := stk_facts wf.plain hc.stk
  have hdep := hc.depth
  obtain ⟨max', hmax', hbound, haddr⟩ := maxTc_spec wf.plain (show S c.state from hS)
  rw [hmax] at hmax'
  cases hmax'
  have hcur := hc.hi max hmax
  have hst := start_eq (c := c) (n := c.state + max + 1) (by omega) hc.lo hcur
  have hinp := hc.inp
  subst hinp
  have hpath := stk_path hc.stk
  obtain ⟨rs, hrows⟩ := rowsRel_head hr
  have hrl := rowsRel_length hr
  have hpl : ∀ a ∈ stateAddrs (plainFst f) c.state, ∀ t, f.cells[a]? = some t → (WCell.plain t).symIn ≠ 0xFFFF →
      t.symIn < 0xFFFF ∧ (WCell.plain t).symIn = t.symIn := by
    intro a ha t ht hne
    rcases wf.symbols _ hS a ha t ht with h | h
    · exact absurd (by simp [WCell.plain, h]) hne
    · exact ⟨h, by simp only [WCell.plain]; rw [if_neg (by omega)]⟩
  obtain ⟨r, hr1, hP⟩ := scan_spec wf.plain (c := c) false hS hin hF (by omega) hpos hmax
    (max + 1 - (c.cur - c.state)) (c.cur - c.state) (by omega)
  obtain ⟨r', hr2, hQ⟩ := wscan_spec wf (w := toW c rows) (F0 := c.flags) (rs := rs) hS hin hrows hF
    (by show rows.length < c.bufferSize; omega) hpos
    (fun hd a ha b hb hab t u ht hu ht1 hu1 ht2 ht3 hu2 hu3 hno F => by
      have e1 : (WCell.plain t).symIn = t.symIn := by simp only [WCell.plain]; rw [if_neg (by omega)]
      have e2 : (WCell.plain u).symIn = u.symIn := by simp only [WCell.plain]; rw [if_neg (by omega)]
      have := hmask _ _ hpath hd a ha b hb hab _ _ (plain_get ht) (plain_get hu)
      rw [e1, e2] at this
      exact this ht2 ht3 hu2 hu3 hno F) hmax
    (max + 1 - (c.cur - c.state)) (c.cur - c.state) (by omega)
  have ept : WConf.pt (toW c rows) c.flags = Conf.point c := rfl
  rw [ept] at hQ
  have einp : (toW c rows).input = c.input := rfl
  have est : (toW c rows).state = c.state := rfl
  have edp : (toW c rows).inputDepth = c.inputDepth := rfl
  have erw : (toW c rows).rows = rows := rfl
  simp only [einp, est, edp, erw] at hQ
  refine ⟨r, r', by rw [scanFrom, hst]; exact hr1, by rw [wscanFrom, hst]; exact hr2, ?_⟩
  have fin_step : ∀ a q, Finishes (plainFst f) c.input false (Conf.point c) a → ¬ Step (plainFst f) c.input (Conf.point c) a q := by
    rintro a q ⟨_, t, ht, hs, _⟩ hq
    obtain ⟨t', ht', hne, _⟩ := step_cell hq
    rw [ht] at ht'
    cases ht'
    exact hne hs
  cases r with
  | stop =>
    cases r' with
    | stop => exact .stop
    | final idx t => exact absurd hQ.2.2.1 (hP idx hQ.1).1
    | down idx t rows' =>
      obtain ⟨g1, g2, F, g3, g4, g5⟩ := hQ
      exact absurd g4 ((hP idx g1).2 _)
  | final idx =>
    obtain ⟨h1, h2, h3⟩ := hP
    cases r' with
    | stop => exact absurd h2 (hQ idx h1).1
    | final idx' t =>
      obtain ⟨g1, g2, g3, g4⟩ := hQ
      rcases Nat.lt_trichotomy idx idx' with h | h | h
      · exact absurd h2 (g4 idx h1 h).1
      · subst h
        exact .final idx t g2
      · exact absurd g3 (h3 idx' g1 h).1
    | down idx' t rows' =>
      obtain ⟨g1, g2, F, g3, g4, g5⟩ := hQ
      rcases Nat.lt_trichotomy idx idx' with h | h | h
      · exact absurd h2 (g5 idx h1 h).1
      · subst h
        exact absurd g4 (fin_step _ _ h2)
      · exact absurd g4 ((h3 idx' g1 h).2 _)
  | down idx t F log =>
    obtain ⟨h1, h2, h3, h4, h5⟩ := hP
    cases r' with
    | stop => exact absurd h4 ((hQ idx h1).2 _)
    | final idx' t' =>
      obtain ⟨g1, g2, g3, g4⟩ := hQ
      rcases Nat.lt_trichotomy idx idx' with h | h | h
      · exact absurd h4 ((g4 idx h1 h).2 _)
      · subst h
        exact absurd h4 (fin_step _ _ g3)
      · exact absurd g3 (h5 idx' g1 h).1
    | down idx' t' rows' =>
      obtain ⟨g1, g2, F', g3, g4, g5⟩ := hQ
      rcases Nat.lt_trichotomy idx idx' with h | h | h
      · exact absurd h4 ((g5 idx h1 h).2 _)
      · subst h
        have ht := plain_get g2
        rw [h2] at ht
        cases ht
        obtain ⟨u, hu, hne, _⟩ := step_cell h4
        rw [h2] at hu
        cases hu
        have hp := (hpl idx (step_mem h4) t' g2 hne).2
        have hFF : F = F' := congrArg Point.flags (step_det h4 g4)
        subst hFF
        subst h3 g3
        rw [hp]
        exact .down idx t' F _ _ (rowsRel_step hr g2 hp g4 rfl rfl) g2 hp
      · exact absurd g4 ((h5 idx' g1 h).2 _)

theorem wbuildOutput_eq (bufferLen : Nat) : ∀ (os : List Nat) (acc : List Wc),
    wbuildOutput f bufferLen os acc = buildOutput (plainFst f) bufferLen os acc := by
  intro os
  induction os with
  | nil => intro acc; rfl
  | cons o os ih =>
    intro acc
    rw [wbuildOutput, buildOutput]
    show (rd f.symbols o >>= _) = (rd f.symbols o >>= _)
    congr 1
    funext s
    rw [ih]

theorem wsumWeights_eq : ∀ (frs : List Frame) (x : Nat), (∀ fr ∈ frs, ∃ t, f.cells[fr.cur]? = some t) → x < 65536 →
    wsumWeights f frs x = some ((x + (frs.map fun fr => ((f.cells[fr.cur]?).map (·.weight)).getD 0).sum) % 65536) := by
  intro frs
  induction frs with
  | nil => intro x _ hx; simp only [wsumWeights, List.map_nil, List.sum_nil, Nat.add_zero, Nat.mod_eq_of_lt hx]; rfl
  | cons fr frs ih =>
    intro x h hx
    obtain ⟨t, ht⟩ := h fr List.mem_cons_self
    rw [wsumWeights, rd, ht, ub_bind, ih _ (fun y hy => h y (List.mem_cons_of_mem _ hy)) (Nat.mod_lt _ (by decide))]
    simp only [List.map_cons, List.sum_cons, ht, Option.map_some, Option.getD_some]
    congr 1
    omega

theorem stk_cells {g : Fst} {below : List Frame} {log : List (Nat × Nat)} {p : Point} (h : Stk g input below log p) :
    ∀ fr ∈ below, ∃ t, g.cells[fr.cur]? = some t := by
  induction h with
  | base => simp
  | push below log p q a t _ ht _ ih =>
    intro fr hfr
    rcases List.mem_cons.1 hfr with rfl | hfr
    · exact ⟨t, ht⟩
    · exact ih fr hfr

theorem toInt16_mod (x : Nat) : toInt16 (x % 65536) = toInt16 x := by
  unfold toInt16
  rw [Nat.mod_mod]

/-- Corresponding results of a call. -/
def ResRel (f : WFst) (c' : Conf) (r : NextRes) (wr : WNextRes) : Prop :=
  match r with
  | .found out _ => wr = .found out (pathWeight f (stackAddrs c'.below ++ [c'.cur - 1]))
  | .outputLimit => wr = .outputLimit
  | .stackLimit => wr = .stackLimit
  | .loopLimit => wr = .loopLimit
  | .exhausted => wr = .exhausted

theorem wnextLoop_unfold {bufferLen k reached max st : Nat} {w : WConf} {r : WScanRes} (hmax : wgetMaxTc f w.state = some max)
    (hst : startIndex w.cur w.state = st) (hr : wscanFrom f w max st = some r) :
    wnextLoop f bufferLen (k + 1) reached w =
      match (generalizing := false) r with
      | .final idx t => (wbuildOutput f bufferLen (w.below.reverse.map (·.out)) []).bind fun
        | none => some (.outputLimit, reached, w)
        | some s => (wsumWeights f w.below.reverse (t.weight % 65536)).bind fun x =>
          some (.found s (toInt16 x), reached, { w with cur := idx + 1 })
      | .down idx t rows =>
        if w.below.length + 2 = w.bufferSize then some (.stackLimit, reached, { w with rows })
        else if w.bufferSize ≤ w.below.length + 1 then none
        else wnextLoop f bufferLen k (furthest reached (wgoDown f w idx t rows).inputDepth) (wgoDown f w idx t rows)
      | .stop =>
        match w.below with
        | [] => some (.exhausted, reached, w)
        | fr :: rest => (wgoUp f w fr rest).bind fun w => wnextLoop f bufferLen k reached w := by
  rw [wnextLoop, hmax, ub_bind, hst, hr, ub_bind]
  cases r with
  | final idx t => rfl
  | down idx t rows => rfl
  | stop => cases w.below <;> rfl

theorem wgoUp_match (wf : WWellFormed f S) {c c1 : Conf} {fr : Frame} {rest : List Frame} {rows : List (List Nat)}
    (hr : RowsRel c.flags c.log rows) (h1 : goUp (plainFst f) c fr rest = some c1) (hS : S c1.state)
    (h8 : Step (plainFst f) input (Conf.point c1) fr.cur (Conf.point c)) :
    ∃ rows1, wgoUp f (toW c rows) fr rest = some (toW c1 rows1) ∧ RowsRel c1.flags c1.log rows1 := by
  obtain ⟨t0, ht0, hne, _⟩ := step_cell h8
  obtain ⟨t, ht, rfl⟩ := plain_of_get ht0
  have hp : t.symIn < 0xFFFF ∧ (WCell.plain t).symIn = t.symIn := by
    rcases wf.symbols _ hS _ (step_mem h8) t ht with h | h
    · exact absurd (by simp [WCell.plain, h]) hne
    · exact ⟨h, by simp only [WCell.plain]; rw [if_neg (by omega)]⟩
  have hm : t.symIn % 65536 = t.symIn := by omega
  unfold goUp at h1
  unfold wgoUp
  simp only [rd, ht0, ht, ub_bind, hp.2, hm] at h1 ⊢
  have e1 : (plainFst f).firstNormal = f.firstNormal := rfl
  have e2 : (plainFst f).featureCount = f.featureCount := rfl
  rw [e1, e2] at h1
  by_cases hn : f.firstNormal ≤ t.symIn
  · rw [if_pos hn] at h1 ⊢
    by_cases hd : c.inputDepth = 0
    · simp only [if_pos hd] at h1; cases h1
    · simp only [if_neg hd] at h1
      have hd' : ¬ (toW c rows).inputDepth = 0 := hd
      cases h1
      simp only [if_neg hd']
      exact ⟨rows, rfl, hr⟩
  · rw [if_neg hn] at h1 ⊢
    by_cases hfc : f.featureCount ≠ 0 ∧ t.symIn ≠ 0
    · rw [if_pos hfc] at h1 ⊢
      cases hlog : c.log with
      | nil => simp only [hlog] at h1; cases h1
      | cons x log =>
        obtain ⟨ft, old⟩ := x
        simp only [hlog] at h1
        cases hw : wr c.flags ft old with
        | none => rw [hw] at h1; cases h1
        | some F1 =>
          rw [hw, ub_bind] at h1
          cases h1
          rw [hlog] at hr
          generalize hfl : c.flags = F at hr
          have hw' : F.set ft old = F1 := by
            unfold wr at hw
            rw [hfl] at hw
            split at hw
            · exact Option.some.inj hw
            · cases hw
          cases hr with
          | push _ F0 _ _ _ rows0 h0 hlt hset =>
            obtain ⟨rs, hrs⟩ := rowsRel_head h0
            subst hrs
            have : F0 = F1 := hset.symm.trans hw'
            subst this
            exact ⟨_, rfl, h0⟩
    · rw [if_neg hfc] at h1 ⊢
      cases h1
      exact ⟨rows, rfl, hr⟩

/-- One call of the weighted look-up does what the unweighted one does. -/
theorem wnextLoop_sim (wf : WWellFormed f S) (hin : ∀ x ∈ input, f.firstNormal ≤ x) (hmask : NoMaskedFlag (plainFst f) input)
    {bufferLen : Nat} (hbl : 0 < bufferLen) : ∀ k reached c rows, Inv (plainFst f) input c → RowsRel c.flags c.log rows →
      ∃ r c' wr reached' rows', nextLoop (plainFst f) false bufferLen k c = some (r, c') ∧
        wnextLoop f bufferLen k reached (toW c rows) = some (wr, reached', toW c' rows') ∧
        RowsRel c'.flags c'.log rows' ∧ ResRel f c' r wr := by
  intro k
  induction k with
  | zero => intro reached c rows hc hr; exact ⟨_, _, _, _, rows, rfl, rfl, hr, rfl⟩
  | succ k ih =>
    intro reached c rows hc hr
    obtain ⟨hS, hF, hpos, hlg⟩ := stk_facts wf.plain hc.stk
    have hdep := hc.depth
    obtain ⟨max, hmax, hbound, haddr⟩ := maxTc_spec wf.plain (show S c.state from hS)
    have hmaxw : wgetMaxTc f (toW c rows).state = some max := (wmaxTc_eq wf (show S c.state from hS)).trans hmax
    obtain ⟨r, r', hs1, hs2, hrel⟩ := scan_match wf hin hmask hc hr hmax
    rw [nextLoop_unfold hmax rfl hs1, wnextLoop_unfold hmaxw rfl hs2]
    have hinp := hc.inp
    subst hinp
    -- what the unweighted scan says
    have hcur := hc.hi max hmax
    have htab := wf.plain.table
    have hst := start_eq (c := c) (n := c.state + max + 1) (by omega) hc.lo hcur
    obtain ⟨r0, hr0, hP⟩ := scan_spec wf.plain (c := c) false hS hin hF (by omega) hpos hmax
      (max + 1 - (c.cur - c.state)) (c.cur - c.state) (by omega)
    have hsame : r = r0 := by
      rw [scanFrom, hst, hr0] at hs1
      exact (Option.some.inj hs1).symm
    subst hsame
    cases hrel with
    | stop =>
      simp only
      have hbw : (toW c rows).below = c.below := rfl
      rw [hbw]
      cases hbel : c.below with
      | nil => exact ⟨_, _, _, _, rows, rfl, rfl, hr, rfl⟩
      | cons fr rest =>
        simp only
        have hstk0 := hc.stk
        rw [hbel] at hstk0
        obtain ⟨c1, h1, h2, h3, h4, h5, h6, h7, h8⟩ := goUp_spec hbel hstk0
        have hS1 := (stk_facts wf.plain h2).1
        obtain ⟨m1, hm1, _, ha1⟩ := maxTc_spec wf.plain hS1
        have hm := (ha1 _).1 (step_mem h8)
        have hst1 : (Conf.point c1).state = c1.state := rfl
        rw [hst1] at hm hm1
        have hc1 : Inv (plainFst f) c.input c1 := by
          refine ⟨h3 ▸ h2, h6, by omega, fun m hm' => ?_, ?_⟩
          · rw [hm1] at hm'
            cases hm'
            omega
          · rw [h3, h7]
            rw [hbel] at hdep
            simp only [List.length_cons] at hdep
            omega
        obtain ⟨rows1, g1, g2⟩ := wgoUp_match wf hr h1 hS1 h8
        rw [h1, g1]
        exact ih reached c1 rows1 hc1 g2
    | final idx t ht =>
      simp only
      have hbw : (toW c rows).below = c.below := rfl
      rw [wbuildOutput_eq, hbw]
      rcases buildOutput_spec (f := plainFst f) (bufferLen := bufferLen) (text := fun fr => outText (plainFst f) fr.cur)
        c.below.reverse [] (fun fr hfr => stk_out wf.plain hc.stk fr (List.mem_reverse.1 hfr)) (by simpa using hbl)
        with ⟨h1, h2⟩ | ⟨h1, h2⟩
      · rw [h1]
        simp only [Option.bind_some]
        have hcells : ∀ fr ∈ c.below.reverse, ∃ t, f.cells[fr.cur]? = some t := by
          intro fr hfr
          obtain ⟨t', ht'⟩ := stk_cells hc.stk fr (List.mem_reverse.1 hfr)
          obtain ⟨t'', ht'', _⟩ := plain_of_get ht'
          exact ⟨t'', ht''⟩
        rw [wsumWeights_eq _ _ hcells (Nat.mod_lt _ (by decide))]
        refine ⟨_, _, _, _, rows, rfl, rfl, hr, ?_⟩
        simp only [ResRel, pathWeight, WNextRes.found.injEq, true_and]
        rw [toInt16_mod]
        simp only [Nat.add_sub_cancel, List.map_append, List.sum_append, stackAddrs, List.map_map, List.map_cons, List.map_nil,
          List.sum_cons, List.sum_nil, ht, Option.map_some, Option.getD_some, Function.comp_def]
        rw [← toInt16_mod, ← toInt16_mod (_ + (t.weight + 0))]
        congr 1
        omega
      · rw [h1]
        exact ⟨_, _, _, _, rows, rfl, rfl, hr, rfl⟩
    | down idx t F log rows' hrr ht hp =>
      simp only
      obtain ⟨hlo, ht', hlog, hstep, hdead⟩ := hP
      have hbw : (toW c rows).below = c.below := rfl
      have hbs : (toW c rows).bufferSize = c.bufferSize := rfl
      rw [hbw, hbs]
      by_cases hlim : c.below.length + 2 = c.bufferSize
      · rw [if_pos hlim, if_pos hlim]
        exact ⟨_, _, _, _, rows', rfl, rfl, hrr, rfl⟩
      · rw [if_neg hlim, if_neg (by omega), if_neg hlim, if_neg (by omega)]
        have hstk : Stk (plainFst f) c.input (goDown (plainFst f) c idx (WCell.plain t) F log).below
            (goDown (plainFst f) c idx (WCell.plain t) F log).log
            (Conf.point (goDown (plainFst f) c idx (WCell.plain t) F log)) := by
          simp only [goDown, Conf.point, hlog]
          exact .push _ _ (Conf.point c) _ idx (WCell.plain t) hc.stk ht' hstep
        have hc1 : Inv (plainFst f) c.input (goDown (plainFst f) c idx (WCell.plain t) F log) := by
          refine ⟨hstk, rfl, Nat.le_refl _, fun m _ => ?_, ?_⟩
          · simp only [goDown]; omega
          · simp only [goDown, List.length_cons]; omega
        have hgd : wgoDown f (toW c rows) idx t rows' = toW (goDown (plainFst f) c idx (WCell.plain t) F log) rows' := by
          simp only [wgoDown, toW, goDown, hp]
          rfl
        rw [hgd]
        exact ih _ _ rows' hc1 hrr

end

end Verif.Props
