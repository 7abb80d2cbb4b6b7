import Verif.Spec.SuggestSearch
/-!
# The suggestion generators run the search of `Verif.Spec.SuggestSearch` (for C81)
-/
set_option linter.unusedSimpArgs false
set_option linter.unusedVariables false

namespace Verif.Search
open Verif Verif.Props Verif.Spec

/-! ### Ranks -/

theorem prioClass_weight (a : MorAn) : FormWeight a (prioClass a) := by
  have key : ∀ s : List Wc, (∃ k ∈ declined, a.cls = some (lit k)) → a.sijamuoto = some s → FormWeight a (prioNoun a) := by
    intro s hk hs
    unfold prioNoun
    rw [hs]
    simp only
    have pos : ∀ c n, (c, n) ∈ caseWeights → s = lit c → FormWeight a n := fun c n hm he =>
      Or.inl ⟨_, hm, ⟨hk, by rw [hs, he]⟩, rfl⟩
    by_cases h1 : s = lit "nimento"
    · rw [if_pos h1]; exact pos _ _ (by simp [caseWeights]) h1
    rw [if_neg h1]
    by_cases h2 : s = lit "omanto"
    · rw [if_pos h2]; exact pos _ _ (by simp [caseWeights]) h2
    rw [if_neg h2]
    by_cases h3 : s = lit "osanto"
    · rw [if_pos h3]; exact pos _ _ (by simp [caseWeights]) h3
    rw [if_neg h3]
    by_cases h4 : s = lit "sisaolento"
    · rw [if_pos h4]; exact pos _ _ (by simp [caseWeights]) h4
    rw [if_neg h4]
    by_cases h5 : s = lit "sisaeronto"
    · rw [if_pos h5]; exact pos _ _ (by simp [caseWeights]) h5
    rw [if_neg h5]
    by_cases h6 : s = lit "sisatulento"
    · rw [if_pos h6]; exact pos _ _ (by simp [caseWeights]) h6
    rw [if_neg h6]
    by_cases h7 : s = lit "ulkoolento"
    · rw [if_pos h7]; exact pos _ _ (by simp [caseWeights]) h7
    rw [if_neg h7]
    by_cases h8 : s = lit "ulkoeronto"
    · rw [if_pos h8]; exact pos _ _ (by simp [caseWeights]) h8
    rw [if_neg h8]
    by_cases h9 : s = lit "ulkotulento"
    · rw [if_pos h9]; exact pos _ _ (by simp [caseWeights]) h9
    rw [if_neg h9]
    by_cases h10 : s = lit "olento"
    · rw [if_pos h10]; exact pos _ _ (by simp [caseWeights]) h10
    rw [if_neg h10]
    by_cases h11 : s = lit "tulento"
    · rw [if_pos h11]; exact pos _ _ (by simp [caseWeights]) h11
    rw [if_neg h11]
    by_cases h12 : s = lit "vajanto"
    · rw [if_pos h12]; exact pos _ _ (by simp [caseWeights]) h12
    rw [if_neg h12]
    by_cases h13 : s = lit "seuranto"
    · rw [if_pos h13]; exact pos _ _ (by simp [caseWeights]) h13
    rw [if_neg h13]
    by_cases h14 : s = lit "keinonto"
    · rw [if_pos h14]; exact pos _ _ (by simp [caseWeights]) h14
    rw [if_neg h14]
    refine Or.inr ⟨?_, rfl⟩
    rintro e he ⟨_, hc⟩
    rw [hs] at hc
    have hc := Option.some.inj hc
    simp only [caseWeights, List.mem_cons, List.not_mem_nil, or_false] at he
    rcases he with rfl | rfl | rfl | rfl | rfl | rfl | rfl | rfl | rfl | rfl | rfl | rfl | rfl | rfl
    · exact h1 hc
    · exact h2 hc
    · exact h3 hc
    · exact h4 hc
    · exact h6 hc
    · exact h5 hc
    · exact h7 hc
    · exact h10 hc
    · exact h11 hc
    · exact h9 hc
    · exact h14 hc
    · exact h8 hc
    · exact h12 hc
    · exact h13 hc
  unfold prioClass
  cases hc : a.cls with
  | none => exact Or.inr ⟨(fun e _ h => by obtain ⟨⟨k, _, hk⟩, _⟩ := h; rw [hc] at hk; cases hk), rfl⟩
  | some c =>
    simp only
    have hmem : c ∈ nounClasses ↔ ∃ k ∈ declined, some c = some (lit k) := by
      simp only [nounClasses, declined, List.mem_cons, List.not_mem_nil, or_false, exists_eq_or_imp, exists_eq_left, Option.some.injEq]
      constructor
      · rintro (h | h | h | h | h | h | h | h) <;> simp [h]
      · rintro (h | h | h | h | h | h | h | h) <;> simp [h]
    by_cases hm : c ∈ nounClasses
    · rw [if_pos hm]
      cases hs : a.sijamuoto with
      | none =>
        have : prioNoun a = 4 := by unfold prioNoun; rw [hs]
        rw [this]
        exact Or.inr ⟨(fun e _ h => by rw [InCase, hs] at h; cases h.2), rfl⟩
      | some s => exact key s (by rw [hc]; exact hmem.1 hm) hs
    · rw [if_neg hm]
      exact Or.inr ⟨(fun e _ h => hm (hmem.2 (by rw [← hc]; exact h.1))), rfl⟩

theorem formWeight_unique {a : MorAn} {n m : Nat} (h : FormWeight a n) (h' : FormWeight a m) : n = m := by
  have inj : ∀ e ∈ caseWeights, ∀ f ∈ caseWeights, lit e.1 = lit f.1 → e.2 = f.2 := by decide
  rcases h with ⟨e, he, hc, rfl⟩ | ⟨h, rfl⟩ <;> rcases h' with ⟨f, hf, hc', rfl⟩ | ⟨h', rfl⟩
  · exact inj e he f hf (Option.some.inj (hc.2.symm.trans hc'.2))
  · exact absurd hc (h' e he)
  · exact absurd hc' (h f hf)
  · rfl

theorem countParts_eq (s : List Wc) : ∀ n, n < 5 → countParts n (s ++ [0]) = some (min (n + (s.takeWhile (· ≠ 0)).count 0x3D) 5) := by
  induction s with
  | nil => intro n hn; simp [countParts]; omega
  | cons c s ih =>
    intro n hn
    rw [List.cons_append, countParts]
    by_cases h0 : c = 0
    · rw [if_pos h0, h0]; simp; omega
    · rw [if_neg h0, List.takeWhile_cons_of_pos (by simpa using h0), List.count_cons]
      by_cases h1 : c = 0x3D
      · subst h1
        rw [if_pos rfl]
        by_cases h5 : n + 1 = 5
        · rw [if_pos h5]
          simp only [beq_self_eq_true, if_true, Option.pure_def, Option.some.injEq]
          omega
        · rw [if_neg h5, ih (n + 1) (by omega)]
          simp only [beq_self_eq_true, if_true, Option.some.injEq]
          congr 1
          omega
      · rw [if_neg h1, ih n hn]
        simp [h1]

theorem prioStructure_eq (s : List Wc) : prioStructure (s ++ [0]) = some (partsWeight s) := by
  unfold prioStructure partsWeight
  rw [countParts_eq s 0 (by omega)]
  simp only [Option.bind_eq_bind, Option.bind_some, Option.pure_def, Nat.zero_add]
  generalize (s.takeWhile (· ≠ 0)).count 0x3D = m
  have : min m 5 = 0 ∨ min m 5 = 1 ∨ min m 5 = 2 ∨ min m 5 = 3 ∨ min m 5 = 4 ∨ min m 5 = 5 := by omega
  rcases this with e | e | e | e | e | e <;> rw [e] <;> simp [int32]

theorem verdict_match (word s : List Wc) (r : SpellRes) : matchWordAndAnalysis word (s ++ [0]) = some r ↔ Verdict word s r := by
  obtain ⟨r0, h0, h1, h2, h3⟩ := C26_verdict word s
  rw [h0]
  constructor
  · intro e
    have e := Option.some.inj e
    subst e
    cases hr : r0 with
    | failed =>
      obtain ⟨v, hv, ⟨c, hc, hm⟩, _⟩ := gives_total word { struct := some s } ⟨s, rfl⟩
      simp only [MorAn.structCells, Option.some.injEq] at hc
      rw [← hc, h0] at hm
      cases hm
      exact absurd hr hv
    | ok => exact Or.inl ⟨rfl, h1.1 hr⟩
    | capFirst => exact Or.inr (Or.inl ⟨rfl, h2.1 hr⟩)
    | capError => exact Or.inr (Or.inr ⟨rfl, h3.1 hr⟩)
  · rintro (⟨rfl, h⟩ | ⟨rfl, h⟩ | ⟨rfl, h⟩)
    · rw [h1.2 h]
    · rw [h2.2 h]
    · rw [h3.2 h]

theorem verdict_weight {word s : List Wc} {r : SpellRes} (h : Verdict word s r) : verdictWeight r = r.toNat ∧ verdictWeight r = prioResult r := by
  rcases h with ⟨rfl, _⟩ | ⟨rfl, _⟩ | ⟨rfl, _⟩ <;> exact ⟨rfl, rfl⟩

theorem handle_counts {word : List Wc} {a : MorAn} (hs : ∃ s, a.struct = some s) (r : SpellRes) (p : Nat) :
    handleAnalysis word a = some (r, p) ↔ Counts word a r p := by
  obtain ⟨r0, p0, h0, hg, _, _, hp0⟩ := handleAnalysis_spec word a hs
  obtain ⟨s, hs⟩ := hs
  have hc0 : Counts word a r0 p0 := by
    obtain ⟨s', hs', hm⟩ := hg
    rw [hs] at hs'; cases hs'
    have hv := (verdict_match word s r0).1 hm
    refine ⟨s, prioClass a, hs, hv, prioClass_weight a, ?_⟩
    unfold handleAnalysis at h0
    simp only [MorAn.structCells, hs, Option.bind_eq_bind, Option.bind_some, prioStructure_eq, hm] at h0
    unfold int32 at h0
    split at h0
    · simp only [Option.bind_some] at h0
      split at h0
      · simp only [Option.bind_some, Option.pure_def, Option.some.injEq, Prod.mk.injEq, true_and] at h0
        rw [← h0, (verdict_weight hv).2]
      · cases h0
    · cases h0
  rw [h0]
  constructor
  · intro e; cases e; exact hc0
  · rintro ⟨s', n, hs', hv, hf, rfl⟩
    rw [hs] at hs'; cases hs'
    obtain ⟨s'', n', hs'', hv', hf', e⟩ := hc0
    rw [hs] at hs''; cases hs''
    have hr : r0 = r := Option.some.inj (((verdict_match word s r0).2 hv').symm.trans ((verdict_match word s r).2 hv))
    subst hr
    rw [e, formWeight_unique hf hf']

theorem swp_ranked (an : Analyzer) (h : AnalyzerOk an) (x : List Wc) :
    ∃ r p, spellWithPriority an x = some (r, p) ∧ p ≤ 737280 ∧ (r = .failed ↔ an x = []) ∧ (r ≠ .failed → Ranked an x r p) := by
  obtain ⟨r, p, h1, h2, h3, _⟩ := swp_total an h x
  refine ⟨r, p, h1, h2, h3, fun hr => ?_⟩
  have hne : an x ≠ [] := fun e => hr (h3.2 e)
  obtain ⟨r', p', h1', _, h4⟩ := C25_priority an x (h x)
  rw [h1] at h1'
  cases h1'
  obtain ⟨⟨hb, ⟨a, ha, he⟩, hm⟩, _⟩ := h4 hne
  refine ⟨⟨a, ha, (handle_counts (h x a ha) _ _).1 he⟩, fun b hbm r' p' hc => ?_⟩
  have hh := (handle_counts (h x b hbm) _ _).2 hc
  obtain ⟨s, n, hs, hv, _⟩ := hc
  have hg : Gives x b r' := ⟨s, hs, (verdict_match x s r').2 hv⟩
  have hbet := hb.2 b hbm r' hg
  obtain ⟨v, hv0, _, hgv⟩ := gives_total x b (h x b hbm)
  have hr' : r' ≠ .failed := by rw [(hgv r').1 hg]; exact hv0
  have hle := (better_iff _ _ hr hr').1 hbet
  have hw : ∀ q : SpellRes, q ≠ .failed → verdictWeight q = q.toNat := by intro q; cases q <;> simp [verdictWeight, SpellRes.toNat]
  rw [hw r hr, hw r' hr']
  rcases Nat.lt_or_eq_of_le hle with h | h
  · exact Or.inl h
  · have := toNat_inj _ _ h
    subst this
    exact Or.inr ⟨rfl, hm b hbm p' hh⟩

theorem ranked_unique {an : Analyzer} {x : List Wc} {r r' : SpellRes} {p p' : Nat} (h : Ranked an x r p) (h' : Ranked an x r' p') :
    r = r' ∧ p = p' := by
  obtain ⟨⟨a, ha, hc⟩, hm⟩ := h
  obtain ⟨⟨b, hb, hc'⟩, hm'⟩ := h'
  rcases hm b hb _ _ hc' with h1 | ⟨h1, h2⟩ <;> rcases hm' a ha _ _ hc with h3 | ⟨h3, h4⟩
  · omega
  · rw [h3] at h1; omega
  · rw [h1] at h3; omega
  · exact ⟨h1, by omega⟩

theorem ranked_ne {an : Analyzer} {x : List Wc} {r : SpellRes} {p : Nat} (h : Ranked an x r p) : r ≠ .failed := by
  obtain ⟨⟨a, _, s, n, _, hv, _⟩, _⟩ := h
  rcases hv with ⟨rfl, _⟩ | ⟨rfl, _⟩ | ⟨rfl, _⟩ <;> decide

/-! ### The search -/

theorem applyStructure_exact (w cells : List Wc) (h : 0 ∈ cells) : ∃ x, applyStructure w cells = some x ∧ x.length = w.length ∧ (0 ∉ w → 0 ∉ x)
    ∧ ∀ (i : Nat) (d : Wc), w[i]? = some d → x[i]? = some (demanded (caseRequirements cells)[i]? d) := by
  induction w generalizing cells with
  | nil => exact ⟨[], rfl, rfl, fun h => h, by simp⟩
  | cons c cs ih =>
    obtain ⟨k, t, h1, h2, h3, h4⟩ := skipEq_spec cells h
    rw [applyStructure, h1, h3]
    simp only [Option.bind_eq_bind, Option.bind_some, rd, List.getElem?_cons_zero, Option.pure_def,
      List.drop_succ_cons, List.drop_zero]
    by_cases hk : k = 0
    · subst hk
      exact ⟨c :: cs, by simp, rfl, fun h => h, by simp [caseRequirements, demanded]⟩
    · have h5 : 0 ∈ t := by
        rcases List.mem_cons.1 h4 with e | e
        · exact absurd e.symm hk
        · exact e
      obtain ⟨x, e1, e2, e3, e4⟩ := ih t h5
      rw [if_neg hk, e1]
      refine ⟨_, rfl, by simp [e2], ?_, ?_⟩
      · intro hz
        simp only [List.mem_cons, not_or] at hz ⊢
        refine ⟨?_, e3 hz.2⟩
        have hc : c ≠ 0 := fun e => hz.1 e.symm
        split
        · exact (upper_ne_zero c hc).symm
        · split
          · exact (lower_ne_zero c hc).symm
          · exact hz.1
      · intro i d hd
        rw [caseRequirements_cons k t hk h2]
        cases i with
        | zero =>
          simp only [List.getElem?_cons_zero, Option.some.injEq] at hd
          subst hd
          simp [demanded]
        | succ i =>
          simp only [List.getElem?_cons_succ] at hd ⊢
          exact e4 i d hd

/-- The status of the code and the state of the search. -/
structure Abs (w : List Wc) (n budget : Nat) (s : SugStatus) (st : State) : Prop where
  word : s.word = w
  max : s.maxSug = n
  budget : s.maxCost = budget
  cost : s.cost = st.cost
  sugg : s.sugg = valued st.found
  fits : st.found.length ≤ n

theorem valued_length (l : List (List Wc × Nat)) : (valued l).length = l.length := by simp [valued]

theorem valued_concat (l : List (List Wc × Nat)) (x : List Wc × Nat) : valued (l ++ [x]) = valued l ++ [(x.1, x.2 * (l.length + 5))] := by
  simp [valued, List.mapIdx_append]

theorem abs_ends {w : List Wc} {n budget : Nat} {s : SugStatus} {st : State} (h : Abs w n budget s st) : s.shouldAbort = true ↔ Ends n budget st := by
  have hl : s.sugg.length = st.found.length := by rw [h.sugg, valued_length]
  have hc := h.cost
  have hb := h.budget
  unfold SugStatus.shouldAbort Ends
  rw [h.max, hl, hc, hb]
  have hnil : st.found ≠ [] ↔ st.found.length ≠ 0 := by rw [ne_eq, ne_eq, List.length_eq_zero_iff]
  rw [hnil]
  by_cases h1 : st.found.length = n
  · simp [h1]
  rw [if_neg h1]
  by_cases h2 : st.cost < budget
  · rw [if_pos h2]; simp [h1]; omega
  rw [if_neg h2]
  by_cases h3 : st.found.length = 0 ∧ st.cost < 2 * budget
  · rw [if_pos h3]; simp only [Bool.false_eq_true, false_iff]; omega
  · rw [if_neg h3]; simp only [true_iff]; omega

theorem abs_word {an : Analyzer} (h : AnalyzerOk an) {w : List Wc} {n budget : Nat} (hn : n ≤ 30) {s : SugStatus} {st : State}
    (ha : Abs w n budget s st) (hab : ¬ Ends n budget st) {c : List Wc} (h0 : 0 ∉ c) :
    ∃ s' st', suggestForBuffer an s c = some s' ∧ Step an w (.word c) st st' ∧ Abs w n budget s' st' ∧ st'.cap = st.cap := by
  have hab' : s.shouldAbort = false := by
    cases e : s.shouldAbort with
    | false => rfl
    | true => exact absurd ((abs_ends ha).1 e) hab
  have hl : s.sugg.length = st.found.length := by rw [ha.sugg, valued_length]
  have hlt : s.sugg.length < s.maxSug := by
    have := ha.fits
    have h1 : st.found.length ≠ n := fun e => hab (Or.inl e)
    rw [hl, ha.max]; omega
  have hs : s.maxSug ≤ 30 := by rw [ha.max]; exact hn
  have hfit : st.found.length + 1 ≤ n := by rw [hl, ha.max] at hlt; exact hlt
  have fin : ∀ (x : List Wc) (p k : Nat), Abs w n budget { s with cost := s.cost + k, sugg := s.sugg ++ [(x, p * (s.sugg.length + 5))] }
      { st with found := st.found ++ [(x, p)], cost := st.cost + k } := fun x p k =>
    ⟨ha.word, ha.max, ha.budget, by simp [ha.cost], by simp only; rw [valued_concat, ha.sugg, valued_length], by simpa using hfit⟩
  obtain ⟨r, p, e1, e2, e3, e4⟩ := swp_ranked an h c
  unfold suggestForBuffer
  rw [if_neg (by simp [hab']), e1]
  simp only [Option.bind_eq_bind, Option.bind_some, Option.pure_def]
  cases hr : r with
  | failed =>
    refine ⟨s.charge, { st with cost := st.cost + 1 }, rfl, .unknown (e3.1 hr), ⟨ha.word, ha.max, ha.budget, ?_, ha.sugg, ha.fits⟩, rfl⟩
    simp [SugStatus.charge, ha.cost]
  | ok =>
    have hk := e4 (by rw [hr]; decide)
    rw [hr] at hk
    simp only
    rw [wcsncpyR_plain c c.length (by simpa using h0) (Nat.le_refl _)]
    simp only [Option.bind_some, List.take_length]
    rw [takeWhile_nz c h0, add_ok (s := s.charge) hlt hs (by omega)]
    exact ⟨_, _, rfl, .known hk (Or.inl ⟨rfl, rfl⟩), fin c p 1, rfl⟩
  | capFirst =>
    have hk := e4 (by rw [hr]; decide)
    rw [hr] at hk
    simp only
    cases c with
    | nil =>
      exfalso
      obtain ⟨⟨a, _, st', _, _, hv, _⟩, _⟩ := hk
      rcases hv with ⟨hv, _⟩ | ⟨_, ⟨_, _, hv, _⟩, _⟩ | ⟨hv, _⟩
      · cases hv
      · simp at hv
      · cases hv
    | cons c cs =>
      simp only [List.mem_cons, not_or] at h0
      simp only [rd, List.getElem?_cons_zero, Option.bind_some, List.drop_succ_cons, List.drop_zero, List.length_cons,
        Nat.add_sub_cancel]
      rw [wcsncpyR_plain cs cs.length (by simpa using h0.2) (Nat.le_refl _)]
      simp only [Option.bind_some, List.take_length]
      have hu := upper_ne_zero c (fun e => h0.1 e.symm)
      rw [takeWhile_nz _ (by simp [h0.2, hu.symm]), add_ok (s := s.charge) hlt hs (by omega)]
      exact ⟨_, _, rfl, .known hk (Or.inr (Or.inl ⟨rfl, rfl⟩)), fin (upper c :: cs) p 1, rfl⟩
  | capError =>
    have hk := e4 (by rw [hr]; decide)
    rw [hr] at hk
    simp only
    cases han : an c with
    | nil => have := e3.2 han; rw [hr] at this; cases this
    | cons a as =>
      obtain ⟨t, hst⟩ := h c a (by rw [han]; simp)
      simp only [MorAn.structCells, hst, Option.bind_some]
      rw [wcsncpyR_plain c c.length (by simpa using h0) (Nat.le_refl _)]
      simp only [Option.bind_some, List.take_length]
      obtain ⟨x, x1, x2, x3, x4⟩ := applyStructure_exact c (t ++ [0]) (by simp)
      rw [x1]
      simp only [Option.bind_some]
      rw [takeWhile_nz x (x3 h0), add_ok (s := s.charge.charge) hlt hs (by omega)]
      rw [caseRequirements_cells] at x4
      exact ⟨_, _, rfl, .known hk (Or.inr (Or.inr ⟨rfl, a, as, t, han, hst, x2, x4⟩)), fin x p 2, rfl⟩

theorem runs_ends {an : Analyzer} {w : List Wc} {n budget : Nat} {ts : List Try} {st st' : State} (he : Ends n budget st)
    (h : Runs an w n budget ts st st') : st' = st := by
  cases h with
  | done => rfl
  | ends _ => rfl
  | step hn _ _ => exact absurd he hn

theorem runs_append {an : Analyzer} {w : List Wc} {n budget : Nat} {ts us : List Try} {st st' st'' : State} (h : Runs an w n budget ts st st')
    (h' : Runs an w n budget us st' st'') : Runs an w n budget (ts ++ us) st st'' := by
  induction h with
  | done => exact h'
  | ends he => rw [runs_ends he h']; exact .ends he
  | step hn hs _ ih => exact .step hn hs (ih h')

theorem abs_feed {an : Analyzer} (h : AnalyzerOk an) {w : List Wc} {n budget : Nat} (hn : n ≤ 30) (cs : List (List Wc)) (h0 : ∀ c ∈ cs, 0 ∉ c)
    {s : SugStatus} {st : State} (ha : Abs w n budget s st) :
    ∃ s' st', feed an cs s = some s' ∧ Runs an w n budget (cs.map .word) st st' ∧ Abs w n budget s' st' ∧ st'.cap = st.cap := by
  induction cs generalizing s st with
  | nil => exact ⟨s, st, rfl, .done, ha, rfl⟩
  | cons c cs ih =>
    by_cases he : Ends n budget st
    · exact ⟨s, st, feed_abort an _ s ((abs_ends ha).2 he), .ends he, ha, rfl⟩
    · obtain ⟨s1, st1, e1, t1, a1, c1⟩ := abs_word h hn ha he (h0 c (by simp))
      obtain ⟨s2, st2, e2, t2, a2, c2⟩ := ih (fun x hx => h0 x (by simp [hx])) a1
      exact ⟨s2, st2, by rw [feed_cons, e1]; exact e2, .step he t1 t2, a2, c2.trans c1⟩

/-! ### Splitting -/

theorem part_iff {an : Analyzer} {x : List Wc} {r : SpellRes} {p : Nat} (hk : r ≠ .failed → Ranked an (lowerFirst x) r p)
    (hf : r = .failed ↔ an (lowerFirst x) = []) : (partOk r = true → Part an x r p) ∧ (partOk r = false → NoPart an x) := by
  constructor
  · intro hr
    refine ⟨hk (by rintro rfl; simp [partOk] at hr), ?_⟩
    cases r <;> simp_all [partOk]
  · rintro hr r' p' ⟨h1, h2⟩
    by_cases h : r = .failed
    · obtain ⟨⟨a, ha, _⟩, _⟩ := h1
      rw [hf.1 h] at ha
      simp at ha
    · obtain ⟨rfl, rfl⟩ := ranked_unique (hk h) h1
      rcases h2 with rfl | rfl <;> simp [partOk] at hr

theorem abs_first {an : Analyzer} (h : AnalyzerOk an) (a : List Wc) (cap : Bool) (s : SugStatus) :
    ∃ o b k p, tryFirst an a cap s = some (o.isSome, p, cap || b, { s with cost := s.cost + k }) ∧ First an a o b k ∧ (∀ q, o = some q → p = q)
      ∧ p ≤ 737280 := by
  obtain ⟨r, p, h1, h2, h3, h4⟩ := swp_ranked an h (lowerFirst a)
  obtain ⟨p1, p2⟩ := part_iff h4 h3
  unfold tryFirst
  rw [h1]
  simp only [Option.bind_eq_bind, Option.bind_some, Option.pure_def]
  cases hr : partOk r with
  | true =>
    exact ⟨some p, headUpper a || r == .capFirst, 1, p, by simp [SugStatus.charge, Bool.or_assoc], .plain (p1 hr), (fun q e => by cases e; rfl), h2⟩
  | false =>
    simp only [Bool.false_eq_true, if_false]
    by_cases hd : a.getLast? = some 0x2E
    · rw [if_pos hd]
      obtain ⟨r', p', h1', h2', h3', h4'⟩ := swp_ranked an h (lowerFirst a.dropLast)
      obtain ⟨q1, q2⟩ := part_iff h4' h3'
      rw [h1']
      simp only [Option.bind_some]
      cases hr' : partOk r' with
      | true =>
        exact ⟨some p', headUpper a || r' == .capFirst, 2, p', by simp [SugStatus.charge, Bool.or_assoc], .stop (p2 hr) hd (q1 hr'),
          (fun q e => by cases e; rfl), h2'⟩
      | false =>
        exact ⟨none, headUpper a, 2, p', by simp [SugStatus.charge, partOk_failed_capFirst hr'], .neither (p2 hr) hd (q2 hr'),
          (fun q e => by cases e), h2'⟩
    · rw [if_neg hd]
      exact ⟨none, headUpper a, 1, p, by simp [SugStatus.charge], .none (p2 hr) hd, (fun q e => by cases e), h2⟩

theorem abs_split {an : Analyzer} (h : AnalyzerOk an) {w : List Wc} {n budget : Nat} (hn : n ≤ 30) {s : SugStatus} {st : State}
    (ha : Abs w n budget s st) (hab : ¬ Ends n budget st) (i : Nat) :
    ∃ s' st', trySplit an w i st.cap s = some (st'.cap, s') ∧ Step an w (.split i) st st' ∧ Abs w n budget s' st' := by
  have hl : s.sugg.length = st.found.length := by rw [ha.sugg, valued_length]
  have hfit : st.found.length + 1 ≤ n := by
    have := ha.fits
    have h1 : st.found.length ≠ n := fun e => hab (Or.inl e)
    omega
  obtain ⟨o, b, k, p, e1, e2, e3, e4⟩ := abs_first h (before w i) st.cap s
  unfold trySplit
  rw [e1]
  simp only [Option.bind_eq_bind, Option.bind_some, Option.pure_def]
  cases o with
  | none =>
    exact ⟨{ s with cost := s.cost + k }, { st with cost := st.cost + k, cap := st.cap || b }, rfl, .first e2,
      ⟨ha.word, ha.max, ha.budget, by simp [ha.cost], ha.sugg, ha.fits⟩⟩
  | some p' =>
    have := e3 p' rfl
    subst this
    simp only [Option.isSome_some, if_true]
    obtain ⟨r, q, f1, f2, f3, f4⟩ := swp_ranked an h (lowerFirst (after w i))
    obtain ⟨q1, q2⟩ := part_iff f4 f3
    rw [f1]
    simp only [Option.bind_some]
    cases hr : partOk r with
    | false =>
      exact ⟨{ s with cost := s.cost + k + 1 }, { st with cost := st.cost + k + 1, cap := st.cap || b }, rfl, .second e2 (q2 hr),
        ⟨ha.word, ha.max, ha.budget, by simp [ha.cost], ha.sugg, ha.fits⟩⟩
    | true =>
      simp only [if_true]
      have hm : (if w[i]? = some 0x2D then 6 else 1) ≤ 6 := by split <;> omega
      rw [add_ok (s := SugStatus.charge { s with cost := s.cost + k }) (by simp only [SugStatus.charge]; rw [hl, ha.max]; omega)
        (by simp only [SugStatus.charge]; rw [ha.max]; exact hn) (by nlinarith)]
      simp only [Option.bind_some]
      refine ⟨_, { found := st.found ++ [(capIf (st.cap || b) (before w i) ++ 0x20 :: capIf (headUpper (after w i) || r == .capFirst) (after w i),
            (p + q) * if w[i]? = some 0x2D then 6 else 1)], cost := st.cost + k + 1, cap := st.cap || b }, rfl, .both e2 (q1 hr),
        ⟨ha.word, ha.max, ha.budget, by simp [SugStatus.charge, ha.cost], ?_, by simpa using hfit⟩⟩
      simp only [SugStatus.charge]
      rw [valued_concat, ha.sugg, valued_length]

theorem abs_splits {an : Analyzer} (h : AnalyzerOk an) {w : List Wc} {n budget : Nat} (hn : n ≤ 30) (is : List Nat) {s : SugStatus} {st : State}
    (ha : Abs w n budget s st) (hab : ¬ Ends n budget st) :
    ∃ s' st', trySplits an w is st.cap s = some s' ∧ Runs an w n budget (is.map .split) st st' ∧ Abs w n budget s' st' := by
  induction is generalizing s st with
  | nil => exact ⟨s, st, rfl, .done, ha⟩
  | cons i is ih =>
    obtain ⟨s1, st1, e1, t1, a1⟩ := abs_split h hn ha hab i
    unfold trySplits
    rw [e1]
    simp only [Option.bind_eq_bind, Option.bind_some, Option.pure_def]
    by_cases he : Ends n budget st1
    · exact ⟨s1, st1, by rw [if_pos ((abs_ends a1).2 he)], .step hab t1 (.ends he), a1⟩
    · obtain ⟨s2, st2, e2, t2, a2⟩ := ih a1 he
      exact ⟨s2, st2, by rw [if_neg (fun e => he ((abs_ends a1).1 e))]; exact e2, .step hab t1 t2, a2⟩

/-! ### Strategies -/

/-- The generator `g` tries `ts`. -/
def GenRuns (an : Analyzer) (w : List Wc) (n budget : Nat) (g : Gen) (ts : List Try) : Prop :=
  ∀ s st, Abs w n budget s st → ¬ Ends n budget st → st.cap = false → ∃ s' st', g s = some s' ∧ Runs an w n budget ts st st' ∧ Abs w n budget s' st'

/-- The same for candidates only. -/
def GenFeeds (an : Analyzer) (w : List Wc) (n budget : Nat) (g : Gen) (cs : List (List Wc)) : Prop :=
  ∀ s st, Abs w n budget s st → ∃ s' st', g s = some s' ∧ Runs an w n budget (cs.map .word) st st' ∧ Abs w n budget s' st' ∧ st'.cap = st.cap

theorem feeds_of {an : Analyzer} (h : AnalyzerOk an) {w : List Wc} {n budget : Nat} (hn : n ≤ 30) {g : Gen} {cs : List (List Wc)}
    (he : ∀ s, s.word = w → g s = feed an cs s) (hz : ∀ c ∈ cs, 0 ∉ c) : GenFeeds an w n budget g cs := by
  intro s st ha
  rw [he s ha.word]
  exact abs_feed h hn cs hz ha

theorem runGens_feeds {an : Analyzer} {w : List Wc} {n budget : Nat} {gs : List Gen} {css : List (List (List Wc))}
    (h : List.Forall₂ (GenFeeds an w n budget) gs css) {s : SugStatus} {st : State} (ha : Abs w n budget s st) :
    ∃ s' st', runGens gs s = some s' ∧ Runs an w n budget (css.flatten.map .word) st st' ∧ Abs w n budget s' st' ∧ st'.cap = st.cap := by
  induction h generalizing s st with
  | nil => exact ⟨s, st, rfl, .done, ha, rfl⟩
  | @cons g cs gs css hg _ ih =>
    rw [runGens]
    by_cases he : Ends n budget st
    · exact ⟨s, st, by rw [if_pos ((abs_ends ha).2 he)]; rfl, .ends he, ha, rfl⟩
    · obtain ⟨s1, st1, e1, t1, a1, c1⟩ := hg s st ha
      obtain ⟨s2, st2, e2, t2, a2, c2⟩ := ih a1
      refine ⟨s2, st2, ?_, ?_, a2, c2.trans c1⟩
      · rw [if_neg (fun e => he ((abs_ends ha).1 e)), e1]; exact e2
      · rw [List.flatten_cons, List.map_append]
        exact runs_append t1 t2

theorem runGens_append (as bs : List Gen) (s : SugStatus) (h : ∀ t, runGens as s = some t → True) :
    runGens (as ++ bs) s = (runGens as s).bind (runGens bs) := by
  have stop : ∀ (gs : List Gen) (t : SugStatus), t.shouldAbort = true → runGens gs t = some t := by
    intro gs t ht
    cases gs with
    | nil => rfl
    | cons g gs => rw [runGens, if_pos ht]; rfl
  induction as generalizing s with
  | nil => rfl
  | cons g as ih =>
    rw [List.cons_append, runGens, runGens]
    cases hab : s.shouldAbort with
    | true => simp [stop bs s hab]
    | false =>
      simp only [Bool.false_eq_true, if_false, Option.bind_eq_bind]
      cases g s with
      | none => rfl
      | some t => exact ih t (fun _ _ => trivial)

theorem abs_start (w : List Wc) (n budget : Nat) : Abs w n budget { word := w, maxSug := n, maxCost := budget } {} :=
  ⟨rfl, rfl, rfl, rfl, rfl, Nat.zero_le _⟩

/-- A strategy whose other generators split the word once. -/
theorem strategy_finds {an : Analyzer} {w : List Wc} {n budget : Nat} {P A B : List Gen} {g : Gen} {cp ca cb : List (List (List Wc))} {ts : List Try}
    (hp : List.Forall₂ (GenFeeds an w n budget) P cp) (ha : List.Forall₂ (GenFeeds an w n budget) A ca)
    (hg : GenRuns an w n budget g ts) (hb : List.Forall₂ (GenFeeds an w n budget) B cb) :
    ∃ s found, strategyGenerate P (A ++ g :: B) budget { word := w, maxSug := n } = some s
      ∧ Finds an w n budget (cp.flatten.map .word) (ca.flatten.map .word ++ (ts ++ cb.flatten.map .word)) found ∧ s.sugg = valued found := by
  obtain ⟨s1, st1, e1, t1, a1, c1⟩ := runGens_feeds hp (abs_start w n budget)
  unfold strategyGenerate
  simp only [Option.bind_eq_bind]
  rw [e1]
  simp only [Option.bind_some]
  have hl : s1.sugg.length = st1.found.length := by rw [a1.sugg, valued_length]
  by_cases hc : s1.sugg.length > 0
  · exact ⟨s1, st1.found, by rw [if_pos hc]; rfl, ⟨st1, t1, Or.inl ⟨by rintro e; rw [hl, e] at hc; simp at hc, rfl⟩⟩, a1.sugg⟩
  · rw [if_neg hc, runGens_append A (g :: B) s1 (fun _ _ => trivial)]
    have hnil : st1.found = [] := List.length_eq_zero_iff.1 (by omega)
    obtain ⟨s2, st2, e2, t2, a2, c2⟩ := runGens_feeds ha a1
    rw [e2]
    simp only [Option.bind_some]
    rw [runGens]
    by_cases he : Ends n budget st2
    · refine ⟨s2, st2.found, by rw [if_pos ((abs_ends a2).2 he)]; rfl, ⟨st1, t1, Or.inr ⟨hnil, st2, ?_, rfl⟩⟩, a2.sugg⟩
      exact runs_append t2 (.ends he)
    · obtain ⟨s3, st3, e3, t3, a3⟩ := hg s2 st2 a2 he (c2.trans c1)
      obtain ⟨s4, st4, e4, t4, a4, _⟩ := runGens_feeds hb a3
      refine ⟨s4, st4.found, ?_, ⟨st1, t1, Or.inr ⟨hnil, st4, runs_append t2 (runs_append t3 t4), rfl⟩⟩, a4.sugg⟩
      rw [if_neg (fun e => he ((abs_ends a2).1 e)), e3]; exact e4

/-- A strategy that does not split the word. -/
theorem strategy_finds_words {an : Analyzer} {w : List Wc} {n budget : Nat} {P A : List Gen} {cp ca : List (List (List Wc))}
    (hp : List.Forall₂ (GenFeeds an w n budget) P cp) (ha : List.Forall₂ (GenFeeds an w n budget) A ca) :
    ∃ s found, strategyGenerate P A budget { word := w, maxSug := n } = some s
      ∧ Finds an w n budget (cp.flatten.map .word) (ca.flatten.map .word) found ∧ s.sugg = valued found := by
  obtain ⟨s1, st1, e1, t1, a1, c1⟩ := runGens_feeds hp (abs_start w n budget)
  unfold strategyGenerate
  simp only [Option.bind_eq_bind]
  rw [e1]
  simp only [Option.bind_some]
  have hl : s1.sugg.length = st1.found.length := by rw [a1.sugg, valued_length]
  by_cases hc : s1.sugg.length > 0
  · exact ⟨s1, st1.found, by rw [if_pos hc]; rfl, ⟨st1, t1, Or.inl ⟨by rintro e; rw [hl, e] at hc; simp at hc, rfl⟩⟩, a1.sugg⟩
  · have hnil : st1.found = [] := List.length_eq_zero_iff.1 (by omega)
    obtain ⟨s2, st2, e2, t2, a2, c2⟩ := runGens_feeds ha a1
    exact ⟨s2, st2.found, by rw [if_neg hc]; exact e2, ⟨st1, t1, Or.inr ⟨hnil, st2, t2, rfl⟩⟩, a2.sugg⟩

theorem typing_finds (an : Analyzer) (h : AnalyzerOk an) (junk : Nat → Wc) (w : List Wc) (h0 : 0 ∉ w) (h2 : 2 ≤ w.length)
    (hv : vowelCount w ≤ 32) (n : Nat) (hn : n ≤ 30) :
    ∃ s found, typingStrategy an junk { word := w, maxSug := n } = some s ∧ Finds an w n 800 (typingFirst w) (typingOthers w) found
      ∧ s.sugg = valued found := by
  obtain ⟨t1, t2, t3, t4, t5, _, c1, c2⟩ := tables_ok
  have hne : w ≠ [] := by rintro rfl; simp at h2
  have rep : ∀ t, TableOk t → GenFeeds an w n 800 (genReplacement an junk t) (replacements t w) := fun t ht =>
    feeds_of h hn (fun s hs => by rw [← hs] at h0 ⊢; exact genReplacement_feed an junk t s h0 ht) (nz_replacements h0 ht.2)
  have two : ∀ t, TableOk t → GenFeeds an w n 800 (genReplaceTwo an t) (doubleReplacements t w) := fun t ht =>
    feeds_of h hn (fun s hs => by rw [← hs] at hne ⊢; exact genReplaceTwo_feed an t s ht.1 hne) (nz_double h0 ht.2)
  have ins : ∀ t, 0 ∉ t → GenFeeds an w n 800 (genInsertion an junk t) (insertions t w) := fun t ht =>
    feeds_of h hn (fun s hs => by rw [← hs] at h0 hne ⊢; exact genInsertion_feed an junk t s h0 hne) (nz_insertions h0 ht)
  have key := strategy_finds (an := an) (w := w) (n := n) (budget := 800)
    (P := [genCaseChange an, genSoftHyphens an junk]) (cp := [[w], softHyphenRemoval w])
    (A := [genVowelChange an junk, genReplacement an junk replacements1, genDeletion an junk, genInsertSpecial an junk])
    (ca := [vowelChanges w, replacements replacements1 w, deletions w, hyphenInsertions w ++ duplications w])
    (g := genSplitWord an junk) (ts := (splitPlaces w).map .split)
    (B := [genReplaceTwo an replacements1, genReplacement an junk replacements2,
     genInsertion an junk insertChars1, genSwap an junk, genReplacement an junk replacements3,
     genInsertion an junk insertChars2, genReplacement an junk replacements4, genReplaceTwo an replacements2,
     genReplaceTwo an replacements3, genReplaceTwo an replacements4, genDeleteTwo an junk,
     genReplacement an junk replacements5])
    (cb := [doubleReplacements replacements1 w, replacements replacements2 w, insertions insertChars1 w, swaps (swapDistance w.length) w,
      replacements replacements3 w, insertions insertChars2 w, replacements replacements4 w, doubleReplacements replacements2 w,
      doubleReplacements replacements3 w, doubleReplacements replacements4 w, pairDeletions w, replacements replacements5 w])
    (.cons (feeds_of h hn (fun s hs => by rw [← hs]; exact genCaseChange_feed an s) (by simpa using h0))
      (.cons (feeds_of h hn (fun s hs => by rw [← hs]; exact genSoftHyphens_feed an junk s) (nz_soft h0)) .nil))
    (.cons (feeds_of h hn (fun s hs => by rw [← hs] at h0 hv ⊢; exact genVowelChange_feed an junk s h0 hv) (nz_vowel h0))
      (.cons (rep _ t1)
      (.cons (feeds_of h hn (fun s hs => by rw [← hs] at h0 ⊢; exact genDeletion_feed an junk s h0) (nz_deletions h0))
      (.cons (feeds_of h hn (fun s hs => by rw [← hs] at h0 h2 ⊢; exact genInsertSpecial_feed an junk s h0 h2) (nz_special h0)) .nil))))
    (by
      intro s st ha hab hc
      rw [genSplitWord_eq an h junk s (by rw [ha.word]; exact h0) (by rw [ha.word]; exact h2), ← hc, ha.word]
      exact abs_splits h hn _ ha hab)
    (.cons (two _ t1) (.cons (rep _ t2) (.cons (ins _ c1)
      (.cons (feeds_of h hn (fun s hs => by rw [← hs] at h0 ⊢; exact genSwap_feed an junk s h0) (nz_swaps h0 _))
      (.cons (rep _ t3) (.cons (ins _ c2) (.cons (rep _ t4) (.cons (two _ t2) (.cons (two _ t3) (.cons (two _ t4)
      (.cons (feeds_of h hn (fun s hs => by rw [← hs] at h0 ⊢; exact genDeleteTwo_feed an junk s h0) (nz_pairDeletions h0))
      (.cons (rep _ t5) .nil))))))))))))
  obtain ⟨s, found, e1, e2, e3⟩ := key
  refine ⟨s, found, e1, ?_, e3⟩
  have ea : typingFirst w = ([[w], softHyphenRemoval w] : List (List (List Wc))).flatten.map .word := by simp [typingFirst]
  rw [ea]
  unfold typingOthers
  simpa [List.append_assoc] using e2

theorem ocr_finds (an : Analyzer) (h : AnalyzerOk an) (junk : Nat → Wc) (w : List Wc) (h0 : 0 ∉ w) (n : Nat) (hn : n ≤ 30) :
    ∃ s found, ocrStrategy an junk { word := w, maxSug := n } = some s ∧ Finds an w n 2000 [.word w] (ocrOthers w) found ∧ s.sugg = valued found := by
  obtain ⟨_, _, _, _, _, t, _, _⟩ := tables_ok
  have key := strategy_finds_words (an := an) (w := w) (n := n) (budget := 2000) (P := [genCaseChange an]) (cp := [[w]])
    (A := [genReplacement an junk replacementsOcr, genMultiReplacement an junk replacementsOcr 2])
    (ca := [replacements replacementsOcr w, multiReplacements replacementsOcr (2 - 1) 0 w])
    (.cons (feeds_of h hn (fun s hs => by rw [← hs]; exact genCaseChange_feed an s) (by simpa using h0)) .nil)
    (.cons (feeds_of h hn (fun s hs => by rw [← hs] at h0 ⊢; exact genReplacement_feed an junk _ s h0 t) (nz_replacements h0 t.2))
      (.cons (feeds_of h hn (fun s hs => by rw [← hs] at h0 ⊢; exact genMultiReplacement_feed an junk _ 2 s h0 t) (nz_multi t.2 _ _ h0)) .nil))
  obtain ⟨s, found, e1, e2, e3⟩ := key
  exact ⟨s, found, e1, by unfold ocrOthers; simpa using e2, e3⟩

end Verif.Search
