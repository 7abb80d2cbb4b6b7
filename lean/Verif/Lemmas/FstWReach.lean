import Verif.Lemmas.FstWCount
/-!
# How far a failing search has read, and what `backtrackToOutputDepth` skips
-/

set_option linter.unusedSimpArgs false
set_option linter.unusedVariables false

namespace Verif.Props
open Verif

section
variable {f : WFst} {S : Nat → Prop} {input : List Nat}

/-- All points that the search has passed, or is at, are at most `reached` symbols into the input. -/
def Visited (f : Fst) (input : List Nat) (c : Conf) (reached : Nat) : Prop :=
  ∀ r e, Path f input (startPoint f) r e → Before r (Conf.place c) ∨ r <+: stackAddrs c.below → e.pos ≤ reached

theorem before_append_left {r s : List Nat} (t : List Nat) (h : Before r s) : Before r (s ++ t) := by
  induction r generalizing s with
  | nil => cases s <;> exact absurd h (by simp [Before])
  | cons a r ih =>
    cases s with
    | nil => exact absurd h (by simp [Before])
    | cons b s =>
      rcases h with h | ⟨rfl, h⟩
      · exact .inl h
      · exact .inr ⟨rfl, ih h⟩

/-- A path that continues a known path takes a step there. -/
theorem path_split {g : Fst} {r : List Nat} {z : Nat} {rest : List Nat} {e e' : Point}
    (h : Path g input (startPoint g) (r ++ z :: rest) e') (hr : Path g input (startPoint g) r e) : ∃ e1, Step g input e z e1 := by
  obtain ⟨x, h1, h2⟩ := path_append h
  have := path_det h1 hr
  subst this
  cases h2 with
  | cons _ y _ _ _ s _ => exact ⟨y, s⟩

/-- When the search reports exhaustion, no path goes further than the reported position. -/
theorem wnextLoop_reached (wf : WWellFormed f S) (hin : ∀ x ∈ input, f.firstNormal ≤ x) (hmask : NoMaskedFlag (plainFst f) input)
    {bufferLen : Nat} (hbl : 0 < bufferLen) : ∀ k reached c rows, Inv (plainFst f) input c → RowsRel c.flags c.log rows →
      Visited (plainFst f) input c reached → ∀ reached' w',
      wnextLoop f bufferLen k reached (toW c rows) = some (.exhausted, reached', w') →
      ∀ r e, Path (plainFst f) input (startPoint (plainFst f)) r e → e.pos ≤ reached' := by
  intro k
  induction k with
  | zero => intro reached c rows hc hr hv reached' w' h; cases h
  | succ k ih =>
    intro reached c rows hc hr hv reached' w' h
    obtain ⟨hS, hF, hpos, hlg⟩ := stk_facts wf.plain hc.stk
    have hdep := hc.depth
    obtain ⟨max, hmax, hbound, haddr⟩ := maxTc_spec wf.plain (show S c.state from hS)
    have hmaxw : wgetMaxTc f (toW c rows).state = some max := (wmaxTc_eq wf (show S c.state from hS)).trans hmax
    obtain ⟨r, r', hs1, hs2, hrel⟩ := scan_match wf hin hmask hc hr hmax
    rw [wnextLoop_unfold hmaxw rfl hs2] at h
    have hinp := hc.inp
    subst hinp
    have hpath := stk_path hc.stk
    have hcur := hc.hi max hmax
    have htab := wf.plain.table
    have hst := start_eq (c := c) (n := c.state + max + 1) (by omega) hc.lo hcur
    obtain ⟨r0, hr0, hP⟩ := scan_spec wf.plain (c := c) false hS hin hF (by omega) hpos hmax
      (max + 1 - (c.cur - c.state)) (c.cur - c.state) (by omega)
    have hsame : r = r0 := by
      rw [scanFrom, hst, hr0] at hs1
      exact (Option.some.inj hs1).symm
    subst hsame
    have hadd : c.state + (c.cur - c.state) = c.cur := by have := hc.lo; omega
    rw [hadd] at hP
    cases hrel with
    | stop =>
      simp only at h
      have hbw : (toW c rows).below = c.below := rfl
      rw [hbw] at h
      cases hbel : c.below with
      | nil =>
        rw [hbel] at h
        cases h
        intro p e hp
        refine hv p e hp ?_
        cases p with
        | nil => exact .inr List.nil_prefix
        | cons z rest =>
          left
          simp only [Conf.place, hbel, stackAddrs, List.reverse_nil, List.map_nil, List.nil_append]
          by_cases hz : z < c.cur
          · exact .inl hz
          · rw [hbel] at hpath
            obtain ⟨e1, he⟩ := path_split (r := stackAddrs []) (z := z) (rest := rest) hp hpath
            exact absurd he ((hP z (by omega)).2 _)
      | cons fr rest =>
        rw [hbel] at h
        simp only at h
        have hstk0 := hc.stk
        rw [hbel] at hstk0
        obtain ⟨c1, h1, h2, h3, h4, h5, h6, h7, h8⟩ := goUp_spec hbel hstk0
        have hS1 := (stk_facts wf.plain h2).1
        obtain ⟨m1, hm1, _, ha1⟩ := maxTc_spec wf.plain hS1
        have hm := (ha1 _).1 (step_mem h8)
        have hst1 : (Conf.point c1).state = c1.state := rfl
        rw [hst1] at hm hm1
        have hc1 : Inv (plainFst f) c.input c1 := by
          refine ⟨h3 ▸ h2, h6, by omega, fun m hm' => ?_, ?_⟩
          · rw [hm1] at hm'
            cases hm'
            omega
          · rw [h3, h7]
            rw [hbel] at hdep
            simp only [List.length_cons] at hdep
            omega
        obtain ⟨rows1, g1, g2⟩ := wgoUp_match wf hr h1 hS1 h8
        rw [g1] at h
        refine ih reached c1 rows1 hc1 g2 ?_ reached' w' h
        intro p e hp hpp
        refine hv p e hp ?_
        simp only [Conf.place, h3, h5, hbel, stackAddrs_cons] at hpp ⊢
        rw [before_snoc] at hpp
        rcases hpp with (hb | ⟨z, ys, hq, hz⟩) | hpre
        · left
          rw [List.append_assoc]
          exact before_append_left _ hb
        · by_cases hz2 : z < fr.cur
          · left
            rw [before_snoc, before_snoc]
            exact .inl (.inr ⟨z, ys, hq, hz2⟩)
          · have : z = fr.cur := by omega
            subst this
            cases ys with
            | nil => right; rw [hq]; exact List.prefix_rfl
            | cons y ys =>
              have hq' : p = stackAddrs c.below ++ y :: ys := by rw [hq, hbel, stackAddrs_cons]; simp
              by_cases hy : y < c.cur
              · left
                rw [before_snoc]
                exact .inr ⟨y, ys, by rw [hq', hbel, stackAddrs_cons], hy⟩
              · rw [hq'] at hp
                obtain ⟨e1, he⟩ := path_split hp hpath
                exact absurd he ((hP y (by omega)).2 _)
        · exact .inr (hpre.trans (List.prefix_append _ _))
    | final idx t ht =>
      simp only at h
      cases hb : wbuildOutput f bufferLen ((toW c rows).below.reverse.map (·.out)) [] with
      | none => rw [hb] at h; cases h
      | some o =>
        rw [hb] at h
        cases o with
        | none => cases h
        | some s =>
          simp only [Option.bind_some] at h
          cases hw : wsumWeights f (toW c rows).below.reverse (t.weight % 65536) with
          | none => rw [hw] at h; cases h
          | some x => rw [hw] at h; cases h
    | down idx t F log rows' hrr ht hp =>
      simp only at h
      obtain ⟨hlo, ht', hlog, hstep, hdead⟩ := hP
      have hbw : (toW c rows).below = c.below := rfl
      have hbs : (toW c rows).bufferSize = c.bufferSize := rfl
      rw [hbw, hbs] at h
      by_cases hlim : c.below.length + 2 = c.bufferSize
      · rw [if_pos hlim] at h
        cases h
      · rw [if_neg hlim, if_neg (by omega)] at h
        have hstk : Stk (plainFst f) c.input (goDown (plainFst f) c idx (WCell.plain t) F log).below
            (goDown (plainFst f) c idx (WCell.plain t) F log).log
            (Conf.point (goDown (plainFst f) c idx (WCell.plain t) F log)) := by
          simp only [goDown, Conf.point, hlog]
          exact .push _ _ (Conf.point c) _ idx (WCell.plain t) hc.stk ht' hstep
        have hc1 : Inv (plainFst f) c.input (goDown (plainFst f) c idx (WCell.plain t) F log) := by
          refine ⟨hstk, rfl, Nat.le_refl _, fun m _ => ?_, ?_⟩
          · simp only [goDown]; omega
          · simp only [goDown, List.length_cons]; omega
        have hgd : wgoDown f (toW c rows) idx t rows' = toW (goDown (plainFst f) c idx (WCell.plain t) F log) rows' := by
          simp only [wgoDown, toW, goDown, hp]
          rfl
        rw [hgd] at h
        refine ih _ _ rows' hc1 hrr ?_ reached' w' h
        have hpath1 := path_snoc hpath hstep
        intro p e hpp hor
        have hle : reached ≤ furthest reached (toW (goDown (plainFst f) c idx (WCell.plain t) F log) rows').inputDepth := by
          unfold furthest; split <;> omega
        have hle2 : (toW (goDown (plainFst f) c idx (WCell.plain t) F log) rows').inputDepth ≤
            furthest reached (toW (goDown (plainFst f) c idx (WCell.plain t) F log) rows').inputDepth := by
          unfold furthest; split <;> omega
        have old : Before p (Conf.place c) ∨ p <+: stackAddrs c.below → e.pos ≤
            furthest reached (toW (goDown (plainFst f) c idx (WCell.plain t) F log) rows').inputDepth :=
          fun h => Nat.le_trans (hv p e hpp h) hle
        have hbel1 : (goDown (plainFst f) c idx (WCell.plain t) F log).below =
            ⟨c.state, idx, if (plainFst f).firstNormal ≤ (WCell.plain t).symOut then (WCell.plain t).symOut else 0⟩ :: c.below := rfl
        rcases hor with hb | hpre
        · simp only [Conf.place, hbel1, stackAddrs_cons] at hb
          rw [before_snoc, before_snoc] at hb
          rcases hb with (hb | ⟨z, ys, hq, hz⟩) | ⟨z, ys, hq, hz⟩
          · exact old (.inl (before_append_left _ hb))
          · by_cases hz2 : z < c.cur
            · exact old (.inl ((before_snoc _ _ _).2 (.inr ⟨z, ys, hq, hz2⟩)))
            · rw [hq] at hpp
              obtain ⟨e1, he⟩ := path_split hpp hpath
              exact absurd he ((hdead z (by omega) hz).2 _)
          · exfalso
            rw [hq] at hpp
            obtain ⟨e1, he⟩ := path_split hpp hpath1
            have hm := step_mem he
            obtain ⟨t', ht'', hn, hq'⟩ := step_cell hstep
            rw [ht'] at ht''
            cases ht''
            have hS1 := (wf.plain.trans _ hS _ (step_mem hstep) _ ht' hn).1
            obtain ⟨m1, _, _, ha1⟩ := maxTc_spec wf.plain hS1
            have := (ha1 z).1 hm
            have hz' : z < (WCell.plain t).target := hz
            omega
        · rw [hbel1, stackAddrs_cons] at hpre
          rcases List.prefix_concat_iff.1 hpre with heq | hpre
          · rw [heq] at hpp
            have := path_det hpp hpath1
            rw [this]
            exact hle2
          · exact old (.inr hpre)

theorem step_pos_le {g : Fst} {p q : Point} {a : Nat} (h : Step g input p a q) : p.pos ≤ q.pos ∧ q.pos ≤ p.pos + 1 := by
  cases h with
  | symbol t m c n s i => exact ⟨Nat.le_succ _, Nat.le_refl _⟩
  | flag t F m c n s i => exact ⟨Nat.le_refl _, Nat.le_succ _⟩

/-- A path depends only on the symbols it has read. -/
theorem path_transfer {g : Fst} {in1 in2 : List Nat} {n : Nat} (hin : in1.take n = in2.take n) {p e : Point} {as : List Nat}
    (h : Path g in1 p as e) (hp : p.pos ≤ n) (he : n ≤ e.pos) : ∃ as' e', Path g in2 p as' e' ∧ e'.pos = n := by
  induction h with
  | nil p => exact ⟨[], p, .nil _, by omega⟩
  | cons p q r a as hs _ ih =>
    by_cases heq : p.pos = n
    · exact ⟨[], p, .nil _, heq⟩
    · have hle := step_pos_le hs
      have hs2 : Step g in2 p a q := by
        cases hs with
        | symbol t m c n' s i =>
          refine .symbol _ _ t m c n' s ?_
          have e1 : (in1.take n)[p.pos]? = in1[p.pos]? := by rw [List.getElem?_take, if_pos (by omega)]
          have e2 : (in2.take n)[p.pos]? = in2[p.pos]? := by rw [List.getElem?_take, if_pos (by omega)]
          rw [← e2, ← hin, e1]
          exact i
        | flag t F m c n' s i => exact .flag _ _ t F m c n' s i
      obtain ⟨as', e', h1, h2⟩ := ih (by omega) he
      exact ⟨a :: as', e', .cons _ _ _ _ _ hs2 h1, h2⟩

/-- If no path over an input goes further than `p < input.length`, no input with the same first `p + 1` symbols is accepted. -/
theorem not_accepted_of_reached {g : Fst} {in1 in2 : List Nat} {p : Nat}
    (h : ∀ r e, Path g in1 (startPoint g) r e → e.pos ≤ p) (hin : in1.take (p + 1) = in2.take (p + 1)) (hlen : p + 1 ≤ in2.length)
    (q : List Nat) (n : Nat) : ¬ Accepting g in2 false q n := by
  rintro ⟨as, a, e, t, _, hp, _, _, _, hn, hl⟩
  have hn' := hl rfl
  obtain ⟨as', e', h1, h2⟩ := path_transfer (in2 := in1) hin.symm hp (by simp [startPoint]) (show p + 1 ≤ e.pos by omega)
  have := h _ _ h1
  omega

/-! ## Backtracking -/

theorem before_succ {q X more : List Nat} {y : Nat} (h : Before q (X ++ y :: more)) : Before q (X ++ [y + 1]) := by
  induction X generalizing q with
  | nil =>
    cases q with
    | nil => exact absurd h (by simp [Before])
    | cons a q =>
      rcases h with h | ⟨h, _⟩
      · exact .inl (by omega)
      · exact .inl (by omega)
  | cons x X ih =>
    cases q with
    | nil => exact absurd h (by simp [Before])
    | cons a q =>
      rcases h with h | ⟨h, h'⟩
      · exact .inl h
      · exact .inr ⟨h, ih h'⟩

theorem wpop_succ (hf : f.featureCount = 0) {w : WConf} {fr : Frame} {rest : List Frame} (hb : w.below = fr :: rest) (n : Nat) :
    wpop f (n + 1) w = (wgoUp f w fr rest).bind (wpop f n) := by
  rw [wpop, wgoUp]
  simp only [hb]
  cases ht : rd f.cells fr.cur with
  | none => rfl
  | some t =>
    simp only [Option.bind_eq_bind, Option.bind_some, hf, ne_eq, not_true_eq_false, false_and, if_false]
    split
    · split
      · rfl
      · rfl
    · rfl

theorem wpop_spec (wf : WWellFormed f S) (hf : f.featureCount = 0) : ∀ n c rows, Inv (plainFst f) input c →
    RowsRel c.flags c.log rows → n ≤ c.below.length → ∃ c' rows', wpop f n (toW c rows) = some (toW c' rows') ∧
      Inv (plainFst f) input c' ∧ RowsRel c'.flags c'.log rows' ∧ c'.bufferSize = c.bufferSize ∧ c'.below = c.below.drop n ∧
      ((n = 0 ∧ c' = c) ∨ ∃ fr more t, c.below = more ++ fr :: c'.below ∧ c'.cur = fr.cur + 1 ∧
        (plainFst f).cells[fr.cur]? = some t ∧ t.symIn ≠ 0xFFFF ∧
        Path (plainFst f) input (startPoint (plainFst f)) (stackAddrs c'.below) (Conf.point c')) := by
  intro n
  induction n with
  | zero => intro c rows hc hr _; exact ⟨c, rows, rfl, hc, hr, rfl, rfl, .inl ⟨rfl, rfl⟩⟩
  | succ n ih =>
    intro c rows hc hr hn
    cases hbel : c.below with
    | nil => rw [hbel] at hn; simp at hn
    | cons fr rest =>
      have hdep := hc.depth
      have hstk0 := hc.stk
      rw [hbel] at hstk0
      obtain ⟨c1, h1, h2, h3, h4, h5, h6, h7, h8⟩ := goUp_spec hbel hstk0
      have hS1 := (stk_facts wf.plain h2).1
      obtain ⟨m1, hm1, _, ha1⟩ := maxTc_spec wf.plain hS1
      have hm := (ha1 _).1 (step_mem h8)
      have hst1 : (Conf.point c1).state = c1.state := rfl
      rw [hst1] at hm hm1
      have hc1 : Inv (plainFst f) input c1 := by
        refine ⟨h3 ▸ h2, h6.trans hc.inp, by omega, fun m hm' => ?_, ?_⟩
        · rw [hm1] at hm'
          cases hm'
          omega
        · rw [h3, h7]
          rw [hbel] at hdep
          simp only [List.length_cons] at hdep
          omega
      obtain ⟨rows1, g1, g2⟩ := wgoUp_match wf hr h1 hS1 h8
      rw [wpop_succ hf (w := toW c rows) (fr := fr) (rest := rest) hbel n, g1, Option.bind_some]
      rw [hbel, List.length_cons] at hn
      obtain ⟨c', rows', k1, k2, k3, k4, k5, k6⟩ := ih c1 rows1 hc1 g2 (by rw [h3]; omega)
      refine ⟨c', rows', k1, k2, k3, k4.trans h7, by rw [k5, h3]; rfl, .inr ?_⟩
      rcases k6 with ⟨k6, rfl⟩ | ⟨fr', more, t, k6, k7, k8, k9, k10⟩
      · obtain ⟨t, ht, hne, _⟩ := step_cell h8
        refine ⟨fr, [], t, by rw [h3]; rfl, h5, ht, hne, ?_⟩
        rw [h3]
        exact stk_path h2
      · exact ⟨fr', fr :: more, t, by rw [← h3, k6]; rfl, k7, k8, k9, k10⟩

/-- The texts that `backtrackToOutputDepth` relies on: every output symbol has at least one character. -/
def VisibleSymbols (f : WFst) : Prop :=
  f.symbols.length ≤ 65536 ∧ ∀ i s, f.firstNormal ≤ i → f.symbols[i]? = some s → s ≠ []

theorem wkeepDepth_spec (hv : VisibleSymbols f) : ∀ (frs : List Frame) (need : Nat),
    (∀ fr ∈ frs, ∃ t, f.cells[fr.cur]? = some t ∧ t.symOut < f.symbols.length) →
    ∃ k, wkeepDepth f frs need = some k ∧ k ≤ frs.length ∧
      (k = frs.length ∨ need ≤ ((frs.take k).flatMap fun fr => outText (plainFst f) fr.cur).length) := by
  intro frs
  induction frs with
  | nil => intro need _; exact ⟨0, rfl, Nat.le_refl _, .inl rfl⟩
  | cons fr frs ih =>
    intro need h
    rw [wkeepDepth]
    by_cases h0 : need = 0
    · rw [if_pos h0]
      exact ⟨0, rfl, Nat.zero_le _, .inr (by omega)⟩
    · obtain ⟨t, ht, hs⟩ := h fr List.mem_cons_self
      obtain ⟨k, h1, h2, h3⟩ := ih (if f.firstNormal ≤ t.symOut % 65536 then need - 1 else need)
        (fun x hx => h x (List.mem_cons_of_mem _ hx))
      rw [if_neg h0, rd, ht, ub_bind, h1]
      refine ⟨k + 1, rfl, by simpa using h2, ?_⟩
      rcases h3 with h3 | h3
      · exact .inl (by simp [h3])
      · right
        have hmod : t.symOut % 65536 = t.symOut := Nat.mod_eq_of_lt (by have := hv.1; omega)
        rw [hmod] at h3
        rw [List.take_succ_cons, List.flatMap_cons, List.length_append]
        by_cases hn : f.firstNormal ≤ t.symOut
        · rw [if_pos hn] at h3
          have : 0 < (outText (plainFst f) fr.cur).length := by
            rw [outText, plain_get ht]
            have e1 : (WCell.plain t).symOut = t.symOut := rfl
            have e2 : (plainFst f).firstNormal = f.firstNormal := rfl
            have e3 : (plainFst f).symbols = f.symbols := rfl
            simp only [e1, e2, e3]
            rw [if_pos hn, List.getElem?_eq_getElem hs, Option.getD_some]
            exact List.length_pos_iff.2 (hv.2 _ _ hn (List.getElem?_eq_getElem hs))
          omega
        · rw [if_neg hn] at h3
          omega

theorem stk_cells_out (wf : WWellFormed f S) {below : List Frame} {log : List (Nat × Nat)} {p : Point}
    (h : Stk (plainFst f) input below log p) :
    ∀ fr ∈ below, ∃ t, f.cells[fr.cur]? = some t ∧ t.symOut < f.symbols.length := by
  induction h with
  | base => simp
  | push below log p q a t hb ht hs ih =>
    intro fr hfr
    rcases List.mem_cons.1 hfr with rfl | hfr
    · obtain ⟨t', ht', hn, _⟩ := step_cell hs
      obtain ⟨u, hu, hpl⟩ := plain_of_get ht'
      have := (wf.plain.trans _ (stk_facts wf.plain hb).1 _ (step_mem hs) t' ht' hn).2.1
      refine ⟨u, hu, ?_⟩
      rw [hpl] at this
      exact this
    · exact ih fr hfr

/-- `backtrackToOutputDepth` skips only readings whose output begins with an output of the present stack of more than `depth`
characters. -/
theorem wbacktrack_spec (wf : WWellFormed f S) (hf : f.featureCount = 0) (hv : VisibleSymbols f) {c : Conf}
    {rows : List (List Nat)} (hc : Inv (plainFst f) input c) (hr : RowsRel c.flags c.log rows) (depth : Nat) :
    ∃ c' rows', wbacktrack f (toW c rows) depth = some (toW c' rows') ∧ Inv (plainFst f) input c' ∧
      RowsRel c'.flags c'.log rows' ∧ c'.bufferSize = c.bufferSize ∧
      (∀ q, Before q (Conf.place c) → Before q (Conf.place c')) ∧
      ∀ q n, Accepting (plainFst f) input false q n → Before q (Conf.place c') → Before q (Conf.place c) ∨
        ∃ r, r <+: stackAddrs c.below ∧ r <+: q.dropLast ∧ depth + 1 ≤ (r.flatMap (outText (plainFst f))).length := by
  obtain ⟨k, h1, h2, h3⟩ := wkeepDepth_spec hv c.below.reverse (depth + 1)
    (fun fr hfr => stk_cells_out wf hc.stk fr (List.mem_reverse.1 hfr))
  rw [List.length_reverse] at h2 h3
  obtain ⟨c', rows', g1, g2, g3, g4, g5, g6⟩ := wpop_spec wf hf (c.below.length - k) c rows hc hr (by omega)
  refine ⟨c', rows', ?_, g2, g3, g4, ?_, ?_⟩
  · have e1 : (toW c rows).below = c.below := rfl
    rw [wbacktrack, e1, h1, ub_bind]
    exact g1
  · intro q hq
    rcases g6 with ⟨_, rfl⟩ | ⟨fr, more, t, e1, e2, _⟩
    · exact hq
    · simp only [Conf.place] at hq ⊢
      rw [e2]
      have : stackAddrs c.below ++ [c.cur] = stackAddrs c'.below ++ fr.cur :: (stackAddrs more ++ [c.cur]) := by
        rw [e1]
        simp [stackAddrs]
      rw [this] at hq
      exact before_succ hq
  · intro q n ha hq
    rcases g6 with ⟨_, rfl⟩ | ⟨fr, more, t, e1, e2, e3, e4, e5⟩
    · exact .inl hq
    · simp only [Conf.place] at hq ⊢
      rw [e2, before_snoc] at hq
      have hst : stackAddrs c.below ++ [c.cur] = stackAddrs c'.below ++ ([fr.cur] ++ (stackAddrs more ++ [c.cur])) := by
        rw [e1]
        simp [stackAddrs]
      rw [hst]
      rcases hq with hq | ⟨z, ys, hq, hz⟩
      · exact .inl (before_append_left _ hq)
      · by_cases hz2 : z < fr.cur
        · left
          rw [← List.append_assoc]
          exact before_append_left _ ((before_snoc _ _ _).2 (.inr ⟨z, ys, hq, hz2⟩))
        · have : z = fr.cur := by omega
          subst this
          right
          have hlen : c.below.length = more.length + 1 + c'.below.length := by
            rw [e1]; simp; omega
          have hk : k < c.below.length := by
            have := congrArg List.length g5
            rw [List.length_drop] at this
            omega
          have hk' : k = c'.below.length := by
            have := congrArg List.length g5
            rw [List.length_drop] at this
            omega
          have h3' := h3.resolve_left (by omega)
          have htake : c.below.reverse.take k = c'.below.reverse := by
            rw [e1]
            simp only [List.reverse_append, List.reverse_cons, List.append_assoc]
            rw [hk', ← List.length_reverse]
            simp
          rw [htake] at h3'
          refine ⟨stackAddrs c'.below, ?_, ?_, ?_⟩
          · rw [e1]
            exact ⟨fr.cur :: stackAddrs more, by simp [stackAddrs]⟩
          · rw [hq, List.dropLast_append_cons]
            exact List.prefix_append _ _
          · simp only [stackAddrs, List.flatMap_map]
            exact h3'

end

end Verif.Props
