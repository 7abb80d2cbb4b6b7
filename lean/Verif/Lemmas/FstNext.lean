import Verif.Lemmas.Fst
/-!
# The search of an unweighted transducer: stack invariant and the effect of one call
-/

set_option linter.unusedSimpArgs false
set_option linter.unusedVariables false

namespace Verif.Props
open Verif

/-- The stack and the log of flag changes describe a path from the start to the current point. -/
inductive Stk (f : Fst) (input : List Nat) : List Frame → List (Nat × Nat) → Point → Prop
  | base : Stk f input [] [] (startPoint f)
  | push (below : List Frame) (log : List (Nat × Nat)) (p q : Point) (a : Nat) (t : Cell) : Stk f input below log p →
      f.cells[a]? = some t → Step f input p a q →
      Stk f input (⟨p.state, a, if f.firstNormal ≤ t.symOut then t.symOut else 0⟩ :: below) (logStep f p.flags t.symIn log) q

/-- The addresses of the transitions on the stack, from the bottom. -/
def stackAddrs (below : List Frame) : List Nat := below.reverse.map (·.cur)

theorem stackAddrs_cons (fr : Frame) (below : List Frame) : stackAddrs (fr :: below) = stackAddrs below ++ [fr.cur] := by
  simp [stackAddrs]

theorem stackAddrs_length (below : List Frame) : (stackAddrs below).length = below.length := by
  simp [stackAddrs]

/-- Where the search is: everything before this position has been dealt with. -/
def Conf.place (c : Conf) : List Nat := stackAddrs c.below ++ [c.cur]

section
variable {f : Fst} {S : Nat → Prop} {input : List Nat}

theorem step_pos {p q : Point} {a : Nat} (h : Step f input p a q) (hp : p.pos ≤ input.length) : q.pos ≤ input.length := by
  cases h with
  | symbol t m c n s i => obtain ⟨h, _⟩ := List.getElem?_eq_some_iff.1 i; exact h
  | flag t F m c n s i => exact hp

theorem step_flags {p q : Point} {a : Nat} (h : Step f input p a q) : q.flags.length = p.flags.length := by
  cases h with
  | symbol t m c n s i => rfl
  | flag t F m c n s i => exact flagStep_length i

theorem stk_path {below : List Frame} {log : List (Nat × Nat)} {p : Point} (h : Stk f input below log p) :
    Path f input (startPoint f) (stackAddrs below) p := by
  induction h with
  | base => exact .nil _
  | push below log p q a t _ _ hs ih => rw [stackAddrs_cons]; exact path_snoc ih hs

theorem stk_facts (wf : WellFormed f S) {below : List Frame} {log : List (Nat × Nat)} {p : Point}
    (h : Stk f input below log p) :
    S p.state ∧ p.flags.length = f.featureCount ∧ p.pos ≤ input.length ∧ log.length ≤ below.length := by
  induction h with
  | base => exact ⟨wf.root, by simp [startPoint], by simp [startPoint], by simp⟩
  | push below log p q a t _ ht hs ih =>
    obtain ⟨h1, h2, h3, h4⟩ := ih
    obtain ⟨t', ht', hn, hq⟩ := step_cell hs
    refine ⟨?_, (step_flags hs).trans h2, step_pos hs h3, ?_⟩
    · rw [hq]
      exact (wf.trans _ h1 _ (step_mem hs) t' ht' hn).1
    · have : (logStep f p.flags t.symIn log).length ≤ log.length + 1 := by
        unfold logStep
        split
        · omega
        · split
          · omega
          · split <;> simp
      simp only [List.length_cons]
      omega

/-- The output symbols on the stack. -/
theorem stk_out (wf : WellFormed f S) {below : List Frame} {log : List (Nat × Nat)} {p : Point}
    (h : Stk f input below log p) : ∀ fr ∈ below, f.symbols[fr.out]? = some (outText f fr.cur) := by
  induction h with
  | base => simp
  | push below log p q a t hb ht hs ih =>
    intro fr hfr
    rcases List.mem_cons.1 hfr with rfl | hfr
    · obtain ⟨t', ht', hn, _⟩ := step_cell hs
      rw [ht] at ht'
      cases ht'
      have := (wf.trans _ (stk_facts wf hb).1 _ (step_mem hs) t ht hn).2.1
      simp only [outText, ht]
      split
      · rw [List.getElem?_eq_getElem this, Option.getD_some]
      · exact wf.epsilon
    · exact ih fr hfr

theorem buildOutput_spec {bufferLen : Nat} {text : Frame → List Wc} :
    ∀ (frs : List Frame) (acc : List Wc), (∀ fr ∈ frs, f.symbols[fr.out]? = some (text fr)) → acc.length < bufferLen →
      (buildOutput f bufferLen (frs.map (·.out)) acc = some (some (acc ++ frs.flatMap text)) ∧
          (acc ++ frs.flatMap text).length < bufferLen) ∨
        (buildOutput f bufferLen (frs.map (·.out)) acc = some none ∧ bufferLen ≤ (acc ++ frs.flatMap text).length + 1) := by
  intro frs
  induction frs with
  | nil =>
    intro acc _ ha
    exact .inl ⟨by simp [buildOutput, if_neg (by omega : ¬ bufferLen ≤ acc.length)], by simpa using ha⟩
  | cons fr frs ih =>
    intro acc h ha
    simp only [List.map_cons, buildOutput, rd, h fr List.mem_cons_self, Option.bind_eq_bind, Option.bind_some,
      List.flatMap_cons]
    by_cases hl : bufferLen ≤ acc.length + (text fr).length + 1
    · rw [if_pos hl]
      refine .inr ⟨rfl, ?_⟩
      simp only [List.length_append]
      omega
    · rw [if_neg hl, ← List.append_assoc]
      exact ih _ (fun x hx => h x (List.mem_cons_of_mem _ hx)) (by simp only [List.length_append]; omega)

/-- Returning to the previous state restores the point at which the transition was taken. -/
theorem goUp_spec {c : Conf} {fr : Frame} {rest : List Frame} (hb : c.below = fr :: rest)
    (h : Stk f input (fr :: rest) c.log (Conf.point c)) :
    ∃ c1, goUp f c fr rest = some c1 ∧ Stk f input rest c1.log (Conf.point c1) ∧ c1.below = rest ∧ c1.state = fr.state ∧
      c1.cur = fr.cur + 1 ∧ c1.input = c.input ∧ c1.bufferSize = c.bufferSize ∧
      Step f input (Conf.point c1) fr.cur (Conf.point c) := by
  generalize hlog : c.log = lg at h
  generalize hpt : Conf.point c = pt at h
  cases h with
  | push _ log p q a t hs ht hst =>
    have key : ∃ c1, goUp f c ⟨p.state, a, if f.firstNormal ≤ t.symOut then t.symOut else 0⟩ rest = some c1 ∧ c1.log = log ∧
        Conf.point c1 = p ∧ c1.below = rest ∧ c1.cur = a + 1 ∧ c1.input = c.input ∧ c1.bufferSize = c.bufferSize := by
      subst hpt
      generalize hq : Conf.point c = q at hst
      cases hst with
      | symbol t' m c' n s i =>
        rw [ht] at c'
        cases c'
        simp only [Conf.point, Point.mk.injEq] at hq
        obtain ⟨q1, q2, q3⟩ := hq
        refine ⟨{ c with below := rest, state := p.state, cur := a + 1, inputDepth := c.inputDepth - 1 }, ?_, ?_, ?_, rfl, rfl,
          rfl, rfl⟩
        · simp only [goUp, rd, ht, Option.bind_eq_bind, Option.bind_some, if_pos s]
          rw [if_neg (by omega)]
          rfl
        · show c.log = log
          rw [hlog, logStep, if_pos s]
        · simp only [Conf.point]
          rw [q2, q3]
          rfl
      | flag t' F m c' n s i =>
        rw [ht] at c'
        cases c'
        simp only [Conf.point, Point.mk.injEq] at hq
        obtain ⟨q1, q2, q3⟩ := hq
        by_cases hc : f.featureCount = 0 ∨ t.symIn = 0
        · refine ⟨{ c with below := rest, state := p.state, cur := a + 1 }, ?_, ?_, ?_, rfl, rfl, rfl, rfl⟩
          · simp only [goUp, rd, ht, Option.bind_eq_bind, Option.bind_some, if_neg (by omega : ¬ f.firstNormal ≤ t.symIn)]
            rw [if_neg (by omega)]
            rfl
          · show c.log = log
            rw [hlog, logStep, if_neg (by omega), if_pos hc]
          · simp only [FlagStep, if_pos hc] at i
            simp only [Conf.point]
            rw [q2, q3, i]
        · simp only [FlagStep, if_neg hc] at i
          obtain ⟨ofv, old, new, ho, hold, _, hF⟩ := i
          have hlen : ofv.feature < p.flags.length := (List.getElem?_eq_some_iff.1 hold).1
          have hl : c.log = (ofv.feature, old) :: log := by
            rw [hlog, logStep, if_neg (by omega), if_neg hc]
            simp only [ho, hold, Option.getD_some]
          refine ⟨{ c with below := rest, state := p.state, cur := a + 1, flags := p.flags, log := log }, ?_, rfl, ?_, rfl, rfl,
            rfl, rfl⟩
          · simp only [goUp, rd, ht, Option.bind_eq_bind, Option.bind_some, if_neg (by omega : ¬ f.firstNormal ≤ t.symIn)]
            rw [if_pos (by omega)]
            simp only [hl]
            have hw : wr c.flags ofv.feature old = some p.flags := by
              unfold wr
              rw [if_pos (by rw [q3, hF, List.length_set]; exact hlen), q3, hF, List.set_set]
              congr 1
              apply List.ext_getElem?
              intro i
              rw [List.getElem?_set]
              split
              · rename_i hi
                subst hi
                exact hold.symm
              · rfl
            rw [hw]
            rfl
          · simp only [Conf.point]
            rw [q2]
    obtain ⟨c1, h1, h2, h3, h4, h5, h6, h7⟩ := key
    refine ⟨c1, h1, ?_, h4, ?_, h5, h6, h7, ?_⟩
    · rw [h2, h3]; exact hs
    · rw [← h3]; rfl
    · rw [h3]; exact hst

/-- The state of a search between two loop iterations. -/
structure Inv (f : Fst) (input : List Nat) (c : Conf) : Prop where
  stk : Stk f input c.below c.log (Conf.point c)
  inp : c.input = input
  lo : c.state ≤ c.cur
  hi : ∀ max, getMaxTc f c.state = some max → c.cur ≤ c.state + max + 1
  depth : c.below.length + 2 ≤ c.bufferSize

/-- What one call achieves. -/
def CallResult (f : Fst) (input : List Nat) (pfx : Bool) (bufferLen : Nat) (c : Conf) (r : NextRes) (c' : Conf) : Prop :=
  match r with
  | .found out n => Inv f input c' ∧ ∃ q, q = stackAddrs c'.below ++ [c'.cur - 1] ∧ Accepting f input pfx q n ∧
      out = outputOf f q ∧ ¬ Before q (Conf.place c) ∧
      ∀ q' n', Accepting f input pfx q' n' → (Before q' (Conf.place c') ↔ Before q' (Conf.place c) ∨ q' = q)
  | .exhausted => Inv f input c' ∧ c'.below = [] ∧ ∀ q' n', Accepting f input pfx q' n' → Before q' (Conf.place c)
  | .loopLimit => Inv f input c'
  | .outputLimit => ∃ q n, Accepting f input pfx q n ∧ bufferLen ≤ (outputOf f q).length + 1
  | .stackLimit => ∃ q e, Path f input (startPoint f) q e ∧ q.length + 1 = c.bufferSize

theorem callResult_mono {pfx : Bool} {bufferLen : Nat} {c c1 : Conf} {r : NextRes} {c' : Conf}
    (h : CallResult f input pfx bufferLen c1 r c') (hsz : c1.bufferSize = c.bufferSize)
    (hp : ∀ q' n', Accepting f input pfx q' n' → (Before q' (Conf.place c1) ↔ Before q' (Conf.place c))) :
    CallResult f input pfx bufferLen c r c' := by
  cases r with
  | found out n =>
    obtain ⟨h1, q, h0, h2, h3, h4, h5⟩ := h
    exact ⟨h1, q, h0, h2, h3, fun hb => h4 ((hp _ _ h2).2 hb), fun q' n' ha => by rw [h5 q' n' ha, hp _ _ ha]⟩
  | exhausted => exact ⟨h.1, h.2.1, fun q' n' ha => (hp _ _ ha).1 (h.2.2 q' n' ha)⟩
  | loopLimit => exact h
  | outputLimit => exact h
  | stackLimit =>
    obtain ⟨q, e, h1, h2⟩ := h
    exact ⟨q, e, h1, by rw [h2, hsz]⟩

theorem start_eq {c : Conf} {n : Nat} (hn : n < 2 ^ 32) (lo : c.state ≤ c.cur) (hi : c.cur ≤ n) :
    startIndex c.cur c.state = c.cur - c.state := by
  unfold startIndex
  have : c.cur + 2 ^ 32 - c.state = (c.cur - c.state) + 2 ^ 32 := by omega
  rw [this, Nat.add_mod_right, Nat.mod_eq_of_lt (by omega)]

theorem outputOf_stack (below : List Frame) (a : Nat) :
    outputOf f (stackAddrs below ++ [a]) = below.reverse.flatMap (fun fr => outText f fr.cur) := by
  simp only [outputOf, stackAddrs, List.dropLast_concat, List.flatMap_map]

theorem ub_bind {α β : Type} (a : α) (g : α → UB β) : (some a : UB α) >>= g = g a := rfl

theorem nextLoop_unfold {pfx : Bool} {bufferLen k max st : Nat} {c : Conf} {r : ScanRes} (hmax : getMaxTc f c.state = some max)
    (hst : startIndex c.cur c.state = st) (hr : scanFrom f c pfx max st = some r) :
    nextLoop f pfx bufferLen (k + 1) c =
      match (generalizing := false) r with
      | .final idx => (buildOutput f bufferLen (c.below.reverse.map (·.out)) []).bind fun
        | none => some (.outputLimit, c)
        | some s => some (.found s c.inputDepth, { c with cur := idx + 1 })
      | .down idx t flags log =>
        if c.below.length + 2 = c.bufferSize then some (.stackLimit, { c with flags, log })
        else if c.bufferSize ≤ c.below.length + 1 then none
        else nextLoop f pfx bufferLen k (goDown f c idx t flags log)
      | .stop =>
        match c.below with
        | [] => some (.exhausted, c)
        | fr :: rest => (goUp f c fr rest).bind (nextLoop f pfx bufferLen k) := by
  rw [nextLoop, hmax, ub_bind, hst, hr, ub_bind]
  cases r
  all_goals rfl

theorem nextLoop_spec (wf : WellFormed f S) (hin : ∀ x ∈ input, f.firstNormal ≤ x) (pfx : Bool) {bufferLen : Nat}
    (hbl : 0 < bufferLen) : ∀ k c, Inv f input c →
      ∃ r c', nextLoop f pfx bufferLen k c = some (r, c') ∧ c'.bufferSize = c.bufferSize ∧
        CallResult f input pfx bufferLen c r c' := by
  intro k
  induction k with
  | zero => intro c hc; exact ⟨_, _, rfl, rfl, hc⟩
  | succ k ih =>
    intro c hc
    have htab := wf.table
    obtain ⟨hS, hF, hpos, hlg⟩ := stk_facts wf hc.stk
    have hdep := hc.depth
    obtain ⟨max, hmax, hbound, haddr⟩ := maxTc_spec wf (show S c.state from hS)
    have hcur := hc.hi max hmax
    have hst := start_eq (c := c) (n := c.state + max + 1) (by omega) hc.lo hcur
    have hinp := hc.inp
    subst hinp
    obtain ⟨r, hr, hP⟩ := scan_spec wf (c := c) pfx hS hin hF (by omega) hpos hmax
      (max + 1 - (c.cur - c.state)) (c.cur - c.state) (by omega)
    have hadd : c.state + (c.cur - c.state) = c.cur := by have := hc.lo; omega
    rw [hadd] at hP
    have hpath := stk_path hc.stk
    -- an accepting path that continues the stack uses a transition that is not dead
    have hnd : ∀ z rest n, Accepting f c.input pfx (stackAddrs c.below ++ z :: rest) n →
        ¬ Dead f c.input pfx (Conf.point c) z := by
      intro z rest n ha hd
      rcases (accepting_split ha hpath).2 with ⟨_, h, _⟩ | ⟨_, e', h⟩
      · exact hd.1 h
      · exact hd.2 _ h
    rw [nextLoop_unfold hmax hst hr]
    cases r with
    | final idx =>
      simp only
      obtain ⟨hlo, ⟨hmem, t, ht, hsym, hfull⟩, hdead⟩ := hP
      have hacc : Accepting f c.input pfx (stackAddrs c.below ++ [idx]) c.inputDepth :=
        ⟨_, idx, _, t, rfl, hpath, hmem, ht, hsym, rfl, hfull⟩
      rcases buildOutput_spec (f := f) (bufferLen := bufferLen) (text := fun fr => outText f fr.cur) c.below.reverse []
        (fun fr hfr => stk_out wf hc.stk fr (List.mem_reverse.1 hfr)) (by simpa using hbl) with ⟨h1, h2⟩ | ⟨h1, h2⟩
      · rw [h1]
        refine ⟨_, _, rfl, rfl, ⟨hc.stk, rfl, ?_, ?_, hdep⟩, stackAddrs c.below ++ [idx], rfl, hacc, ?_, ?_, ?_⟩
        · show c.state ≤ idx + 1
          have := hc.lo
          omega
        · intro m hm
          have hm : getMaxTc f c.state = some m := hm
          rw [hmax] at hm
          cases hm
          have := (haddr idx).1 hmem
          show idx + 1 ≤ c.state + max + 1
          omega
        · rw [outputOf_stack]; rfl
        · simp only [Conf.place]
          rw [before_snoc]
          rintro (h | ⟨z, rest, h, hz⟩)
          · have : ¬ Before (stackAddrs c.below ++ [idx]) (stackAddrs c.below ++ [idx]) := before_irrefl _
            exact this ((before_snoc _ _ _).2 (.inl h))
          · have := List.append_cancel_left h
            cases this
            omega
        · intro q' n' ha
          simp only [Conf.place]
          rw [before_snoc, before_snoc]
          constructor
          · rintro (h | ⟨z, rest, h, hz⟩)
            · exact .inl (.inl h)
            · by_cases hz2 : z < c.cur
              · exact .inl (.inr ⟨z, rest, h, hz2⟩)
              · by_cases hz3 : z < idx
                · rw [h] at ha
                  exact absurd (hdead z (by omega) hz3) (hnd _ _ _ ha)
                · have : z = idx := by omega
                  subst this
                  right
                  rw [h] at ha
                  rcases (accepting_split ha hpath).2 with ⟨h0, _⟩ | ⟨_, e', hst'⟩
                  · rw [h, h0]
                  · obtain ⟨t', ht', hne, _⟩ := step_cell hst'
                    rw [ht] at ht'
                    cases ht'
                    exact absurd hsym hne
          · rintro ((h | ⟨z, rest, h, hz⟩) | h)
            · exact .inl h
            · exact .inr ⟨z, rest, h, by omega⟩
            · exact .inr ⟨idx, [], h, by omega⟩
      · rw [h1]
        exact ⟨_, _, rfl, rfl, _, _, hacc, by rw [outputOf_stack]; exact h2⟩
    | down idx t F log =>
      simp only
      obtain ⟨hlo, ht, hlog, hstep, hdead⟩ := hP
      by_cases hlim : c.below.length + 2 = c.bufferSize
      · rw [if_pos hlim]
        refine ⟨_, _, rfl, rfl, stackAddrs c.below ++ [idx], _, path_snoc hpath hstep, ?_⟩
        simp only [List.length_append, stackAddrs_length, List.length_singleton]
        omega
      · rw [if_neg hlim, if_neg (by omega)]
        have hstk : Stk f c.input (goDown f c idx t F log).below (goDown f c idx t F log).log
            (Conf.point (goDown f c idx t F log)) := by
          simp only [goDown, Conf.point, hlog]
          exact .push _ _ (Conf.point c) _ idx t hc.stk ht hstep
        have hc1 : Inv f c.input (goDown f c idx t F log) := by
          refine ⟨hstk, rfl, Nat.le_refl _, fun m _ => ?_, ?_⟩
          · simp only [goDown]; omega
          · simp only [goDown, List.length_cons]; omega
        obtain ⟨r, c', h1, h2, h3⟩ := ih _ hc1
        refine ⟨r, c', h1, h2, callResult_mono h3 rfl fun q' n' ha => ?_⟩
        have hpath1 := path_snoc hpath hstep
        simp only [Conf.place, goDown, stackAddrs_cons]
        rw [before_snoc, before_snoc, before_snoc]
        constructor
        · rintro ((h | ⟨z, rest, h, hz⟩) | ⟨z, rest, h, hz⟩)
          · exact .inl h
          · by_cases hz2 : z < c.cur
            · exact .inr ⟨z, rest, h, hz2⟩
            · rw [h] at ha
              exact absurd (hdead z (by omega) hz) (hnd _ _ _ ha)
          · exfalso
            rw [h] at ha
            have hm := (accepting_split ha hpath1).1
            obtain ⟨t', ht', hn, hq⟩ := step_cell hstep
            rw [ht] at ht'
            cases ht'
            have hS1 := (wf.trans _ hS _ (step_mem hstep) t ht hn).1
            obtain ⟨m1, _, _, ha1⟩ := maxTc_spec wf hS1
            have := (ha1 z).1 hm
            omega
        · rintro (h | ⟨z, rest, h, hz⟩)
          · exact .inl (.inl h)
          · exact .inl (.inr ⟨z, rest, h, by omega⟩)
    | stop =>
      simp only
      have hall : ∀ q' n', Accepting f c.input pfx q' n' → ∀ z rest, q' = stackAddrs c.below ++ z :: rest → z < c.cur := by
        intro q' n' ha z rest h
        rw [h] at ha
        by_cases hz : z < c.cur
        · exact hz
        · exact absurd (hP z (by omega)) (hnd _ _ _ ha)
      cases hbel : c.below with
      | nil =>
        simp only
        refine ⟨_, _, rfl, rfl, hc, hbel, fun q' n' ha => ?_⟩
        simp only [Conf.place, hbel, stackAddrs, List.reverse_nil, List.map_nil, List.nil_append]
        cases q' with
        | nil => obtain ⟨as, a, _, _, h, _⟩ := ha; simp at h
        | cons z rest =>
          left
          exact hall _ _ ha z rest (by simp [hbel, stackAddrs])
      | cons fr rest =>
        simp only
        have hstk0 := hc.stk
        rw [hbel] at hstk0
        obtain ⟨c1, h1, h2, h3, h4, h5, h6, h7, h8⟩ := goUp_spec hbel hstk0
        rw [h1]
        simp only [Option.bind_some]
        have hS1 := (stk_facts wf h2).1
        obtain ⟨m1, hm1, _, ha1⟩ := maxTc_spec wf hS1
        have hm := (ha1 _).1 (step_mem h8)
        have hst1 : (Conf.point c1).state = c1.state := rfl
        rw [hst1] at hm hm1
        have hc1 : Inv f c.input c1 := by
          refine ⟨h3 ▸ h2, h6, by omega, fun m hm' => ?_, ?_⟩
          · rw [hm1] at hm'
            cases hm'
            omega
          · rw [h3, h7]
            rw [hbel] at hdep
            simp only [List.length_cons] at hdep
            omega
        obtain ⟨r, c', g1, g2, g3⟩ := ih _ hc1
        refine ⟨r, c', g1, g2.trans h7, callResult_mono g3 h7 fun q' n' ha => ?_⟩
        simp only [Conf.place, h3, h5, hbel, stackAddrs_cons]
        rw [before_snoc, before_snoc, before_snoc]
        constructor
        · rintro (h | ⟨z, ys, h, hz⟩)
          · exact .inl (.inl h)
          · by_cases hz2 : z < fr.cur
            · exact .inl (.inr ⟨z, ys, h, hz2⟩)
            · have : z = fr.cur := by omega
              subst this
              right
              cases ys with
              | nil =>
                exfalso
                rw [h] at ha
                rcases (accepting_split ha (stk_path h2)).2 with ⟨_, ⟨_, t', ht', hs', _⟩, _⟩ | ⟨h0, _⟩
                · obtain ⟨t'', ht'', hne, _⟩ := step_cell h8
                  rw [ht'] at ht''
                  cases ht''
                  exact hne hs'
                · exact h0 rfl
              | cons y ys =>
                have hq : q' = stackAddrs c.below ++ y :: ys := by
                  rw [hbel, stackAddrs_cons, h]; simp
                exact ⟨y, ys, by rw [hq, hbel, stackAddrs_cons], hall _ _ ha y ys hq⟩
        · rintro ((h | ⟨z, ys, h, hz⟩) | ⟨z, ys, h, hz⟩)
          · exact .inl h
          · exact .inr ⟨z, ys, h, by omega⟩
          · exact .inr ⟨fr.cur, z :: ys, by rw [h]; simp, by omega⟩

end

end Verif.Props
