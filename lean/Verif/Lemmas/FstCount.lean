import Verif.Lemmas.FstNext
/-!
# Number of loop iterations of a search, and sequences of calls
-/

set_option linter.unusedSimpArgs false
set_option linter.unusedVariables false

namespace Verif.Props
open Verif

section
variable {f : Fst} {S : Nat → Prop} {input : List Nat}

/-- One iteration: the call ends, or the search goes down or up. -/
theorem nextLoop_iter (wf : WellFormed f S) (hin : ∀ x ∈ input, f.firstNormal ≤ x) (pfx : Bool) {bufferLen : Nat}
    (hbl : 0 < bufferLen) {c : Conf} (hc : Inv f input c) :
    (∃ r c', r ≠ NextRes.loopLimit ∧ ∀ k, nextLoop f pfx bufferLen (k + 1) c = some (r, c')) ∨
    (∃ idx c1, (∀ k, nextLoop f pfx bufferLen (k + 1) c = nextLoop f pfx bufferLen k c1) ∧ Inv f input c1 ∧ c.cur ≤ idx ∧
      stackAddrs c1.below = stackAddrs c.below ++ [idx]) ∨
    (∃ idx c1, (∀ k, nextLoop f pfx bufferLen (k + 1) c = nextLoop f pfx bufferLen k c1) ∧ Inv f input c1 ∧ c1.cur = idx + 1 ∧
      stackAddrs c.below = stackAddrs c1.below ++ [idx]) := by
  have htab := wf.table
  obtain ⟨hS, hF, hpos, hlg⟩ := stk_facts wf hc.stk
  have hdep := hc.depth
  obtain ⟨max, hmax, hbound, haddr⟩ := maxTc_spec wf (show S c.state from hS)
  have hcur := hc.hi max hmax
  have hst := start_eq (c := c) (n := c.state + max + 1) (by omega) hc.lo hcur
  have hinp := hc.inp
  subst hinp
  obtain ⟨r, hr, hP⟩ := scan_spec wf (c := c) pfx hS hin hF (by omega) hpos hmax
    (max + 1 - (c.cur - c.state)) (c.cur - c.state) (by omega)
  have hadd : c.state + (c.cur - c.state) = c.cur := by have := hc.lo; omega
  rw [hadd] at hP
  have hun := fun k => nextLoop_unfold (bufferLen := bufferLen) (k := k) hmax hst hr
  cases r with
  | final idx =>
    left
    rcases buildOutput_spec (f := f) (bufferLen := bufferLen) (text := fun fr => outText f fr.cur) c.below.reverse []
      (fun fr hfr => stk_out wf hc.stk fr (List.mem_reverse.1 hfr)) (by simpa using hbl) with ⟨h1, h2⟩ | ⟨h1, h2⟩
    · refine ⟨.found ([] ++ c.below.reverse.flatMap fun fr => outText f fr.cur) c.inputDepth, { c with cur := idx + 1 }, by simp, fun k => ?_⟩
      · rw [hun]
        simp only
        rw [h1]
        rfl
    · refine ⟨.outputLimit, c, by simp, fun k => ?_⟩
      · rw [hun]
        simp only
        rw [h1]
        rfl
  | down idx t F log =>
    obtain ⟨hlo, ht, hlog, hstep, hdead⟩ := hP
    by_cases hlim : c.below.length + 2 = c.bufferSize
    · left
      refine ⟨.stackLimit, { c with flags := F, log := log }, by simp, fun k => ?_⟩
      · rw [hun]
        simp only
        rw [if_pos hlim]
    · right
      left
      have hstk : Stk f c.input (goDown f c idx t F log).below (goDown f c idx t F log).log
          (Conf.point (goDown f c idx t F log)) := by
        simp only [goDown, Conf.point, hlog]
        exact .push _ _ (Conf.point c) _ idx t hc.stk ht hstep
      refine ⟨idx, goDown f c idx t F log, fun k => ?_, ⟨hstk, rfl, Nat.le_refl _, fun m _ => ?_, ?_⟩, hlo, ?_⟩
      · rw [hun]
        simp only
        rw [if_neg hlim, if_neg (by omega)]
      · simp only [goDown]; omega
      · simp only [goDown, List.length_cons]; omega
      · simp only [goDown, stackAddrs_cons]
  | stop =>
    cases hbel : c.below with
    | nil =>
      left
      refine ⟨.exhausted, c, by simp, fun k => ?_⟩
      rw [hun]
      simp only [hbel]
    | cons fr rest =>
      right
      right
      have hstk0 := hc.stk
      rw [hbel] at hstk0
      obtain ⟨c1, h1, h2, h3, h4, h5, h6, h7, h8⟩ := goUp_spec hbel hstk0
      have hS1 := (stk_facts wf h2).1
      obtain ⟨m1, hm1, _, ha1⟩ := maxTc_spec wf hS1
      have hm := (ha1 _).1 (step_mem h8)
      have hst1 : (Conf.point c1).state = c1.state := rfl
      rw [hst1] at hm hm1
      refine ⟨fr.cur, c1, fun k => ?_, ⟨h3 ▸ h2, h6, by omega, fun m hm' => ?_, ?_⟩, h5, ?_⟩
      · rw [hun]
        simp only [hbel]
        rw [h1]
        rfl
      · rw [hm1] at hm'
        cases hm'
        omega
      · rw [h3, h7]
        rw [hbel] at hdep
        simp only [List.length_cons] at hdep
        omega
      · rw [stackAddrs_cons, h3]

/-- A search that uses up `k` iterations has met at least `k / 2` different paths. -/
theorem loopLimit_paths (wf : WellFormed f S) (hin : ∀ x ∈ input, f.firstNormal ≤ x) (pfx : Bool) {bufferLen : Nat}
    (hbl : 0 < bufferLen) : ∀ k c c', Inv f input c → nextLoop f pfx bufferLen k c = some (.loopLimit, c') →
      ∃ L : List (List Nat), L.Nodup ∧ k ≤ 2 * L.length + c.below.length ∧
        ∀ p ∈ L, (∃ e, Path f input (startPoint f) p e) ∧ ¬ Before p (Conf.place c) ∧ ¬ p <+: stackAddrs c.below := by
  intro k
  induction k with
  | zero => intro c c' _ _; exact ⟨[], by simp, by simp, by simp⟩
  | succ k ih =>
    intro c c' hc h
    rcases nextLoop_iter wf hin pfx hbl hc with ⟨r, c2, hne, hk⟩ | ⟨idx, c1, hk, hc1, hlo, hst⟩ | ⟨idx, c1, hk, hc1, hcur, hst⟩
    · rw [hk] at h
      cases h
      exact absurd rfl hne
    · rw [hk] at h
      obtain ⟨L, hn, hl, hL⟩ := ih _ _ hc1 h
      have hlen : c1.below.length = c.below.length + 1 := by
        rw [← stackAddrs_length, hst, List.length_append, stackAddrs_length]; rfl
      refine ⟨(stackAddrs c.below ++ [idx]) :: L, ?_, ?_, ?_⟩
      · refine List.nodup_cons.2 ⟨fun hm => ?_, hn⟩
        exact (hL _ hm).2.2 (by rw [hst]; exact List.prefix_refl _)
      · simp only [List.length_cons]; omega
      · intro p hp
        rcases List.mem_cons.1 hp with rfl | hp
        · refine ⟨⟨_, hst ▸ stk_path hc1.stk⟩, ?_, ?_⟩
          · simp only [Conf.place]
            rw [before_snoc]
            rintro (h | ⟨z, rest, h, hz⟩)
            · exact before_irrefl _ ((before_snoc _ _ _).2 (.inl h))
            · have := List.append_cancel_left h
              cases this
              omega
          · intro hpre
            have := hpre.length_le
            rw [List.length_append, List.length_singleton] at this
            omega
        · obtain ⟨h1, h2, h3⟩ := hL p hp
          refine ⟨h1, fun hb => h2 ?_, fun hb => h3 ?_⟩
          · simp only [Conf.place, hst] at hb ⊢
            rw [before_snoc] at hb
            rw [before_snoc, before_snoc]
            rcases hb with hb | ⟨z, rest, hb, hz⟩
            · exact .inl (.inl hb)
            · exact .inl (.inr ⟨z, rest, hb, by omega⟩)
          · rw [hst]
            exact hb.trans (List.prefix_append _ _)
    · rw [hk] at h
      obtain ⟨L, hn, hl, hL⟩ := ih _ _ hc1 h
      have hlen : c.below.length = c1.below.length + 1 := by
        rw [← stackAddrs_length, hst, List.length_append, stackAddrs_length]; rfl
      refine ⟨L, hn, by omega, fun p hp => ?_⟩
      obtain ⟨h1, h2, h3⟩ := hL p hp
      refine ⟨h1, fun hb => h2 ?_, fun hb => ?_⟩
      · simp only [Conf.place, hst, hcur] at hb ⊢
        rw [before_snoc, before_snoc] at hb
        rw [before_snoc]
        rcases hb with (hb | ⟨z, rest, hb, hz⟩) | ⟨z, rest, hb, hz⟩
        · exact .inl hb
        · exact .inr ⟨z, rest, hb, by omega⟩
        · exact .inr ⟨idx, z :: rest, by rw [hb]; simp, by omega⟩
      · rw [hst, List.prefix_concat_iff] at hb
        rcases hb with hb | hb
        · exact h2 (by
            simp only [Conf.place, hcur]
            rw [before_snoc]
            exact .inr ⟨idx, [], by rw [hb], by omega⟩)
        · exact h3 hb

theorem path_prefix {p e : Point} {q r : List Nat} (h : Path f input p q e) (hr : r <+: q) : ∃ e', Path f input p r e' := by
  obtain ⟨s, rfl⟩ := hr
  obtain ⟨x, hx, _⟩ := path_append h
  exact ⟨x, hx⟩

/-- The limit on loop iterations is only met if there are many paths. -/
theorem loopLimit_many (wf : WellFormed f S) (hin : ∀ x ∈ input, f.firstNormal ≤ x) (pfx : Bool) {bufferLen : Nat}
    (hbl : 0 < bufferLen) {k : Nat} {c c' : Conf} (hc : Inv f input c) (h : nextLoop f pfx bufferLen k c = some (.loopLimit, c')) :
    ∃ L : List (List Nat), L.Nodup ∧ k ≤ 2 * L.length ∧ ∀ p ∈ L, ∃ e, Path f input (startPoint f) p e := by
  obtain ⟨L, hn, hl, hL⟩ := loopLimit_paths wf hin pfx hbl k c c' hc h
  refine ⟨L ++ (List.range c.below.length).map (fun i => (stackAddrs c.below).take i), ?_, ?_, ?_⟩
  · rw [List.nodup_append]
    refine ⟨hn, ?_, ?_⟩
    · rw [List.Nodup, List.pairwise_map]
      refine List.Pairwise.imp_of_mem ?_ List.nodup_range
      intro a b ha hb hne he
      have := congrArg List.length he
      simp only [List.length_take, stackAddrs_length, List.mem_range] at this ha hb
      omega
    · intro a ha b hb he
      obtain ⟨i, _, rfl⟩ := List.mem_map.1 hb
      subst he
      exact (hL _ ha).2.2 (List.take_prefix _ _)
  · simp only [List.length_append, List.length_map, List.length_range]
    omega
  · intro p hp
    rcases List.mem_append.1 hp with hp | hp
    · exact (hL p hp).1
    · obtain ⟨i, _, rfl⟩ := List.mem_map.1 hp
      exact path_prefix (stk_path hc.stk) (List.take_prefix _ _)

/-- Why a search may end early. -/
def Limit (f : Fst) (input : List Nat) (pfx : Bool) (bufferSize bufferLen : Nat) : NextRes → Prop
  | .outputLimit => ∃ q n, Accepting f input pfx q n ∧ bufferLen ≤ (outputOf f q).length + 1
  | .stackLimit => ∃ q e, Path f input (startPoint f) q e ∧ q.length + 1 = bufferSize
  | .loopLimit => ∃ L : List (List Nat), L.Nodup ∧ maxLoopCount ≤ 2 * L.length ∧
      ∀ p ∈ L, ∃ e, Path f input (startPoint f) p e
  | _ => False

/-- A sequence of calls, from any point of the search. -/
theorem enumerate_spec (wf : WellFormed f S) (hin : ∀ x ∈ input, f.firstNormal ≤ x) (pfx : Bool) {bufferLen : Nat}
    (hbl : 0 < bufferLen) : ∀ n c, Inv f input c →
      ∃ (qs : List (List Nat × Nat)) (tail : List NextRes) (c' : Conf),
        enumerate f pfx bufferLen n c = some (qs.map (fun q => .found (outputOf f q.1) q.2) ++ tail, c') ∧
        (∀ q ∈ qs, Accepting f input pfx q.1 q.2 ∧ ¬ Before q.1 (Conf.place c)) ∧
        qs.Pairwise (fun a b => Before a.1 b.1) ∧
        ((tail = [] ∧ qs.length = n) ∨
          (tail = [.exhausted] ∧ (∀ q m, Accepting f input pfx q m → Before q (Conf.place c) ∨ (q, m) ∈ qs) ∧
            Inv f input c' ∧ c'.below = []) ∨
          ∃ r, tail = [r] ∧ Limit f input pfx c.bufferSize bufferLen r) := by
  intro n
  induction n with
  | zero => intro c hc; exact ⟨[], [], c, rfl, by simp, by simp, .inl ⟨rfl, rfl⟩⟩
  | succ n ih =>
    intro c hc
    obtain ⟨r, c1, h1, hsz, h2⟩ := nextLoop_spec wf hin pfx hbl maxLoopCount c hc
    have hen : enumerate f pfx bufferLen (n + 1) c = (match (generalizing := false) r with
        | .found _ _ => (enumerate f pfx bufferLen n c1).bind fun x => some (r :: x.1, x.2)
        | _ => some ([r], c1)) := by
      rw [enumerate, h1, ub_bind]
      cases r
      all_goals rfl
    rw [hen]
    cases r with
    | found out m =>
      obtain ⟨hc1, q, _, hacc, hout, hnb, hq⟩ := h2
      obtain ⟨qs, tail, c', g1, g2, g3, g4⟩ := ih c1 hc1
      have hqb : Before q (Conf.place c1) := (hq q m hacc).2 (.inr rfl)
      have hmono : ∀ q' n', Accepting f input pfx q' n' → ¬ Before q' (Conf.place c1) → Before q q' := by
        intro q' n' ha hb
        rcases accepting_total hacc ha with h | h | h
        · exact h
        · exact absurd (before_trans h hqb) hb
        · exact absurd (h ▸ hqb) hb
      refine ⟨(q, m) :: qs, tail, c', ?_, ?_, ?_, ?_⟩
      · simp only [g1, Option.bind_some, List.map_cons, List.cons_append, hout]
      · intro x hx
        rcases List.mem_cons.1 hx with rfl | hx
        · exact ⟨hacc, hnb⟩
        · refine ⟨(g2 x hx).1, fun hb => (g2 x hx).2 ?_⟩
          exact (hq _ _ (g2 x hx).1).2 (.inl hb)
      · refine List.pairwise_cons.2 ⟨fun x hx => ?_, g3⟩
        exact hmono _ _ (g2 x hx).1 (g2 x hx).2
      · rcases g4 with ⟨h, h'⟩ | ⟨h, h', h''⟩ | ⟨r, h, h'⟩
        · exact .inl ⟨h, by simp [h']⟩
        · refine .inr (.inl ⟨h, fun q' m' ha => ?_, h''⟩)
          rcases h' q' m' ha with h3 | h3
          · rcases (hq q' m' ha).1 h3 with h4 | h4
            · exact .inl h4
            · subst h4
              right
              have : m' = m := by
                obtain ⟨as, a, p, t, e1, e2, e3, e4, e5, e6, e7⟩ := ha
                obtain ⟨as', a', p', t', e1', e2', e3', e4', e5', e6', e7'⟩ := hacc
                rw [e1] at e1'
                obtain ⟨e8, e9⟩ := List.append_inj' e1' rfl
                subst e8
                rw [← e6, ← e6', path_det e2 e2']
              rw [this]
              exact List.mem_cons_self
          · exact .inr (List.mem_cons_of_mem _ h3)
        · exact .inr (.inr ⟨r, h, hsz ▸ h'⟩)
    | exhausted => exact ⟨[], [.exhausted], c1, rfl, by simp, by simp,
        .inr (.inl ⟨rfl, fun q m ha => .inl (h2.2.2 q m ha), h2.1, h2.2.1⟩)⟩
    | outputLimit => exact ⟨[], [.outputLimit], c1, rfl, by simp, by simp, .inr (.inr ⟨_, rfl, h2⟩)⟩
    | stackLimit => exact ⟨[], [.stackLimit], c1, rfl, by simp, by simp, .inr (.inr ⟨_, rfl, h2⟩)⟩
    | loopLimit => exact ⟨[], [.loopLimit], c1, rfl, by simp, by simp,
        .inr (.inr ⟨_, rfl, loopLimit_many wf hin pfx hbl hc h1⟩)⟩

/-! ## Sizes and flags -/

theorem goUp_keeps {c c1 : Conf} {fr : Frame} {rest : List Frame} (h : goUp f c fr rest = some c1) :
    c1.bufferSize = c.bufferSize ∧ (f.featureCount = 0 → c1.flags = c.flags) := by
  unfold goUp at h
  cases ht : rd f.cells fr.cur with
  | none => rw [ht] at h; cases h
  | some t =>
    rw [ht] at h
    simp only [Option.bind_eq_bind, Option.bind_some] at h
    split at h
    · split at h
      · cases h
      · cases h
        exact ⟨rfl, fun _ => rfl⟩
    · split at h
      · rename_i hc
        split at h
        · cases h
        · cases hw : wr c.flags _ _ with
          | none => rw [hw] at h; cases h
          | some F =>
            rw [hw] at h
            cases h
            exact ⟨rfl, fun h0 => absurd h0 hc.1⟩
      · cases h
        exact ⟨rfl, fun _ => rfl⟩

theorem scan_noflags (hf : f.featureCount = 0) {c : Conf} {pfx : Bool} {max : Nat} : ∀ k tc idx t F log,
    scan f c pfx max k tc = some (.down idx t F log) → F = c.flags := by
  intro k
  induction k with
  | zero => intro tc idx t F log h; cases h
  | succ k ih =>
    intro tc0 idx t F log h
    rw [scan] at h
    split at h
    · cases h
    · generalize (if tc0 = 1 ∧ 255 ≤ max then 2 else tc0) = tc at h
      cases ht : rd f.cells (c.state + tc) with
      | none => simp [ht] at h
      | some t' =>
        simp only [ht, Option.bind_eq_bind, Option.bind_some] at h
        split at h
        · split at h
          · cases h
          · exact ih _ _ _ _ _ h
        · split at h
          · cases h; rfl
          · split at h
            · simp only [flagCheck, hf, true_or, if_true, Option.pure_def, Option.bind_some] at h
              cases h
              rfl
            · exact ih _ _ _ _ _ h

theorem nextLoop_keeps {pfx : Bool} {bufferLen : Nat} : ∀ k c r c', nextLoop f pfx bufferLen k c = some (r, c') →
    c'.bufferSize = c.bufferSize ∧ (f.featureCount = 0 → c'.flags = c.flags) := by
  intro k
  induction k with
  | zero => intro c r c' h; cases h; exact ⟨rfl, fun _ => rfl⟩
  | succ k ih =>
    intro c r c' h
    cases hm : getMaxTc f c.state with
    | none => rw [nextLoop, hm] at h; cases h
    | some max =>
      cases hs : scanFrom f c pfx max (startIndex c.cur c.state) with
      | none => rw [nextLoop, hm, ub_bind, hs] at h; cases h
      | some sr =>
        rw [nextLoop_unfold hm rfl hs] at h
        cases sr with
        | final idx =>
          simp only at h
          cases hb : buildOutput f bufferLen (c.below.reverse.map (·.out)) [] with
          | none => rw [hb] at h; cases h
          | some o =>
            rw [hb] at h
            cases o with
            | none => cases h; exact ⟨rfl, fun _ => rfl⟩
            | some s => cases h; exact ⟨rfl, fun _ => rfl⟩
        | down idx t F log =>
          simp only at h
          have hF : f.featureCount = 0 → F = c.flags := fun hf => scan_noflags hf _ _ _ _ _ _ hs
          split at h
          · cases h; exact ⟨rfl, hF⟩
          · split at h
            · cases h
            · obtain ⟨h1, h2⟩ := ih _ _ _ h
              exact ⟨h1, fun hf => (h2 hf).trans (hF hf)⟩
        | stop =>
          simp only at h
          cases hb : c.below with
          | nil => rw [hb] at h; cases h; exact ⟨rfl, fun _ => rfl⟩
          | cons fr rest =>
            rw [hb] at h
            simp only at h
            cases hg : goUp f c fr rest with
            | none => rw [hg] at h; cases h
            | some c1 =>
              rw [hg] at h
              obtain ⟨h1, h2⟩ := ih _ _ _ h
              obtain ⟨h3, h4⟩ := goUp_keeps hg
              exact ⟨h1.trans h3, fun hf => (h2 hf).trans (h4 hf)⟩

theorem enumerate_keeps {pfx : Bool} {bufferLen : Nat} : ∀ n c rs c', enumerate f pfx bufferLen n c = some (rs, c') →
    c'.bufferSize = c.bufferSize ∧ (f.featureCount = 0 → c'.flags = c.flags) := by
  intro n
  induction n with
  | zero => intro c rs c' h; cases h; exact ⟨rfl, fun _ => rfl⟩
  | succ n ih =>
    intro c rs c' h
    rw [enumerate] at h
    cases hn : nextLoop f pfx bufferLen maxLoopCount c with
    | none => rw [hn] at h; cases h
    | some x =>
      obtain ⟨r, c1⟩ := x
      rw [hn, ub_bind] at h
      obtain ⟨h3, h4⟩ := nextLoop_keeps _ _ _ _ hn
      cases r with
      | found s m =>
        simp only at h
        cases he : enumerate f pfx bufferLen n c1 with
        | none => rw [he] at h; cases h
        | some y =>
          rw [he, ub_bind] at h
          cases h
          obtain ⟨h1, h2⟩ := ih _ _ _ he
          exact ⟨h1.trans h3, fun hf => (h2 hf).trans (h4 hf)⟩
      | exhausted => cases h; exact ⟨h3, h4⟩
      | loopLimit => cases h; exact ⟨h3, h4⟩
      | stackLimit => cases h; exact ⟨h3, h4⟩
      | outputLimit => cases h; exact ⟨h3, h4⟩

theorem enumerate_size {pfx : Bool} {bufferLen n : Nat} {c c' : Conf} {rs : List NextRes}
    (h : enumerate f pfx bufferLen n c = some (rs, c')) : c'.bufferSize = c.bufferSize := (enumerate_keeps _ _ _ _ h).1

theorem enumerate_noflags (hf : f.featureCount = 0) {pfx : Bool} {bufferLen n : Nat} {c c' : Conf} {rs : List NextRes}
    (h : enumerate f pfx bufferLen n c = some (rs, c')) : c'.flags = c.flags := (enumerate_keeps _ _ _ _ h).2 hf

end

end Verif.Props
