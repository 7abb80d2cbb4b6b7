import Verif.Lemmas.FstWReach
import Verif.Spec.VfstSpell
import Verif.Props.FstWeighted
/-!
# The search for corrections with an error model and an acceptor
-/

set_option linter.unusedSimpArgs false
set_option linter.unusedVariables false

namespace Verif.Props
open Verif

/-! ## One look-up -/

theorem good_normal {f : WFst} (h : GoodFst f) : NormalSymbols (plainFst f) := ⟨h.known, h.unknown⟩

theorem good_input {f : WFst} (h : GoodFst f) (word : List Wc) : ∀ x ∈ word.map (plainFst f).symOf, f.firstNormal ≤ x := by
  intro x hx
  obtain ⟨ch, _, rfl⟩ := List.mem_map.1 hx
  exact symOf_normal (good_normal h) ch

theorem reading_of_accepting {f : WFst} {word : List Wc} {q : List Nat} {m : Nat}
    (h : Accepting (plainFst f) (word.map (plainFst f).symOf) false q m) : Reading f word q ∧ m = word.length := by
  have := accepting_length h
  rw [List.length_map] at this
  subst this
  exact ⟨h, rfl⟩

/-- `prepare`, whatever the configuration was used for before. -/
theorem prepare_call {f : WFst} (hg : GoodFst f) {c : WConf} (hu : WUsed f 2000 c) {word : List Wc} (hw : word.length ≤ 2000) :
    ∃ known c1, wprepare f c word = some (known, c1) ∧ WUsed f 2000 c1 ∧ (known = false → ¬ Accepts f word) ∧
      (known = true → c1 = toW (prepared (plainFst f) 2000 word) [List.replicate f.featureCount 0]) := by
  by_cases hk : Known f word
  · have h1 := wprepare_new (bufferSize := 2000) hk hw (by decide)
    rw [← C42_weighted hu] at h1
    exact ⟨true, _, h1, .prepare _ _ _ _ hu h1, fun h => (by cases h), fun _ => rfl⟩
  · have hl := (inputSymbols_eq f word).2.2
    have : ∃ x, wprepare f (WConf.new f.featureCount 2000) word = some x := by
      unfold wprepare
      generalize inputSymbols f word = y at hl
      obtain ⟨ss, ok⟩ := y
      simp only at hl ⊢
      rw [if_neg (by simp only [WConf.new]; omega)]
      exact ⟨_, rfl⟩
    obtain ⟨⟨known, c1⟩, h1⟩ := this
    rw [← C42_weighted hu] at h1
    refine ⟨known, c1, h1, .prepare _ _ _ _ hu h1, fun _ => ?_, fun h => ?_⟩
    · rintro ⟨q, hq⟩
      obtain ⟨S, wf, hcells⟩ := hg.cells
      exact C45_unknown_no_readings wf hcells word hk q _ hq
    · exact absurd ((C45_unknown f c c1 word known h1).1 h) hk

/-- One call of `next` within the limits, from any point of a search. -/
theorem next_call {f : WFst} (hg : GoodFst f) {word : List Wc} (hw : Within f word) {c : Conf} {rows : List (List Nat)}
    (hc : Inv (plainFst f) (word.map (plainFst f).symOf) c) (hr : RowsRel c.flags c.log rows) (hb : c.bufferSize = 2000) :
    ∃ r reached c1 rows1, wnext f 2000 (toW c rows) = some (r, reached, toW c1 rows1) ∧ RowsRel c1.flags c1.log rows1 ∧
      Inv (plainFst f) (word.map (plainFst f).symOf) c1 ∧ c1.bufferSize = 2000 ∧
      ((r = .exhausted ∧ (∀ q, Reading f word q → Before q (Conf.place c)) ∧
          (Visited (plainFst f) (word.map (plainFst f).symOf) c c.inputDepth →
            ∀ p e, Path (plainFst f) (word.map (plainFst f).symOf) (startPoint (plainFst f)) p e → e.pos ≤ reached)) ∨
        ∃ q, r = .found (outputOf (plainFst f) q) (pathWeight f q) ∧ Reading f word q ∧ q = stackAddrs c1.below ++ [c1.cur - 1] ∧
          ¬ Before q (Conf.place c) ∧
          ∀ q', Reading f word q' → (Before q' (Conf.place c1) ↔ Before q' (Conf.place c) ∨ q' = q)) := by
  obtain ⟨S, wf⟩ := hg.wf
  have hin := good_input hg word
  obtain ⟨r, c1, h1, hsz, h2⟩ := nextLoop_spec wf.plain hin false (by decide : 0 < 2000) maxLoopCount c hc
  obtain ⟨r0, c0, wr, reached', rows1, k1, k2, k3, k4⟩ :=
    wnextLoop_sim wf hin hw.mask (by decide : 0 < 2000) maxLoopCount (toW c rows).inputDepth c rows hc hr
  rw [h1] at k1
  cases k1
  cases r with
  | found out m =>
    obtain ⟨hc1, q, hqe, hacc, hout, hnb, hq⟩ := h2
    obtain ⟨hread, rfl⟩ := reading_of_accepting hacc
    refine ⟨wr, reached', c1, rows1, k2, k3, hc1, hsz.trans hb, .inr ⟨q, ?_, hread, hqe, hnb, fun q' hq' => hq q' _ hq'⟩⟩
    rw [hqe, ← hout, hqe] at *
    exact k4
  | exhausted =>
    have k4' : wr = .exhausted := k4
    subst k4'
    refine ⟨_, reached', c1, rows1, k2, k3, h2.1, hsz.trans hb, .inl ⟨rfl, fun q hq => h2.2.2 q _ hq, fun hv => ?_⟩⟩
    exact wnextLoop_reached wf hin hw.mask (by decide : 0 < 2000) maxLoopCount _ c rows hc hr hv _ _ k2
  | outputLimit =>
    exfalso
    obtain ⟨q, m, ha, hl⟩ := h2
    have := hw.out q (reading_of_accepting ha).1
    omega
  | stackLimit =>
    exfalso
    obtain ⟨q, e, hp, hl⟩ := h2
    have := hw.depth q e hp
    omega
  | loopLimit =>
    exfalso
    obtain ⟨L, hL, hl, hp⟩ := loopLimit_many wf.plain hin false (by decide : 0 < 2000) hc h1
    have := hw.paths L hL hp
    have h2 : maxLoopCount = 100000 := rfl
    omega

/-- A whole look-up: the first reading, or the furthest position. -/
theorem first_call {f : WFst} (hg : GoodFst f) {word : List Wc} (hw : Within f word) {c : WConf}
    (hc : c = toW (prepared (plainFst f) 2000 word) [List.replicate f.featureCount 0]) (hu : WUsed f 2000 c) :
    ∃ r reached c1, wnext f 2000 c = some (r, reached, c1) ∧ WUsed f 2000 c1 ∧
      ((r = .exhausted ∧ ¬ Accepts f word ∧
          ∀ p e, Path (plainFst f) (word.map (plainFst f).symOf) (startPoint (plainFst f)) p e → e.pos ≤ reached) ∨
        ∃ q, r = .found (outputOf (plainFst f) q) (pathWeight f q) ∧ FirstReading f word q) := by
  obtain ⟨S, wf⟩ := hg.wf
  subst hc
  obtain ⟨r, reached, c1, rows1, h1, h2, h3, h4, h5⟩ := next_call hg hw (prepared_inv wf.plain 2000 word (by decide))
    (.base (List.replicate f.featureCount 0)) rfl
  refine ⟨r, reached, _, h1, .next _ _ _ _ _ hu h1, ?_⟩
  rcases h5 with ⟨h5, h6, h7⟩ | ⟨q, h5, h6, _, _, h7⟩
  · refine .inl ⟨h5, ?_, h7 ?_⟩
    · rintro ⟨q, hq⟩
      exact absurd (h6 q hq) (not_before_start _ _ _ _)
    · intro p e hp hor
      rcases hor with hb | hpre
      · exact absurd hb (not_before_start _ _ _ _)
      · have : p = [] := by
          have : stackAddrs (prepared (plainFst f) 2000 word).below = [] := rfl
          rw [this] at hpre
          exact List.prefix_nil.1 hpre
        subst this
        cases hp
        exact Nat.zero_le _
  · refine .inr ⟨q, h5, h6, fun q' hq' hb => ?_⟩
    have hb2 : Before q (Conf.place c1) := (h7 q h6).2 (.inr rfl)
    rcases (h7 q' hq').1 (before_trans hb hb2) with h | h
    · exact not_before_start _ _ _ _ h
    · exact before_irrefl q (h ▸ hb)

/-! ## The map of weights -/

theorem record_keys (w : List Wc) (k : Int) : ∀ m : List (List Wc × Int),
    (vfstRecord w k m).map (·.1) = if w ∈ m.map (·.1) then m.map (·.1) else m.map (·.1) ++ [w] := by
  intro m
  induction m with
  | nil => rfl
  | cons x m ih =>
    obtain ⟨w', old⟩ := x
    rw [vfstRecord]
    by_cases h : w' = w
    · subst h; simp
    · rw [if_neg h, List.map_cons, ih]
      have hne : w ≠ w' := fun e => h e.symm
      by_cases hm : w ∈ m.map (·.1)
      · rw [if_pos hm, if_pos (by simp only [List.map_cons]; exact List.mem_cons_of_mem _ hm)]; rfl
      · rw [if_neg hm, if_neg (by simp only [List.map_cons, List.mem_cons, not_or]; exact ⟨hne, hm⟩)]; rfl

theorem record_nodup {w : List Wc} {k : Int} {m : List (List Wc × Int)} (h : (m.map (·.1)).Nodup) :
    ((vfstRecord w k m).map (·.1)).Nodup := by
  rw [record_keys]
  split
  · exact h
  · rename_i hn
    rw [List.nodup_append]
    refine ⟨h, by simp, ?_⟩
    intro a ha b hb hab
    rw [List.mem_singleton] at hb
    subst hb hab
    exact hn ha

theorem record_sound {w : List Wc} {k : Int} : ∀ {m : List (List Wc × Int)} {x : List Wc × Int}, x ∈ vfstRecord w k m →
    x ∈ m ∨ x = (w, k) := by
  intro m
  induction m with
  | nil => intro x h; exact .inr (List.mem_singleton.1 h)
  | cons y m ih =>
    obtain ⟨w', old⟩ := y
    intro x h
    rw [vfstRecord] at h
    split at h
    · rename_i he
      rcases List.mem_cons.1 h with h | h
      · by_cases hm : old ≤ k
        · left; rw [h, Int.min_eq_left hm]; exact List.mem_cons_self
        · right; rw [h, he, Int.min_eq_right (by omega)]
      · exact .inl (List.mem_cons_of_mem _ h)
    · rcases List.mem_cons.1 h with h | h
      · left; rw [h]; exact List.mem_cons_self
      · rcases ih h with h | h
        · exact .inl (List.mem_cons_of_mem _ h)
        · exact .inr h

theorem record_old {w : List Wc} {k : Int} : ∀ {m : List (List Wc × Int)} {w' : List Wc} {k' : Int}, (w', k') ∈ m →
    ∃ k'', k'' ≤ k' ∧ (w', k'') ∈ vfstRecord w k m := by
  intro m
  induction m with
  | nil => intro w' k' h; cases h
  | cons y m ih =>
    obtain ⟨w1, old⟩ := y
    intro w' k' h
    rw [vfstRecord]
    split
    · rcases List.mem_cons.1 h with h | h
      · cases h
        exact ⟨_, Int.min_le_left _ _, List.mem_cons_self⟩
      · exact ⟨k', Int.le_refl _, List.mem_cons_of_mem _ h⟩
    · rcases List.mem_cons.1 h with h | h
      · cases h
        exact ⟨_, Int.le_refl _, List.mem_cons_self⟩
      · obtain ⟨k'', h1, h2⟩ := ih h
        exact ⟨k'', h1, List.mem_cons_of_mem _ h2⟩

theorem record_new {w : List Wc} {k : Int} : ∀ (m : List (List Wc × Int)), ∃ k', k' ≤ k ∧ (w, k') ∈ vfstRecord w k m := by
  intro m
  induction m with
  | nil => exact ⟨k, Int.le_refl _, List.mem_singleton.2 rfl⟩
  | cons y m ih =>
    obtain ⟨w1, old⟩ := y
    rw [vfstRecord]
    split
    · rename_i he
      subst he
      exact ⟨_, Int.min_le_right _ _, List.mem_cons_self⟩
    · obtain ⟨k', h1, h2⟩ := ih
      exact ⟨k', h1, List.mem_cons_of_mem _ h2⟩

/-! ## The loop -/

theorem output_prefix {f : Fst} {r q : List Nat} (h : r <+: q.dropLast) : r.flatMap (outText f) <+: outputOf f q := by
  obtain ⟨t, ht⟩ := h
  rw [outputOf, ← ht, List.flatMap_append]
  exact List.prefix_append _ _

theorem take_of_prefix {α : Type} {r a b : List α} {n : Nat} (ha : r <+: a) (hb : r <+: b) (hn : n ≤ r.length) :
    a.take n = b.take n := by
  obtain ⟨x, rfl⟩ := ha
  obtain ⟨y, rfl⟩ := hb
  rw [List.take_append_of_le_length hn, List.take_append_of_le_length hn]

theorem outText_noNul {E : WFst} (hE : GoodErrorModel E) (a : Nat) : 0 ∉ outText (plainFst E) a := by
  unfold outText
  split
  · simp
  · split
    · rename_i t _ hn
      cases hs : (plainFst E).symbols[t.symOut]? with
      | none => simp
      | some s => exact (hE.visible _ _ hn hs).2
    · simp

theorem takeWhile_all {α : Type} {p : α → Bool} : ∀ l : List α, (∀ x ∈ l, p x = true) → l.takeWhile p = l := by
  intro l
  induction l with
  | nil => intro _; rfl
  | cons a l ih =>
    intro h
    rw [List.takeWhile_cons, if_pos (h a List.mem_cons_self), ih fun x hx => h x (List.mem_cons_of_mem _ hx)]

theorem output_noNul {E : WFst} (hE : GoodErrorModel E) (q : List Nat) :
    (outputOf (plainFst E) q).takeWhile (· ≠ 0) = outputOf (plainFst E) q := by
  refine takeWhile_all _ fun x hx => ?_
  obtain ⟨a, _, ha⟩ := List.mem_flatMap.1 hx
  have := outText_noNul hE a
  simp only [ne_eq, decide_not, Bool.not_eq_eq_eq_not, Bool.not_true, decide_eq_false_iff_not]
  intro h0
  subst h0
  exact this ha

/-- What the map contains when all readings of the error model before some position have been dealt with. -/
structure Recorded (E A : WFst) (word : List Wc) (past : List Nat → Prop) (m : List (List Wc × Int)) : Prop where
  nodup : (m.map (·.1)).Nodup
  sound : ∀ x ∈ m, Correction E A word x.1 x.2
  complete : ∀ q, Reading E word q → past q → ∀ a, FirstReading A (outputOf (plainFst E) q) a →
    ∃ k, k ≤ pathWeight E q + pathWeight A a ∧ (outputOf (plainFst E) q, k) ∈ m

theorem firstReading_unique {f : WFst} {word : List Wc} {a b : List Nat} (ha : FirstReading f word a) (hb : FirstReading f word b) :
    a = b := by
  rcases accepting_total ha.1 hb.1 with h | h | h
  · exact absurd h (hb.2 _ ha.1)
  · exact absurd h (ha.2 _ hb.1)
  · exact h

theorem vfstSearch_spec {E A : WFst} (hE : GoodErrorModel E) (hA : GoodFst A) {word : List Wc} (hwE : Within E word)
    (hwA : ∀ q, Reading E word q → Within A (outputOf (plainFst E) q)) {s : SugStatus} (hs : s.shouldAbort = false)
    {all : List (List Nat)} (hall : ∀ q, Reading E word q → q ∈ all) : ∀ n c rows ac m (done : List (List Nat)),
      Inv (plainFst E) (word.map (plainFst E).symOf) c → RowsRel c.flags c.log rows → c.bufferSize = 2000 →
      WUsed E 2000 (toW c rows) → WUsed A 2000 ac →
      Recorded E A word (fun q => Before q (Conf.place c)) m → done.Nodup →
      (∀ q ∈ done, Reading E word q ∧ Before q (Conf.place c)) → all.length < done.length + n →
      ∃ m' ec' ac', vfstSearch E A s n (toW c rows) ac m = some (m', ec', ac') ∧ WUsed E 2000 ec' ∧ WUsed A 2000 ac' ∧
        Recorded E A word (fun _ => True) m' := by
  intro n
  induction n with
  | zero =>
    intro c rows ac m done _ _ _ _ _ _ hnd hdone hlen
    exfalso
    have hsub : done ⊆ all := fun q hq => hall q (hdone q hq).1
    have := (List.subperm_of_subset hnd hsub).length_le
    omega
  | succ n ih =>
    intro c rows ac m done hc hr hb huE huA hrec hnd hdone hlen
    obtain ⟨S, wf⟩ := hE.wf
    obtain ⟨r, reached, c1, rows1, h1, h2, h3, h4, h5⟩ := next_call hE.toGoodFst hwE hc hr hb
    have huE1 : WUsed E 2000 (toW c1 rows1) := .next _ _ _ _ _ huE h1
    rw [vfstSearch, hs]
    simp only [Bool.false_eq_true, if_false]
    rw [show vfstBufferSize = 2000 from rfl, h1, ub_bind]
    rcases h5 with ⟨rfl, h6, _⟩ | ⟨q, rfl, hread, hqe, hnb, h7⟩
    · exact ⟨m, _, _, rfl, huE1, huA, hrec.nodup, hrec.sound, fun q hq _ => hrec.complete q hq (h6 q hq)⟩
    · simp only [output_noNul hE]
      have hqb : Before q (Conf.place c1) := (h7 q hread).2 (.inr rfl)
      have hlenw : (outputOf (plainFst E) q).length ≤ 2000 := by have := hwE.out q hread; omega
      have hnd1 : (q :: done).Nodup := List.nodup_cons.2 ⟨fun hm => hnb (hdone q hm).2, hnd⟩
      have hdone1 : ∀ x ∈ q :: done, Reading E word x ∧ Before x (Conf.place c1) := by
        intro x hx
        rcases List.mem_cons.1 hx with rfl | hx
        · exact ⟨hread, hqb⟩
        · exact ⟨(hdone x hx).1, (h7 x (hdone x hx).1).2 (.inl (hdone x hx).2)⟩
      obtain ⟨known, ac1, p1, p2, p3, p4⟩ := prepare_call hA huA hlenw
      rw [p1, ub_bind]
      have hcomp1 : (¬ Accepts A (outputOf (plainFst E) q)) → Recorded E A word (fun q => Before q (Conf.place c1)) m :=
        fun hna => ⟨hrec.nodup, hrec.sound, fun q' hq' hb' a ha => by
          rcases (h7 q' hq').1 hb' with h | h
          · exact hrec.complete q' hq' h a ha
          · subst h
            exact absurd ⟨a, ha.1⟩ hna⟩
      cases known with
      | false =>
        simp only [Bool.false_eq_true, if_false]
        exact ih c1 rows1 ac1 m (q :: done) h3 h2 h4 huE1 p2 (hcomp1 (p3 rfl)) hnd1 hdone1 (by simp only [List.length_cons]; omega)
      | true =>
        simp only [if_true]
        obtain ⟨ra, reachedA, ac2, a1, a2, a3⟩ := first_call hA (hwA q hread) (p4 rfl) p2
        rw [a1, ub_bind]
        rcases a3 with ⟨rfl, hna, hreach⟩ | ⟨a, rfl, hfirst⟩
        · simp only
          obtain ⟨c2, rows2, b1, b2, b3, b4, b5, b6⟩ := wbacktrack_spec wf hE.noFlags
            ⟨hE.symCount, fun i s h h' => (hE.visible i s h h').1⟩ h3 h2 reachedA
          rw [b1, ub_bind]
          have hrec2 : Recorded E A word (fun q => Before q (Conf.place c2)) m := by
            refine ⟨hrec.nodup, hrec.sound, fun q' hq' hb' a ha => ?_⟩
            rcases b6 q' _ hq' hb' with h | ⟨x, x1, x2, x3⟩
            · exact (hcomp1 hna).complete q' hq' h a ha
            · exfalso
              have e1 : x <+: q.dropLast := by rw [hqe, List.dropLast_concat]; exact x1
              have t1 := output_prefix (f := plainFst E) e1
              have t2 := output_prefix (f := plainFst E) x2
              have ht := take_of_prefix t1 t2 x3
              have hlen2 := t2.length_le
              refine not_accepted_of_reached (in1 := (outputOf (plainFst E) q).map (plainFst A).symOf)
                (in2 := (outputOf (plainFst E) q').map (plainFst A).symOf) hreach ?_ ?_ a _ ha.1
              · rw [← List.map_take, ← List.map_take, ht]
              · rw [List.length_map]; omega
          refine ih c2 rows2 ac2 m (q :: done) b2 b3 (b4.trans h4) (.backtrack _ _ _ huE1 b1) a2 hrec2 hnd1
            (fun x hx => ⟨(hdone1 x hx).1, b5 x (hdone1 x hx).2⟩) (by simp only [List.length_cons]; omega)
        · simp only
          refine ih c1 rows1 ac2 _ (q :: done) h3 h2 h4 huE1 a2 ?_ hnd1 hdone1 (by simp only [List.length_cons]; omega)
          refine ⟨record_nodup hrec.nodup, fun x hx => ?_, fun q' hq' hb' a' ha' => ?_⟩
          · rcases record_sound hx with hx | rfl
            · exact hrec.sound x hx
            · exact ⟨q, a, hread, rfl, hfirst, by simp only; omega⟩
          · rcases (h7 q' hq').1 hb' with h | h
            · obtain ⟨k, k1, k2⟩ := hrec.complete q' hq' h a' ha'
              obtain ⟨k', k3, k4⟩ := record_old (w := outputOf (plainFst E) q) (k := pathWeight A a + pathWeight E q) k2
              exact ⟨k', by omega, k4⟩
            · subst h
              have := firstReading_unique ha' hfirst
              subst this
              obtain ⟨k', k3, k4⟩ := record_new (w := outputOf (plainFst E) q') (k := pathWeight A a' + pathWeight E q') m
              exact ⟨k', by omega, k4⟩

theorem keys_unique {w : List Wc} {k1 k2 : Int} : ∀ m : List (List Wc × Int), (m.map (·.1)).Nodup → (w, k1) ∈ m → (w, k2) ∈ m →
    k1 = k2 := by
  intro m
  induction m with
  | nil => intro _ h; cases h
  | cons x m ih =>
    intro hn h1 h2
    rw [List.map_cons, List.nodup_cons] at hn
    rcases List.mem_cons.1 h1 with h1 | h1 <;> rcases List.mem_cons.1 h2 with h2 | h2
    · exact congrArg Prod.snd (h1.trans h2.symm)
    · exact absurd (List.mem_map.2 ⟨_, h2, by rw [← h1]⟩) hn.1
    · exact absurd (List.mem_map.2 ⟨_, h1, by rw [← h2]⟩) hn.1
    · exact ih hn.2 h1 h2

theorem recorded_best {E A : WFst} {word : List Wc} {m : List (List Wc × Int)} (h : Recorded E A word (fun _ => True) m)
    (w : List Wc) (k : Int) : (w, k) ∈ m ↔ Best E A word w k := by
  have uniq : ∀ k1 k2, (w, k1) ∈ m → (w, k2) ∈ m → k1 = k2 := by
    intro k1 k2 h1 h2
    exact keys_unique m h.nodup h1 h2
  have comp : ∀ k', Correction E A word w k' → ∃ k'', k'' ≤ k' ∧ (w, k'') ∈ m := by
    rintro k' ⟨q, a, hq, rfl, ha, rfl⟩
    exact h.complete q hq trivial a ha
  constructor
  · intro hm
    refine ⟨h.sound _ hm, fun k' hk' => ?_⟩
    obtain ⟨k'', h1, h2⟩ := comp k' hk'
    have := uniq k k'' hm h2
    omega
  · rintro ⟨hcor, hmin⟩
    obtain ⟨k'', h1, h2⟩ := comp k hcor
    have := hmin k'' (h.sound _ h2)
    have : k'' = k := by omega
    rw [← this]
    exact h2

end Verif.Props
