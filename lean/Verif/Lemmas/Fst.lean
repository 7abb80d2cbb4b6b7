import Verif.Spec.Fst
/-!
# Lemmas on paths and on the look-up in an unweighted transducer
-/

set_option linter.unusedSimpArgs false
set_option linter.unusedVariables false

namespace Verif.Props
open Verif

/-! ## Order of paths -/

theorem before_snoc (q r : List Nat) (y : Nat) :
    Before q (r ++ [y]) ↔ Before q r ∨ ∃ z rest, q = r ++ z :: rest ∧ z < y := by
  induction r generalizing q with
  | nil =>
    cases q with
    | nil => simp [Before]
    | cons a q => simp [Before]
  | cons b r ih =>
    cases q with
    | nil => simp [Before]
    | cons a q =>
      simp only [List.cons_append, Before, ih, List.cons.injEq]
      constructor
      · rintro (h | ⟨h, h2 | ⟨z, rest, h2, h3⟩⟩)
        · exact .inl (.inl h)
        · exact .inl (.inr ⟨h, h2⟩)
        · exact .inr ⟨z, rest, ⟨h, h2⟩, h3⟩
      · rintro ((h | ⟨h, h2⟩) | ⟨z, rest, ⟨h, h2⟩, h3⟩)
        · exact .inl h
        · exact .inr ⟨h, .inl h2⟩
        · exact .inr ⟨h, .inr ⟨z, rest, h2, h3⟩⟩

theorem before_irrefl (q : List Nat) : ¬ Before q q := by
  induction q with
  | nil => simp [Before]
  | cons a q ih => simp [Before, ih]

theorem before_trans {p q r : List Nat} (h1 : Before p q) (h2 : Before q r) : Before p r := by
  induction p generalizing q r with
  | nil => simp [Before] at h1
  | cons a p ih =>
    cases q with
    | nil => simp [Before] at h1
    | cons b q =>
      cases r with
      | nil => simp [Before] at h2
      | cons c r =>
        simp only [Before] at h1 h2 ⊢
        rcases h1 with h1 | ⟨h1, h1'⟩ <;> rcases h2 with h2 | ⟨h2, h2'⟩
        · exact .inl (by omega)
        · exact .inl (by omega)
        · exact .inl (by omega)
        · exact .inr ⟨by omega, ih h1' h2'⟩

/-- Two paths are comparable unless one continues the other. -/
theorem before_total (p q : List Nat) : Before p q ∨ Before q p ∨ p <+: q ∨ q <+: p := by
  induction p generalizing q with
  | nil => simp
  | cons a p ih =>
    cases q with
    | nil => simp
    | cons b q =>
      simp only [Before, List.cons_prefix_cons]
      rcases Nat.lt_trichotomy a b with h | h | h
      · exact .inl (.inl h)
      · rcases ih q with h2 | h2 | h2 | h2
        · exact .inl (.inr ⟨h, h2⟩)
        · exact .inr (.inl (.inr ⟨h.symm, h2⟩))
        · exact .inr (.inr (.inl ⟨h, h2⟩))
        · exact .inr (.inr (.inr ⟨h.symm, h2⟩))
      · exact .inr (.inl (.inl h))

/-! ## Paths -/

section
variable {f : Fst} {input : List Nat}

theorem flagStep_det {F F1 F2 : List Nat} {sym : Nat} (h1 : FlagStep f F sym F1) (h2 : FlagStep f F sym F2) : F1 = F2 := by
  unfold FlagStep at h1 h2
  split at h1
  · rename_i hc
    rw [if_pos hc] at h2
    rw [h1, h2]
  · rename_i hc
    rw [if_neg hc] at h2
    obtain ⟨o, old, new, a, b, c, d⟩ := h1
    obtain ⟨o', old', new', a', b', c', d'⟩ := h2
    rw [a] at a'
    cases a'
    rw [b] at b'
    cases b'
    have : new = new' := by
      unfold FlagRel at c c'
      cases ho : o.op <;> rw [ho] at c c' <;> simp only at c c' <;> omega
    rw [d, d', this]

theorem step_det {p q q' : Point} {a : Nat} (h1 : Step f input p a q) (h2 : Step f input p a q') : q = q' := by
  cases h1 with
  | symbol t m c n s i =>
    cases h2 with
    | symbol t' m' c' n' s' i' => rw [c] at c'; cases c'; rfl
    | flag t' F m' c' n' s' i' => rw [c] at c'; cases c'; omega
  | flag t F m c n s i =>
    cases h2 with
    | symbol t' m' c' n' s' i' => rw [c] at c'; cases c'; omega
    | flag t' F' m' c' n' s' i' => rw [c] at c'; cases c'; rw [flagStep_det i i']

theorem step_mem {p q : Point} {a : Nat} (h : Step f input p a q) : a ∈ stateAddrs f p.state := by
  cases h <;> assumption

theorem step_cell {p q : Point} {a : Nat} (h : Step f input p a q) :
    ∃ t, f.cells[a]? = some t ∧ t.symIn ≠ 0xFFFF ∧ q.state = t.target := by
  cases h with
  | symbol t m c n s i => exact ⟨t, c, n, rfl⟩
  | flag t F m c n s i => exact ⟨t, c, n, rfl⟩

theorem path_snoc {p q r : Point} {as : List Nat} {a : Nat} (h : Path f input p as q) (hs : Step f input q a r) :
    Path f input p (as ++ [a]) r := by
  induction h with
  | nil p => exact .cons _ _ _ _ _ hs (.nil _)
  | cons p q' r' b bs h1 h2 ih => exact .cons _ _ _ _ _ h1 (ih hs)

theorem path_append {p r : Point} {as bs : List Nat} (h : Path f input p (as ++ bs) r) :
    ∃ q, Path f input p as q ∧ Path f input q bs r := by
  induction as generalizing p with
  | nil => exact ⟨p, .nil _, h⟩
  | cons a as ih =>
    cases h with
    | cons _ q _ _ _ h1 h2 =>
      obtain ⟨x, hx, hy⟩ := ih h2
      exact ⟨x, .cons _ _ _ _ _ h1 hx, hy⟩

theorem path_det {p q q' : Point} {as : List Nat} (h1 : Path f input p as q) (h2 : Path f input p as q') : q = q' := by
  induction h1 with
  | nil p => cases h2; rfl
  | cons p x r a as s h ih =>
    cases h2 with
    | cons _ x' _ _ _ s' h' =>
      cases step_det s s'
      exact ih h'

/-- The transition at address `a` finishes a reading at point `p`. -/
def Finishes (f : Fst) (input : List Nat) (pfx : Bool) (p : Point) (a : Nat) : Prop :=
  a ∈ stateAddrs f p.state ∧ ∃ t, f.cells[a]? = some t ∧ t.symIn = 0xFFFF ∧ (pfx = false → p.pos = input.length)

/-- The transition at address `a` is of no use at point `p`. -/
def Dead (f : Fst) (input : List Nat) (pfx : Bool) (p : Point) (a : Nat) : Prop :=
  ¬ Finishes f input pfx p a ∧ ∀ q, ¬ Step f input p a q

/-- An accepting path that continues a known path. -/
theorem accepting_split {pfx : Bool} {r : List Nat} {z : Nat} {rest : List Nat} {n : Nat} {e : Point}
    (h : Accepting f input pfx (r ++ z :: rest) n) (hr : Path f input (startPoint f) r e) :
    z ∈ stateAddrs f e.state ∧
      ((rest = [] ∧ Finishes f input pfx e z ∧ e.pos = n) ∨ (rest ≠ [] ∧ ∃ e', Step f input e z e')) := by
  obtain ⟨as, a, p, t, hq, hp, ha, ht, hs, hn, hl⟩ := h
  rcases List.eq_nil_or_concat rest with hr0 | ⟨rest', b, hr0⟩
  · subst hr0
    obtain ⟨h1, h2⟩ := List.append_inj' hq rfl
    cases h2
    subst h1
    cases path_det hp hr
    exact ⟨ha, .inl ⟨rfl, ⟨ha, t, ht, hs, fun x => hn.trans (hl x)⟩, hn⟩⟩
  · rw [List.concat_eq_append] at hr0
    subst hr0
    have hq' : (r ++ z :: rest') ++ [b] = as ++ [a] := by simpa using hq
    obtain ⟨h1, h2⟩ := List.append_inj' hq' rfl
    subst h1
    obtain ⟨x, hx, hy⟩ := path_append hp
    cases path_det hx hr
    cases hy with
    | cons _ q _ _ _ s h' => exact ⟨step_mem s, .inr ⟨by simp, q, s⟩⟩

/-- No accepting path continues another one. -/
theorem accepting_not_prefix {pfx : Bool} {q q' : List Nat} {n n' : Nat} (h : Accepting f input pfx q n)
    (h' : Accepting f input pfx q' n') (hp : q <+: q') : q = q' := by
  obtain ⟨as, a, p, t, hq, hpa, ha, ht, hs, hn, hl⟩ := h
  obtain ⟨ys, hy⟩ := hp
  cases ys with
  | nil => simpa using hy
  | cons y ys =>
    exfalso
    rw [hq, List.append_assoc, List.singleton_append] at hy
    rw [← hy] at h'
    rcases (accepting_split h' hpa).2 with ⟨h0, _⟩ | ⟨_, e', hst⟩
    · simp at h0
    · obtain ⟨t', ht', hn', _⟩ := step_cell hst
      rw [ht] at ht'
      cases ht'
      exact hn' hs

theorem accepting_total {pfx : Bool} {q q' : List Nat} {n n' : Nat} (h : Accepting f input pfx q n)
    (h' : Accepting f input pfx q' n') : Before q q' ∨ Before q' q ∨ q = q' := by
  rcases before_total q q' with h1 | h1 | h1 | h1
  · exact .inl h1
  · exact .inr (.inl h1)
  · exact .inr (.inr (accepting_not_prefix h h' h1))
  · exact .inr (.inr (accepting_not_prefix h' h h1).symm)

end

/-! ## The transitions of a state -/

theorem maxTc_spec {f : Fst} {S : Nat → Prop} (wf : WellFormed f S) {s : Nat} (hs : S s) :
    ∃ max, getMaxTc f s = some max ∧ s + max < f.cells.length ∧
      ∀ a, a ∈ stateAddrs f s ↔ s ≤ a ∧ a ≤ s + max ∧ ¬ (a = s + 1 ∧ 255 ≤ max) := by
  obtain ⟨h, hh, hm⟩ := wf.head s hs
  have htab := wf.table
  rcases hm with ⟨hm, hb⟩ | ⟨hm, oc, ho, hlo, hb⟩
  · refine ⟨h.more, ?_, hb, fun a => ?_⟩
    · simp only [getMaxTc, rd, hh, Option.bind_eq_bind, Option.bind_some, if_neg (by omega : ¬ h.more = 255)]
      rfl
    · simp only [stateAddrs, hh, if_neg (by omega : ¬ h.more = 255), List.mem_range'_1]
      omega
  · refine ⟨oc.overflow + 1, ?_, by omega, fun a => ?_⟩
    · simp only [getMaxTc, rd, hh, Option.bind_eq_bind, Option.bind_some, if_pos hm, ho, Option.pure_def]
      rw [Nat.mod_eq_of_lt (by omega)]
    · simp only [stateAddrs, hh, if_pos hm, ho, List.mem_cons, List.mem_range'_1]
      omega

/-- Contents of the log after a step with input symbol `sym`. -/
def logStep (f : Fst) (F : List Nat) (sym : Nat) (log : List (Nat × Nat)) : List (Nat × Nat) :=
  if f.firstNormal ≤ sym then log
  else if f.featureCount = 0 ∨ sym = 0 then log
  else
    match f.diacritics[sym]? with
    | none => log
    | some ofv => (ofv.feature, (F[ofv.feature]?).getD 0) :: log

theorem flagDecision_spec (ofv : Ofv) (cur : Nat) :
    (flagDecision ofv cur = none ∧ ∀ new, ¬ FlagRel ofv.op ofv.value cur new) ∨
      ∃ v u, flagDecision ofv cur = some (v, u) ∧ FlagRel ofv.op ofv.value cur (if u then v else cur) := by
  obtain ⟨op, fe, value⟩ := ofv
  unfold flagDecision FlagRel
  cases op with
  | P => exact .inr ⟨value, true, by simp⟩
  | C => exact .inr ⟨0, true, by simp⟩
  | U =>
    by_cases h1 : cur = 0
    · exact .inr ⟨value, true, by simp [h1]⟩
    · by_cases h2 : cur = value
      · refine .inr ⟨value, false, ?_, ?_⟩
        · simp only
          rw [if_pos h1, if_neg (by omega)]
        · exact .inr ⟨h1, h2, rfl⟩
      · exact .inl (by simp [h1, h2])
  | R =>
    simp only
    by_cases h1 : value = 1 <;> by_cases h2 : cur = 0
    · exact .inl ⟨if_pos ⟨h1, h2⟩, fun new h => by rw [if_pos h1] at h; exact h.2 h2⟩
    · exact .inr ⟨value, false, by rw [if_neg (by omega), if_neg (by omega)], rfl, by rw [if_pos h1]; exact h2⟩
    all_goals
      by_cases h3 : cur = value
      · exact .inr ⟨value, false, by rw [if_neg (by omega), if_neg (by omega)], rfl, by rw [if_neg h1]; exact h3⟩
      · exact .inl ⟨by rw [if_neg (by omega), if_pos ⟨h1, h3⟩], fun new h => by rw [if_neg h1] at h; exact h3 h.2⟩
  | D =>
    simp only
    by_cases h1 : value = 1 <;> by_cases h2 : cur = 0
    · exact .inr ⟨value, false, by rw [if_neg (by omega)], rfl, by rw [if_pos h1]; exact h2⟩
    · exact .inl ⟨if_pos (.inl ⟨h1, h2⟩), fun new h => by rw [if_pos h1] at h; exact h2 h.2⟩
    all_goals
      by_cases h3 : cur = value
      · exact .inl ⟨if_pos (.inr h3), fun new h => by rw [if_neg h1] at h; exact h.2 h3⟩
      · exact .inr ⟨value, false, by rw [if_neg (by omega)], rfl, by rw [if_neg h1]; exact h3⟩

theorem flagCheck_spec {f : Fst} {c : Conf} {sym : Nat} (hlt : sym < f.firstNormal) (hF : c.flags.length = f.featureCount)
    (hd : f.featureCount ≠ 0 → sym ≠ 0 → ∃ ofv, f.diacritics[sym]? = some ofv ∧ ofv.feature < f.featureCount)
    (hlog : c.log.length < c.bufferSize) :
    (flagCheck f c sym = some none ∧ ∀ F', ¬ FlagStep f c.flags sym F') ∨
      ∃ F', flagCheck f c sym = some (some (F', logStep f c.flags sym c.log)) ∧ FlagStep f c.flags sym F' := by
  by_cases hc : f.featureCount = 0 ∨ sym = 0
  · refine .inr ⟨c.flags, ?_, ?_⟩
    · simp only [flagCheck, if_pos hc, logStep, if_neg (by omega : ¬ f.firstNormal ≤ sym)]
      rfl
    · simp only [FlagStep, if_pos hc]
  · obtain ⟨ofv, ho, hfe⟩ := hd (fun h => hc (.inl h)) (fun h => hc (.inr h))
    obtain ⟨cur, hcur⟩ : ∃ cur, c.flags[ofv.feature]? = some cur := ⟨_, List.getElem?_eq_getElem (by omega)⟩
    have hself : c.flags.set ofv.feature cur = c.flags := by
      apply List.ext_getElem?
      intro i
      rw [List.getElem?_set]
      split
      · rename_i hi
        subst hi
        rw [if_pos (by omega), hcur]
      · rfl
    have e1 : flagCheck f c sym = (match flagDecision ofv cur with
        | none => some none
        | some (v, update) => some (some (if update then c.flags.set ofv.feature v else c.flags, (ofv.feature, cur) :: c.log))) := by
      simp only [flagCheck, if_neg hc, rd, ho, hcur, Option.bind_eq_bind, Option.bind_some]
      cases flagDecision ofv cur with
      | none => rfl
      | some p => simp only [if_neg (by omega : ¬ c.bufferSize ≤ c.log.length), Option.pure_def]
    have e2 : logStep f c.flags sym c.log = (ofv.feature, cur) :: c.log := by
      simp only [logStep, if_neg (by omega : ¬ f.firstNormal ≤ sym), if_neg hc, ho, hcur, Option.getD_some]
    have e3 : ∀ F', FlagStep f c.flags sym F' ↔ ∃ new, FlagRel ofv.op ofv.value cur new ∧ F' = c.flags.set ofv.feature new := by
      intro F'
      simp only [FlagStep, if_neg hc]
      constructor
      · rintro ⟨o, old, new, a, b, x, y⟩
        rw [ho] at a
        cases a
        rw [hcur] at b
        cases b
        exact ⟨new, x, y⟩
      · rintro ⟨new, x, y⟩
        exact ⟨ofv, cur, new, ho, hcur, x, y⟩
    have e4 : (flagDecision ofv cur = none ∧ ∀ new, ¬ FlagRel ofv.op ofv.value cur new) ∨
        ∃ v u, flagDecision ofv cur = some (v, u) ∧ FlagRel ofv.op ofv.value cur (if u then v else cur) := flagDecision_spec ofv cur
    rcases e4 with ⟨h1, h2⟩ | ⟨v, u, h1, h2⟩
    · refine .inl ⟨by rw [e1, h1], fun F' h => ?_⟩
      obtain ⟨new, x, _⟩ := (e3 F').1 h
      exact h2 new x
    · refine .inr ⟨if u then c.flags.set ofv.feature v else c.flags, by rw [e1, h1, e2], (e3 _).2 ⟨_, h2, ?_⟩⟩
      cases u
      · simp [hself]
      · simp

theorem flagStep_length {f : Fst} {F F' : List Nat} {sym : Nat} (h : FlagStep f F sym F') : F'.length = F.length := by
  unfold FlagStep at h
  split at h
  · rw [h]
  · obtain ⟨o, old, new, a, b, x, y⟩ := h
    rw [y, List.length_set]

/-! ## The loop over the transitions of a state -/

/-- The point of the path reached by a configuration. -/
def Conf.point (c : Conf) : Point := ⟨c.state, c.inputDepth, c.flags⟩

theorem scan_spec {f : Fst} {S : Nat → Prop} (wf : WellFormed f S) {c : Conf} (pfx : Bool) (hS : S c.state)
    (hin : ∀ x ∈ c.input, f.firstNormal ≤ x) (hF : c.flags.length = f.featureCount) (hlog : c.log.length < c.bufferSize)
    (hpos : c.inputDepth ≤ c.input.length)
    {max : Nat} (hmax : getMaxTc f c.state = some max) :
    ∀ k tc0, max + 1 ≤ tc0 + k →
      ∃ r, scan f c pfx max k tc0 = some r ∧
        match r with
        | .stop => ∀ a, c.state + tc0 ≤ a → Dead f c.input pfx (Conf.point c) a
        | .final idx => c.state + tc0 ≤ idx ∧ Finishes f c.input pfx (Conf.point c) idx ∧
            ∀ a, c.state + tc0 ≤ a → a < idx → Dead f c.input pfx (Conf.point c) a
        | .down idx t F log => c.state + tc0 ≤ idx ∧ f.cells[idx]? = some t ∧ log = logStep f c.flags t.symIn c.log ∧
            Step f c.input (Conf.point c) idx
              ⟨t.target, if f.firstNormal ≤ t.symIn then c.inputDepth + 1 else c.inputDepth, F⟩ ∧
            ∀ a, c.state + tc0 ≤ a → a < idx → Dead f c.input pfx (Conf.point c) a := by
  obtain ⟨max', hmax', hbound, haddr⟩ := maxTc_spec wf hS
  rw [hmax] at hmax'
  cases hmax'
  have dead_of_not_mem : ∀ a, a ∉ stateAddrs f c.state → Dead f c.input pfx (Conf.point c) a :=
    fun a ha => ⟨fun h => ha h.1, fun q hq => ha (step_mem hq)⟩
  intro k
  induction k with
  | zero =>
    intro tc0 hk
    refine ⟨_, rfl, fun a ha => dead_of_not_mem a fun hm => ?_⟩
    have := (haddr a).1 hm
    omega
  | succ k ih =>
    intro tc0 hk
    by_cases hgt : max < tc0
    · refine ⟨.stop, ?_, fun a ha => dead_of_not_mem a fun hm => ?_⟩
      · simp only [scan, if_pos hgt, Option.pure_def]
      · have := (haddr a).1 hm
        omega
    · obtain ⟨tc, htc⟩ : ∃ tc, tc = (if tc0 = 1 ∧ 255 ≤ max then 2 else tc0) := ⟨_, rfl⟩
      have htc1 : tc0 ≤ tc ∧ tc ≤ max ∧ ¬ (tc = 1 ∧ 255 ≤ max) ∧ (∀ a, tc0 ≤ a → a < tc → a = 1 ∧ 255 ≤ max) := by
        rw [htc]
        split <;> refine ⟨?_, ?_, ?_, ?_⟩ <;> omega
      have hmem : c.state + tc ∈ stateAddrs f c.state := (haddr _).2 (by omega)
      obtain ⟨t, ht⟩ : ∃ t, f.cells[c.state + tc]? = some t := ⟨_, List.getElem?_eq_getElem (by omega)⟩
      have hskip : ∀ a, c.state + tc0 ≤ a → a < c.state + tc → Dead f c.input pfx (Conf.point c) a := by
        intro a h1 h2
        refine dead_of_not_mem a fun hm => ?_
        have := (haddr a).1 hm
        have := htc1.2.2.2 (a - c.state) (by omega) (by omega)
        omega
      -- what remains if this transition is of no use
      have cont : Dead f c.input pfx (Conf.point c) (c.state + tc) →
          ∃ r, scan f c pfx max k (tc + 1) = some r ∧
          match r with
          | .stop => ∀ a, c.state + tc0 ≤ a → Dead f c.input pfx (Conf.point c) a
          | .final idx => c.state + tc0 ≤ idx ∧ Finishes f c.input pfx (Conf.point c) idx ∧
              ∀ a, c.state + tc0 ≤ a → a < idx → Dead f c.input pfx (Conf.point c) a
          | .down idx t F log => c.state + tc0 ≤ idx ∧ f.cells[idx]? = some t ∧ log = logStep f c.flags t.symIn c.log ∧
              Step f c.input (Conf.point c) idx
                ⟨t.target, if f.firstNormal ≤ t.symIn then c.inputDepth + 1 else c.inputDepth, F⟩ ∧
              ∀ a, c.state + tc0 ≤ a → a < idx → Dead f c.input pfx (Conf.point c) a := by
        intro hdead
        obtain ⟨r, hr, hP⟩ := ih (tc + 1) (by omega)
        have ext : ∀ a, c.state + tc0 ≤ a → (c.state + (tc + 1) ≤ a → Dead f c.input pfx (Conf.point c) a) →
            Dead f c.input pfx (Conf.point c) a := by
          intro a h1 h2
          rcases Nat.lt_trichotomy a (c.state + tc) with h | h | h
          · exact hskip a h1 h
          · exact h ▸ hdead
          · exact h2 (by omega)
        refine ⟨r, hr, ?_⟩
        cases r with
        | stop => exact fun a ha => ext a ha (hP a)
        | final idx => exact ⟨by omega, hP.2.1, fun a ha hl => ext a ha fun h => hP.2.2 a h hl⟩
        | down idx t F log => exact ⟨by omega, hP.2.1, hP.2.2.1, hP.2.2.2.1, fun a ha hl => ext a ha fun h => hP.2.2.2.2 a h hl⟩
      simp only [scan, if_neg hgt]
      rw [← htc]
      simp only [rd, ht, Option.bind_eq_bind, Option.bind_some]
      by_cases hfin : t.symIn = 0xFFFF
      · rw [if_pos hfin]
        have hns : ∀ q, ¬ Step f c.input (Conf.point c) (c.state + tc) q := by
          intro q hq
          obtain ⟨t', ht', hne, _⟩ := step_cell hq
          rw [ht] at ht'
          cases ht'
          exact hne hfin
        by_cases hc : c.inputDepth = c.input.length ∨ pfx = true
        · rw [if_pos hc]
          refine ⟨_, rfl, by omega, ⟨hmem, t, ht, hfin, fun hp => ?_⟩, hskip⟩
          rcases hc with h | h
          · exact h
          · rw [hp] at h
            cases h
        · rw [if_neg hc]
          refine cont ⟨?_, hns⟩
          rintro ⟨_, t', _, _, h⟩
          cases pfx
          · exact hc (.inl (h rfl))
          · exact hc (.inr rfl)
      · rw [if_neg hfin]
        have hnf : ¬ Finishes f c.input pfx (Conf.point c) (c.state + tc) := by
          rintro ⟨_, t', ht', h, _⟩
          rw [ht] at ht'
          cases ht'
          exact hfin h
        obtain ⟨_, _, hdia⟩ := wf.trans _ hS _ hmem t ht hfin
        by_cases hsym : c.input[c.inputDepth]? = some t.symIn
        · rw [if_pos hsym]
          have hnorm : f.firstNormal ≤ t.symIn := hin _ (List.mem_of_getElem? hsym)
          refine ⟨_, rfl, by omega, ht, ?_, ?_, hskip⟩
          · simp only [logStep, if_pos hnorm]
          · rw [if_pos hnorm]
            exact .symbol (Conf.point c) _ t hmem ht hfin hnorm hsym
        · rw [if_neg hsym]
          by_cases hlt : t.symIn < f.firstNormal
          · rw [if_pos hlt]
            rcases flagCheck_spec hlt hF (hdia hlt) hlog with ⟨h1, h2⟩ | ⟨F', h1, h2⟩
            · rw [h1]
              simp only [Option.bind_some]
              refine cont ⟨hnf, fun q hq => ?_⟩
              cases hq with
              | symbol t' m' c' n' s' i' => rw [ht] at c'; cases c'; omega
              | flag t' F m' c' n' s' i' => rw [ht] at c'; cases c'; exact h2 _ i'
            · rw [h1]
              simp only [Option.bind_some]
              refine ⟨_, rfl, by omega, ht, rfl, ?_, hskip⟩
              rw [if_neg (by omega)]
              exact .flag (Conf.point c) _ t F' hmem ht hfin hlt h2
          · rw [if_neg hlt]
            refine cont ⟨hnf, fun q hq => ?_⟩
            cases hq with
            | symbol t' m' c' n' s' i' => rw [ht] at c'; cases c'; exact hsym i'
            | flag t' F m' c' n' s' i' => rw [ht] at c'; cases c'; omega

end Verif.Props
