import Verif.Lemmas.FinnishStructure
import Verif.Spec.Letters
/-!
# Lemmas about the letters of a STRUCTURE
-/

namespace Verif.Letters
open Verif

set_option linter.unusedSimpArgs false
set_option linter.unusedVariables false

/-- The letters that are written for `n` characters without a pattern. -/
def defaults (title abbr : Bool) : Nat → List Wc
  | 0 => []
  | n + 1 => Ctx.letter { title := title, abbr := abbr } :: defaults false abbr n

theorem defaults_succ' (abbr : Bool) : ∀ (n : Nat) (title : Bool),
    defaults title abbr (n + 1) = defaults title abbr n ++ [Ctx.letter { title := title && n == 0, abbr := abbr }] := by
  intro n
  induction n with
  | zero => intro title; simp [defaults]
  | succ n ih =>
    intro title
    rw [defaults, ih, defaults]
    simp

theorem letter_isLetter (c : Ctx) : IsLetter c.letter := by
  rw [Ctx.letter]
  unfold IsLetter
  split <;> split <;> simp

theorem defaults_letters (abbr : Bool) : ∀ (n : Nat) (title : Bool), ∀ c ∈ defaults title abbr n, IsLetter c := by
  intro n
  induction n with
  | zero => intro _ c hc; cases hc
  | succ n ih =>
    intro title c hc
    rcases List.mem_cons.1 hc with rfl | hc
    · exact letter_isLetter _
    · exact ih _ c hc

theorem strip_defaults (title abbr : Bool) (n : Nat) : strip (defaults title abbr n) = defaults title abbr n :=
  strip_id fun c hc => (defaults_letters abbr n title c hc).ne.1

theorem push_inv {cap : Nat} {buf st : List Wc} {c : Wc} (h : push cap buf c = some st) : st = buf ++ [c] := by
  rw [push] at h
  split at h
  · exact (Option.some.inj h).symm
  · cases h

theorem createDefault_inv {cap : Nat} : ∀ {n : Nat} {p p' : PState}, createDefault cap n p = some p' →
    p' = { p with st := p.st ++ defaults p.titleCase p.isAbbr n, titleCase := p.titleCase && n == 0 } := by
  intro n
  induction n with
  | zero =>
    intro p p' h
    rw [createDefault] at h
    rw [← Option.some.inj h]
    simp [defaults]
  | succ n ih =>
    intro p p' h
    rw [createDefault] at h
    split at h
    · rename_i ht
      obtain ⟨st, h1, h2⟩ := Option.bind_eq_some_iff.1 h
      rw [ih h2, push_inv h1]
      simp [defaults, Ctx.letter, ht]
    · rename_i ht
      obtain ⟨st, h1, h2⟩ := Option.bind_eq_some_iff.1 h
      have ht' : p.titleCase = false := by simpa using ht
      rw [ih h2, push_inv h1]
      simp [defaults, Ctx.letter, ht']

theorem flushSeen_inv {cap : Nat} {p p' : PState} {pend : Nat} (hs : p.seen = p.fromDefault + pend) (h : flushSeen cap p = some p') :
    ∃ m, p' = { p with st := p.st ++ defaults p.titleCase p.isAbbr pend, titleCase := p.titleCase && pend == 0, missing := m } := by
  rw [flushSeen] at h
  split at h
  · obtain ⟨q, h1, h2⟩ := Option.bind_eq_some_iff.1 h
    have e : p.seen - p.fromDefault = pend := by omega
    rw [e] at h1
    have hq := createDefault_inv h1
    rw [decreaseMissing] at h2
    split at h2
    · refine ⟨q.missing - (q.seen - q.fromDefault), ?_⟩
      rw [← Option.some.inj h2, hq]
    · cases h2
  · have : pend = 0 := by omega
    subst this
    exact ⟨p.missing, by rw [← Option.some.inj h]; simp [defaults]⟩

/-- The letters `L` have been described, up to `pend` of them that are not in the structure string yet. -/
structure LInv (c : Ctx) (L : List Wc) (pend : Nat) (p : PState) : Prop where
  eq : strip p.st ++ defaults p.titleCase p.isAbbr pend = L ++ c.need
  cnt : p.seen + c.need.length = p.fromDefault + pend
  one : pend = 0 ∨ c.need = []
  abbr : c.abbr = p.isAbbr
  title : c.title = (p.titleCase && pend == 0)

/-- A mark-up item that only sets the case of the next letter. -/
theorem LInv.flags {c c' : Ctx} {L : List Wc} {pend : Nat} {p : PState} (h : LInv c L pend p) (hn : c'.need = c.need)
    (ho : 0 < pend → c' = c) {t a : Bool} (ht : c'.title = (t && pend == 0)) (ha : c'.abbr = a)
    (hk : 0 < pend → t = p.titleCase) : LInv c' L pend { p with titleCase := t, isAbbr := a } := by
  refine ⟨?_, by rw [hn]; exact h.cnt, by rw [hn]; exact h.one, ha, ht⟩
  show strip p.st ++ defaults t a pend = L ++ c'.need
  rw [hn, ← h.eq]
  rcases Nat.eq_zero_or_pos pend with h0 | h0
  · subst h0; rfl
  · rw [hk h0]
    have : a = p.isAbbr := by rw [← ha, ho h0, h.abbr]
    rw [this]

theorem pushed {st : List Wc} {c : Wc} (hc : c ≠ 0x3D) : strip (st ++ [c]) = strip st ++ [c] := by
  rw [strip_append, strip_id (t := [c]) (by simpa using hc)]

theorem bindO {α β : Type} {x : UB α} {f : α → UB β} {y : β} {a : α} (hx : x = some a) (h : (x >>= f) = some y) : f a = some y := by
  rw [hx] at h
  exact h

/-- A character of the word. -/
theorem psStep_chr {cap : Nat} {pre t : List Wc} {x : Wc} {c : Ctx} {L : List Wc} {pend : Nat} {p : PState} {s : Nat × PState}
    (hx : x ≠ 0x5B) (hpre : x = 0x2D → pre ≠ []) (hcol : c.need = [] → x = 0x3A → c.abbr = true ∨ pend = 0)
    (hneed : c.need ≠ [] → x ≠ 0x3A) (hlen : x = 0x2D → c.need ≠ [] → 2 ≤ p.st.length)
    (hempty : p.st ≠ []) (h : LInv c L pend p) (hs : psStep (pre ++ x :: t) cap pre.length p = some s) :
    ∃ pend', LInv (c.pass x) (L ++ [c.describe x]) pend' s.2 ∧
      ((c.need.isEmpty && x != 0x2D && x != 0x3A) = false → pend' = 0) := by
  have hcnt := h.cnt
  rw [psStep] at hs
  replace hs := bindO (by rw [rdz_app0]; rfl) hs
  rw [if_neg fun e => hx e.1] at hs
  cases hc : c.need with
  | cons q qs =>
    have hp0 : pend = 0 := h.one.resolve_right (by rw [hc]; simp)
    subst hp0
    have hnc := hneed (by rw [hc]; simp)
    have hpass : c.pass x = { c with need := qs } := by rw [Ctx.pass, hc]
    have hd : c.describe x = q := by rw [Ctx.describe, hc]
    rw [hpass, hd]
    rw [hc, List.length_cons] at hcnt
    have he := h.eq
    rw [hc] at he
    have fin : ∀ m, LInv { c with need := qs } (L ++ [q]) 0 { p with seen := p.seen + 1, missing := m } := fun m =>
      ⟨by simpa using he, by show p.seen + 1 + qs.length = p.fromDefault + 0; omega, Or.inl rfl, h.abbr, h.title⟩
    split at hs
    · rename_i hy
      have hp := List.length_pos_iff.2 (hpre hy)
      have hl := hlen hy (by rw [hc]; simp)
      obtain ⟨p', h1, h2⟩ := Option.bind_eq_some_iff.1 hs
      rw [psHyphen, if_neg (by omega), if_pos (by omega), if_neg (by omega)] at h1
      replace h1 := bindO rfl h1
      have : ¬ (p.st.length = 1) := by omega
      have h3 : p' = { p with seen := p.seen + 1, missing := p'.missing } := by
        by_cases hm : p.missing = 0
        · simp [hm, this] at h1; rw [← h1]
        · simp [hm, this] at h1; rw [← h1]
      refine ⟨0, ?_, fun _ => rfl⟩
      rw [← Option.some.inj h2]
      show LInv _ _ 0 p'
      rw [h3]
      exact fin _
    · rename_i hy
      refine ⟨0, ?_, fun _ => rfl⟩
      rw [← Option.some.inj hs]
      exact fin p.missing
  | nil =>
    rw [hc, List.length_nil, Nat.add_zero] at hcnt
    have he := h.eq
    rw [hc, List.append_nil] at he
    split at hs
    · rename_i hy
      have hp := List.length_pos_iff.2 (hpre hy)
      have hpass : c.pass x = c := by rw [Ctx.pass, hc]; simp [hy]
      have hd : c.describe x = 0x2D := by rw [Ctx.describe, hc]; simp [hy]
      rw [hpass, hd]
      have pne := List.length_pos_iff.2 hempty
      obtain ⟨p', h1, h2⟩ := Option.bind_eq_some_iff.1 hs
      have h3 : ∃ a b m, p' = { p with st := p.st ++ defaults p.titleCase p.isAbbr pend ++ [0x2D], titleCase := p.titleCase && pend == 0, seen := a, fromDefault := b, missing := m } ∧ a = b := by
        rw [psHyphen] at h1
        obtain ⟨p1, h3, h4⟩ := Option.bind_eq_some_iff.1 h1
        have h5 : ∃ a b m, p1 = { p with st := p.st ++ defaults p.titleCase p.isAbbr pend ++ [0x2D], titleCase := p.titleCase && pend == 0, seen := a, fromDefault := b, missing := m } ∧ a = b := by
          split at h3
          · obtain ⟨p2, h5, h6⟩ := Option.bind_eq_some_iff.1 h3
            obtain ⟨st, h7, h8⟩ := Option.bind_eq_some_iff.1 h6
            obtain ⟨m, hm⟩ := flushSeen_inv hcnt h5
            refine ⟨0, 0, m, ?_, rfl⟩
            rw [← Option.some.inj h8, push_inv h7, hm]
          · have hp0 : pend = 0 := by omega
            subst hp0
            rw [if_pos (by omega), if_pos (by omega)] at h3
            obtain ⟨st, h7, h8⟩ := Option.bind_eq_some_iff.1 h3
            refine ⟨p.seen, p.fromDefault, p.missing, ?_, by omega⟩
            rw [← Option.some.inj h8, push_inv h7]
            simp [defaults]
        obtain ⟨a, b, m, h5, h6⟩ := h5
        have hl : ¬ p1.st.length = 1 := by rw [h5]; simp; omega
        simp only at h4
        by_cases hm : p1.missing = 0
        · simp [hm, hl] at h4
          exact ⟨a, b, m, by rw [← h4]; exact h5, h6⟩
        · simp [hm, hl] at h4
          exact ⟨a, b, m - 1, by rw [← h4, h5], h6⟩
      obtain ⟨a, b, m, h3, h4⟩ := h3
      refine ⟨0, ?_, fun _ => rfl⟩
      rw [← Option.some.inj h2]
      show LInv _ _ 0 p'
      rw [h3]
      refine ⟨?_, by rw [hc]; exact h4, Or.inl rfl, h.abbr, ?_⟩
      · show strip (p.st ++ defaults p.titleCase p.isAbbr pend ++ [0x2D]) ++ [] = _
        rw [hc, List.append_nil, List.append_nil, pushed (by decide), strip_append, strip_defaults, he]
      · show c.title = (p.titleCase && pend == 0 && true)
        rw [h.title]; simp
    · rename_i hy
      split at hs
      · rename_i hcl
        have hpass : c.pass x = { c with abbr := false } := by rw [Ctx.pass, hc]; simp [hcl]
        have hd : c.describe x = 0x3A := by rw [Ctx.describe, hc]; simp [hcl]
        rw [hpass, hd]
        obtain ⟨p', h1, h2⟩ := Option.bind_eq_some_iff.1 hs
        rw [psColon] at h1
        obtain ⟨p1, h3, h4⟩ := Option.bind_eq_some_iff.1 h1
        have h5 : ∃ a b m, p1 = { p with st := p.st ++ defaults p.titleCase p.isAbbr pend, titleCase := p.titleCase && pend == 0, seen := a, fromDefault := b, missing := m, isAbbr := false } ∧ a = b := by
          split at h3
          · rename_i hab
            obtain ⟨p2, h5, h6⟩ := Option.bind_eq_some_iff.1 h3
            split at h5
            · obtain ⟨p3, h7, h8⟩ := Option.bind_eq_some_iff.1 h5
              obtain ⟨m, hm⟩ := flushSeen_inv hcnt h7
              refine ⟨0, 0, m, ?_, rfl⟩
              rw [← Option.some.inj h6, ← Option.some.inj h8, hm]
            · have hp0 : pend = 0 := by omega
              subst hp0
              refine ⟨p.seen, p.fromDefault, p.missing, ?_, by omega⟩
              rw [← Option.some.inj h6, ← Option.some.inj h5]
              simp [defaults]
          · rename_i hab
            have hab' : p.isAbbr = false := by simpa using hab
            have hp0 : pend = 0 := by
              rcases hcol hc hcl with h0 | h0
              · rw [h.abbr, hab'] at h0; cases h0
              · exact h0
            subst hp0
            refine ⟨p.seen, p.fromDefault, p.missing, ?_, by omega⟩
            rw [← Option.some.inj h3, ← hab']
            simp [defaults]
        obtain ⟨a, b, m, h5, h6⟩ := h5
        obtain ⟨st, h7, h8⟩ := Option.bind_eq_some_iff.1 h4
        refine ⟨0, ?_, fun _ => rfl⟩
        rw [← Option.some.inj h2, ← Option.some.inj h8, push_inv h7, h5]
        refine ⟨?_, by show a + c.need.length = b + 0; rw [hc]; exact h6, Or.inl rfl, rfl, ?_⟩
        · show strip (p.st ++ defaults p.titleCase p.isAbbr pend ++ [0x3A]) ++ [] = L ++ [0x3A] ++ c.need
          rw [hc, List.append_nil, List.append_nil, pushed (by decide), strip_append, strip_defaults, he]
        · show c.title = (p.titleCase && pend == 0 && true)
          rw [h.title]; simp
      · rename_i hcl
        have hpass : c.pass x = { c with title := false } := by rw [Ctx.pass, hc]; simp [hcl, hy]
        have hd : c.describe x = c.letter := by rw [Ctx.describe, hc]; simp [hcl, hy]
        rw [hpass, hd]
        refine ⟨pend + 1, ?_, fun e => by simp [hc, hcl, hy] at e⟩
        rw [← Option.some.inj hs]
        refine ⟨?_, ?_, Or.inr hc, h.abbr, ?_⟩
        · show strip p.st ++ defaults p.titleCase p.isAbbr (pend + 1) = L ++ [c.letter] ++ c.need
          rw [hc, defaults_succ', ← List.append_assoc, he, List.append_nil]
          congr 2
          rw [Ctx.letter, Ctx.letter, h.title, h.abbr]
        · show p.seen + 1 + c.need.length = p.fromDefault + (pend + 1)
          rw [hc]; simp; omega
        · show false = (p.titleCase && (pend + 1 == 0))
          simp

/-- A boundary. -/
theorem psStep_bound {cap : Nat} {pre t : List Wc} {b : Wc} {c : Ctx} {L : List Wc} {pend : Nat} {p : PState} {s : Nat × PState}
    (hb : b ≠ 0x68) (hc : c.need = []) (h1 : pre.length = 1 → pend = 0) (h : LInv c L pend p)
    (hs : psStep (pre ++ (0x5B :: 0x42 :: b :: 0x5D :: t)) cap pre.length p = some s) : LInv c L 0 s.2 := by
  have hcnt := h.cnt
  rw [hc, List.length_nil, Nat.add_zero] at hcnt
  have he := h.eq
  rw [hc, List.append_nil] at he
  have hlen : (pre ++ (0x5B :: 0x42 :: b :: 0x5D :: t)).length = pre.length + t.length + 4 := by simp; omega
  rw [psStep] at hs
  replace hs := bindO (a := 0x5B) (by rw [rdz_app0]; rfl) hs
  rw [if_pos ⟨rfl, by omega⟩, psBracket] at hs
  replace hs := bindO (a := 0x42) (by rw [rdz_app]; rfl) hs
  replace hs := bindO (a := b) (by rw [rdz_app]; rfl) hs
  replace hs := bindO (a := 0x5D) (by rw [if_pos (by omega), rdz_app]; rfl) hs
  rw [if_pos ⟨by omega, rfl, hb, rfl⟩, psBoundary] at hs
  obtain ⟨p1, g1, hs⟩ := Option.bind_eq_some_iff.1 hs
  obtain ⟨p2, g2, hs⟩ := Option.bind_eq_some_iff.1 hs
  obtain ⟨last, g3, hs⟩ := Option.bind_eq_some_iff.1 hs
  obtain ⟨p3, g4, hs⟩ := Option.bind_eq_some_iff.1 hs
  have eqs : ∀ st : List Wc, strip (st ++ [0x3D]) = strip st := fun st => by rw [strip_append]; simp [strip]
  have e1 : ∃ st, strip st = strip p.st ∧ p1 = { p with st := st } ∧ (pre.length ≠ 1 → st = p.st) := by
    split at g1
    · rename_i hp
      obtain ⟨st, k1, k2⟩ := Option.bind_eq_some_iff.1 g1
      exact ⟨st, by rw [push_inv k1, eqs], (Option.some.inj k2).symm, fun e => absurd hp e⟩
    · exact ⟨p.st, rfl, (Option.some.inj g1).symm, fun _ => rfl⟩
  obtain ⟨st, e1, e2, -⟩ := e1
  obtain ⟨m, e3⟩ := flushSeen_inv (pend := pend) (by rw [e2]; exact hcnt) g2
  have e4 : ∃ st, strip st = strip p2.st ∧ p3 = { p2 with st := st } := by
    split at g4
    · obtain ⟨st, k1, k2⟩ := Option.bind_eq_some_iff.1 g4
      exact ⟨st, by rw [push_inv k1, eqs], (Option.some.inj k2).symm⟩
    · exact ⟨p2.st, rfl, (Option.some.inj g4).symm⟩
  obtain ⟨st', e4, e5⟩ := e4
  rw [← Option.some.inj hs]
  have e6 : strip p2.st = L := by
    rw [e3]
    show strip (p1.st ++ defaults p1.titleCase p1.isAbbr pend) = L
    rw [e2, strip_append, strip_defaults]
    show strip st ++ _ = L
    rw [e1, he]
  refine ⟨?_, by rw [hc]; rfl, Or.inl rfl, ?_, ?_⟩
  · show strip p3.st ++ [] = L ++ c.need
    rw [hc, List.append_nil, List.append_nil, e5]
    exact e4.trans e6
  · show c.abbr = p3.isAbbr
    rw [e5, e3, e2]; exact h.abbr
  · show c.title = (p3.titleCase && true)
    rw [e5, e3, e2, Bool.and_true]; exact h.title

/-- The beginning of a bracket. -/
theorem psStep_bracket {cap : Nat} {pre t : List Wc} {a b d : Wc} {p : PState} {s : Nat × PState}
    (hs : psStep (pre ++ (0x5B :: a :: b :: d :: t)) cap pre.length p = some s) (ha : a = 0x42 → b = 0x68) :
    (a = 0x58 ∧ d = 0x5D ∧ psSection (pre ++ (0x5B :: a :: b :: d :: t)) cap pre.length p = some s) ∨
    (a = 0x4C ∧ psClass (pre ++ (0x5B :: a :: b :: d :: t)) pre.length p = some s) ∨ (¬ (a = 0x58 ∧ d = 0x5D) ∧ s.2 = p) := by
  have hlen : (pre ++ (0x5B :: a :: b :: d :: t)).length = pre.length + t.length + 4 := by simp; omega
  rw [psStep] at hs
  replace hs := bindO (a := 0x5B) (by rw [rdz_app0]; rfl) hs
  rw [if_pos ⟨rfl, by omega⟩, psBracket] at hs
  replace hs := bindO (a := a) (by rw [rdz_app]; rfl) hs
  replace hs := bindO (a := b) (by rw [rdz_app]; rfl) hs
  replace hs := bindO (a := d) (by rw [if_pos (by omega), rdz_app]; rfl) hs
  rw [if_neg (fun e => e.2.2.1 (ha e.2.1))] at hs
  split at hs
  · rename_i hk
    exact Or.inl ⟨hk.2.1, hk.2.2, hs⟩
  · rename_i hX
    split at hs
    · rename_i hk
      exact Or.inr (Or.inl ⟨hk.2, hs⟩)
    · obtain ⟨i, _, k2⟩ := Option.bind_eq_some_iff.1 hs
      refine Or.inr (Or.inr ⟨fun e => hX ⟨by omega, e⟩, ?_⟩)
      rw [← Option.some.inj k2]

/-- Another tag. -/
theorem psStep_tag {cap : Nat} {pre t : List Wc} {name : List Wc} {p : PState} {s : Nat × PState}
    (hc : ∃ c u, name = c :: u ∧ ((c ≠ 0x58 ∧ c ≠ 0x4C ∧ c ≠ 0x42) ∨ name = [0x42, 0x68]))
    (hs : psStep (pre ++ (0x5B :: (name ++ 0x5D :: t))) cap pre.length p = some s) : s.2 = p := by
  obtain ⟨c, u, rfl, hc⟩ := hc
  have hlen : (pre ++ (0x5B :: (c :: u ++ 0x5D :: t))).length = pre.length + u.length + t.length + 3 := by simp; omega
  rw [psStep] at hs
  replace hs := bindO (a := 0x5B) (by rw [rdz_app0]; rfl) hs
  rw [if_pos ⟨rfl, by omega⟩, psBracket] at hs
  replace hs := bindO (a := c) (by rw [rdz_app]; rfl) hs
  obtain ⟨c2, k2, hs⟩ := Option.bind_eq_some_iff.1 hs
  obtain ⟨c3, k3, hs⟩ := Option.bind_eq_some_iff.1 hs
  have hB : c = 0x42 → c2 = 0x68 := by
    intro e
    rcases hc with hc | hc
    · exact absurd e hc.2.2
    · cases hc
      rw [rdz_app] at k2
      exact (Option.some.inj k2).symm
  have hL : c ≠ 0x4C ∧ c ≠ 0x58 := by
    rcases hc with hc | hc
    · exact ⟨hc.2.1, hc.1⟩
    · cases hc; decide
  rw [if_neg (fun e => e.2.2.1 (hB e.2.1)), if_neg (fun e => hL.2 e.2.1), if_neg (fun e => hL.1 e.2)] at hs
  obtain ⟨i, _, k4⟩ := Option.bind_eq_some_iff.1 hs
  rw [← Option.some.inj k4]

/-- A class of one character. -/
theorem psStep_cls {cap : Nat} {pre t : List Wc} {k : Wc} {p : PState} {s : Nat × PState} (hk : k ≠ 0x65)
    (hs : psStep (pre ++ (0x5B :: 0x4C :: k :: 0x5D :: t)) cap pre.length p = some s) :
    s.2 = { p with isAbbr := k == 0x61 || (k == 0x75 && digitFirst t) } := by
  have hlen : (pre ++ (0x5B :: 0x4C :: k :: 0x5D :: t)).length = pre.length + t.length + 4 := by simp; omega
  rw [psStep] at hs
  replace hs := bindO (a := 0x5B) (by rw [rdz_app0]; rfl) hs
  rw [if_pos ⟨rfl, by omega⟩, psBracket] at hs
  replace hs := bindO (a := 0x4C) (by rw [rdz_app]; rfl) hs
  replace hs := bindO (a := k) (by rw [rdz_app]; rfl) hs
  replace hs := bindO (a := 0x5D) (by rw [if_pos (by omega), rdz_app]; rfl) hs
  rw [if_neg (by simp), if_neg (by simp), if_pos ⟨by omega, rfl⟩, psClass] at hs
  replace hs := bindO (a := k) (by rw [rdz_app]; rfl) hs
  replace hs := bindO (a := 0x5D) (by rw [rdz_app]; rfl) hs
  rw [if_neg hk, if_neg (by simp)] at hs
  split at hs
  · rename_i ha
    rw [← Option.some.inj hs]
    simp [ha]
  · rename_i ha
    obtain ⟨num, k1, hs⟩ := Option.bind_eq_some_iff.1 hs
    have hnum : num = (k == 0x75 && digitFirst t) := by
      split at k1
      · rename_i hu
        rw [if_neg (by decide)] at k1
        obtain ⟨c4, k2, k3⟩ := Option.bind_eq_some_iff.1 k1
        rw [rdz_app] at k2
        match t, hu.2, k2 with
        | d :: e :: t, _, k2 =>
          have : c4 = d := (Option.some.inj k2).symm
          rw [← Option.some.inj k3, this, hu.1]
          rfl
        | [d], hu2, _ => simp at hu2
        | [], hu2, _ => simp at hu2
      · rename_i hu
        rw [← Option.some.inj k1]
        by_cases hku : k = 0x75
        · have : t.length < 2 := by
            have : ¬ (pre.length + 5 < pre.length + t.length + 4) := fun e => hu ⟨hku, by omega⟩
            omega
          match t, this with
          | [], _ => simp [digitFirst]
          | [_], _ => simp [digitFirst]
        · simp [hku]
    rw [hnum] at hs
    split at hs
    · rename_i hd
      rw [← Option.some.inj hs]
      simp [hd, ha]
    · rename_i hd
      rw [← Option.some.inj hs]
      simp only [Bool.not_eq_true] at hd
      simp [hd, ha]

/-- A class of two characters. -/
theorem psStep_cls2 {cap : Nat} {pre t : List Wc} {k d : Wc} {p : PState} {s : Nat × PState}
    (hk : k = 0x65 ∨ (k = 0x6E ∧ d = 0x6C) ∨ (k = 0x75 ∧ d = 0x72 ∧ t ≠ []))
    (hs : psStep (pre ++ (0x5B :: 0x4C :: k :: d :: 0x5D :: t)) cap pre.length p = some s) :
    s.2 = { p with titleCase := k == 0x65 || p.titleCase, isAbbr := k == 0x75 } := by
  have hlen : (pre ++ (0x5B :: 0x4C :: k :: d :: 0x5D :: t)).length = pre.length + t.length + 5 := by simp; omega
  rw [psStep] at hs
  replace hs := bindO (a := 0x5B) (by rw [rdz_app0]; rfl) hs
  rw [if_pos ⟨rfl, by omega⟩, psBracket] at hs
  replace hs := bindO (a := 0x4C) (by rw [rdz_app]; rfl) hs
  replace hs := bindO (a := k) (by rw [rdz_app]; rfl) hs
  replace hs := bindO (a := d) (by rw [if_pos (by omega), rdz_app]; rfl) hs
  rw [if_neg (by simp), if_neg (by simp), if_pos ⟨by omega, rfl⟩, psClass] at hs
  replace hs := bindO (a := k) (by rw [rdz_app]; rfl) hs
  replace hs := bindO (a := d) (by rw [rdz_app]; rfl) hs
  rcases hk with rfl | ⟨rfl, rfl⟩ | ⟨rfl, rfl, ht⟩
  · rw [if_pos rfl] at hs
    rw [← Option.some.inj hs]
    simp
  · rw [if_neg (by decide), if_pos ⟨rfl, rfl⟩] at hs
    rw [← Option.some.inj hs]
    simp
  · have htl := List.length_pos_iff.2 ht
    rw [if_neg (by decide), if_neg (by decide), if_neg (by decide)] at hs
    replace hs := bindO (a := true) (by rw [if_pos ⟨rfl, by omega⟩]; rfl) hs
    rw [if_pos rfl] at hs
    rw [← Option.some.inj hs]
    simp

/-- A section that is not a pattern. -/
theorem psStep_sect {cap : Nat} {pre t : List Wc} {k : Wc} {p : PState} {s : Nat × PState} (hk : k ≠ 0x72)
    (hs : psStep (pre ++ (0x5B :: 0x58 :: k :: 0x5D :: t)) cap pre.length p = some s) : s.2 = p := by
  rcases psStep_bracket hs (by simp) with ⟨_, _, hs⟩ | ⟨h, _⟩ | hs
  · rw [psSection] at hs
    replace hs := bindO (a := k) (by rw [rdz_app]; rfl) hs
    rw [if_neg hk] at hs
    obtain ⟨i, _, k4⟩ := Option.bind_eq_some_iff.1 hs
    rw [← Option.some.inj k4]
  · cases h
  · exact hs.2

theorem xrLoop_inv {cap : Nat} : ∀ (q pre t : List Wc) (f : Nat) (p : PState) (r : Nat × PState),
    xrLoop (pre ++ (q ++ 0x5B :: t)) cap f pre.length p = some r →
    ∃ a b n m, q = a ++ b ∧ r.2 = { p with st := p.st ++ a, fromDefault := n, missing := m } := by
  intro q
  induction q with
  | nil =>
    intro pre t f p r h
    cases f with
    | zero => rw [xrLoop] at h; cases h
    | succ f =>
      rw [xrLoop] at h
      replace h := bindO (a := 0x5B) (by rw [rdz_app0]; rfl) h
      rw [if_neg (by simp)] at h
      exact ⟨[], [], p.fromDefault, p.missing, rfl, by rw [← Option.some.inj h]; simp⟩
  | cons x q ih =>
    intro pre t f p r h
    cases f with
    | zero => rw [xrLoop] at h; cases h
    | succ f =>
      have e : pre ++ (x :: q ++ 0x5B :: t) = pre ++ [x] ++ (q ++ 0x5B :: t) := by simp
      have hl : (pre ++ [x]).length = pre.length + 1 := by simp
      have next : ∀ p', p'.st = p.st ++ [x] → p'.titleCase = p.titleCase → p'.isAbbr = p.isAbbr → p'.seen = p.seen →
          xrLoop (pre ++ (x :: q ++ 0x5B :: t)) cap f (pre.length + 1) p' = some r →
          ∃ a b n m, x :: q = a ++ b ∧ r.2 = { p with st := p.st ++ a, fromDefault := n, missing := m } := by
        intro p' h1 h2 h3 h4 h
        rw [e, ← hl] at h
        obtain ⟨a, b, n, m, g1, g2⟩ := ih (pre ++ [x]) t f p' r h
        refine ⟨x :: a, b, n, m, by rw [g1]; rfl, ?_⟩
        rw [g2, h1, h2, h3, h4]
        simp
      rw [xrLoop] at h
      replace h := bindO (a := x) (by rw [rdz_app0]; rfl) h
      split at h
      · obtain ⟨st, k1, h⟩ := Option.bind_eq_some_iff.1 h
        have := push_inv k1
        subst this
        split at h
        · split at h
          · exact next _ (by rfl) (by rfl) (by rfl) (by rfl) h
          · exact next _ (by rfl) (by rfl) (by rfl) (by rfl) h
        · exact next _ (by rfl) (by rfl) (by rfl) (by rfl) h
      · exact ⟨[], x :: q, p.fromDefault, p.missing, rfl, by rw [← Option.some.inj h]; simp⟩

/-- A pattern; that all of it is copied is known from the lengths. -/
theorem psStep_pat {cap n : Nat} {pre t q : List Wc} {c : Ctx} {done L : List Wc} {R R' : Nat} {B B' : Nat → Prop} {p : PState} {s : Nat × PState}
    (hc : c.need = []) (h : LInv c L 0 p) (hi : SInv n done [] 0 R B p) (hi' : SInv n done (strip q) 0 R' B' s.2)
    (hs : psStep (pre ++ (0x5B :: 0x58 :: 0x72 :: 0x5D :: (q ++ 0x5B :: 0x58 :: 0x5D :: t))) cap pre.length p = some s) :
    LInv { c with need := strip q, title := false } L 0 s.2 := by
  have he := h.eq
  rw [hc, List.append_nil] at he
  rcases psStep_bracket hs (by simp) with ⟨_, _, hs⟩ | ⟨h, _⟩ | hs
  · rw [psSection] at hs
    replace hs := bindO (a := 0x72) (by rw [rdz_app]; rfl) hs
    rw [if_pos rfl] at hs
    obtain ⟨r, k1, k2⟩ := Option.bind_eq_some_iff.1 hs
    have e : pre ++ (0x5B :: 0x58 :: 0x72 :: 0x5D :: (q ++ 0x5B :: 0x58 :: 0x5D :: t))
        = pre ++ [0x5B, 0x58, 0x72, 0x5D] ++ (q ++ 0x5B :: 0x58 :: 0x5D :: t) := by simp
    have e2 : (pre ++ [0x5B, 0x58, 0x72, 0x5D]).length = pre.length + 4 := by simp
    rw [e, ← e2] at k1
    obtain ⟨a, b, n', m, g1, g2⟩ := xrLoop_inv _ _ _ _ _ _ k1
    have hs2 : s.2 = r.2 := by rw [← Option.some.inj k2]
    have hw := hi.written
    have hw' := hi'.written
    have hst : s.2.st = p.st ++ a := by rw [hs2, g2]
    rw [hst, strip_append, List.length_append] at hw'
    simp only [List.length_nil, Nat.add_zero] at hw hw'
    have hqa : strip q = strip a := by
      rw [g1, strip_append] at hw' ⊢
      rw [List.length_append] at hw'
      rw [List.length_eq_zero_iff.1 (show (strip b).length = 0 by omega), List.append_nil]
    have hcnt := hi'.cnt
    refine ⟨?_, hcnt, Or.inl rfl, ?_, ?_⟩
    · rw [hst, strip_append, hqa]
      simp only [defaults, List.append_nil] at he ⊢
      rw [he]
    · rw [hs2, g2]; exact h.abbr
    · rw [hs2, g2]; rfl
  · cases h
  · exact absurd ⟨rfl, rfl⟩ hs.1

/-! ## The loop -/

theorem mark_cls (c : Ctx) (r : List SItem) (k : Wc) :
    c.mark r (.cls k) = { c with abbr := k == 0x61 || (k == 0x75 && digitFirst (render r)) } := by
  by_cases h1 : k = 0x61
  · subst h1; rfl
  · by_cases h2 : k = 0x75
    · subst h2; rfl
    · rw [Ctx.mark]
      · simp [h1, h2]
      · exact fun e => h1 e
      · exact fun e => h2 e

theorem mark_cls2 (c : Ctx) (r : List SItem) {k d : Wc} :
    c.mark r (.cls2 k d) = { c with title := k == 0x65 || c.title, abbr := k == 0x75 } := by
  by_cases h1 : k = 0x65
  · subst h1; rfl
  · by_cases h2 : k = 0x75
    · subst h2; rfl
    · rw [Ctx.mark]
      · simp [h1, h2]
      · exact fun e => h1 e
      · exact fun e => h2 e

theorem psLoop_letters (n : Nat) : ∀ (r : List SItem) (pre done need : List Wc) (pb : Bool) (pend : Nat) (B : Nat → Prop) (p : PState) (f : Nat)
    (c : Ctx) (L : List Wc) (po : Bool),
    WfItems need pb r → (pb = false → pend = 0) → SInv n done need pend (content r).length B p →
    (pre = [] → FirstOk r ∧ r.head? ≠ some (.chr 0x2D)) →
    (∀ c t, r = .bound c :: t → pre.length = 1 → pend = 0 ∧ lastEq p.st = false) → (render r).length < f →
    c.need = need → LInv c L pend p → Orderly c po r → (po = false → pend = 0) →
    ∀ p', psLoop (pre ++ render r) (2 * n + 1) f pre.length p = some p' →
      ∃ c' pend', c'.need = [] ∧ LInv c' (L ++ letters c r) pend' p' := by
  intro r
  induction r with
  | nil =>
    intro pre done need pb pend B p f c L po hwf _ _ _ _ hf hcn hL _ _ p' hp'
    obtain ⟨f, rfl⟩ : ∃ g, f = g + 1 := ⟨f - 1, by omega⟩
    rw [psLoop, if_neg (by simp [render])] at hp'
    rw [WfItems] at hwf
    rw [← Option.some.inj hp']
    exact ⟨c, pend, by rw [hcn, hwf], by simpa [letters] using hL⟩
  | cons x r ih =>
    intro pre done need pb pend B p f c L po hwf hpb h hfirst hbound hf hcn hL hord hpo p' hp'
    obtain ⟨f, rfl⟩ : ∃ g, f = g + 1 := ⟨f - 1, by omega⟩
    have go : ∀ (done' need' : List Wc) (pb' : Bool) (B' : Nat → Prop) (c' : Ctx) (L' : List Wc) (po' : Bool), x.render ≠ [] →
        Ok (psStep (pre ++ (x.render ++ render r)) (2 * n + 1) pre.length p) (fun s => s.1 + 1 = pre.length + x.render.length
          ∧ ∃ pend', (pb' = false → pend' = 0) ∧ SInv n done' need' pend' (content r).length B' s.2) →
        WfItems need' pb' r → (∀ c t, r = .bound c :: t → pre.length + x.render.length ≠ 1) →
        c'.need = need' → Orderly c' po' r → L' ++ letters c' r = L ++ letters c (x :: r) →
        (∀ s pe, psStep (pre ++ (x.render ++ render r)) (2 * n + 1) pre.length p = some s →
          SInv n done' need' pe (content r).length B' s.2 → ∃ pend'', LInv c' L' pend'' s.2 ∧ (po' = false → pend'' = 0)) →
        ∃ c' pend', c'.need = [] ∧ LInv c' (L ++ letters c (x :: r)) pend' p' := by
      intro done' need' pb' B' c' L' po' hne hstep hwf' hb' hn' hord' hlet hstepL
      have hxl := List.length_pos_iff.2 hne
      rw [render, List.length_append] at hf
      rw [psLoop, if_pos (by rw [render, List.length_append, List.length_append]; omega), render] at hp'
      obtain ⟨s, hs, hi, pend', hpe, hS⟩ := hstep
      replace hp' := bindO hs hp'
      obtain ⟨pend'', hL', hpo'⟩ := hstepL s pend' hs hS
      have heq : pend'' = pend' := by
        have h1 := hL'.cnt
        have h2 := hS.cnt
        rw [hn'] at h1
        omega
      subst heq
      have e : pre ++ (x.render ++ render r) = (pre ++ x.render) ++ render r := by simp
      have el : (pre ++ x.render).length = s.1 + 1 := by rw [List.length_append, hi]
      obtain ⟨i', q⟩ := s
      simp only at hp' el hL' hS
      rw [e, ← el] at hp'
      rw [← hlet]
      refine ih (pre ++ x.render) done' need' pb' pend'' B' q f c' L' po' hwf' hpe hS ?_ ?_ (by omega) hn' hL' hord' hpo' p' hp'
      · intro h0; exact absurd (List.append_eq_nil_iff.1 h0).2 hne
      · intro c t hr h1
        rw [List.length_append] at h1
        exact absurd h1 (hb' c t hr)
    have hpos : 0 < pend → po = true := fun h0 => by
      cases po with
      | true => rfl
      | false => have := hpo rfl; omega
    have hL4 : ∀ (k : Nat), 2 ≤ k → pre.length + k ≠ 1 := fun k hk => by omega
    cases x with
    | cls k =>
      rw [WfItems] at hwf
      rw [Orderly] at hord
      · refine go done need pb B (c.mark r (.cls k)) L po (by simp [SItem.render]) ?_ hwf.2 ?_ ?_ hord.2 rfl ?_
        · exact okMono (Verif.psStep_cls hwf.1 h) fun s hs => ⟨by rw [hs.1]; simp [SItem.render], pend, hpb, hs.2⟩
        · intro c t _; exact hL4 _ (by simp [SItem.render])
        · rw [mark_cls]; exact hcn
        · intro s pe hs _
          refine ⟨pend, ?_, hpo⟩
          rw [psStep_cls hwf.1 hs]
          rw [mark_cls] at hord ⊢
          refine hL.flags (t := p.titleCase) (by rfl) (fun h0 => hord.1 (hpos h0)) hL.title rfl fun _ => rfl
      all_goals simp
    | cls2 k d =>
      rw [WfItems] at hwf
      rw [Orderly] at hord
      · have hk : k = 0x65 ∨ (k = 0x6E ∧ d = 0x6C) ∨ (k = 0x75 ∧ d = 0x72 ∧ render r ≠ []) := by
          rcases hwf.1 with h1 | h1 | ⟨h1, h2, h3⟩
          · exact Or.inl h1
          · exact Or.inr (Or.inl h1)
          · refine Or.inr (Or.inr ⟨h1, h2, ?_⟩)
            cases r with
            | nil => exact absurd rfl h3
            | cons y r => cases y <;> simp [render, SItem.render]
        refine go done need pb B (c.mark r (.cls2 k d)) L po (by simp [SItem.render]) ?_ hwf.2 ?_ ?_ hord.2 rfl ?_
        · exact okMono (Verif.psStep_cls2 hk h) fun s hs => ⟨by rw [hs.1]; simp [SItem.render], pend, hpb, hs.2⟩
        · intro c t _; exact hL4 _ (by simp [SItem.render])
        · rw [mark_cls2]; exact hcn
        · intro s pe hs _
          refine ⟨pend, ?_, hpo⟩
          rw [psStep_cls2 hk hs]
          rw [mark_cls2] at hord ⊢
          have hsame := fun h0 : 0 < pend => hord.1 (hpos h0)
          have hk0 : 0 < pend → k ≠ 0x65 := by
            intro h0 e
            have h1 := congrArg Ctx.title (hsame h0)
            have h2 := hL.title
            simp only [e, beq_self_eq_true, Bool.true_or] at h1
            rw [← h1] at h2
            simp at h2
            omega
          refine hL.flags (by rfl) hsame ?_ (by rfl) fun h0 => by simp [hk0 h0]
          show (k == 0x65 || c.title) = ((k == 0x65 || p.titleCase) && pend == 0)
          rcases Nat.eq_zero_or_pos pend with h0 | h0
          · have := hL.title
            simp only [h0, beq_self_eq_true, Bool.and_true] at this
            rw [h0, this]; simp
          · have hk1 : (k == 0x65) = false := by simpa using hk0 h0
            rw [hL.title, hk1]; rfl
      all_goals simp
    | tag name =>
      rw [WfItems] at hwf
      rw [Orderly] at hord
      · have e : (SItem.tag name).render ++ render r = 0x5B :: (name ++ 0x5D :: render r) := by simp [SItem.render]
        refine go done need pb B c L po (by simp [SItem.render]) ?_ hwf.2.2 ?_ hcn hord.2 rfl ?_
        · rw [e]
          exact okMono (Verif.psStep_tag hwf.1 hwf.2.1 h) fun s hs => ⟨by rw [hs.1]; simp [SItem.render]; omega, pend, hpb, hs.2⟩
        · intro c t _; exact hL4 _ (by simp [SItem.render])
        · intro s pe hs _
          rw [e] at hs
          exact ⟨pend, by rw [psStep_tag hwf.1 hs]; exact hL, hpo⟩
      all_goals simp
    | bound k =>
      rw [WfItems] at hwf
      obtain ⟨h1, h2, h3, h4, h5⟩ := hwf
      subst h2
      rw [Orderly] at hord
      refine go done [] false (fun j => B j ∨ j = done.length) c L false (by simp [SItem.render]) ?_ h5 ?_ hcn hord rfl ?_
      · exact okMono (Verif.psStep_bound h1 (List.length_pos_iff.2 h3) h4 (fun hp => hbound k r rfl hp) h)
          fun s hs => ⟨by rw [hs.1]; simp [SItem.render], 0, fun _ => rfl, hs.2⟩
      · intro c t _; exact hL4 _ (by simp [SItem.render])
      · intro s pe hs _
        exact ⟨0, psStep_bound h1 hcn (fun hp => (hbound k r rfl hp).1) hL hs, fun _ => rfl⟩
    | sect k body =>
      rw [WfItems] at hwf
      rw [Orderly] at hord
      · have e : (SItem.sect k body).render ++ render r = 0x5B :: 0x58 :: k :: 0x5D :: (body ++ 0x5B :: 0x58 :: 0x5D :: render r) := by
          simp [SItem.render]
        refine go done need pb B c L po (by simp [SItem.render]) ?_ hwf.2.2 ?_ hcn hord.2 rfl ?_
        · rw [e]
          exact okMono (Verif.psStep_sect hwf.1 hwf.2.1 h) fun s hs => ⟨by rw [hs.1]; simp [SItem.render]; omega, pend, hpb, hs.2⟩
        · intro c t _; exact hL4 _ (by simp [SItem.render])
        · intro s pe hs _
          rw [e] at hs
          exact ⟨pend, by rw [psStep_sect hwf.1 hs]; exact hL, hpo⟩
      all_goals simp
    | pat q =>
      rw [WfItems] at hwf
      obtain ⟨h1, h2, h3, h4, h5, h6, h7⟩ := hwf
      subst h1
      have h0 := hpb h2
      subst h0
      rw [Orderly] at hord
      · have e : (SItem.pat q).render ++ render r = 0x5B :: 0x58 :: 0x72 :: 0x5D :: (q ++ 0x5B :: 0x58 :: 0x5D :: render r) := by
          simp [SItem.render]
        refine go done (strip q) false (fun j => B j ∨ j ∈ marks done.length q) (c.mark r (.pat q)) L po (by simp [SItem.render]) ?_ h7 ?_ rfl hord.2 rfl ?_
        · rw [e]
          exact okMono (Verif.psStep_pat h3 h4 h5 h6 (wf_fits h7) h) fun s hs => ⟨by rw [hs.1]; simp [SItem.render]; omega, 0, fun _ => rfl, hs.2⟩
        · intro c t _; exact hL4 _ (by simp [SItem.render])
        · intro s pe hs hS
          rw [e] at hs
          have hpe : pe = 0 := by
            rcases hS.one with h0 | h0
            · exact h0
            · have e1 := hS.written
              obtain ⟨s', hs', -, hS'⟩ := Verif.psStep_pat (t := render r) (pre := pre) h3 h4 h5 h6 (wf_fits h7) h
              rw [hs] at hs'
              rw [Option.some.inj hs'] at e1
              have e2 := hS'.written
              omega
          subst hpe
          exact ⟨0, psStep_pat hcn hL h hS hs, fun _ => rfl⟩
      all_goals simp
    | chr k =>
      rw [Orderly] at hord
      have h0 : k = 0x2D → pre ≠ [] := by
        intro hc hp
        exact (hfirst hp).2 (by rw [hc]; rfl)
      have hb' : ∀ d t, r = .bound d :: t → pre.length + (SItem.chr k).render.length ≠ 1 := by
        intro d t hr h1
        have hp : pre = [] := List.length_eq_zero_iff.1 (by simp [SItem.render] at h1; simpa using h1)
        have := (hfirst hp).1
        rw [hr, FirstOk] at this
        exact h0 this hp
      have hcl : (content (.chr k :: r)).length = (content r).length + 1 := rfl
      rw [hcl] at h
      have hpos' : c.need = [] → k = 0x3A → c.abbr = true ∨ pend = 0 := fun e1 e2 => (hord.1 e1 e2).imp id hpo
      have hlast : L ++ [c.describe k] ++ letters (c.pass k) r = L ++ letters c (.chr k :: r) := by rw [letters]; simp
      cases need with
      | nil =>
        rw [WfItems] at hwf
        have hpn : (c.pass k).need = [] := by
          rw [Ctx.pass, hcn]
          dsimp only
          split
          · exact hcn
          · split
            · rfl
            · rfl
        refine go (done ++ [k]) [] _ B (c.pass k) (L ++ [c.describe k]) _ (by simp [SItem.render]) ?_ hwf.2 hb' hpn hord.2 hlast ?_
        · exact okMono (psStep_free hpb hwf.1 h0 h) fun s hs => ⟨by rw [hs.1]; rfl, hs.2⟩
        · intro s pe hs _
          exact psStep_chr hwf.1 h0 hpos' (fun e => absurd hcn e) (fun _ e => absurd hcn e) h.ne hL hs
      | cons q qs =>
        rw [WfItems] at hwf
        have hpn : (c.pass k).need = qs := by rw [Ctx.pass, hcn]
        refine go (done ++ [k]) qs false B (c.pass k) (L ++ [c.describe k]) _ (by simp [SItem.render]) ?_ hwf.2.2.2 hb' hpn hord.2 hlast ?_
        · exact okMono (psStep_patterned hwf.1 hwf.2.1 hwf.2.2.1 h0 h) fun s hs => ⟨by rw [hs.1]; rfl, 0, fun _ => rfl, hs.2⟩
        · intro s pe hs _
          exact psStep_chr hwf.1 h0 hpos' (fun _ => hwf.2.1) (fun _ _ => (h.patterned hwf.2.2.1).2.2.2.2) h.ne hL hs

/-- The letters of the STRUCTURE of a well-formed output. -/
theorem parseStructure_letters {its : List SItem} (hw : WellFormed its) (ho : Orderly {} false its) {st : List Wc}
    (hst : parseStructure (render its) (content its).length = some st) : strip st = letters {} its := by
  obtain ⟨h1, h2, h3⟩ := hw
  have hnl := List.length_pos_iff.2 h3
  rw [parseStructure] at hst
  obtain ⟨p, hp, hst⟩ := Option.bind_eq_some_iff.1 hst
  obtain ⟨p2, hp2, hst⟩ := Option.bind_eq_some_iff.1 hst
  have hst' : st = p2.st := by
    split at hst
    · exact (Option.some.inj hst).symm
    · cases hst
  have fin : ∀ (B : Nat → Prop) (pend pend' : Nat) (c' : Ctx), SInv (content its).length (content its) [] pend 0 B p → c'.need = [] →
      LInv c' (letters {} its) pend' p → strip st = letters {} its := by
    intro B pend pend' c' hS hc hL
    have e1 := hS.cnt
    have e2 := hL.cnt
    have e3 := hL.eq
    have hm := hS.mis
    have hm0 : nonHy [] = 0 := rfl
    rw [hc] at e2 e3
    have hmp : p.missing = pend' := by simp only [List.length_nil] at e1 e2; omega
    rw [hmp] at hp2
    rw [hst', createDefault_inv hp2]
    show strip (p.st ++ defaults p.titleCase p.isAbbr pend') = _
    rw [strip_append, strip_defaults, e3, List.append_nil]
  by_cases hf : its.head? = some (.chr 0x2D)
  · cases its with
    | nil => cases hf
    | cons x r =>
      have hx : x = .chr 0x2D := by simpa using hf
      subst hx
      rw [WfItems] at h1
      have h1r : WfItems [] false r := h1.2
      rw [Orderly] at ho
      have hor : Orderly {} false r := ho.2
      have hcl : (content (.chr 0x2D :: r)).length = (content r).length + 1 := rfl
      have inv1 : SInv (content (.chr 0x2D :: r)).length [0x2D] [] 0 (content r).length (fun _ => False)
          { st := [0x2D], missing := (content r).length } := by
        refine ⟨rfl, rfl, rfl, Or.inl rfl, by rw [hcl]; simp; omega, Nat.zero_le _, lenOk_hyphen,
          fun h => absurd h (by show ¬ (lastEq [0x2D] = true); decide), by simp, fun _ => Or.inr (by simp), ?_⟩
        intro j
        show j ∈ [] ↔ False
        simp
      have linv1 : LInv {} [0x2D] 0 { st := [0x2D], missing := (content r).length } := ⟨rfl, rfl, Or.inl rfl, rfl, rfl⟩
      have hstep : psLoop (render (.chr 0x2D :: r)) ((content (.chr 0x2D :: r)).length * 2 + 1) ((render (.chr 0x2D :: r)).length + 1) 0
          { st := [0x3D], missing := (content (.chr 0x2D :: r)).length }
          = psLoop ([0x2D] ++ render r) (2 * (content (.chr 0x2D :: r)).length + 1) ((render r).length + 1) [0x2D].length
            { st := [0x2D], missing := (content r).length } := by
        have hl : (render (.chr 0x2D :: r)).length + 1 = ((render r).length + 1) + 1 := by simp [render, SItem.render]
        rw [hl, psLoop, if_pos (by simp [render, SItem.render]), Nat.mul_comm]
        rfl
      rw [hstep] at hp
      obtain ⟨c', pend', hc', hL⟩ := psLoop_letters (content (.chr 0x2D :: r)).length r [0x2D] [0x2D] [] false 0 (fun _ => False)
        { st := [0x2D], missing := (content r).length } ((render r).length + 1) {} [0x2D] false h1r (fun _ => rfl) inv1 (fun h => by cases h)
        (fun c t _ _ => ⟨rfl, by show lastEq [0x2D] = false; decide⟩) (by omega) rfl linv1 hor (fun _ => rfl) p hp
      obtain ⟨p', hp', pend, hS⟩ := psLoop_ok (content (.chr 0x2D :: r)).length r [0x2D] [0x2D] [] false 0 (fun _ => False)
        { st := [0x2D], missing := (content r).length } ((render r).length + 1) h1r (fun _ => rfl) inv1 (fun h => by cases h)
        (fun c t _ _ => ⟨rfl, by show lastEq [0x2D] = false; decide⟩) (by omega)
      rw [hp] at hp'
      rw [← Option.some.inj hp'] at hS
      exact fin _ pend pend' c' hS hc' hL
  · have init : SInv (content its).length [] [] 0 (content its).length (fun j => j = 0) { st := [0x3D], missing := (content its).length } := by
      refine ⟨rfl, rfl, rfl, Or.inl rfl, by simp, Nat.zero_le _, lenOk_init, fun _ => by simpa using hnl, by simp, fun _ => Or.inl rfl, ?_⟩
      intro j
      show j ∈ [0] ↔ j = 0
      simp
    have linit : LInv {} [] 0 { st := [0x3D], missing := (content its).length } := ⟨rfl, rfl, Or.inl rfl, rfl, rfl⟩
    rw [Nat.mul_comm] at hp
    obtain ⟨c', pend', hc', hL⟩ := psLoop_letters (content its).length its [] [] [] false 0 (fun j => j = 0) _ ((render its).length + 1)
      {} [] false h1 (fun _ => rfl) init (fun _ => ⟨h2, hf⟩) (fun c t _ h => by cases h) (by omega) rfl linit ho (fun _ => rfl) p hp
    obtain ⟨p', hp', pend, hS⟩ := psLoop_ok (content its).length its [] [] [] false 0 (fun j => j = 0) _ ((render its).length + 1) h1 (fun _ => rfl) init
      (fun _ => ⟨h2, hf⟩) (fun c t _ h => by cases h) (by omega)
    rw [List.nil_append, List.length_nil, hp] at hp'
    rw [← Option.some.inj hp'] at hS
    exact fin _ pend pend' c' hS hc' hL

end Verif.Letters
