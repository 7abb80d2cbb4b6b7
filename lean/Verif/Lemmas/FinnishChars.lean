import Verif.Model.FinnishVfst
/-!
# The characters of a STRUCTURE string

If no character of the transducer output is NUL then `parseStructure` writes no NUL before the terminator.
-/
set_option linter.unusedSimpArgs false

namespace Verif

theorem push_nul {cap : Nat} {buf b : List Wc} {c : Wc} (h : push cap buf c = some b) (hc : c ≠ 0) (hb : 0 ∉ buf) : 0 ∉ b := by
  unfold push at h
  split at h
  · cases h
    simp only [List.mem_append, List.mem_singleton, not_or]
    exact ⟨hb, fun e => hc e.symm⟩
  · cases h

theorem createDefault_nul {cap : Nat} : ∀ (n : Nat) (p q : PState), createDefault cap n p = some q → 0 ∉ p.st → 0 ∉ q.st := by
  intro n
  induction n with
  | zero => intro p q h hp; cases h; exact hp
  | succ n ih =>
    intro p q h hp
    rw [createDefault] at h
    split at h
    · rw [Option.bind_eq_bind, Option.bind_eq_some_iff] at h
      obtain ⟨st, h1, h2⟩ := h
      exact ih _ _ h2 (push_nul h1 (by split <;> decide) hp)
    · rw [Option.bind_eq_bind, Option.bind_eq_some_iff] at h
      obtain ⟨st, h1, h2⟩ := h
      exact ih _ _ h2 (push_nul h1 (by split <;> decide) hp)

theorem flushSeen_nul {cap : Nat} {p q : PState} (h : flushSeen cap p = some q) (hp : 0 ∉ p.st) : 0 ∉ q.st := by
  unfold flushSeen at h
  split at h
  · rw [Option.bind_eq_bind, Option.bind_eq_some_iff] at h
    obtain ⟨r, h1, h2⟩ := h
    have hr := createDefault_nul _ _ _ h1 hp
    unfold decreaseMissing at h2
    split at h2
    · cases h2; exact hr
    · cases h2
  · cases h; exact hp

theorem rdz_some {out : List Wc} {i : Nat} {x : Wc} (h : rdz out i = some x) : i ≤ out.length ∧ (i < out.length → x ∈ out) := by
  unfold rdz rd at h
  have hl := (List.getElem?_eq_some_iff.1 h).1
  rw [List.length_append] at hl
  refine ⟨by simpa using Nat.lt_succ_iff.1 hl, fun hi => ?_⟩
  rw [List.getElem?_append_left hi] at h
  exact List.mem_of_getElem? h

theorem xrLoop_nul {out : List Wc} {cap : Nat} (ho : 0 ∉ out) : ∀ (f i : Nat) (p : PState) (r : Nat × PState),
    xrLoop out cap f i p = some r → 0 ∉ p.st → 0 ∉ r.2.st := by
  intro f
  induction f with
  | zero => intro i p r h; cases h
  | succ f ih =>
    intro i p r h hp
    rw [xrLoop, Option.bind_eq_bind, Option.bind_eq_some_iff] at h
    obtain ⟨x, hx, h⟩ := h
    split at h
    · obtain ⟨st, hst, h⟩ := Option.bind_eq_some_iff.1 h
      have key : ∀ q : PState, xrLoop out cap f (i + 1) q = some r → q.st = st → 0 ∉ r.2.st := by
        intro q hq hqs
        have hi : i < out.length := by
          cases f with
          | zero => cases hq
          | succ f =>
            rw [xrLoop, Option.bind_eq_bind, Option.bind_eq_some_iff] at hq
            obtain ⟨y, hy, _⟩ := hq
            have := (rdz_some hy).1
            omega
        refine ih _ _ _ hq ?_
        rw [hqs]
        exact push_nul hst (fun e => ho (e ▸ (rdz_some hx).2 hi)) hp
      split at h
      · split at h
        · exact key _ h rfl
        · exact key _ h rfl
      · exact key _ h rfl
    · cases h; exact hp

theorem psBoundary_nul {out : List Wc} {cap i : Nat} {p : PState} {r : Nat × PState} (h : psBoundary out cap i p = some r)
    (hp : 0 ∉ p.st) : 0 ∉ r.2.st := by
  simp only [psBoundary, Option.bind_eq_bind, Option.bind_eq_some_iff, Option.pure_def] at h
  obtain ⟨p1, h1, p2, h2, l, _, p3, h3, h4⟩ := h
  have e1 : 0 ∉ p1.st := by
    split at h1
    · obtain ⟨st, hs, hs2⟩ := Option.bind_eq_some_iff.1 h1
      cases hs2; exact push_nul hs (by decide) hp
    · cases h1; exact hp
  have e2 := flushSeen_nul h2 e1
  have e3 : 0 ∉ p3.st := by
    split at h3
    · obtain ⟨st, hs, hs2⟩ := Option.bind_eq_some_iff.1 h3
      cases hs2; exact push_nul hs (by decide) e2
    · cases h3; exact e2
  cases h4; exact e3

theorem psBracket_nul {out : List Wc} {cap i : Nat} {p : PState} {r : Nat × PState} (ho : 0 ∉ out)
    (h : psBracket out cap i p = some r) (hp : 0 ∉ p.st) : 0 ∉ r.2.st := by
  simp only [psBracket, Option.bind_eq_bind, Option.bind_eq_some_iff, Option.pure_def] at h
  obtain ⟨c1, _, c2, _, c3, _, h⟩ := h
  split at h
  · exact psBoundary_nul h hp
  · split at h
    · simp only [psSection, Option.bind_eq_bind, Option.bind_eq_some_iff, Option.pure_def] at h
      obtain ⟨k, _, h⟩ := h
      split at h
      · obtain ⟨⟨j, q⟩, h1, h2⟩ := Option.bind_eq_some_iff.1 h
        cases h2
        have := xrLoop_nul ho _ _ _ _ h1 hp
        exact this
      · obtain ⟨j, h1, h2⟩ := Option.bind_eq_some_iff.1 h
        cases h2; exact hp
    · split at h
      · simp only [psClass, Option.bind_eq_bind, Option.bind_eq_some_iff, Option.pure_def] at h
        obtain ⟨d2, _, d3, _, h⟩ := h
        split at h
        · cases h; exact hp
        · split at h
          · cases h; exact hp
          · split at h
            · cases h; exact hp
            · obtain ⟨n, _, h⟩ := Option.bind_eq_some_iff.1 h
              split at h
              · cases h; exact hp
              · cases h; exact hp
      · obtain ⟨j, h1, h2⟩ := Option.bind_eq_some_iff.1 h
        cases h2; exact hp

theorem psHyphen_nul {cap i : Nat} {p q : PState} (h : psHyphen cap i p = some q) (hp : 0 ∉ p.st) : 0 ∉ q.st := by
  simp only [psHyphen, Option.bind_eq_bind, Option.bind_eq_some_iff, Option.pure_def] at h
  obtain ⟨p1, h1, h2⟩ := h
  have e1 : 0 ∉ p1.st := by
    split at h1
    · obtain ⟨p2, hp2, h1⟩ := Option.bind_eq_some_iff.1 h1
      obtain ⟨st, hs, h1⟩ := Option.bind_eq_some_iff.1 h1
      cases h1
      exact push_nul hs (by decide) (flushSeen_nul hp2 hp)
    · split at h1
      · split at h1
        · obtain ⟨st, hs, h1⟩ := Option.bind_eq_some_iff.1 h1
          cases h1
          exact push_nul hs (by decide) hp
        · cases h1; exact hp
      · cases h1; exact hp
  have e2 : 0 ∉ (if p1.missing ≠ 0 then { p1 with missing := p1.missing - 1 } else p1 : PState).st := by
    split <;> exact e1
  generalize (if p1.missing ≠ 0 then { p1 with missing := p1.missing - 1 } else p1 : PState) = p2 at h2 e2
  split at h2
  · obtain ⟨st, hs, h2⟩ := Option.bind_eq_some_iff.1 h2
    cases h2
    unfold wr at hs
    split at hs
    · cases hs
      intro hm
      rcases List.mem_or_eq_of_mem_set hm with h | h
      · exact e2 h
      · cases h
    · cases hs
  · cases h2; exact e2

theorem psColon_nul {cap : Nat} {p q : PState} (h : psColon cap p = some q) (hp : 0 ∉ p.st) : 0 ∉ q.st := by
  simp only [psColon, Option.bind_eq_bind, Option.bind_eq_some_iff, Option.pure_def] at h
  obtain ⟨p1, h1, st, hs, h2⟩ := h
  have e1 : 0 ∉ p1.st := by
    split at h1
    · obtain ⟨p2, hp2, h1⟩ := Option.bind_eq_some_iff.1 h1
      cases h1
      split at hp2
      · obtain ⟨p3, hp3, h1⟩ := Option.bind_eq_some_iff.1 hp2
        cases h1
        have := flushSeen_nul hp3 hp
        exact this
      · cases hp2; exact hp
    · cases h1; exact hp
  cases h2
  exact push_nul hs (by decide) e1

theorem psLoop_nul {out : List Wc} {cap : Nat} (ho : 0 ∉ out) : ∀ (f i : Nat) (p q : PState),
    psLoop out cap f i p = some q → 0 ∉ p.st → 0 ∉ q.st := by
  intro f
  induction f with
  | zero => intro i p q h; cases h
  | succ f ih =>
    intro i p q h hp
    rw [psLoop] at h
    split at h
    · rw [Option.bind_eq_bind, Option.bind_eq_some_iff] at h
      obtain ⟨⟨j, r⟩, h1, h2⟩ := h
      refine ih _ _ _ h2 ?_
      simp only [psStep, Option.bind_eq_bind, Option.bind_eq_some_iff, Option.pure_def] at h1
      obtain ⟨c, _, h1⟩ := h1
      split at h1
      · exact psBracket_nul ho h1 hp
      · split at h1
        · obtain ⟨s, hs, h1⟩ := Option.bind_eq_some_iff.1 h1
          cases h1; exact psHyphen_nul hs hp
        · split at h1
          · obtain ⟨s, hs, h1⟩ := Option.bind_eq_some_iff.1 h1
            cases h1; exact psColon_nul hs hp
          · cases h1; exact hp
    · cases h; exact hp

/-- No NUL in the structure string of an output without NUL. -/
theorem parseStructure_nul {out st : List Wc} {n : Nat} (ho : 0 ∉ out) (h : parseStructure out n = some st) : 0 ∉ st := by
  simp only [parseStructure, Option.bind_eq_bind, Option.bind_eq_some_iff, Option.pure_def] at h
  obtain ⟨p, h1, q, h2, h3⟩ := h
  have := createDefault_nul _ _ _ h2 (psLoop_nul ho _ _ _ _ h1 (by simp))
  split at h3
  · cases h3; exact this
  · cases h3

end Verif
