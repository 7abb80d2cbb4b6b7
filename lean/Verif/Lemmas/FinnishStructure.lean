import Verif.Lemmas.FinnishVfst
import Verif.Spec.Structure
/-!
# Lemmas about `parseStructure`
-/

namespace Verif

/-! ## Structure strings -/

theorem strip_append (a b : List Wc) : strip (a ++ b) = strip a ++ strip b := by simp [strip]

theorem strip_id {t : List Wc} (h : ∀ c ∈ t, c ≠ 0x3D) : strip t = t := by
  rw [strip, List.filter_eq_self]
  intro c hc
  simpa using h c hc

theorem marks_append : ∀ (a b : List Wc) (k : Nat), marks k (a ++ b) = marks k a ++ marks (k + (strip a).length) b := by
  intro a
  induction a with
  | nil => intro b k; simp [marks, strip]
  | cons c a ih =>
    intro b k
    rw [List.cons_append, marks, marks]
    split
    · rename_i h
      rw [ih, List.cons_append]
      simp [strip, h]
    · rename_i h
      rw [ih]
      have : (strip (c :: a)).length = (strip a).length + 1 := by simp [strip, h]
      rw [this]
      congr 2
      omega

theorem marks_id {t : List Wc} (h : ∀ c ∈ t, c ≠ 0x3D) (k : Nat) : marks k t = [] := by
  induction t generalizing k with
  | nil => rfl
  | cons c t ih =>
    rw [marks, if_neg (h c (List.mem_cons_self ..))]
    exact ih (fun x hx => h x (List.mem_cons_of_mem _ hx)) _

/-- Whether a structure string ends in `=`. -/
def lastEq (st : List Wc) : Bool := st.getLast? == some 0x3D

theorem lastEq_concat (st : List Wc) (c : Wc) : lastEq (st ++ [c]) = (c == 0x3D) := by
  simp [lastEq]

theorem lastEq_mark {st : List Wc} (h : lastEq st = true) (k : Nat) : k + (strip st).length ∈ marks k st := by
  have h1 : st.getLast? = some 0x3D := by simpa [lastEq] using h
  obtain ⟨t, rfl⟩ : ∃ t, st = t ++ [0x3D] := by
    have hne : st ≠ [] := by intro e; rw [e] at h1; cases h1
    rw [List.getLast?_eq_some_getLast hne] at h1
    refine ⟨st.dropLast, ?_⟩
    have := (List.dropLast_concat_getLast hne).symm
    rw [Option.some.inj h1] at this
    exact this
  rw [marks_append, strip_append]
  simp [marks, strip]

theorem hasDouble_concat : ∀ (st : List Wc) (c : Wc), hasDouble (st ++ [c]) = (hasDouble st || (lastEq st && c == 0x3D)) := by
  intro st
  induction st with
  | nil => intro c; rfl
  | cons a st ih =>
    intro c
    cases st with
    | nil => simp [hasDouble, lastEq]
    | cons b st =>
      have := ih c
      rw [List.cons_append, List.cons_append, hasDouble, ← List.cons_append, this, hasDouble, Bool.or_assoc]
      congr 2

/-- The bound on the length of structure strings without `==`. -/
structure LenOk (st : List Wc) : Prop where
  len : st.length ≤ 2 * (strip st).length + 1
  len' : lastEq st = false → st.length ≤ 2 * (strip st).length
  dbl : hasDouble st = false

theorem lenOk_push {st : List Wc} (h : LenOk st) {c : Wc} (hc : c ≠ 0x3D) : LenOk (st ++ [c]) := by
  have h1 := h.len
  have h2 : (strip (st ++ [c])).length = (strip st).length + 1 := by rw [strip_append]; simp [strip, hc]
  refine ⟨?_, fun _ => ?_, by rw [hasDouble_concat, h.dbl]; simp [hc]⟩ <;> rw [h2, List.length_append]
    <;> simp only [List.length_cons, List.length_nil] <;> omega

theorem lenOk_eq {st : List Wc} (h : LenOk st) (hl : lastEq st = false) : LenOk (st ++ [0x3D]) := by
  have h1 := h.len' hl
  have h2 : (strip (st ++ [0x3D])).length = (strip st).length := by rw [strip_append]; simp [strip]
  refine ⟨?_, fun h => ?_, by rw [hasDouble_concat, h.dbl, hl]; rfl⟩
  · rw [h2, List.length_append]; simp only [List.length_cons, List.length_nil]; omega
  · rw [lastEq_concat] at h; simp at h

theorem lenOk_append {t : List Wc} : ∀ {st : List Wc}, LenOk st → (∀ c ∈ t, c ≠ 0x3D) → LenOk (st ++ t) := by
  induction t with
  | nil => intro st h _; simpa using h
  | cons c t ih =>
    intro st h ht
    have := ih (lenOk_push h (ht c (List.mem_cons_self ..))) (fun x hx => ht x (List.mem_cons_of_mem _ hx))
    simpa using this

theorem lastEq_append {st t : List Wc} (h : ∀ c ∈ t, c ≠ 0x3D) (hl : lastEq (st ++ t) = true) : t = [] ∧ lastEq st = true := by
  cases t with
  | nil => exact ⟨rfl, by simpa using hl⟩
  | cons c t =>
    exfalso
    have hm : (st ++ c :: t).getLast? = (c :: t).getLast? := by
      rw [List.getLast?_append]
      cases hg : (c :: t).getLast? with
      | none => simp at hg
      | some x => rfl
    rw [lastEq, hm] at hl
    have h1 : (c :: t).getLast? = some 0x3D := by simpa using hl
    exact h 0x3D (List.mem_of_getLast? h1) rfl

/-- Which characters are hyphens. -/
def hy (l : List Wc) : List Bool := l.map (· == 0x2D)

theorem hy_append (a b : List Wc) : hy (a ++ b) = hy a ++ hy b := by simp [hy]

/-- Number of characters that are not hyphens. -/
def nonHy (l : List Wc) : Nat := (l.filter (· ≠ 0x2D)).length

/-- A letter of a default structure. -/
def IsLetter (c : Wc) : Prop := c = 0x69 ∨ c = 0x6A ∨ c = 0x70 ∨ c = 0x71

theorem IsLetter.ne {c : Wc} (h : IsLetter c) : c ≠ 0x3D ∧ c ≠ 0x2D := by
  rcases h with h | h | h | h <;> subst h <;> decide

theorem hy_letters {t : List Wc} (h : ∀ c ∈ t, IsLetter c) : hy t = List.replicate t.length false := by
  induction t with
  | nil => rfl
  | cons c t ih =>
    have := (h c (List.mem_cons_self ..)).ne.2
    rw [hy, List.map_cons, List.length_cons, List.replicate_succ]
    rw [show List.map (fun x => x == 0x2D) t = hy t from rfl, ih fun x hx => h x (List.mem_cons_of_mem _ hx)]
    simp [this]

/-- Writing of a default structure. -/
theorem createDefault_ok (cap : Nat) : ∀ (n : Nat) (p : PState), p.st.length + n ≤ cap →
    Ok (createDefault cap n p) (fun p' => ∃ t, t.length = n ∧ (∀ c ∈ t, IsLetter c)
      ∧ p' = { p with st := p.st ++ t, titleCase := p'.titleCase }) := by
  intro n
  induction n with
  | zero => intro p _; exact okSome ⟨[], rfl, fun c hc => (by cases hc), by simp⟩
  | succ n ih =>
    intro p h
    rw [createDefault]
    refine okIte (fun _ => ?_) fun _ => ?_
    · refine okBind (okPush (by omega)) fun st hst => ?_
      have hl : st.length = p.st.length + 1 := by rw [hst]; simp
      refine okMono (ih _ (by simp only; omega)) fun p' hp' => ?_
      obtain ⟨t, h1, h2, h3⟩ := hp'
      refine ⟨(if p.isAbbr then 0x6A else 0x69) :: t, by simp [h1], ?_, ?_⟩
      · intro c hc
        rcases List.mem_cons.1 hc with rfl | hc
        · split
          · exact Or.inr (Or.inl rfl)
          · exact Or.inl rfl
        · exact h2 c hc
      · rw [h3]
        simp [hst]
    · refine okBind (okPush (by omega)) fun st hst => ?_
      have hl : st.length = p.st.length + 1 := by rw [hst]; simp
      refine okMono (ih _ (by simp only; omega)) fun p' hp' => ?_
      obtain ⟨t, h1, h2, h3⟩ := hp'
      refine ⟨(if p.isAbbr then 0x71 else 0x70) :: t, by simp [h1], ?_, ?_⟩
      · intro c hc
        rcases List.mem_cons.1 hc with rfl | hc
        · split
          · exact Or.inr (Or.inr (Or.inr rfl))
          · exact Or.inr (Or.inr (Or.inl rfl))
        · exact h2 c hc
      · rw [h3]
        simp [hst]

/-! ## The invariant -/

/-- The state after the content `done`; `R` characters are to come, `pend` of those that came are not in the structure
string yet, and the structure string already describes the coming characters `need`. -/
structure SInv (n : Nat) (done need : List Wc) (pend R : Nat) (B : Nat → Prop) (p : PState) : Prop where
  hyph : hy (strip p.st) ++ List.replicate pend false = hy done ++ hy need
  cnt : p.seen + need.length = p.fromDefault + pend
  mis : p.missing + nonHy need = R + pend
  one : pend = 0 ∨ need = []
  tot : done.length + R = n
  fits : need.length ≤ R
  len : LenOk p.st
  last : lastEq p.st = true → need.length < R + pend
  ne : p.st ≠ []
  short : p.st.length = 1 → strip p.st = [] ∨ done ≠ []
  marks : ∀ j, j ∈ marks 0 p.st ↔ B j

theorem SInv.written {n : Nat} {done need : List Wc} {pend R : Nat} {B : Nat → Prop} {p : PState}
    (h : SInv n done need pend R B p) : (strip p.st).length + pend = done.length + need.length := by
  have := congrArg List.length h.hyph
  simpa [hy] using this

theorem SInv.flush {n : Nat} {done : List Wc} {pend R : Nat} {B : Nat → Prop} {p : PState}
    (h : SInv n done [] pend R B p) : Ok (flushSeen (2 * n + 1) p) (fun p' => SInv n done [] 0 R B { p' with seen := 0, fromDefault := 0 }
      ∧ (pend = 0 → p' = p) ∧ (0 < pend → lastEq p'.st = false)) := by
  have hw := h.written
  have hc := h.cnt
  have hl := h.len.len
  have ht := h.tot
  have hm := h.mis
  simp only [List.length_nil, Nat.add_zero] at hw hc
  have hm0 : nonHy [] = 0 := rfl
  rw [flushSeen]
  refine okIte (fun hgt => ?_) fun hle => okSome ?_
  · have hs : p.seen - p.fromDefault = pend := by omega
    rw [hs]
    refine okBind (createDefault_ok _ _ _ (by omega)) fun p' hp' => ?_
    obtain ⟨t, h1, h2, h3⟩ := hp'
    have hne : ∀ c ∈ t, c ≠ 0x3D := fun c hc => (h2 c hc).ne.1
    have e1 : p'.seen = p.seen := by rw [h3]
    have e2 : p'.fromDefault = p.fromDefault := by rw [h3]
    have e3 : p'.missing = p.missing := by rw [h3]
    have e4 : p'.st = p.st ++ t := by rw [h3]
    rw [decreaseMissing, e1, e2, e3, hs, if_pos (by omega)]
    have tp : 0 < t.length := by omega
    have lf : lastEq (p.st ++ t) = false := by
      cases hb : lastEq (p.st ++ t) with
      | false => rfl
      | true =>
        have := (lastEq_append hne hb).1
        rw [this] at tp; simp at tp
    have pne := List.length_pos_iff.2 h.ne
    refine okSome ⟨⟨?_, rfl, ?_, Or.inl rfl, ht, Nat.zero_le _, ?_, ?_, ?_, ?_, ?_⟩, fun h0 => by omega, fun _ => ?_⟩
    · show hy (strip p'.st) ++ [] = _
      have := h.hyph
      rw [e4, strip_append, strip_id hne, hy_append, hy_letters h2, h1, List.append_nil, this]
    · show p.missing - pend + nonHy [] = R + 0
      omega
    · show LenOk p'.st
      rw [e4]; exact lenOk_append h.len hne
    · show lastEq p'.st = true → _
      rw [e4, lf]; intro h; cases h
    · show p'.st ≠ []
      rw [e4]; intro h0; exact h.ne (List.append_eq_nil_iff.1 h0).1
    · show p'.st.length = 1 → _
      rw [e4, List.length_append]; intro h0; omega
    · show ∀ j, j ∈ Verif.marks 0 p'.st ↔ B j
      intro j
      rw [e4, marks_append, marks_id hne, List.append_nil]
      exact h.marks j
    · show lastEq p'.st = false
      rw [e4]; exact lf
  · have hp : pend = 0 := by omega
    subst hp
    refine ⟨⟨h.hyph, rfl, h.mis, Or.inl rfl, ht, h.fits, h.len, h.last, h.ne, h.short, h.marks⟩, fun _ => rfl, fun h0 => by omega⟩

/-! ## Reading -/

theorem rdz_app (pre s : List Wc) (j : Nat) : rdz (pre ++ s) (pre.length + j) = rdz s j := by
  simp only [rdz, rd, List.append_assoc]
  rw [List.getElem?_append_right (by omega)]
  congr 1
  omega

theorem rdz_app0 (pre s : List Wc) : rdz (pre ++ s) pre.length = rdz s 0 := rdz_app pre s 0

theorem skipTo_ok (c : Wc) : ∀ (body pre t : List Wc) (f : Nat), c ∉ body → body.length < f →
    skipTo (pre ++ (body ++ c :: t)) c f pre.length = some (pre.length + body.length) := by
  intro body
  induction body with
  | nil =>
    intro pre t f _ hf
    obtain ⟨f, rfl⟩ : ∃ g, f = g + 1 := ⟨f - 1, by simp at hf; omega⟩
    rw [skipTo, rdz_app0]
    simp [rdz, rd]
  | cons x body ih =>
    intro pre t f hc hf
    obtain ⟨f, rfl⟩ : ∃ g, f = g + 1 := ⟨f - 1, by simp at hf; omega⟩
    have hx : x ≠ c := fun h => hc (by rw [h]; exact List.mem_cons_self ..)
    have h2 := ih (pre ++ [x]) t f (fun h => hc (List.mem_cons_of_mem _ h)) (by simp at hf; omega)
    rw [skipTo, rdz_app0]
    have hr : rdz (x :: body ++ c :: t) 0 = some x := rfl
    rw [hr]
    show (if x ≠ c then _ else _) = _
    rw [if_pos hx]
    have e : pre ++ (x :: body ++ c :: t) = pre ++ [x] ++ (body ++ c :: t) := by simp
    rw [e]
    have hl : (pre ++ [x]).length = pre.length + 1 := by simp
    rw [hl] at h2
    rw [h2, List.length_cons]
    congr 1
    omega

/-- The invariant does not depend on the case of the next letter. -/
theorem SInv.congr {n : Nat} {done need : List Wc} {pend R : Nat} {B : Nat → Prop} {p : PState}
    (h : SInv n done need pend R B p) (t a : Bool) : SInv n done need pend R B { p with titleCase := t, isAbbr := a } :=
  ⟨h.hyph, h.cnt, h.mis, h.one, h.tot, h.fits, h.len, h.last, h.ne, h.short, h.marks⟩

/-- Writing of a character at the end of the structure string: the cases of a hyphen and of a colon without pattern. -/
theorem SInv.pushChar {n : Nat} {done : List Wc} {pend R : Nat} {B : Nat → Prop} {p : PState}
    (h : SInv n done [] pend (R + 1) B p) {c : Wc} (hc : c ≠ 0x3D) (hp : c = 0x2D → pend = 0) :
    Ok (push (2 * n + 1) p.st c) (fun st => st = p.st ++ [c] ∧ 2 ≤ st.length
      ∧ SInv n (done ++ [c]) [] pend R B { p with st := st, missing := p.missing - 1 } ∧ p.missing ≠ 0) := by
  have hw := h.written
  have hl := h.len.len
  have ht := h.tot
  have hm := h.mis
  have hm0 : nonHy [] = 0 := rfl
  have pne := List.length_pos_iff.2 h.ne
  simp only [List.length_nil, Nat.add_zero] at hw
  refine okMono (okPush (by omega)) fun st hst => ?_
  have hlen : st.length = p.st.length + 1 := by rw [hst]; simp
  have hs1 : strip [c] = [c] := strip_id (by simpa using hc)
  refine ⟨hst, by omega, ⟨?_, h.cnt, ?_, Or.inr rfl, ?_, Nat.zero_le _, ?_, ?_, ?_, ?_, ?_⟩, by omega⟩
  · show hy (strip st) ++ _ = _
    have h1 := h.hyph
    rw [hst, strip_append, hs1, hy_append, hy_append]
    simp only [hy, List.map_nil, List.append_nil] at h1 ⊢
    rcases Nat.eq_zero_or_pos pend with h0 | h0
    · rw [h0] at h1 ⊢
      simp only [List.replicate_zero, List.append_nil] at h1 ⊢
      rw [h1]
    · have hcb : (c == 0x2D) = false := by
        have : c ≠ 0x2D := fun e => by have := hp e; omega
        simpa using this
      rw [← h1]
      simp only [List.map_cons, List.map_nil, hcb, List.append_assoc]
      congr 1
      rw [← List.replicate_succ', List.singleton_append, List.replicate_succ]
  · show p.missing - 1 + nonHy [] = R + pend
    omega
  · rw [List.length_append]; simp only [List.length_cons, List.length_nil]; omega
  · show LenOk st
    rw [hst]; exact lenOk_push h.len hc
  · show lastEq st = true → _
    rw [hst, lastEq_concat]
    intro h; exact absurd (by simpa using h) hc
  · show st ≠ []
    rw [hst]; simp
  · show st.length = 1 → _
    intro h; omega
  · show ∀ j, j ∈ Verif.marks 0 st ↔ B j
    intro j
    rw [hst, marks_append, marks_id (t := [c]) (by simpa using hc), List.append_nil]
    exact h.marks j

/-- A character that is neither a hyphen nor a colon. -/
theorem SInv.letter {n : Nat} {done : List Wc} {pend R : Nat} {B : Nat → Prop} {p : PState} {c : Wc}
    (h : SInv n done [] pend (R + 1) B p) (hc : c ≠ 0x2D) :
    SInv n (done ++ [c]) [] (pend + 1) R B { p with seen := p.seen + 1 } := by
  have hcn := h.cnt
  have hm := h.mis
  have ht := h.tot
  refine ⟨?_, ?_, ?_, Or.inr rfl, ?_, Nat.zero_le _, h.len, ?_, h.ne, ?_, h.marks⟩
  · have h1 := h.hyph
    rw [hy_append]
    simp only [hy, List.map_nil, List.append_nil] at h1 ⊢
    rw [List.replicate_succ', ← List.append_assoc, h1]
    simp [hc]
  · show p.seen + 1 + 0 = p.fromDefault + (pend + 1)
    simp only [List.length_nil] at hcn
    omega
  · show p.missing + nonHy [] = R + (pend + 1)
    omega
  · rw [List.length_append]; simp only [List.length_cons, List.length_nil]; omega
  · intro hl
    have := h.last hl
    simp only [List.length_nil] at this ⊢
    omega
  · intro _; exact Or.inr (by simp)

/-- A character described by a pattern; `m` is the new number of missing characters. -/
theorem SInv.patterned {n : Nat} {done : List Wc} {q : Wc} {qs : List Wc} {pend R : Nat} {B : Nat → Prop} {p : PState} {c : Wc}
    (h : SInv n done (q :: qs) pend (R + 1) B p) (hc : c = 0x2D ↔ q = 0x2D) :
    SInv n (done ++ [c]) qs 0 R B { p with seen := p.seen + 1, missing := if c = 0x2D then p.missing - 1 else p.missing }
      ∧ pend = 0 ∧ p.seen < p.fromDefault ∧ (c = 0x2D → p.missing ≠ 0) ∧ 2 ≤ p.st.length := by
  have hp : pend = 0 := by
    rcases h.one with h | h
    · exact h
    · cases h
  subst hp
  have hcn := h.cnt
  have hm := h.mis
  have ht := h.tot
  have hf := h.fits
  have hw := h.written
  simp only [List.length_cons] at hcn hf hw
  have hle : nonHy qs ≤ qs.length := List.length_filter_le _ _
  have hnq : nonHy (q :: qs) = if c = 0x2D then nonHy qs else nonHy qs + 1 := by
    by_cases h1 : c = 0x2D
    · rw [if_pos h1, nonHy, List.filter_cons, if_neg (by simp [hc.1 h1])]; rfl
    · rw [if_neg h1, nonHy, List.filter_cons, if_pos (by simpa using fun e => h1 (hc.2 e))]; rfl
  have h2 : 2 ≤ p.st.length := by
    have pne := List.length_pos_iff.2 h.ne
    have hsl : (strip p.st).length ≤ p.st.length := List.length_filter_le _ _
    rcases Nat.lt_or_ge p.st.length 2 with h1 | h1
    · rcases h.short (by omega) with h2 | h2
      · rw [h2] at hw; simp only [List.length_nil] at hw; omega
      · have := List.length_pos_iff.2 h2; omega
    · exact h1
  refine ⟨⟨?_, ?_, ?_, Or.inl rfl, ?_, by omega, h.len, ?_, h.ne, ?_, h.marks⟩, rfl, by omega, ?_, h2⟩
  · have hb : (c == 0x2D) = (q == 0x2D) := by
      by_cases h1 : c = 0x2D
      · rw [h1, hc.1 h1]
      · have : q ≠ 0x2D := fun e => h1 (hc.2 e)
        rw [beq_false_of_ne h1, beq_false_of_ne this]
    have h1 := h.hyph
    rw [hy_append]
    simp only [hy, List.map_cons, List.map_nil, List.append_assoc, List.singleton_append] at h1 ⊢
    rw [h1, hb]
  · show p.seen + 1 + qs.length = p.fromDefault + 0
    omega
  · show (if c = 0x2D then p.missing - 1 else p.missing) + nonHy qs = R + 0
    rw [hnq] at hm
    split at hm
    · rename_i h1; rw [if_pos h1]; omega
    · rename_i h1; rw [if_neg h1]; omega
  · rw [List.length_append]; simp only [List.length_cons, List.length_nil]; omega
  · intro hl
    have := h.last hl
    simp only [List.length_cons] at this
    omega
  · intro _; exact Or.inr (by simp)
  · intro h1
    rw [hnq, if_pos h1] at hm
    omega

/-- A character of the word that is described by a pattern. -/
theorem psStep_patterned {n : Nat} {pre t done : List Wc} {q c : Wc} {qs : List Wc} {pend R : Nat} {B : Nat → Prop} {p : PState}
    (hc : c ≠ 0x5B) (hc2 : c ≠ 0x3A) (hq : c = 0x2D ↔ q = 0x2D) (h0 : c = 0x2D → pre ≠ [])
    (h : SInv n done (q :: qs) pend (R + 1) B p) :
    Ok (psStep (pre ++ c :: t) (2 * n + 1) pre.length p) (fun r => r.1 = pre.length ∧ SInv n (done ++ [c]) qs 0 R B r.2) := by
  obtain ⟨h1, h2, h3, h4, h5⟩ := h.patterned hq
  rw [psStep, rdz_app0, show rdz (c :: t) 0 = some c from rfl]
  refine okBind (okSome (P := fun x => x = c) rfl) fun x hx => ?_
  subst hx
  rw [if_neg fun e => hc e.1]
  refine okIte (fun hy => ?_) fun hn => ?_
  · have hpre := List.length_pos_iff.2 (h0 hy)
    rw [if_pos hy] at h1
    have hps : psHyphen (2 * n + 1) pre.length p = some { p with seen := p.seen + 1, missing := p.missing - 1 } := by
      rw [psHyphen, if_neg (by omega), if_pos (by omega), if_neg (by omega)]
      have : ¬ (p.st.length = 1) := by omega
      simp [h4 hy, this]
    rw [hps]
    exact okSome ⟨rfl, h1⟩
  · rw [if_neg hc2]
    rw [if_neg hn] at h1
    exact okPure ⟨rfl, h1⟩

/-- A character of the word that is not described by a pattern. -/
theorem psStep_free {n : Nat} {pre t done : List Wc} {c : Wc} {pend R : Nat} {B : Nat → Prop} {p : PState} {pb : Bool}
    (hpb : pb = false → pend = 0) (hc : c ≠ 0x5B) (h0 : c = 0x2D → pre ≠ [])
    (h : SInv n done [] pend (R + 1) B p) :
    Ok (psStep (pre ++ c :: t) (2 * n + 1) pre.length p) (fun r => r.1 = pre.length
      ∧ ∃ pend', ((if c = 0x2D then false else if c = 0x3A then pb else true) = false → pend' = 0)
        ∧ SInv n (done ++ [c]) [] pend' R B r.2) := by
  have hcn := h.cnt
  simp only [List.length_nil, Nat.add_zero] at hcn
  rw [psStep, rdz_app0, show rdz (c :: t) 0 = some c from rfl]
  refine okBind (okSome (P := fun x => x = c) rfl) fun x hx => ?_
  subst hx
  rw [if_neg fun e => hc e.1]
  refine okIte (fun hy => ?_) fun hn => ?_
  · have hpre := List.length_pos_iff.2 (h0 hy)
    refine okBind (P := fun r => SInv n (done ++ [x]) [] 0 R B r) ?_ fun r hr => okPure ⟨rfl, 0, fun _ => rfl, hr⟩
    rw [psHyphen]
    refine okBind (P := fun r => 2 ≤ r.st.length ∧ r.missing ≠ 0 ∧ SInv n (done ++ [x]) [] 0 R B { r with missing := r.missing - 1 }) ?_ fun r hr => ?_
    · refine okIte (fun hgt => ?_) fun hle => ?_
      · refine okBind h.flush fun p1 hp1 => ?_
        have hpc := hp1.1.pushChar (c := x) (by rw [hy]; decide) (fun _ => rfl)
        rw [hy] at hpc ⊢
        refine okBind hpc fun st hst => okPure ?_
        exact ⟨hst.2.1, hst.2.2.2, hst.2.2.1⟩
      · have hp0 : pend = 0 := by omega
        subst hp0
        rw [if_pos (by omega), if_pos (by omega)]
        have hpc := h.pushChar (c := x) (by rw [hy]; decide) (fun _ => rfl)
        rw [hy] at hpc ⊢
        refine okBind hpc fun st hst => okPure ?_
        exact ⟨hst.2.1, hst.2.2.2, hst.2.2.1⟩
    · simp only [if_pos hr.2.1]
      rw [if_neg (by omega)]
      exact okPure hr.2.2
  · refine okIte (fun hcol => ?_) fun hncol => okPure ⟨rfl, pend + 1, fun e => (by rw [if_neg hn, if_neg hncol] at e; cases e), h.letter hn⟩
    refine okBind (P := fun r => ∃ pend', (pb = false → pend' = 0) ∧ SInv n (done ++ [x]) [] pend' R B r) ?_ fun r hr => ?_
    · rw [psColon]
      refine okBind (P := fun r => ∃ pend', (pb = false → pend' = 0) ∧ SInv n done [] pend' (R + 1) B r) ?_ fun r hr => ?_
      · refine okIte (fun _ => ?_) fun _ => okSome ⟨pend, hpb, h⟩
        refine okBind (P := fun r => ∃ pend', (pb = false → pend' = 0) ∧ SInv n done [] pend' (R + 1) B r) ?_ fun r hr => ?_
        · refine okIte (fun _ => ?_) fun _ => okSome ⟨pend, hpb, h⟩
          exact okBind h.flush fun p1 hp1 => okPure ⟨0, fun _ => rfl, hp1.1⟩
        · obtain ⟨pend', h1, h2⟩ := hr
          exact okPure ⟨pend', h1, h2.congr r.titleCase false⟩
      · obtain ⟨pend', h1, h2⟩ := hr
        have hpc := h2.pushChar (c := x) (by rw [hcol]; decide) (fun e => absurd e hn)
        rw [hcol] at hpc ⊢
        refine okBind hpc fun st hst => okPure ⟨pend', h1, ?_⟩
        rw [if_pos hst.2.2.2]
        exact hst.2.2.1
    · obtain ⟨pend', h1, h2⟩ := hr
      exact okPure ⟨rfl, pend', fun e => h1 (by rw [if_neg hn, if_pos hcol] at e; exact e), h2⟩

/-! ## Tags -/

/-- Reading inside a text after `pre`. -/
theorem okRd {pre s : List Wc} {j : Nat} {c : Wc} (h : rdz s j = some c) :
    Ok (rdz (pre ++ s) (pre.length + j)) (fun x => x = c) := ⟨c, by rw [rdz_app, h], rfl⟩

theorem psStep_cls {n : Nat} {pre t done need : List Wc} {c : Wc} {pend R : Nat} {B : Nat → Prop} {p : PState}
    (hc : c ≠ 0x65) (h : SInv n done need pend R B p) :
    Ok (psStep (pre ++ (0x5B :: 0x4C :: c :: 0x5D :: t)) (2 * n + 1) pre.length p)
      (fun r => r.1 = pre.length + 3 ∧ SInv n done need pend R B r.2) := by
  have hlen : (pre ++ (0x5B :: 0x4C :: c :: 0x5D :: t)).length = pre.length + t.length + 4 := by simp; omega
  rw [psStep]
  refine okBind (okRd (j := 0) rfl) fun x hx => ?_
  rw [if_pos ⟨hx, by omega⟩, psBracket]
  refine okBind (okRd (j := 1) rfl) fun c1 h1 => ?_
  refine okBind (okRd (j := 2) rfl) fun c2 h2 => ?_
  rw [if_pos (show pre.length + 3 < _ by omega)]
  refine okBind (okRd (j := 3) rfl) fun c3 h3 => ?_
  subst h1 h2 h3
  rw [if_neg (by simp), if_neg (by simp), if_pos ⟨by omega, rfl⟩, psClass]
  refine okBind (okRd (j := 2) rfl) fun c2 h2 => ?_
  refine okBind (okRd (j := 3) rfl) fun c3 h3 => ?_
  subst h2 h3
  rw [if_neg hc, if_neg (by simp)]
  refine okIte (fun _ => okPure ⟨rfl, h.congr _ _⟩) fun _ => ?_
  refine okBind (P := fun _ => True) ?_ fun num _ => ?_
  · refine okIte (fun hu => ?_) fun _ => okSome trivial
    rw [if_neg (by decide)]
    exact okBind (okRdz (by omega)) fun _ _ => okPure trivial
  · refine okIte (fun _ => okPure ⟨?_, h.congr _ _⟩) fun _ => okPure ⟨rfl, h.congr _ _⟩
    rw [if_neg (by decide)]

theorem psStep_cls2 {n : Nat} {pre t done need : List Wc} {c d : Wc} {pend R : Nat} {B : Nat → Prop} {p : PState}
    (hc : c = 0x65 ∨ (c = 0x6E ∧ d = 0x6C) ∨ (c = 0x75 ∧ d = 0x72 ∧ t ≠ [])) (h : SInv n done need pend R B p) :
    Ok (psStep (pre ++ (0x5B :: 0x4C :: c :: d :: 0x5D :: t)) (2 * n + 1) pre.length p)
      (fun r => r.1 = pre.length + 4 ∧ SInv n done need pend R B r.2) := by
  have hlen : (pre ++ (0x5B :: 0x4C :: c :: d :: 0x5D :: t)).length = pre.length + t.length + 5 := by simp; omega
  rw [psStep]
  refine okBind (okRd (j := 0) rfl) fun x hx => ?_
  rw [if_pos ⟨hx, by omega⟩, psBracket]
  refine okBind (okRd (j := 1) rfl) fun c1 h1 => ?_
  refine okBind (okRd (j := 2) rfl) fun c2 h2 => ?_
  rw [if_pos (show pre.length + 3 < _ by omega)]
  refine okBind (okRd (j := 3) rfl) fun c3 h3 => ?_
  subst h1 h2 h3
  rw [if_neg (by simp), if_neg (by simp), if_pos ⟨by omega, rfl⟩, psClass]
  refine okBind (okRd (j := 2) rfl) fun c2 h2 => ?_
  refine okBind (okRd (j := 3) rfl) fun c3 h3 => ?_
  subst h2 h3
  rcases hc with hc | ⟨hc, hd⟩ | ⟨hc, hd, ht⟩
  · rw [if_pos hc]
    exact okPure ⟨rfl, h.congr _ _⟩
  · rw [if_neg (by rw [hc]; decide), if_pos ⟨hc, hd⟩]
    exact okPure ⟨rfl, h.congr _ _⟩
  · have htl := List.length_pos_iff.2 ht
    rw [if_neg (by rw [hc]; decide), if_neg (by rw [hc]; simp), if_neg (by rw [hc]; decide)]
    rw [if_pos ⟨hc, by omega⟩, if_pos hd]
    refine okBind (okSome (P := fun b => b = true) rfl) fun b hb => ?_
    rw [hb, if_pos rfl, if_pos hd]
    exact okPure ⟨rfl, h.congr _ _⟩

theorem psStep_tag {n : Nat} {pre t done need : List Wc} {name : List Wc} {pend R : Nat} {B : Nat → Prop} {p : PState}
    (hc : ∃ c u, name = c :: u ∧ ((c ≠ 0x58 ∧ c ≠ 0x4C ∧ c ≠ 0x42) ∨ name = [0x42, 0x68])) (hn : 0x5D ∉ name)
    (h : SInv n done need pend R B p) :
    Ok (psStep (pre ++ (0x5B :: (name ++ 0x5D :: t))) (2 * n + 1) pre.length p)
      (fun r => r.1 = pre.length + name.length + 1 ∧ SInv n done need pend R B r.2) := by
  obtain ⟨c, u, rfl, hc⟩ := hc
  have hlen : (pre ++ (0x5B :: (c :: u ++ 0x5D :: t))).length = pre.length + u.length + t.length + 3 := by simp; omega
  have hsk := skipTo_ok 0x5D (0x5B :: c :: u) pre t ((pre ++ (0x5B :: (c :: u ++ 0x5D :: t))).length + 2)
    (by intro hm; rcases List.mem_cons.1 hm with h | h
        · exact absurd h (by decide)
        · exact hn h) (by rw [hlen]; simp only [List.length_cons]; omega)
  rw [psStep]
  refine okBind (okRd (j := 0) rfl) fun x hx => ?_
  rw [if_pos ⟨hx, by omega⟩, psBracket]
  refine okBind (okRd (j := 1) rfl) fun c1 h1 => ?_
  refine okBind (P := fun x => c = 0x42 → x = 0x68) ?_ fun c2 h2 => ?_
  · rcases hc with hc | hc
    · exact okMono (okRdz (by omega)) fun _ _ hB => absurd hB hc.2.2
    · cases hc
      exact okMono (okRd (j := 2) rfl) fun _ hx _ => hx
  refine okBind (P := fun _ => True) (okIte (fun _ => okMono (okRdz (by omega)) fun _ _ => trivial) fun _ => okSome trivial) fun c3 _ => ?_
  subst h1
  have hL : c1 ≠ 0x4C ∧ c1 ≠ 0x58 := by
    rcases hc with hc | hc
    · exact ⟨hc.2.1, hc.1⟩
    · cases hc; decide
  rw [if_neg (fun e => e.2.2.1 (h2 e.2.1)), if_neg (fun e => hL.2 e.2.1), if_neg (fun e => hL.1 e.2)]
  have e : pre ++ (0x5B :: c1 :: u ++ 0x5D :: t) = pre ++ (0x5B :: (c1 :: u ++ 0x5D :: t)) := by simp
  rw [e] at hsk
  rw [hsk]
  refine okBind (okSome (P := fun x => x = pre.length + (0x5B :: c1 :: u).length) rfl) fun j hj => okPure ⟨?_, h⟩
  show j = _
  rw [hj]; simp only [List.length_cons]; omega

theorem psStep_sect {n : Nat} {pre t done need : List Wc} {c : Wc} {body : List Wc} {pend R : Nat} {B : Nat → Prop} {p : PState}
    (hc : c ≠ 0x72) (hb : 0x5B ∉ body) (h : SInv n done need pend R B p) :
    Ok (psStep (pre ++ (0x5B :: 0x58 :: c :: 0x5D :: (body ++ 0x5B :: 0x58 :: 0x5D :: t))) (2 * n + 1) pre.length p)
      (fun r => r.1 = pre.length + body.length + 6 ∧ SInv n done need pend R B r.2) := by
  have hlen : (pre ++ (0x5B :: 0x58 :: c :: 0x5D :: (body ++ 0x5B :: 0x58 :: 0x5D :: t))).length
      = pre.length + body.length + t.length + 7 := by simp; omega
  have hsk := skipTo_ok 0x5B body (pre ++ [0x5B, 0x58, c, 0x5D]) (0x58 :: 0x5D :: t)
    ((pre ++ (0x5B :: 0x58 :: c :: 0x5D :: (body ++ 0x5B :: 0x58 :: 0x5D :: t))).length + 2) hb (by omega)
  have e : pre ++ [0x5B, 0x58, c, 0x5D] ++ (body ++ 0x5B :: 0x58 :: 0x5D :: t)
      = pre ++ (0x5B :: 0x58 :: c :: 0x5D :: (body ++ 0x5B :: 0x58 :: 0x5D :: t)) := by simp
  have e2 : (pre ++ [0x5B, 0x58, c, 0x5D]).length = pre.length + 4 := by simp
  rw [e, e2] at hsk
  rw [psStep]
  refine okBind (okRd (j := 0) rfl) fun x hx => ?_
  rw [if_pos ⟨hx, by omega⟩, psBracket]
  refine okBind (okRd (j := 1) rfl) fun c1 h1 => ?_
  refine okBind (okRd (j := 2) rfl) fun c2 h2 => ?_
  rw [if_pos (show pre.length + 3 < _ by omega)]
  refine okBind (okRd (j := 3) rfl) fun c3 h3 => ?_
  subst h1 h2 h3
  rw [if_neg (by simp), if_pos ⟨by omega, rfl, rfl⟩, psSection]
  refine okBind (okRd (j := 2) rfl) fun k hk => ?_
  subst hk
  rw [if_neg hc, hsk]
  refine okBind (okSome (P := fun x => x = pre.length + 4 + body.length) rfl) fun j hj => okPure ⟨?_, h⟩
  show j + 2 = _
  omega

/-! ## Patterns -/

theorem xrLoop_ok (cap : Nat) : ∀ (q pre t : List Wc) (f : Nat) (p : PState), 0x5B ∉ q → q.length < f →
    (p.st ++ q).length ≤ cap → (∀ a b, q = a ++ b → b ≠ [] → nonHy (strip a) < p.missing) →
    xrLoop (pre ++ (q ++ 0x5B :: t)) cap f pre.length p = some (pre.length + q.length,
      { p with st := p.st ++ q, fromDefault := p.fromDefault + (strip q).length, missing := p.missing - nonHy (strip q) }) := by
  intro q
  induction q with
  | nil =>
    intro pre t f p _ hf _ _
    obtain ⟨f, rfl⟩ : ∃ g, f = g + 1 := ⟨f - 1, by simp at hf; omega⟩
    rw [xrLoop, rdz_app0, show rdz ([] ++ 0x5B :: t) 0 = some 0x5B from rfl]
    simp [strip, nonHy]
  | cons x q ih =>
    intro pre t f p hq hf hcap hm
    obtain ⟨f, rfl⟩ : ∃ g, f = g + 1 := ⟨f - 1, by simp at hf; omega⟩
    have hx : x ≠ 0x5B := fun h => hq (by rw [h]; exact List.mem_cons_self ..)
    have hm0 : 0 < p.missing := hm [] (x :: q) rfl (by simp)
    have hlt : p.st.length < cap := by simp at hcap; omega
    have e : pre ++ (x :: q ++ 0x5B :: t) = pre ++ [x] ++ (q ++ 0x5B :: t) := by simp
    have hl : (pre ++ [x]).length = pre.length + 1 := by simp
    have hnext := fun p' h1 h2 => ih (pre ++ [x]) t f p' (fun h => hq (List.mem_cons_of_mem _ h)) (by simp at hf; omega) h1 h2
    rw [hl] at hnext
    have hcap' : (p.st ++ [x] ++ q).length ≤ cap := by simpa using hcap
    rw [xrLoop, rdz_app0, show rdz (x :: q ++ 0x5B :: t) 0 = some x from rfl]
    show (if x ≠ 0x5B ∧ p.missing ≠ 0 then _ else _) = _
    rw [if_pos ⟨hx, by omega⟩, push, if_pos hlt]
    show (if x ≠ 0x3D then _ else _) = _
    have sc : ∀ a, x ≠ 0x3D → strip (x :: a) = x :: strip a := fun a h => by
      rw [strip, List.filter_cons, if_pos (by simpa using h)]; rfl
    have sc' : ∀ a, x = 0x3D → strip (x :: a) = strip a := fun a h => by
      rw [strip, List.filter_cons, if_neg (by simp [h])]; rfl
    by_cases h1 : x = 0x3D
    · rw [if_neg (by simp [h1]), e, hnext _ hcap' (fun a b hab hb => ?_)]
      · rw [sc' _ h1]
        simp only [List.append_assoc, List.singleton_append, List.length_cons]
        congr 2
        omega
      · have := hm (x :: a) b (by rw [hab]; rfl) hb
        rwa [sc' _ h1] at this
    · rw [if_pos h1]
      by_cases h2 : x = 0x2D
      · have nh : ∀ a, nonHy (x :: a) = nonHy a := fun a => by
          rw [nonHy, List.filter_cons, if_neg (by simp [h2])]; rfl
        rw [if_neg (by simp [h2]), e, hnext _ hcap' (fun a b hab hb => ?_)]
        · rw [sc _ h1, nh]
          simp only [List.append_assoc, List.singleton_append, List.length_cons]
          congr 2
          · omega
          · congr 1; omega
        · have := hm (x :: a) b (by rw [hab]; rfl) hb
          rwa [sc _ h1, nh] at this
      · have nh : ∀ a, nonHy (x :: a) = nonHy a + 1 := fun a => by
          rw [nonHy, List.filter_cons, if_pos (by simpa using h2)]; rfl
        rw [if_pos h2, e, hnext _ hcap' (fun a b hab hb => ?_)]
        · rw [sc _ h1, nh]
          simp only [List.append_assoc, List.singleton_append, List.length_cons]
          congr 2
          · omega
          · congr 1 <;> omega
        · have := hm (x :: a) b (by rw [hab]; rfl) hb
          rw [sc _ h1, nh] at this
          show nonHy (strip a) < p.missing - 1
          omega

theorem lenOk_pattern : ∀ {q st : List Wc}, LenOk st → hasDouble q = false → (lastEq st = true → q.head? ≠ some 0x3D) →
    LenOk (st ++ q) := by
  intro q
  induction q with
  | nil => intro st h _ _; simpa using h
  | cons x q ih =>
    intro st h hd hl
    have hd' : hasDouble q = false := by
      cases q with
      | nil => rfl
      | cons y q => rw [hasDouble] at hd; exact (Bool.or_eq_false_iff.1 hd).2
    have hx : LenOk (st ++ [x]) := by
      by_cases h1 : x = 0x3D
      · rw [h1]
        refine lenOk_eq h ?_
        cases hb : lastEq st with
        | false => rfl
        | true => exact absurd (by rw [h1]; rfl) (hl hb)
      · exact lenOk_push h h1
    have := ih hx hd' (fun hb e => ?_)
    · simpa using this
    · rw [lastEq_concat] at hb
      have hx1 : x = 0x3D := by simpa using hb
      cases q with
      | nil => cases e
      | cons y q =>
        have hy1 : y = 0x3D := by simpa using e
        rw [hasDouble, hx1, hy1] at hd
        simp at hd

/-- What a pattern describes comes after it. -/
theorem wf_fits : ∀ {r : List SItem} {need : List Wc} {pb : Bool}, WfItems need pb r → need.length ≤ (content r).length := by
  intro r
  induction r with
  | nil => intro need pb h; rw [WfItems] at h; rw [h]; simp
  | cons x r ih =>
    intro need pb h
    cases x with
    | cls c => rw [WfItems] at h; exact ih h.2
    | cls2 c d => rw [WfItems] at h; exact ih h.2
    | tag name => rw [WfItems] at h; exact ih h.2.2
    | bound c => rw [WfItems] at h; rw [h.2.1]; simp
    | sect c body => rw [WfItems] at h; exact ih h.2.2
    | pat p => rw [WfItems] at h; rw [h.1]; simp
    | chr c =>
      cases need with
      | nil => simp
      | cons q qs =>
        rw [WfItems] at h
        have := ih h.2.2.2
        simp only [content, List.length_cons]
        omega

theorem psStep_pat {n : Nat} {pre t done : List Wc} {q : List Wc} {R : Nat} {B : Nat → Prop} {p : PState}
    (hb : 0x5B ∉ q) (hh : q.head? ≠ some 0x3D) (hd : hasDouble q = false)
    (hl : q.getLast? = some 0x3D → (strip q).length < R) (hf : (strip q).length ≤ R) (h : SInv n done [] 0 R B p) :
    Ok (psStep (pre ++ (0x5B :: 0x58 :: 0x72 :: 0x5D :: (q ++ 0x5B :: 0x58 :: 0x5D :: t))) (2 * n + 1) pre.length p)
      (fun r => r.1 = pre.length + q.length + 6
        ∧ SInv n done (strip q) 0 R (fun j => B j ∨ j ∈ marks done.length q) r.2) := by
  have hlen : (pre ++ (0x5B :: 0x58 :: 0x72 :: 0x5D :: (q ++ 0x5B :: 0x58 :: 0x5D :: t))).length
      = pre.length + q.length + t.length + 7 := by simp; omega
  have hw := h.written
  have ht := h.tot
  have hm := h.mis
  have hcn := h.cnt
  have hm0 : nonHy [] = 0 := rfl
  simp only [List.length_nil, Nat.add_zero] at hw hm hcn
  have hlo : LenOk (p.st ++ q) := lenOk_pattern h.len hd (fun _ => hh)
  have hll := hlo.len
  rw [strip_append, List.length_append] at hll
  have hnl : nonHy (strip q) ≤ (strip q).length := List.length_filter_le _ _
  have hx := xrLoop_ok (2 * n + 1) q (pre ++ [0x5B, 0x58, 0x72, 0x5D]) (0x58 :: 0x5D :: t)
    ((pre ++ (0x5B :: 0x58 :: 0x72 :: 0x5D :: (q ++ 0x5B :: 0x58 :: 0x5D :: t))).length + 2) { p with titleCase := false } hb (by omega)
    (by show (p.st ++ q).length ≤ 2 * n + 1; rw [List.length_append] at hll ⊢; omega) (by
      intro a b hab hbn
      show nonHy (strip a) < p.missing
      have hna : nonHy (strip a) ≤ (strip a).length := List.length_filter_le _ _
      have hsq : (strip q).length = (strip a).length + (strip b).length := by rw [hab, strip_append, List.length_append]
      by_cases hsb : strip b = []
      · have : q.getLast? = some 0x3D := by
          have hbl : b.getLast? = some (b.getLast hbn) := List.getLast?_eq_some_getLast hbn
          have hbe : b.getLast hbn = 0x3D := by
            have := List.filter_eq_nil_iff.1 hsb _ (List.getLast_mem hbn)
            simpa using this
          rw [hab, List.getLast?_append, hbl, hbe]; rfl
        have := hl this
        omega
      · have := List.length_pos_iff.2 hsb
        omega)
  have e : pre ++ [0x5B, 0x58, 0x72, 0x5D] ++ (q ++ 0x5B :: 0x58 :: 0x5D :: t)
      = pre ++ (0x5B :: 0x58 :: 0x72 :: 0x5D :: (q ++ 0x5B :: 0x58 :: 0x5D :: t)) := by simp
  have e2 : (pre ++ [0x5B, 0x58, 0x72, 0x5D]).length = pre.length + 4 := by simp
  rw [e, e2] at hx
  rw [psStep]
  refine okBind (okRd (j := 0) rfl) fun x hx => ?_
  rw [if_pos ⟨hx, by omega⟩, psBracket]
  refine okBind (okRd (j := 1) rfl) fun c1 h1 => ?_
  refine okBind (okRd (j := 2) rfl) fun c2 h2 => ?_
  rw [if_pos (show pre.length + 3 < _ by omega)]
  refine okBind (okRd (j := 3) rfl) fun c3 h3 => ?_
  subst h1 h2 h3
  rw [if_neg (by simp), if_pos ⟨by omega, rfl, rfl⟩, psSection]
  refine okBind (okRd (j := 2) rfl) fun k hk => ?_
  subst hk
  rw [if_pos rfl, ‹xrLoop _ _ _ _ _ = _›]
  refine okPure ⟨by show pre.length + 4 + q.length + 2 = _; omega, ?_⟩
  refine ⟨?_, ?_, ?_, Or.inl rfl, ht, hf, hlo, ?_, ?_, ?_, ?_⟩
  · show hy (strip (p.st ++ q)) ++ [] = _
    have h1 := h.hyph
    simp only [List.replicate_zero, List.append_nil] at h1 ⊢
    rw [strip_append, hy_append, h1]; simp [hy]
  · show p.seen + (strip q).length = p.fromDefault + (strip q).length + 0
    omega
  · show p.missing - nonHy (strip q) + nonHy (strip q) = R + 0
    omega
  · show lastEq (p.st ++ q) = true → _
    intro hle
    cases hq : q with
    | nil =>
      rw [hq, List.append_nil] at hle
      have := h.last hle
      simpa [strip] using this
    | cons x q' =>
      rw [← hq]
      apply hl
      have : (p.st ++ q).getLast? = q.getLast? := by
        have hqn : q ≠ [] := by rw [hq]; simp
        rw [List.getLast?_append, List.getLast?_eq_some_getLast hqn]; rfl
      rw [lastEq, this] at hle
      simpa using hle
  · show p.st ++ q ≠ []
    intro h0; exact h.ne (List.append_eq_nil_iff.1 h0).1
  · show (p.st ++ q).length = 1 → strip (p.st ++ q) = [] ∨ _
    intro h0
    have pne := List.length_pos_iff.2 h.ne
    rw [List.length_append] at h0
    have hq0 : q = [] := List.length_eq_zero_iff.1 (by omega)
    rw [hq0, List.append_nil]
    exact h.short (by omega)
  · show ∀ j, j ∈ Verif.marks 0 (p.st ++ q) ↔ _
    intro j
    rw [marks_append, List.mem_append, h.marks j, Nat.zero_add, hw]

/-! ## Boundaries -/

theorem psStep_bound {n : Nat} {pre t done : List Wc} {c : Wc} {pend R : Nat} {B : Nat → Prop} {p : PState}
    (hc : c ≠ 0x68) (hR : 0 < R) (ht2 : 2 ≤ t.length) (h1 : pre.length = 1 → pend = 0 ∧ lastEq p.st = false)
    (h : SInv n done [] pend R B p) :
    Ok (psStep (pre ++ (0x5B :: 0x42 :: c :: 0x5D :: t)) (2 * n + 1) pre.length p)
      (fun r => r.1 = pre.length + 3 ∧ SInv n done [] 0 R (fun j => B j ∨ j = done.length) r.2) := by
  have hlen : (pre ++ (0x5B :: 0x42 :: c :: 0x5D :: t)).length = pre.length + t.length + 4 := by simp; omega
  -- writing a mark
  have mark : ∀ {p : PState} {s f : Nat}, SInv n done [] 0 R B { p with seen := s, fromDefault := f } → lastEq p.st = false →
      Ok (push (2 * n + 1) p.st 0x3D) (fun st => ∀ s f, s = f → SInv n done [] 0 R (fun j => B j ∨ j = done.length) { p with st := st, seen := s, fromDefault := f }) := by
    intro p s0 f0 h hl
    have hw : (strip p.st).length + 0 = done.length + 0 := h.written
    have hle : p.st.length ≤ 2 * (strip p.st).length := h.len.len' hl
    have ht := h.tot
    simp only [Nat.add_zero] at hw
    refine okMono (okPush (by omega)) fun st hst s f hsf => ?_
    have hss : strip st = strip p.st := by rw [hst, strip_append]; simp [strip]
    refine ⟨?_, ?_, h.mis, Or.inl rfl, ht, Nat.zero_le _, ?_, ?_, ?_, ?_, ?_⟩
    · show hy (strip st) ++ _ = _
      rw [hss]; exact h.hyph
    · show s + 0 = f + 0
      omega
    · show LenOk st
      rw [hst]; exact lenOk_eq h.len hl
    · show lastEq st = true → _
      intro _; simpa using hR
    · show st ≠ []
      rw [hst]; simp
    · show st.length = 1 → _
      have pne : 0 < p.st.length := List.length_pos_iff.2 h.ne
      rw [hst, List.length_append]
      intro h0
      simp only [List.length_cons, List.length_nil] at h0
      omega
    · show ∀ j, j ∈ Verif.marks 0 st ↔ _
      intro j
      rw [hst, marks_append, List.mem_append, h.marks j, Nat.zero_add, hw]
      simp [Verif.marks]
  rw [psStep]
  refine okBind (okRd (j := 0) rfl) fun x hx => ?_
  rw [if_pos ⟨hx, by omega⟩, psBracket]
  refine okBind (okRd (j := 1) rfl) fun c1 hc1 => ?_
  refine okBind (okRd (j := 2) rfl) fun c2 hc2 => ?_
  rw [if_pos (show pre.length + 3 < _ by omega)]
  refine okBind (okRd (j := 3) rfl) fun c3 hc3 => ?_
  subst hc1 hc2 hc3
  rw [if_pos ⟨by omega, rfl, hc, rfl⟩, psBoundary]
  by_cases hp : pre.length = 1
  · obtain ⟨hp0, hle⟩ := h1 hp
    subst hp0
    rw [if_pos hp]
    have hm := mark (p := p) (s := p.seen) (f := p.fromDefault) h hle
    refine okBind (P := fun r : PState => r.seen = r.fromDefault ∧ r.st ≠ [] ∧
      SInv n done [] 0 R (fun j => B j ∨ j = done.length) { r with seen := 0, fromDefault := 0 }) ?_ fun r hr => ?_
    · refine okBind hm fun st hst => okPure ⟨?_, ?_, hst 0 0 rfl⟩
      · have := h.cnt; simpa using this
      · exact (hst 0 0 rfl).ne
    · rw [flushSeen, if_neg (by omega)]
      refine okBind (okSome (P := fun x => x = r) rfl) fun x hx => ?_
      subst hx
      have pne := List.length_pos_iff.2 hr.2.1
      refine okBind (P := fun _ => True) ⟨_, rd_eq_some (by omega), trivial⟩ fun last _ => ?_
      rw [if_neg (fun e => e.1 hp)]
      refine okBind (okSome (P := fun y => y = x) rfl) fun y hy => ?_
      subst hy
      exact okPure ⟨rfl, hr.2.2⟩
  · rw [if_neg hp]
    refine okBind (okSome (P := fun y => y = p) rfl) fun y hy => ?_
    subst hy
    refine okBind h.flush fun r hr => ?_
    have hr1 := hr.1
    have hne : r.st ≠ [] := hr1.ne
    have pne := List.length_pos_iff.2 hne
    refine okBind (P := fun l => l = r.st.getLast hne) ⟨_, rd_eq_some (by omega), (List.getLast_eq_getElem hne).symm⟩ fun last hlast => ?_
    have hle : lastEq r.st = (last == 0x3D) := by
      rw [lastEq, List.getLast?_eq_some_getLast hne, hlast]; rfl
    refine okBind (P := fun r' : PState => SInv n done [] 0 R (fun j => B j ∨ j = done.length) { r' with seen := 0, fromDefault := 0 }) ?_
      fun r' hr' => okPure ⟨rfl, hr'⟩
    refine okIte (fun hcnd => ?_) fun hcnd => okSome ?_
    · exact okBind (mark (p := r) hr1 (by show lastEq r.st = false; rw [hle]; exact beq_false_of_ne hcnd.2.2.2)) fun st hst => okPure (hst 0 0 rfl)
    · have hl : lastEq r.st = true := by
        rw [hle]
        by_cases h : last = 0x3D
        · rw [h]; rfl
        · exact absurd ⟨hp, by omega, pne, h⟩ hcnd
      have hw := hr1.written
      simp only [List.length_nil, Nat.add_zero] at hw
      refine ⟨hr1.hyph, rfl, hr1.mis, Or.inl rfl, hr1.tot, hr1.fits, hr1.len, hr1.last, hne, hr1.short, fun j => ?_⟩
      rw [hr1.marks j]
      constructor
      · exact Or.inl
      · rintro (h | h)
        · exact h
        · rw [← hr1.marks j, h, ← hw]
          have := lastEq_mark hl 0
          rwa [Nat.zero_add] at this

/-! ## The loop -/

theorem psLoop_ok (n : Nat) : ∀ (r : List SItem) (pre done need : List Wc) (pb : Bool) (pend : Nat) (B : Nat → Prop) (p : PState) (f : Nat),
    WfItems need pb r → (pb = false → pend = 0) → SInv n done need pend (content r).length B p →
    (pre = [] → FirstOk r ∧ r.head? ≠ some (.chr 0x2D)) →
    (∀ c t, r = .bound c :: t → pre.length = 1 → pend = 0 ∧ lastEq p.st = false) → (render r).length < f →
    Ok (psLoop (pre ++ render r) (2 * n + 1) f pre.length p) (fun p' => ∃ pend',
      SInv n (done ++ content r) [] pend' 0 (fun j => B j ∨ BorderFrom done.length r j) p') := by
  intro r
  induction r with
  | nil =>
    intro pre done need pb pend B p f hwf _ h _ _ hf
    obtain ⟨f, rfl⟩ : ∃ g, f = g + 1 := ⟨f - 1, by omega⟩
    rw [psLoop, if_neg (by simp [render])]
    rw [WfItems] at hwf
    subst hwf
    refine okSome ⟨pend, ?_⟩
    simpa [content, BorderFrom] using h
  | cons x r ih =>
    intro pre done need pb pend B p f hwf hpb h hfirst hbound hf
    obtain ⟨f, rfl⟩ : ∃ g, f = g + 1 := ⟨f - 1, by omega⟩
    -- one step, then the rest
    have go : ∀ (done' need' : List Wc) (pb' : Bool) (B' : Nat → Prop), x.render ≠ [] →
        Ok (psStep (pre ++ (x.render ++ render r)) (2 * n + 1) pre.length p) (fun s => s.1 + 1 = pre.length + x.render.length
          ∧ ∃ pend', (pb' = false → pend' = 0) ∧ SInv n done' need' pend' (content r).length B' s.2) →
        WfItems need' pb' r → (∀ c t, r = .bound c :: t → pre.length + x.render.length ≠ 1) →
        done' ++ content r = done ++ content (x :: r) →
        (∀ j, (B' j ∨ BorderFrom done'.length r j) ↔ (B j ∨ BorderFrom done.length (x :: r) j)) →
        Ok (psLoop (pre ++ render (x :: r)) (2 * n + 1) (f + 1) pre.length p) (fun p' => ∃ pend',
          SInv n (done ++ content (x :: r)) [] pend' 0 (fun j => B j ∨ BorderFrom done.length (x :: r) j) p') := by
      intro done' need' pb' B' hne hstep hwf' hb' hcont hB
      have hxl := List.length_pos_iff.2 hne
      rw [render, List.length_append] at hf
      rw [psLoop, if_pos (by rw [render, List.length_append, List.length_append]; omega), render]
      refine okBind hstep fun s hs => ?_
      obtain ⟨i', p'⟩ := s
      obtain ⟨hi, pend', hp', hs'⟩ := hs
      simp only at hi hs' ⊢
      have e : pre ++ (x.render ++ render r) = (pre ++ x.render) ++ render r := by simp
      have el : (pre ++ x.render).length = i' + 1 := by rw [List.length_append, hi]
      rw [e, ← el]
      refine okMono (ih (pre ++ x.render) done' need' pb' pend' B' p' f hwf' hp' hs' ?_ ?_ (by omega)) fun q hq => ?_
      · intro h0; exact absurd (List.append_eq_nil_iff.1 h0).2 hne
      · intro c t hr h1
        rw [List.length_append] at h1
        exact absurd h1 (hb' c t hr)
      · obtain ⟨pe, hq⟩ := hq
        refine ⟨pe, ?_⟩
        rw [hcont] at hq
        exact ⟨hq.hyph, hq.cnt, hq.mis, hq.one, hq.tot, hq.fits, hq.len, hq.last, hq.ne, hq.short,
          fun j => (hq.marks j).trans (hB j)⟩
    cases x with
    | cls c =>
      rw [WfItems] at hwf
      refine go done need pb B (by simp [SItem.render]) ?_ hwf.2 ?_ rfl fun j => Iff.rfl
      · exact okMono (psStep_cls hwf.1 h) fun s hs => ⟨by rw [hs.1]; simp [SItem.render], pend, hpb, hs.2⟩
      · intro c t _; simp only [SItem.render, List.length_cons, List.length_append, List.length_nil]; omega
    | cls2 c d =>
      rw [WfItems] at hwf
      refine go done need pb B (by simp [SItem.render]) ?_ hwf.2 ?_ rfl fun j => Iff.rfl
      · refine okMono (psStep_cls2 ?_ h) fun s hs => ⟨by rw [hs.1]; simp [SItem.render], pend, hpb, hs.2⟩
        rcases hwf.1 with h1 | h1 | ⟨h1, h2, h3⟩
        · exact Or.inl h1
        · exact Or.inr (Or.inl h1)
        · refine Or.inr (Or.inr ⟨h1, h2, ?_⟩)
          cases r with
          | nil => exact absurd rfl h3
          | cons y r => cases y <;> simp [render, SItem.render]
      · intro c t _; simp only [SItem.render, List.length_cons, List.length_append, List.length_nil]; omega
    | tag name =>
      rw [WfItems] at hwf
      have e : (SItem.tag name).render ++ render r = 0x5B :: (name ++ 0x5D :: render r) := by simp [SItem.render]
      refine go done need pb B (by simp [SItem.render]) ?_ hwf.2.2 ?_ rfl fun j => Iff.rfl
      · rw [e]
        exact okMono (psStep_tag hwf.1 hwf.2.1 h) fun s hs => ⟨by rw [hs.1]; simp [SItem.render]; omega, pend, hpb, hs.2⟩
      · intro c t _; simp only [SItem.render, List.length_cons, List.length_append, List.length_nil]; omega
    | bound c =>
      rw [WfItems] at hwf
      obtain ⟨h1, h2, h3, h4, h5⟩ := hwf
      subst h2
      refine go done [] false (fun j => B j ∨ j = done.length) (by simp [SItem.render]) ?_ h5 ?_ rfl fun j => ?_
      · exact okMono (psStep_bound h1 (List.length_pos_iff.2 h3) h4 (fun hp => hbound c r rfl hp) h)
          fun s hs => ⟨by rw [hs.1]; simp [SItem.render], 0, fun _ => rfl, hs.2⟩
      · intro c t _; simp only [SItem.render, List.length_cons, List.length_append, List.length_nil]; omega
      · rw [BorderFrom, or_assoc]
    | sect c body =>
      rw [WfItems] at hwf
      have e : (SItem.sect c body).render ++ render r = 0x5B :: 0x58 :: c :: 0x5D :: (body ++ 0x5B :: 0x58 :: 0x5D :: render r) := by
        simp [SItem.render]
      refine go done need pb B (by simp [SItem.render]) ?_ hwf.2.2 ?_ rfl fun j => Iff.rfl
      · rw [e]
        exact okMono (psStep_sect hwf.1 hwf.2.1 h) fun s hs => ⟨by rw [hs.1]; simp [SItem.render]; omega, pend, hpb, hs.2⟩
      · intro c t _; simp only [SItem.render, List.length_cons, List.length_append, List.length_nil]; omega
    | pat q =>
      rw [WfItems] at hwf
      obtain ⟨h1, h2, h3, h4, h5, h6, h7⟩ := hwf
      subst h1
      have h0 := hpb h2
      subst h0
      have e : (SItem.pat q).render ++ render r = 0x5B :: 0x58 :: 0x72 :: 0x5D :: (q ++ 0x5B :: 0x58 :: 0x5D :: render r) := by
        simp [SItem.render]
      refine go done (strip q) false (fun j => B j ∨ j ∈ marks done.length q) (by simp [SItem.render]) ?_ h7 ?_ rfl fun j => ?_
      · rw [e]
        exact okMono (psStep_pat h3 h4 h5 h6 (wf_fits h7) h) fun s hs => ⟨by rw [hs.1]; simp [SItem.render]; omega, 0, fun _ => rfl, hs.2⟩
      · intro c t _; simp only [SItem.render, List.length_cons, List.length_append, List.length_nil]; omega
      · rw [BorderFrom, or_assoc]
    | chr c =>
      have h0 : c = 0x2D → pre ≠ [] := by
        intro hc hp
        exact (hfirst hp).2 (by rw [hc]; rfl)
      have hb' : ∀ d t, r = .bound d :: t → pre.length + (SItem.chr c).render.length ≠ 1 := by
        intro d t hr h1
        have hp : pre = [] := List.length_eq_zero_iff.1 (by simp [SItem.render] at h1; simpa using h1)
        have := (hfirst hp).1
        rw [hr, FirstOk] at this
        exact h0 this hp
      have hB : ∀ j, (B j ∨ BorderFrom (done ++ [c]).length r j) ↔ (B j ∨ BorderFrom done.length (.chr c :: r) j) := by
        intro j
        rw [BorderFrom, List.length_append]; rfl
      have hcl : (content (.chr c :: r)).length = (content r).length + 1 := rfl
      rw [hcl] at h
      cases need with
      | nil =>
        rw [WfItems] at hwf
        refine go (done ++ [c]) [] _ B (by simp [SItem.render]) ?_ hwf.2 hb' (by simp [content]) hB
        exact okMono (psStep_free hpb hwf.1 h0 h) fun s hs => ⟨by rw [hs.1]; rfl, hs.2⟩
      | cons q qs =>
        rw [WfItems] at hwf
        refine go (done ++ [c]) qs false B (by simp [SItem.render]) ?_ hwf.2.2.2 hb' (by simp [content]) hB
        exact okMono (psStep_patterned hwf.1 hwf.2.1 hwf.2.2.1 h0 h) fun s hs => ⟨by rw [hs.1]; rfl, 0, fun _ => rfl, hs.2⟩

theorem lenOk_init : LenOk [0x3D] := ⟨by decide, by decide, by decide⟩

theorem lenOk_hyphen : LenOk [0x2D] := ⟨by decide, by decide, by decide⟩

/-- The STRUCTURE of a well-formed output. -/
theorem parseStructure_ok {its : List SItem} (hw : WellFormed its) :
    ∃ st, parseStructure (render its) (content its).length = some st
      ∧ hy (strip st) = hy (content its)
      ∧ (∀ j, j ∈ marks 0 st ↔ Border its j)
      ∧ lastEq st = false ∧ LenOk st := by
  obtain ⟨h1, h2, h3⟩ := hw
  have hnl := List.length_pos_iff.2 h3
  -- after the loop
  have fin : ∀ (B : Nat → Prop) (p : PState) (pend : Nat), SInv (content its).length (content its) [] pend 0 B p →
      ∃ st, (createDefault ((content its).length * 2 + 1) p.missing p).bind (fun p => if p.st.length < (content its).length * 2 + 1 then
        (some p.st : UB (List Wc)) else ub) = some st
      ∧ hy (strip st) = hy (content its) ∧ (∀ j, j ∈ marks 0 st ↔ B j) ∧ lastEq st = false ∧ LenOk st := by
    intro B p pend h
    have hm := h.mis
    have hm0 : nonHy [] = 0 := rfl
    have hwr := h.written
    have hll := h.len.len
    simp only [List.length_nil, Nat.add_zero, Nat.zero_add] at hwr
    have hmp : p.missing = pend := by omega
    obtain ⟨p', e1, t, ht1, ht2, e2⟩ := createDefault_ok ((content its).length * 2 + 1) p.missing p (by omega)
    have hne : ∀ c ∈ t, c ≠ 0x3D := fun c hc => (ht2 c hc).ne.1
    have e3 : p'.st = p.st ++ t := by rw [e2]
    have hlo : LenOk (p.st ++ t) := lenOk_append h.len hne
    have hle : lastEq (p.st ++ t) = false := by
      cases hb : lastEq (p.st ++ t) with
      | false => rfl
      | true =>
        obtain ⟨ht0, hl⟩ := lastEq_append hne hb
        have := h.last hl
        rw [ht0] at ht1
        simp only [List.length_nil] at ht1 this
        omega
    have hsl : (strip (p.st ++ t)).length = (content its).length := by
      rw [strip_append, strip_id hne, List.length_append]; omega
    have hfin := hlo.len' hle
    rw [hsl] at hfin
    refine ⟨p.st ++ t, ?_, ?_, ?_, hle, hlo⟩
    · rw [e1]
      show (if p'.st.length < _ then _ else _) = _
      rw [e3, if_pos (by omega)]
    · have h1 := h.hyph
      rw [strip_append, strip_id hne, hy_append, hy_letters ht2, ht1, hmp, h1]
      simp [hy]
    · intro j
      rw [marks_append, marks_id hne, List.append_nil]
      exact h.marks j
  have init : SInv (content its).length [] [] 0 (content its).length (fun j => j = 0) { st := [0x3D], missing := (content its).length } := by
    refine ⟨rfl, rfl, rfl, Or.inl rfl, by simp, Nat.zero_le _, lenOk_init, fun _ => by simpa using hnl, by simp, fun _ => Or.inl rfl, ?_⟩
    intro j
    show j ∈ [0] ↔ j = 0
    simp
  rw [parseStructure]
  by_cases hf : its.head? = some (.chr 0x2D)
  · cases its with
    | nil => cases hf
    | cons x r =>
      have hx : x = .chr 0x2D := by simpa using hf
      subst hx
      rw [WfItems] at h1
      have h1r : WfItems [] false r := h1.2
      have hcl : (content (.chr 0x2D :: r)).length = (content r).length + 1 := rfl
      have inv1 : SInv (content (.chr 0x2D :: r)).length [0x2D] [] 0 (content r).length (fun _ => False)
          { st := [0x2D], missing := (content r).length } := by
        refine ⟨rfl, rfl, rfl, Or.inl rfl, by rw [hcl]; simp; omega, Nat.zero_le _, lenOk_hyphen,
          fun h => absurd h (by show ¬ (lastEq [0x2D] = true); decide), by simp, fun _ => Or.inr (by simp), ?_⟩
        intro j
        show j ∈ [] ↔ False
        simp
      have hloop := psLoop_ok (content (.chr 0x2D :: r)).length r [0x2D] [0x2D] [] false 0 (fun _ => False)
        { st := [0x2D], missing := (content r).length } ((render r).length + 1) h1r (fun _ => rfl) inv1 (fun h => by cases h)
        (fun c t _ _ => ⟨rfl, by show lastEq [0x2D] = false; decide⟩) (by omega)
      obtain ⟨p', hp', pend', hinv⟩ := hloop
      have hstep : psLoop (render (.chr 0x2D :: r)) ((content (.chr 0x2D :: r)).length * 2 + 1) ((render (.chr 0x2D :: r)).length + 1) 0
          { st := [0x3D], missing := (content (.chr 0x2D :: r)).length }
          = psLoop ([0x2D] ++ render r) (2 * (content (.chr 0x2D :: r)).length + 1) ((render r).length + 1) [0x2D].length
            { st := [0x2D], missing := (content r).length } := by
        have hl : (render (.chr 0x2D :: r)).length + 1 = ((render r).length + 1) + 1 := by simp [render, SItem.render]
        rw [hl, psLoop, if_pos (by simp [render, SItem.render]), Nat.mul_comm]
        rfl
      obtain ⟨st, hs1, hs2, hs3, hs4, hs5⟩ := fin _ p' pend' hinv
      refine ⟨st, ?_, hs2, fun j => ?_, hs4, hs5⟩
      · rw [hstep, hp']
        exact hs1
      · rw [hs3 j, Border, BorderFrom]
        simp
  · have hloop := psLoop_ok (content its).length its [] [] [] false 0 (fun j => j = 0) _ ((render its).length + 1) h1 (fun _ => rfl) init
      (fun _ => ⟨h2, hf⟩) (fun c t _ h => by cases h) (by omega)
    obtain ⟨p', hp', pend', hinv⟩ := hloop
    obtain ⟨st, hs1, hs2, hs3, hs4, hs5⟩ := fin _ p' pend' hinv
    refine ⟨st, ?_, hs2, fun j => ?_, hs4, hs5⟩
    · rw [Nat.mul_comm] at hs1 ⊢
      rw [List.nil_append, List.length_nil] at hp'
      rw [hp']
      exact hs1
    · rw [hs3 j, Border]
      simp [hf]

end Verif
