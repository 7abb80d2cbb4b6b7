import Verif.Lemmas.GrammarChecks
import Verif.Lemmas.Hyphenator
import Verif.Spec.Autocorrect
/-!
# The autocorrection check: buffer, positions, look-ups
-/

set_option linter.unusedSimpArgs false
set_option linter.unusedVariables false

namespace Verif.Autocorrect
open Verif Verif.Props

/-- Positions after each token: in the buffer and in the sentence. -/
def marks : Nat → Nat → List GTok → List (Nat × Nat)
  | _, _, [] => []
  | n, o, t :: ts => (n + (spelled t).length, o + t.len) :: marks (n + (spelled t).length) (o + t.len) ts

/-- Positions of the words. -/
def wordMarks : Nat → Nat → List GTok → List (Nat × Nat)
  | _, _, [] => []
  | n, o, t :: ts => (if t.type = .word then [(n, o)] else []) ++ wordMarks (n + (spelled t).length) (o + t.len) ts

theorem spelled_le {t : GTok} (h : t.str ≠ []) : (spelled t).length ≤ t.str.length := by
  unfold spelled
  split
  · have := List.length_pos_iff.2 h
    simp only [List.length_cons, List.length_nil]
    omega
  · exact List.length_filter_le _ _

theorem filter_shy {l : List Wc} (h : 0 ∉ l) : l.filter (fun c => !(wcschr [0xAD] c)) = l.filter (· ≠ 0xAD) := by
  apply List.filter_congr
  intro c hc
  have : c ≠ 0 := by rintro rfl; exact h hc
  simp [wcschr, this, beq_eq_decide]

theorem extent_cons (t : GTok) (ts : List GTok) : extent (t :: ts) = t.str.length + extent ts := by simp [extent]

theorem extent_append (a b : List GTok) : extent (a ++ b) = extent a + extent b := by simp [extent]

theorem plain_cons (t : GTok) (ts : List GTok) : plain (t :: ts) = spelled t ++ plain ts := by simp [plain]

theorem plain_append (a b : List GTok) : plain (a ++ b) = plain a ++ plain b := by simp [plain]

/-- The buffer and the positions after the loop over the tokens. -/
theorem acTokens_state (ts : List GTok) (hne : ∀ t ∈ ts, t.str ≠ []) (hz : ∀ t ∈ ts, 0 ∉ t.str) :
    ∀ (first : Bool) (st : AcSt), st.norm[st.norm.length - 1]? = some st.input.length → st.input.length + extent ts < 20000 →
      acTokens false first ts st = some (some
        { input := st.input ++ plain ts, lookups := st.lookups ++ wordMarks st.input.length st.ucs ts,
          orig := st.orig ++ (marks st.input.length st.ucs ts).map (·.2), norm := st.norm ++ (marks st.input.length st.ucs ts).map (·.1),
          ucs := st.ucs + extent ts }) := by
  induction ts with
  | nil => intro first st h1 h2; simp [acTokens, plain, wordMarks, marks, extent]
  | cons t ts ih =>
    intro first st h1 h2
    have hle := spelled_le (hne t (by simp))
    rw [extent_cons] at h2
    have hbs : bufferSize = 20000 := rfl
    have htl : t.len = t.str.length := rfl
    have key : acToken false first t st = some (some
        { input := st.input ++ spelled t, lookups := st.lookups ++ (if t.type = .word then [(st.input.length, st.ucs)] else []),
          orig := st.orig ++ [st.ucs + t.len], norm := st.norm ++ [st.input.length + (spelled t).length], ucs := st.ucs + t.len }) := by
      have hl : (if t.type = .word then st.lookups ++ [(st.input.length, st.ucs)] else st.lookups)
          = st.lookups ++ (if t.type = .word then [(st.input.length, st.ucs)] else []) := by split <;> simp
      unfold acToken
      simp only [hl]
      by_cases hw : t.type = .whitespace
      · rw [if_pos hw, if_neg (by omega)]
        simp only [rd, h1, Option.bind_eq_bind, Option.bind_some, spelled, if_pos hw]
        rfl
      · rw [if_neg hw, if_neg (by omega)]
        have hs : acTokenStr (false && first) t = some t.str := rfl
        simp only [hs, rd, h1, Option.bind_eq_bind, Option.pure_def, Option.bind_some, spelled, if_neg hw, filter_shy (hz t (by simp))]
    rw [acTokens]
    simp only [key, Option.bind_eq_bind, Option.bind_some]
    rw [ih (fun t ht => hne t (by simp [ht])) (fun t ht => hz t (by simp [ht])) false]
    · simp only [plain_cons, wordMarks, marks, extent_cons, List.length_append, List.append_assoc, List.map_cons, List.cons_append,
        List.nil_append, htl, Nat.add_assoc]
    · simp
    · simp only [List.length_append]; omega

/-- What is reported for a position. -/
def entry (first : List Wc → Option (List Wc × Nat)) (s : GSent) (lf : Bool) (st : AcSt) (q : Nat × Nat) : Option GErr :=
  match first (st.input.drop q.1) with
  | none => none
  | some x =>
    if st.norm.contains (q.2 + x.2) = false then none
    else some ⟨1, s.pos + q.2, x.2 + acCorrection (s.pos + q.2) x.2 (0, 0) (st.orig.zip st.norm) 0, [acSuggestion lf x.1]⟩

/-- The loop over the positions, all of them. -/
theorem acLookups_all {σ : Type} {m : Lookup σ} {P : σ → Prop} {first : List Wc → Option (List Wc × Nat)} (hm : Answers m P first) (s : GSent)
    {t0 : GTok} {ts : List GTok} (h0 : s.tokens = t0 :: ts) (st : AcSt) (hb : st.input.length ≤ 20000) (L : List (Nat × Nat)) :
    ∀ c, P c → ∃ c', acLookups m s false st c L = some (c', L.filterMap (entry first s false st),
      L.any fun q => (first (st.input.drop q.1)).isNone && (q.1 == 0 && isUpper t0.ch0)) ∧ P c' := by
  induction L with
  | nil => intro c hc; exact ⟨c, rfl, hc⟩
  | cons q L ih =>
    intro c hc
    obtain ⟨p, u⟩ := q
    obtain ⟨c1, h1, h2⟩ := hm c (st.input.drop p) hc (by rw [List.length_drop]; omega)
    obtain ⟨c2, h3, h4⟩ := ih c1 h2
    refine ⟨c2, ?_, h4⟩
    rw [acLookups, if_neg (by simp)]
    simp only [h1, Option.bind_eq_bind, Option.bind_some, List.filterMap_cons, List.any_cons, entry]
    cases hf : first (st.input.drop p) with
    | none =>
      simp only [h0, rd, List.getElem?_cons_zero, Option.bind_some, h3, hf, Option.pure_def]
      simp [Bool.or_comm]
    | some x =>
      obtain ⟨out, n⟩ := x
      simp only [h3, hf, Option.bind_some, Option.isNone_some, Bool.false_and, Bool.false_or, Option.pure_def]
      split <;> rfl

/-- The second loop stops after position 0. -/
theorem acLookups_first {σ : Type} {m : Lookup σ} {P : σ → Prop} {first : List Wc → Option (List Wc × Nat)} (hm : Answers m P first) (s : GSent)
    {t0 : GTok} {ts : List GTok} (h0 : s.tokens = t0 :: ts) (st : AcSt) (hb : st.input.length ≤ 20000) (u : Nat) (L : List (Nat × Nat))
    (hL : ∀ q ∈ L, 0 < q.1) (c : σ) (hc : P c) :
    ∃ c' b, acLookups m s true st c ((0, u) :: L) = some (c', (entry first s true st (0, u)).toList, b) ∧ P c' := by
  obtain ⟨c1, h1, h2⟩ := hm c (st.input.drop 0) hc (by rw [List.length_drop]; omega)
  have hrest : acLookups m s true st c1 L = some (c1, [], false) := by
    cases L with
    | nil => rfl
    | cons q L =>
      obtain ⟨p, v⟩ := q
      rw [acLookups, if_pos ⟨rfl, hL (p, v) (by simp)⟩]
      rfl
  rw [acLookups, if_neg (by simp)]
  simp only [h1, Option.bind_eq_bind, Option.bind_some, entry]
  cases hf : first (st.input.drop 0) with
  | none =>
    simp only [h0, rd, List.getElem?_cons_zero, Option.bind_some, hrest, hf, Option.pure_def]
    exact ⟨_, _, rfl, h2⟩
  | some x =>
    obtain ⟨out, n⟩ := x
    simp only [hrest, hf, Option.bind_some, Option.pure_def]
    split
    · exact ⟨_, _, rfl, h2⟩
    · exact ⟨_, _, rfl, h2⟩

/-! ### Clean sentences -/

theorem Clean.tail {t : GTok} {ts : List GTok} (h : Clean (t :: ts)) : Clean ts :=
  ⟨fun x hx => h.nonempty x (by simp [hx]), fun x hx => h.nul x (by simp [hx]), fun x hx => h.shy x (by simp [hx]),
    fun x hx => h.single x (by simp [hx])⟩

theorem spelled_clean {ts : List GTok} (h : Clean ts) {t : GTok} (ht : t ∈ ts) : (spelled t).length = t.str.length := by
  unfold spelled
  split
  · rename_i hw; rw [h.single t ht hw]; rfl
  · rw [List.filter_eq_self.2]
    intro c hc
    have : c ≠ 0xAD := by rintro rfl; exact h.shy t ht hc
    simp [this]

theorem plain_clean (ts : List GTok) (h : Clean ts) : (plain ts).length = extent ts := by
  induction ts with
  | nil => rfl
  | cons t ts ih => rw [plain_cons, extent_cons, List.length_append, ih h.tail, spelled_clean h (by simp)]

theorem marks_clean (ts : List GTok) (h : Clean ts) : ∀ n, ∀ q ∈ marks n n ts, q.1 = q.2 := by
  induction ts with
  | nil => intro n q hq; cases hq
  | cons t ts ih =>
    intro n q hq
    have e := spelled_clean h (t := t) (by simp)
    rw [marks, GTok.len, e] at hq
    rcases List.mem_cons.1 hq with rfl | hq
    · rfl
    · exact ih h.tail _ q hq

theorem mem_marks (ts : List GTok) (h : Clean ts) : ∀ n x, x ∈ n :: (marks n n ts).map (·.1) ↔ ∃ a b, ts = a ++ b ∧ x = n + extent a := by
  induction ts with
  | nil =>
    intro n x
    simp only [marks, List.map_nil, List.mem_singleton]
    constructor
    · rintro rfl; exact ⟨[], [], rfl, by simp [extent]⟩
    · rintro ⟨a, b, h, rfl⟩
      rw [(List.nil_eq_append_iff.1 h).1]; simp [extent]
  | cons t ts ih =>
    intro n x
    have e := spelled_clean h (t := t) (by simp)
    rw [marks, GTok.len, e, List.map_cons, List.mem_cons, ih h.tail]
    constructor
    · rintro (rfl | ⟨a, b, rfl, rfl⟩)
      · exact ⟨[], _, rfl, by simp [extent]⟩
      · exact ⟨t :: a, b, rfl, by rw [extent_cons]; omega⟩
    · rintro ⟨a, b, hab, rfl⟩
      cases a with
      | nil => left; simp [extent]
      | cons u a =>
        rw [List.cons_append, List.cons.injEq] at hab
        obtain ⟨rfl, rfl⟩ := hab
        right
        exact ⟨a, b, rfl, by rw [extent_cons]; omega⟩

theorem mem_wordMarks (ts : List GTok) : ∀ n o q, q ∈ wordMarks n o ts ↔
    ∃ a w b, ts = a ++ w :: b ∧ w.type = .word ∧ q = (n + (plain a).length, o + extent a) := by
  induction ts with
  | nil => intro n o q; simp [wordMarks]
  | cons t ts ih =>
    intro n o q
    rw [wordMarks, List.mem_append, ih]
    constructor
    · rintro (hq | ⟨a, w, b, rfl, hw, rfl⟩)
      · split at hq
        · rename_i hw
          rw [List.mem_singleton] at hq
          exact ⟨[], t, ts, rfl, hw, by simpa [plain, extent] using hq⟩
        · cases hq
      · exact ⟨t :: a, w, b, rfl, hw, by simp only [plain_cons, extent_cons, List.length_append, GTok.len, Nat.add_assoc]⟩
    · rintro ⟨a, w, b, hab, hw, rfl⟩
      cases a with
      | nil =>
        rw [List.nil_append, List.cons.injEq] at hab
        obtain ⟨rfl, rfl⟩ := hab
        left
        rw [if_pos hw]
        simp [plain, extent]
      | cons u a =>
        rw [List.cons_append, List.cons.injEq] at hab
        obtain ⟨rfl, rfl⟩ := hab
        right
        exact ⟨a, w, b, rfl, hw, by simp only [plain_cons, extent_cons, List.length_append, GTok.len, Nat.add_assoc]⟩

/-- The positions of the words increase. -/
theorem wordMarks_sorted (ts : List GTok) (hne : ∀ t ∈ ts, t.str ≠ []) : ∀ n o, (∀ q ∈ wordMarks n o ts, o ≤ q.2) ∧
    (wordMarks n o ts).Pairwise fun a b => a.2 < b.2 := by
  induction ts with
  | nil => intro n o; simp [wordMarks]
  | cons t ts ih =>
    intro n o
    have hl : 0 < t.len := List.length_pos_iff.2 (hne t (by simp))
    obtain ⟨h1, h2⟩ := ih (fun t ht => hne t (by simp [ht])) (n + (spelled t).length) (o + t.len)
    rw [wordMarks]
    constructor
    · intro q hq
      rcases List.mem_append.1 hq with hq | hq
      · split at hq
        · rw [List.mem_singleton.1 hq]
        · cases hq
      · have := h1 q hq; omega
    · split
      · rw [List.cons_append, List.nil_append, List.pairwise_cons]
        exact ⟨fun q hq => (by have := h1 q hq; simp only; omega), h2⟩
      · exact h2

theorem acCorrection_clean (sp pl : Nat) (qs : List (Nat × Nat)) (h : ∀ q ∈ qs, q.1 = q.2) : ∀ a, acCorrection sp pl (a, a) qs 0 = 0 := by
  induction qs with
  | nil => intro a; rfl
  | cons q qs ih =>
    intro a
    obtain ⟨o, n⟩ := q
    have e : o = n := h (o, n) (by simp)
    subst e
    have hs : ∀ x, sizeSub x x = 0 := by intro x; simp [sizeSub]
    rw [acCorrection]
    simp only [hs, ite_self]
    rw [ih (fun q hq => h q (by simp [hq]))]
    simp

/-! ### Soft hyphens inside a phrase -/

theorem marks_append (a b : List GTok) : ∀ n o, marks n o (a ++ b) = marks n o a ++ marks (n + (plain a).length) (o + extent a) b := by
  induction a with
  | nil => intro n o; simp [marks, plain, extent]
  | cons t a ih =>
    intro n o
    rw [List.cons_append, marks, marks, ih, plain_cons, extent_cons, List.length_append, GTok.len]
    simp only [List.cons_append, Nat.add_assoc]

/-- The loop passes positions without differences, and positions after the start of the phrase. -/
theorem acCorrection_pass (sp pl : Nat) (rest : List (Nat × Nat)) (ts : List GTok) : ∀ n o, n + (plain ts).length ≤ sp + pl →
    (∀ q ∈ marks n o ts, q.2 ≤ sp → q.1 = q.2) →
    acCorrection sp pl (o, n) ((marks n o ts).map (fun q => (q.2, q.1)) ++ rest) 0 =
      acCorrection sp pl (o + extent ts, n + (plain ts).length) rest 0 := by
  induction ts with
  | nil => intro n o _ _; simp [marks, plain, extent]
  | cons t ts ih =>
    intro n o h1 h2
    rw [plain_cons, List.length_append] at h1
    rw [marks, List.map_cons, List.cons_append, acCorrection]
    have hcorr : (if o + t.len ≤ sp then sizeSub (o + t.len) (n + (spelled t).length) else 0) = 0 := by
      split
      · rename_i h
        have := h2 (n + (spelled t).length, o + t.len) (by simp [marks]) h
        simp only at this
        rw [this]; simp [sizeSub]
      · rfl
    simp only [hcorr]
    rw [if_neg (by omega), ih _ _ (by omega) (fun q hq => h2 q (by rw [marks]; exact List.mem_cons_of_mem _ hq)), plain_cons, extent_cons,
      List.length_append, GTok.len]
    simp only [Nat.add_assoc]

theorem marks_gt (ts : List GTok) (h : ∀ t ∈ ts, t.str ≠ []) : ∀ n o, ∀ q ∈ marks n o ts, o < q.2 := by
  induction ts with
  | nil => intro n o q hq; cases hq
  | cons t ts ih =>
    intro n o q hq
    have hl : 0 < t.len := List.length_pos_iff.2 (h t (by simp))
    rw [marks] at hq
    rcases List.mem_cons.1 hq with rfl | hq
    · simp only; omega
    · have := ih (fun t ht => h t (by simp [ht])) _ _ q hq; omega

theorem acTokens_inv (lf : Bool) (ts : List GTok) (hne : ∀ t ∈ ts, t.str ≠ []) (hz : ∀ t ∈ ts, 0 ∉ t.str) : ∀ (first : Bool) (st : AcSt), AcInv st →
    acTokens lf first ts st = some none ∨ ∃ st', acTokens lf first ts st = some (some st') ∧ AcInv st' := by
  induction ts with
  | nil => intro first st inv; exact .inr ⟨st, rfl, inv⟩
  | cons t ts ih =>
    intro first st inv
    rcases acToken_spec lf first t (hz t (by simp)) (List.length_pos_iff.2 (hne t (by simp))) st inv with k | ⟨st', k1, k2, _⟩
    · left
      simp only [acTokens, k, Option.bind_eq_bind, Option.bind_some]
      rfl
    · have := ih (fun u hu => hne u (by simp [hu])) (fun u hu => hz u (by simp [hu])) false st' k2
      simp only [acTokens, k1, Option.bind_eq_bind, Option.bind_some]
      exact this

/-- The second pass has a result. -/
theorem acPass_lower {σ : Type} {m : Lookup σ} {P : σ → Prop} {first : List Wc → Option (List Wc × Nat)} (hm : Answers m P first) (s : GSent)
    {t0 : GTok} {ts : List GTok} (h0 : s.tokens = t0 :: ts) (hne : ∀ t ∈ s.tokens, t.str ≠ []) (hz : ∀ t ∈ s.tokens, 0 ∉ t.str) (c : σ)
    (hP : P c) : ∃ c' es b, acPass m s true c = some (c', es, b) ∧ P c' := by
  have key : ∀ (st : AcSt), AcInv st → ∀ (L : List (Nat × Nat)) c, P c → ∃ c' es b, acLookups m s true st c L = some (c', es, b) ∧ P c' := by
    intro st inv L
    induction L with
    | nil => intro c hc; exact ⟨c, [], false, rfl, hc⟩
    | cons q L ih =>
      intro c hc
      obtain ⟨p, u⟩ := q
      rw [acLookups]
      split
      · exact ⟨c, [], false, rfl, hc⟩
      · have hb := inv.buf
        obtain ⟨c1, h1, h2⟩ := hm c (st.input.drop p) hc (by rw [List.length_drop]; omega)
        obtain ⟨c2, es, b, h3, h4⟩ := ih c1 h2
        simp only [h1, Option.bind_eq_bind, Option.bind_some]
        cases hf : first (st.input.drop p) with
        | none =>
          simp only [h0, rd, List.getElem?_cons_zero, Option.bind_some, h3, Option.pure_def]
          exact ⟨_, _, _, rfl, h4⟩
        | some x =>
          obtain ⟨out, n⟩ := x
          simp only [h3, Option.bind_some, Option.pure_def]
          split
          · exact ⟨_, _, _, rfl, h4⟩
          · exact ⟨_, _, _, rfl, h4⟩
  unfold acPass
  rcases acTokens_inv true s.tokens hne hz true {} acInit with k | ⟨st, k1, k2⟩
  · rw [k]; exact ⟨_, _, _, rfl, hP⟩
  · rw [k1]; exact key st k2 _ c hP

end Verif.Autocorrect
