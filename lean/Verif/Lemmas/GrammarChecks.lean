import Mathlib.Data.List.TakeWhile
import Verif.Lemmas.Capitalization
/-! Lemmas about the checks of single sentences: every error lies inside the text. -/

namespace Verif.Props
open Verif
set_option linter.unusedSimpArgs false
set_option linter.unusedVariables false

/-- Non-empty tokens following each other from position `off` to at most `N`. -/
def Run (N : Nat) : Nat → List GTok → Prop
  | off, [] => off ≤ N
  | off, t :: ts => t.pos = off ∧ 0 < t.len ∧ Run N (off + t.len) ts

theorem Run.le {N : Nat} {ts : List GTok} : ∀ {off : Nat}, Run N off ts → off ≤ N := by
  induction ts with
  | nil => intro off h; exact h
  | cons t ts ih => intro off h; have := ih h.2.2; omega

theorem goodErr {N code start len : Nat} {sugg : List (List Wc)} (h1 : start + len ≤ N) (h2 : 0 < len) (h3 : 0 < code ∧ code ≤ 18) :
    GoodErr N ⟨code, start, len, sugg⟩ := ⟨h1, h2, h3⟩

theorem forall_cons {N : Nat} {e : GErr} {es : List GErr} (h1 : GoodErr N e) (h2 : ∀ x ∈ es, GoodErr N x) :
    ∀ x ∈ e :: es, GoodErr N x := by
  intro x hx
  rcases List.mem_cons.1 hx with rfl | hx
  · exact h1
  · exact h2 x hx

theorem localPunct_good (N : Nat) (ts : List GTok) :
    ∀ (skip : Nat) (first : Bool) (off : Nat), Run N off ts → ∀ e ∈ localPunct skip first ts, GoodErr N e := by
  induction ts with
  | nil => intro skip first off _ e he; simp [localPunct] at he
  | cons t ts ih =>
    intro skip first off h
    obtain ⟨h1, h2, h3⟩ := h
    have hle := h3.le
    have hi := fun k f => ih k f _ h3
    cases skip with
    | succ k => rw [localPunct]; exact hi k false
    | zero =>
      have h2le : ∀ t2 r, ts = t2 :: r → off + t.len + 1 ≤ N := by
        intro t2 r hr
        subst hr
        have := h3.2.2.le
        have := h3.2.1
        omega
      rw [localPunct.eq_def]
      simp only
      split
      · -- whitespace
        split
        · exact forall_cons (goodErr (by omega) (by omega) (by omega)) (hi 0 false)
        · split
          · simp
          · rename_i t2 r
            have := h2le _ _ rfl
            split
            · exact hi 0 false
            · exact forall_cons (goodErr (by omega) (by omega) (by omega)) (hi 0 false)
      · -- punctuation
        split
        · exact hi 2 false
        · split
          · split
            · exact hi 0 false
            · split
              · exact forall_cons (goodErr (by omega) (by omega) (by omega)) (hi 0 false)
              · exact forall_cons (goodErr (by omega) (by omega) (by omega)) (hi 0 false)
          · split
            · split
              · simp
              · rename_i t2 r
                have := h2le _ _ rfl
                split
                · exact hi 0 false
                · exact forall_cons (goodErr (by omega) (by omega) (by omega)) (hi 0 false)
            · exact hi 0 false
      · exact hi 0 false

theorem quotations_good (N : Nat) (ts : List GTok) :
    ∀ (off : Nat), Run N off ts → ∀ e ∈ quotations ts, GoodErr N e := by
  induction ts with
  | nil => intro off _ e he; simp [quotations] at he
  | cons t ts ih =>
    intro off h
    obtain ⟨h1, h2, h3⟩ := h
    have hi := ih _ h3
    match ts, h3, hi with
    | [], _, _ => simp [quotations]
    | [_], _, _ => simp [quotations]
    | t1 :: t2 :: rest, h3, hi =>
      have hle := h3.2.2.2.2.le
      have l1 := h3.2.1
      have l2 := h3.2.2.2.1
      rw [quotations]
      split
      · exact hi
      · split
        · exact forall_cons (goodErr (by omega) (by omega) (by omega)) (by simp)
        · split
          · exact hi
          · intro e he
            rcases List.mem_append.1 he with he | he
            · unfold quoteErr at he
              split at he
              · rw [List.mem_singleton] at he
                subst he
                exact goodErr (by omega) (by omega) (by omega)
              · split at he
                · rw [List.mem_singleton] at he
                  subst he
                  exact goodErr (by omega) (by omega) (by omega)
                · simp at he
            · exact hi e he

theorem repeatingWords_good (N : Nat) (ts : List GTok) :
    ∀ (skip off : Nat), Run N off ts → ∀ e ∈ repeatingWords skip ts, GoodErr N e := by
  induction ts with
  | nil => intro skip off _ e he; simp [repeatingWords] at he
  | cons t ts ih =>
    intro skip off h
    obtain ⟨h1, h2, h3⟩ := h
    have hi := fun k => ih k _ h3
    cases skip with
    | succ k => rw [repeatingWords]; exact hi k
    | zero =>
      rw [repeatingWords.eq_def]
      simp only
      split
      · rename_i t1 t2 r
        have hle := h3.2.2.2.2.le
        split
        · exact hi _
        · split
          · exact hi _
          · split
            · exact hi _
            · split
              · exact hi _
              · split
                · exact hi _
                · split
                  · exact hi _
                  · exact forall_cons (goodErr (by omega) (by omega) (by omega)) (hi _)
      · simp

theorem endPunct_good (o : GramOpts) (p : List GSent) (N : Nat) (hp : AllIn N p) (h0 : p ≠ [])
    (h1 : ∀ s ∈ p, s.tokens ≠ []) : ∃ es, endPunct o p = some es ∧ ∀ e ∈ es, GoodErr N e := by
  unfold endPunct
  split
  · exact ⟨_, rfl, by simp⟩
  · split
    · exact ⟨_, rfl, by simp⟩
    · split
      · exact ⟨_, rfl, by simp⟩
      · rw [List.getLast?_eq_some_getLast h0]
        have hs := List.getLast_mem h0
        simp only
        rw [List.getLast?_eq_some_getLast (h1 _ hs)]
        simp only
        split
        · exact ⟨_, rfl, by simp⟩
        · refine ⟨_, rfl, ?_⟩
          intro e he
          rw [List.mem_singleton] at he
          subst he
          have ht := hp _ hs _ (List.getLast_mem (h1 _ hs))
          exact goodErr ht.2 (List.length_pos_iff.2 ht.1) (by omega)

/-! ### Tokens by index -/

theorem Run.bounds {N : Nat} {ts : List GTok} : ∀ {off i : Nat} {t : GTok}, Run N off ts → ts[i]? = some t →
    off ≤ t.pos ∧ 0 < t.len ∧ t.pos + t.len ≤ N := by
  induction ts with
  | nil => intro off i t _ h; simp at h
  | cons x ts ih =>
    intro off i t h hi
    cases i with
    | zero =>
      simp only [List.getElem?_cons_zero, Option.some.injEq] at hi
      subst hi
      have := h.2.2.le
      have := h.1
      exact ⟨by omega, h.2.1, by omega⟩
    | succ i =>
      rw [List.getElem?_cons_succ] at hi
      have := ih h.2.2 hi
      exact ⟨by omega, this.2.1, this.2.2⟩

theorem Run.order {N : Nat} {ts : List GTok} : ∀ {off i j : Nat} {t u : GTok}, Run N off ts → ts[i]? = some t →
    ts[j]? = some u → i < j → t.pos + t.len ≤ u.pos := by
  induction ts with
  | nil => intro off i j t u _ h; simp at h
  | cons x ts ih =>
    intro off i j t u h hi hj hij
    obtain ⟨j, rfl⟩ : ∃ k, j = k + 1 := ⟨j - 1, by omega⟩
    rw [List.getElem?_cons_succ] at hj
    cases i with
    | zero =>
      simp only [List.getElem?_cons_zero, Option.some.injEq] at hi
      subst hi
      have := h.2.2.bounds hj
      have := h.1
      omega
    | succ i =>
      rw [List.getElem?_cons_succ] at hi
      exact ih h.2.2 hi hj (by omega)

theorem Run.mem {N off : Nat} {ts : List GTok} (h : Run N off ts) {t : GTok} (ht : t ∈ ts) :
    off ≤ t.pos ∧ 0 < t.len ∧ t.pos + t.len ≤ N := by
  obtain ⟨i, hi, rfl⟩ := List.getElem_of_mem ht
  exact h.bounds (List.getElem?_eq_getElem hi)

theorem sizeSub_le {a b : Nat} (h : b ≤ a) : sizeSub a b = a - b := by simp [sizeSub, h]

theorem spanErr_good {N off code : Nat} {t t1 t2 : GTok} {r : List GTok} (h : Run N off (t :: t1 :: t2 :: r))
    (hc : 0 < code ∧ code ≤ 18) : GoodErr N (spanErr code t t2) := by
  have b := h.bounds (i := 2) rfl
  have b0 := h.bounds (i := 0) rfl
  have od := h.order (i := 0) (j := 2) rfl rfl (by omega)
  unfold spanErr
  rw [sizeSub_le (by omega)]
  exact goodErr (by omega) (by omega) hc

theorem negativeVerb_good (N : Nat) (ts : List GTok) :
    ∀ (off : Nat), Run N off ts → ∀ e ∈ negativeVerb ts, GoodErr N e := by
  induction ts with
  | nil => intro off _ e he; simp [negativeVerb] at he
  | cons t ts ih =>
    intro off h
    have hi := ih _ h.2.2
    match ts, h, hi with
    | [], _, _ => simp [negativeVerb]
    | [_], _, _ => simp [negativeVerb]
    | t1 :: t2 :: rest, h, hi =>
      rw [negativeVerb]
      intro e he
      rcases List.mem_append.1 he with he | he
      · split at he
        · rw [List.mem_singleton] at he
          subst he
          exact spanErr_good h (by omega)
        · simp at he
      · exact hi e he

theorem compoundVerb_good (N : Nat) (ts : List GTok) :
    ∀ (off : Nat), Run N off ts → ∀ e ∈ compoundVerb ts, GoodErr N e := by
  induction ts with
  | nil => intro off _ e he; simp [compoundVerb] at he
  | cons t ts ih =>
    intro off h
    have hi := ih _ h.2.2
    match ts, h, hi with
    | [], _, _ => simp [compoundVerb]
    | [_], _, _ => simp [compoundVerb]
    | t1 :: t2 :: rest, h, hi =>
      rw [compoundVerb]
      intro e he
      rcases List.mem_append.1 he with he | he
      · split at he
        · split at he
          · rw [List.mem_singleton] at he
            subst he
            exact spanErr_good h (by omega)
          · split at he
            · rw [List.mem_singleton] at he
              subst he
              exact spanErr_good h (by omega)
            · simp at he
        · simp at he
      · exact hi e he

theorem sidesana_good (N : Nat) (s : GSent) (h : Run N s.pos s.tokens) (h0 : s.tokens ≠ []) :
    ∃ es, sidesana s = some es ∧ ∀ e ∈ es, GoodErr N e := by
  have hl := List.length_pos_iff.2 h0
  unfold sidesana
  simp only
  rw [if_neg (by omega), rd_eq_some (by omega : s.tokens.length - 1 < s.tokens.length)]
  simp only [Option.bind_eq_bind, Option.bind_some]
  generalize hn : (if (s.tokens[s.tokens.length - 1]).type = .whitespace then s.tokens.length - 1 else s.tokens.length) = n
  have hnl : n ≤ s.tokens.length := by rw [← hn]; split <;> omega
  split
  · rw [rd_eq_some (by omega : n - 2 < s.tokens.length), rd_eq_some (by omega : n - 1 < s.tokens.length)]
    simp only [Option.bind_some]
    split
    · refine ⟨_, rfl, ?_⟩
      intro e he
      rw [List.mem_singleton] at he
      subst he
      have := h.mem (List.getElem_mem (by omega : n - 2 < s.tokens.length))
      exact goodErr (by omega) (by omega) (by omega)
    · exact ⟨_, rfl, by simp⟩
  · exact ⟨_, rfl, by simp⟩

/-! ### Missing verbs -/

/-- Invariant of the loop before token `i`. -/
structure MvInv (N : Nat) (toks : List GTok) (i : Nat) (st : MvSt) : Prop where
  errs : ∀ e ∈ st.errs, GoodErr N e
  verb : st.verbClause = true → st.lastVerb < i
  last : ∀ t, st.lastNonWs = some t → t ∈ toks
  words : 0 < st.wordCount → st.lastNonWs ≠ none

theorem startsPair_some (toks : List GTok) (i : Nat) (t : GTok) (a b : String) (n : Nat) :
    ∃ r, startsPair toks i t a b n = some r := by
  unfold startsPair
  split
  · rename_i h
    rw [rd_eq_some h.1]
    exact ⟨_, rfl⟩
  · exact ⟨_, rfl⟩

theorem mvWord_spec (N off : Nat) (toks : List GTok) (h : Run N off toks) (i : Nat) (t : GTok) (ht : toks[i]? = some t)
    (st : MvSt) (inv : MvInv N toks i st) : ∃ st', mvWord toks i t st = some st' ∧ (∀ e ∈ st'.errs, GoodErr N e) ∧
      (st'.verbClause = true → st'.lastVerb < i + 1) ∧ st'.lastNonWs = st.lastNonWs := by
  have hlast : ∀ b, b = false → (b = true → st.lastVerb < i + 1) := by intro b h h'; rw [h] at h'; simp at h'
  unfold mvWord
  simp only
  split
  · exact ⟨_, rfl, inv.errs, by simp, rfl⟩
  · obtain ⟨b1, e1⟩ := startsPair_some toks i t "siinä" "missä" 5
    obtain ⟨b2, e2⟩ := startsPair_some toks i t "kävi" "miten" 4
    rw [e1]
    simp only [Option.bind_eq_bind, Option.bind_some]
    split
    · exact ⟨_, rfl, inv.errs, by simp, rfl⟩
    · rw [e2]
      simp only [Option.bind_some]
      split
      · exact ⟨_, rfl, inv.errs, by simp, rfl⟩
      · split
        · unfold mvMainVerb
          simp only
          split
          · rename_i hv
            have hlt : i < toks.length := by
              rcases Nat.lt_or_ge i toks.length with h' | h'
              · exact h'
              · rw [List.getElem?_eq_none h'] at ht; simp at ht
            have hl := inv.verb hv
            have hl' : st.lastVerb < toks.length := by omega
            rw [rd_eq_some hl']
            simp only [Option.bind_eq_bind, Option.bind_some]
            split
            · refine ⟨_, rfl, ?_, by simp, rfl⟩
              have hv' : toks[st.lastVerb]? = some toks[st.lastVerb] := List.getElem?_eq_getElem hl'
              have b1 := h.bounds hv'
              have b2 := h.bounds ht
              have od := h.order hv' ht hl
              intro e he
              rcases List.mem_append.1 he with he | he
              · exact inv.errs e he
              · rw [List.mem_singleton] at he
                subst he
                rw [sizeSub_le (by omega)]
                exact goodErr (by omega) (by omega) (by omega)
            · exact ⟨_, rfl, inv.errs, by simp, rfl⟩
          · exact ⟨_, rfl, inv.errs, by simp, rfl⟩
        · exact ⟨_, rfl, inv.errs, fun h => by have := inv.verb h; simp only; omega, rfl⟩

theorem mvLoop_spec (N off : Nat) (toks : List GTok) (h : Run N off toks) (ts : List GTok) :
    ∀ (i : Nat) (st : MvSt), toks.drop i = ts → MvInv N toks i st →
      ∃ st' b, mvLoop toks i ts st = some (st', b) ∧ ∃ j, MvInv N toks j st' := by
  induction ts with
  | nil => intro i st _ inv; exact ⟨st, false, rfl, i, inv⟩
  | cons t ts ih =>
    intro i st hd inv
    have hlt : i < toks.length := by
      rcases Nat.lt_or_ge i toks.length with h' | h'
      · exact h'
      · rw [List.drop_of_length_le h'] at hd; simp at hd
    have hd' := List.drop_eq_getElem_cons hlt
    rw [hd] at hd'
    simp only [List.cons.injEq] at hd'
    have ht : toks[i]? = some t := by rw [List.getElem?_eq_getElem hlt, hd'.1]
    have hm : t ∈ toks := by rw [hd'.1]; exact List.getElem_mem hlt
    rw [mvLoop]
    split
    · exact ⟨st, true, rfl, i, inv⟩
    · have key : ∃ st', (if t.type = .word then mvWord toks i t st
          else if t.type = .punctuation then return { st with verbClause := false } else return st : UB MvSt) = some st' ∧
          MvInv N toks (i + 1) (if t.type ≠ .whitespace then { st' with lastNonWs := some t } else st') := by
        by_cases hw : t.type = .word
        · obtain ⟨st', k1, k2, k3, k4⟩ := mvWord_spec N off toks h i t ht st inv
          refine ⟨st', by rw [if_pos hw]; exact k1, ?_⟩
          rw [if_pos (by rw [hw]; simp)]
          exact ⟨k2, k3, by rintro _ ⟨⟩; exact hm, by simp⟩
        · rw [if_neg hw]
          by_cases hp : t.type = .punctuation
          · refine ⟨_, by rw [if_pos hp]; rfl, ?_⟩
            rw [if_pos (by rw [hp]; simp)]
            exact ⟨inv.errs, by simp, by rintro _ ⟨⟩; exact hm, by simp⟩
          · refine ⟨_, by rw [if_neg hp]; rfl, ?_⟩
            split
            · exact ⟨inv.errs, fun h => by have := inv.verb h; simp only; omega, by rintro _ ⟨⟩; exact hm, by simp⟩
            · exact ⟨inv.errs, fun h => by have := inv.verb h; omega, inv.last, inv.words⟩
      obtain ⟨st', k1, k2⟩ := key
      obtain ⟨st'', b, g1, g2⟩ := ih (i + 1) _ hd'.2.symm k2
      refine ⟨st'', b, ?_, g2⟩
      simp only [k1, Option.bind_eq_bind, Option.bind_some]
      exact g1

theorem missingVerb_good (o : GramOpts) (N : Nat) (s : GSent) (h : Run N s.pos s.tokens) (h0 : s.tokens ≠ []) :
    ∃ es, missingVerb o s = some es ∧ ∀ e ∈ es, GoodErr N e := by
  have hl := List.length_pos_iff.2 h0
  unfold missingVerb
  rw [rd_eq_some hl]
  simp only [Option.bind_eq_bind, Option.bind_some]
  split
  · exact ⟨_, rfl, by simp⟩
  · split
    · exact ⟨_, rfl, by simp⟩
    · obtain ⟨st, b, k1, j, inv⟩ := mvLoop_spec N s.pos s.tokens h s.tokens 0 {} (by simp)
        ⟨by simp, by simp, by simp, by simp⟩
      rw [k1]
      simp only [Option.bind_some]
      split
      · exact ⟨_, rfl, inv.errs⟩
      · unfold mvFinish
        split
        · exact ⟨_, rfl, inv.errs⟩
        · rename_i hw
          split
          · rename_i hn
            exact absurd hn (inv.words (by omega))
          · rename_i t ht
            have b := h.mem (inv.last t ht)
            split
            · exact ⟨_, rfl, inv.errs⟩
            · refine ⟨_, rfl, ?_⟩
              intro e he
              rcases List.mem_append.1 he with he | he
              · exact inv.errs e he
              · rw [List.mem_singleton] at he
                subst he
                rw [sizeSub_le (by omega)]
                exact goodErr (by omega) (by omega) (by omega)

/-! ### Autocorrection -/

/-- The transducer look-up has defined behaviour on all inputs that fit into the buffer and never gives an empty prefix. -/
def LookupOk {σ : Type} (m : Lookup σ) : Prop :=
  ∀ c w, w.length ≤ 20000 → ∃ c' r, m.find c w = some (c', r) ∧ ∀ out n, r = some (out, n) → 0 < n

/-- The distance between original and normalised positions does not decrease. -/
def Mono : Nat × Nat → List (Nat × Nat) → Nat → Prop
  | prev, [], D => prev.1 - prev.2 ≤ D
  | prev, q :: qs, D => q.2 ≤ q.1 ∧ prev.1 - prev.2 ≤ q.1 - q.2 ∧ Mono q qs D

theorem Mono.le {D : Nat} {qs : List (Nat × Nat)} : ∀ {prev : Nat × Nat}, Mono prev qs D → prev.1 - prev.2 ≤ D := by
  induction qs with
  | nil => intro prev h; exact h
  | cons q qs ih => intro prev h; exact Nat.le_trans h.2.1 (ih h.2.2)

theorem Mono.snoc {D D' : Nat} {qs : List (Nat × Nat)} {q : Nat × Nat} (hq : q.2 ≤ q.1) (hD : D ≤ q.1 - q.2)
    (hD' : q.1 - q.2 ≤ D') : ∀ {prev : Nat × Nat}, Mono prev qs D → Mono prev (qs ++ [q]) D' := by
  induction qs with
  | nil => intro prev h; exact ⟨hq, Nat.le_trans h hD, hD'⟩
  | cons x qs ih => intro prev h; exact ⟨h.1, h.2.1, ih h.2.2⟩

theorem acCorrection_le (sp pl D : Nat) (qs : List (Nat × Nat)) :
    ∀ (prev : Nat × Nat) (corr : Nat), prev.2 ≤ prev.1 → corr ≤ prev.1 - prev.2 → Mono prev qs D →
      acCorrection sp pl prev qs corr ≤ D := by
  induction qs with
  | nil => intro prev corr _ hc h; exact Nat.le_trans hc h
  | cons q qs ih =>
    intro prev corr hp hc h
    obtain ⟨o, n⟩ := q
    obtain ⟨h1, h2, h3⟩ := h
    simp only at h1 h2
    have hD := h3.le
    simp only at hD
    rw [acCorrection]
    rw [sizeSub_le h1, sizeSub_le hp]
    by_cases ho : o ≤ sp
    · rw [if_pos ho, if_neg (by omega)]
      exact ih (o, n) _ h1 (Nat.le_refl _) h3
    · rw [if_neg ho]
      split
      · rw [sizeSub_le hc]; omega
      · exact ih (o, n) _ h1 (by simp only; omega) h3

/-- Invariant of the loop that fills the input buffer. -/
structure AcInv (st : AcSt) : Prop where
  buf : st.input.length ≤ 20000
  ucs : st.input.length ≤ st.ucs
  norm : ∀ n ∈ st.norm, n ≤ st.input.length
  lastNorm : st.norm[st.norm.length - 1]? = some st.input.length
  len : st.orig.length = st.norm.length
  mono : Mono (0, 0) (st.orig.zip st.norm) (st.ucs - st.input.length)
  look : ∀ q ∈ st.lookups, q.1 ≤ st.input.length

theorem acTokenStr_some (b : Bool) (t : GTok) (h : 0 ∉ t.str) : ∃ s, acTokenStr b t = some s ∧ s.length = t.str.length := by
  unfold acTokenStr
  split
  · have : cstr t.str = t.str := by
      unfold cstr
      rw [List.takeWhile_eq_self_iff.2]
      intro x hx
      simp only [bne_iff_ne, ne_eq]
      rintro rfl
      exact h hx
    rw [this, if_neg (by omega)]
    split
    · rename_i e; exact ⟨[], rfl, by rw [e]⟩
    · rename_i c cs e; exact ⟨_, rfl, by rw [e]; simp⟩
  · exact ⟨_, rfl, rfl⟩

theorem acToken_spec (lowerFirst first : Bool) (t : GTok) (h0 : 0 ∉ t.str) (hl : 0 < t.len) (st : AcSt) (inv : AcInv st) :
    acToken lowerFirst first t st = some none ∨
      ∃ st', acToken lowerFirst first t st = some (some st') ∧ AcInv st' ∧ st'.ucs = st.ucs + t.len := by
  -- appending `k ≤ tokenlen` characters
  have key : ∀ (lk : List (Nat × Nat)) (xs : List Wc), xs.length ≤ t.len → st.input.length + xs.length ≤ 20000 →
      (∀ q ∈ lk, q.1 ≤ st.input.length) →
      AcInv { input := st.input ++ xs, lookups := lk, orig := st.orig ++ [st.ucs + t.len],
              norm := st.norm ++ [st.input.length + xs.length], ucs := st.ucs + t.len } := by
    intro lk xs h1 h2 h3
    have hu := inv.ucs
    refine ⟨?_, ?_, ?_, ?_, ?_, ?_, ?_⟩
    · simp only [List.length_append]; omega
    · simp only [List.length_append]; omega
    · intro n hn
      simp only [List.mem_append, List.mem_singleton] at hn
      simp only [List.length_append]
      rcases hn with hn | hn
      · have := inv.norm n hn; omega
      · omega
    · simp [List.length_append]
    · simp [inv.len]
    · simp only
      rw [List.zip_append inv.len]
      refine Mono.snoc ?_ ?_ ?_ inv.mono
      · simp only; omega
      · simp only; omega
      · simp only [List.length_append]; omega
    · intro q hq
      have := h3 q hq
      simp only [List.length_append]; omega
  have hlk : ∀ q ∈ (if t.type = .word then st.lookups ++ [(st.input.length, st.ucs)] else st.lookups),
      q.1 ≤ st.input.length := by
    intro q hq
    split at hq
    · rcases List.mem_append.1 hq with hq | hq
      · exact inv.look q hq
      · rw [List.mem_singleton] at hq; subst hq; exact Nat.le_refl _
    · exact inv.look q hq
  unfold acToken
  have hbs : bufferSize = 20000 := rfl
  simp only
  by_cases hw : t.type = .whitespace
  · rw [if_pos hw]
    by_cases hb : st.input.length ≥ bufferSize
    · rw [if_pos hb]; exact Or.inl rfl
    · rw [if_neg hb]; right
      simp only [rd, inv.lastNorm, Option.bind_eq_bind, Option.bind_some]
      exact ⟨_, rfl, key _ [0x20] (by simp; omega) (by simp; omega) hlk, rfl⟩
  · rw [if_neg hw]
    by_cases hb : st.input.length + t.len ≥ bufferSize
    · rw [if_pos hb]; exact Or.inl rfl
    · rw [if_neg hb]; right
      obtain ⟨s, k1, k2⟩ := acTokenStr_some (lowerFirst && first) t h0
      have hk := List.length_filter_le (fun c => !(wcschr [0xAD] c)) s
      simp only [k1, rd, inv.lastNorm, Option.bind_eq_bind, Option.bind_some]
      have htl : t.len = t.str.length := rfl
      exact ⟨_, rfl, key _ (s.filter fun c => !(wcschr [0xAD] c)) (by omega) (by omega) hlk, rfl⟩

theorem acTokens_spec (N : Nat) (lowerFirst : Bool) (ts : List GTok) (h0 : ∀ t ∈ ts, 0 ∉ t.str) (base : Nat) :
    ∀ (first : Bool) (st : AcSt), AcInv st → Run N (base + st.ucs) ts →
      acTokens lowerFirst first ts st = some none ∨
        ∃ st', acTokens lowerFirst first ts st = some (some st') ∧ AcInv st' ∧ base + st'.ucs ≤ N := by
  induction ts with
  | nil => intro first st inv h; exact Or.inr ⟨st, rfl, inv, h⟩
  | cons t ts ih =>
    intro first st inv h
    rcases acToken_spec lowerFirst first t (h0 t (by simp)) h.2.1 st inv with k | ⟨st', k1, k2, k3⟩
    · left
      simp only [acTokens, k, Option.bind_eq_bind, Option.bind_some]
      rfl
    · have := ih (fun u hu => h0 u (by simp [hu])) false st' k2 (by
        rw [k3, ← Nat.add_assoc]; exact h.2.2)
      simp only [acTokens, k1, Option.bind_eq_bind, Option.bind_some]
      exact this

theorem acLookups_spec {σ : Type} (m : Lookup σ) (hm : LookupOk m) (N : Nat) (s : GSent) (h0 : s.tokens ≠ [])
    (lowerFirst : Bool) (st : AcSt) (inv : AcInv st) (hN : s.pos + st.ucs ≤ N) (ls : List (Nat × Nat)) :
    ∀ c, ∃ c' es b, acLookups m s lowerFirst st c ls = some (c', es, b) ∧ ∀ e ∈ es, GoodErr N e := by
  induction ls with
  | nil => intro c; exact ⟨c, [], false, rfl, by simp⟩
  | cons q ls ih =>
    intro c
    obtain ⟨position, ucsPosition⟩ := q
    rw [acLookups]
    split
    · exact ⟨c, [], false, rfl, by simp⟩
    · obtain ⟨c1, r, h1, h2⟩ := hm c (st.input.drop position) (by
        rw [List.length_drop]; have := inv.buf; omega)
      simp only [h1, Option.bind_eq_bind, Option.bind_some]
      obtain ⟨c2, es, b, g1, g2⟩ := ih c1
      cases r with
      | none =>
        simp only
        rw [rd_eq_some (List.length_pos_iff.2 h0)]
        simp only [Option.bind_some, g1]
        exact ⟨_, _, _, rfl, g2⟩
      | some on =>
        obtain ⟨out, n⟩ := on
        simp only [g1, Option.bind_some]
        split
        · exact ⟨_, _, _, rfl, g2⟩
        · rename_i hc
          refine ⟨_, _, _, rfl, forall_cons ?_ g2⟩
          have hmem : ucsPosition + n ∈ st.norm := by
            rw [Bool.not_eq_false, List.contains_iff_mem] at hc
            exact hc
          have a1 := inv.norm _ hmem
          have a2 := acCorrection_le (s.pos + ucsPosition) n (st.ucs - st.input.length) (st.orig.zip st.norm) (0, 0) 0
            (Nat.le_refl _) (Nat.le_refl _) inv.mono
          have a3 := inv.ucs
          have a4 := h2 out n rfl
          exact goodErr (by omega) (by omega) (by omega)

theorem acInit : AcInv {} := ⟨by simp, by simp, by simp, rfl, rfl, ⟨Nat.le_refl _, Nat.le_refl _, Nat.le_refl _⟩, by simp⟩

theorem acPass_spec {σ : Type} (m : Lookup σ) (hm : LookupOk m) (N : Nat) (s : GSent) (h0 : s.tokens ≠ [])
    (h : Run N s.pos s.tokens) (hz : ∀ t ∈ s.tokens, 0 ∉ t.str) (lowerFirst : Bool) (c : σ) :
    ∃ c' es b, acPass m s lowerFirst c = some (c', es, b) ∧ ∀ e ∈ es, GoodErr N e := by
  unfold acPass
  rcases acTokens_spec N lowerFirst s.tokens hz s.pos true {} acInit h with k | ⟨st, k1, k2, k3⟩
  · rw [k]
    exact ⟨_, _, _, rfl, by simp⟩
  · rw [k1]
    exact acLookups_spec m hm N s h0 lowerFirst st k2 k3 st.lookups c

theorem autocorrect_spec {σ : Type} (m : Lookup σ) (hm : LookupOk m) (N : Nat) (s : GSent) (h0 : s.tokens ≠ [])
    (h : Run N s.pos s.tokens) (hz : ∀ t ∈ s.tokens, 0 ∉ t.str) (c : σ) :
    ∃ c' es, autocorrect m s c = some (c', es) ∧ ∀ e ∈ es, GoodErr N e := by
  obtain ⟨c1, es1, b, h1, h2⟩ := acPass_spec m hm N s h0 h hz false c
  unfold autocorrect
  simp only [h1, Option.bind_eq_bind, Option.bind_some]
  split
  · obtain ⟨c2, es2, b2, g1, g2⟩ := acPass_spec m hm N s h0 h hz true c1
    simp only [g1, Option.bind_some]
    refine ⟨_, _, rfl, ?_⟩
    intro e he
    rcases List.mem_append.1 he with he | he
    · exact h2 e he
    · exact g2 e he
  · exact ⟨_, _, rfl, h2⟩

end Verif.Props
