import Verif.Lemmas.HyphCompound
import Verif.Props.HyphInsert
import Verif.Props.HyphMarks
import Verif.Props.HyphRules
/-!
C94: the parts of a compound are hyphenated like words of their own. The parts are given by the elements of STRUCTURE for a
known word, and by the hyphens for an unknown word.
-/

namespace Verif.Props
open Verif StructTok Compound
set_option linter.unusedSimpArgs false
set_option linter.unusedVariables false

/-! ### Specification -/

/-- The elements of a part as a word of its own: the border before its first character is not there. -/
def asWord : List StructTok → List StructTok
  | border c :: ts => plain c :: ts
  | ts => ts

/-- The elements from `s` to `e` are one part of the compound: it starts at the beginning, at a border or after a hyphen
that is a border, and ends before the next border or hyphen or at the end. Excluded are parts after two hyphens (`start`),
and parts that begin with a character marked as not to be divided and follow a border without a hyphen (`mark`). -/
structure CompoundPart (ts : List StructTok) (s e : Nat) : Prop where
  lt : s < e
  le : e ≤ ts.length
  inside : ∀ j, s < j → j < e → ∀ t, ts[j]? = some t → t.inner = true
  fin : e = ts.length ∨ ∃ t, ts[e]? = some t ∧ t.inner = false
  start : s = 0 ∨ (∃ c, ts[s]? = some (border c)) ∨ (2 ≤ s ∧ ts[s - 1]? = some hyphen ∧ (ts[s - 2]? = some hyphen → s = 2))
  mark : ∀ c, ts[s]? = some (border c) → c ≠ 0 ∧ c ≠ 0x3D ∧ c ≠ 0x6A ∧ c ≠ 0x71

/-- The characters from `s` to `e` are a part of an unknown word: they are between hyphens. -/
structure HyphenPart (word : List Wc) (s e : Nat) : Prop where
  lt : s < e
  le : e ≤ word.length
  inside : ∀ j, s < j → j < e → j + 1 < word.length → word[j]? ≠ some 0x2D
  fin : e = word.length ∨ (e + 1 < word.length ∧ word[e]? = some 0x2D)
  start : s = 0 ∨ (2 ≤ s ∧ word[s - 1]? = some 0x2D ∧ (word[s - 2]? = some 0x2D → s = 2) ∧ (word[s]? = some 0x2D → s + 1 = word.length))

/-- The characters from `s` to `e`. -/
def slice (word : List Wc) (s e : Nat) : List Wc := (word.drop s).take (e - s)

/-! ### Patterns of the elements -/

/-- Pattern character of an element. -/
def tokCell (first : Bool) : StructTok → Wc
  | plain c => if c = 0x6A ∨ c = 0x71 then 0x58 else 0x20
  | border _ => 0x2D
  | hyphen => if first then 0x20 else 0x3D

/-- Pattern of the elements. -/
def tokCells (first : Bool) : List StructTok → List Wc
  | [] => []
  | t :: ts => tokCell first t :: ts.map (tokCell false)

theorem tokCells_false (ts : List StructTok) : tokCells false ts = ts.map (tokCell false) := by cases ts <;> rfl

theorem interpretLoop_cells (ts : List StructTok) (hok : Ok ts) (first : Bool) :
    interpretLoop ts.length first (ts.flatMap render ++ [0]) = some (tokCells first ts) := by
  induction ts generalizing first with
  | nil => rfl
  | cons t ts ih =>
    cases t with
    | plain c =>
      obtain ⟨hc0, hc1, hc2, hok'⟩ := hok
      have hd : (plain c :: ts).flatMap render ++ [0] = c :: (ts.flatMap render ++ [0]) := rfl
      rw [hd]
      have hx : ((if c = 0x2D then (do let d ← rd (c :: (ts.flatMap render ++ [0])) 1; return d == 0x3D) else some false :
          UB Bool)) = some false := by
        by_cases hh : c = 0x2D
        · rw [if_pos hh]
          cases ts with
          | nil => rfl
          | cons t' ts' =>
            cases t' with
            | plain d =>
              have : d ≠ 0x3D := hok'.2.1
              simp [rd, render, this]
            | border d => exact absurd rfl (hc2 hh d)
            | hyphen => simp [rd, render]
        · rw [if_neg hh]
      rw [List.length_cons]
      conv => lhs; unfold interpretLoop
      rw [show rd (c :: (ts.flatMap render ++ [0])) 0 = some c from rfl]
      simp only [Option.bind_eq_bind, Option.bind_some, hc0, if_false]
      simp only [Option.bind_eq_bind] at hx
      rw [hx]
      simp only [Option.bind_some, Bool.false_eq_true, if_false, hc1, List.drop_one, List.tail_cons]
      rw [ih hok' false, tokCells_false]
      rfl
    | border c =>
      have hd : (border c :: ts).flatMap render ++ [0] = 0x3D :: c :: (ts.flatMap render ++ [0]) := rfl
      rw [hd, List.length_cons]
      conv => lhs; unfold interpretLoop
      rw [show rd (0x3D :: c :: (ts.flatMap render ++ [0])) 0 = some 0x3D from rfl]
      have := ih hok false
      simp [this, tokCells_false]
      rfl
    | hyphen =>
      have hd : (hyphen :: ts).flatMap render ++ [0] = 0x2D :: 0x3D :: (ts.flatMap render ++ [0]) := rfl
      rw [hd, List.length_cons]
      conv => lhs; unfold interpretLoop
      rw [show rd (0x2D :: 0x3D :: (ts.flatMap render ++ [0])) 0 = some 0x2D from rfl]
      have := ih hok false
      simp [rd, this, tokCells_false]
      rfl

theorem rawPattern_cells (a : MorAn) (ts : List StructTok) (hok : Ok ts) (hs : HasElements a ts) :
    rawPattern ts.length false a = some (tokCells true ts ++ [0]) := by
  have e := interpretLoop_cells ts hok true
  rcases hs with hs | ⟨hs, hh⟩
  · unfold rawPattern interpretAnalysis MorAn.structCells
    rw [hs]
    simp [structOf, rd, e]
  · have hc : ∃ c, rd (ts.flatMap render ++ [0]) 0 = some c ∧ c ≠ 0x3D := by
      cases ts with
      | nil => exact ⟨0, rfl, by decide⟩
      | cons t ts =>
        cases t with
        | plain c => exact ⟨c, rfl, hok.2.1⟩
        | border c => exact absurd rfl (hh c)
        | hyphen => exact ⟨0x2D, rfl, by decide⟩
    obtain ⟨c, hc, hne⟩ := hc
    unfold rawPattern interpretAnalysis MorAn.structCells
    rw [hs]
    simp only [Option.bind_eq_bind, Option.bind_some, hc, if_neg hne, Bool.false_eq_true, if_false, Nat.sub_zero, e]
    simp

theorem cells_get {ts : List StructTok} {i : Nat} {t : StructTok} (h : ts[i]? = some t) :
    (tokCells true ts ++ [0])[i]? = some (tokCell (decide (i = 0)) t) := by
  have hi : i < ts.length := (List.getElem?_eq_some_iff.1 h).1
  cases ts with
  | nil => simp at h
  | cons t' ts =>
    rw [List.getElem?_append_left (by simpa [tokCells] using hi)]
    cases i with
    | zero =>
      rw [List.getElem?_cons_zero, Option.some.injEq] at h
      subst h; rfl
    | succ i =>
      rw [List.getElem?_cons_succ] at h
      show (ts.map (tokCell false))[i]? = _
      rw [List.getElem?_map, h]
      rfl

theorem tokCell_inner {f : Bool} {t : StructTok} (h : t.inner = true) : tokCell f t = 0x20 ∨ tokCell f t = 0x58 := by
  cases t with
  | plain c => simp only [tokCell]; split <;> simp
  | border c => cases h
  | hyphen => cases h

theorem ok_drop {ts : List StructTok} (h : Ok ts) (s : Nat) : Ok (ts.drop s) := by
  induction s generalizing ts with
  | zero => exact h
  | succ s ih =>
    cases ts with
    | nil => exact h
    | cons t ts =>
      refine ih ?_
      cases t with
      | plain c => exact h.2.2.2
      | border c => exact h
      | hyphen => exact h

theorem ok_take {ts : List StructTok} (h : Ok ts) (n : Nat) : Ok (ts.take n) := by
  induction n generalizing ts with
  | zero => exact trivial
  | succ n ih =>
    cases ts with
    | nil => exact h
    | cons t ts =>
      cases t with
      | plain c =>
        refine ⟨h.1, h.2.1, fun hc d hd => ?_, ih h.2.2.2⟩
        cases n with
        | zero => simp at hd
        | succ n =>
          cases ts with
          | nil => simp at hd
          | cons u us => exact h.2.2.1 hc d (by simpa using hd)
      | border c => exact ih h
      | hyphen => exact ih h

theorem asWord_length (ts : List StructTok) : (asWord ts).length = ts.length := by
  cases ts with
  | nil => rfl
  | cons t ts => cases t <;> rfl

theorem asWord_succ (ts : List StructTok) (j : Nat) : (asWord ts)[j + 1]? = ts[j + 1]? := by
  cases ts with
  | nil => rfl
  | cons t ts => cases t <;> rfl

/-- C94: with a single analysis for the word and for the part alone, a part of a compound is hyphenated exactly as the part
alone is; a part that is shorter than the minimum is not hyphenated in either case. Missing for the full claim: parts after
two hyphens (`C38_violation`), and parts that begin with a character that is not to be divided and follow a border without
hyphen (`C94_violation`). -/
theorem C94_parts_partial (o : HyphOpts) (an an' : Analyzer) (word r : List Wc) (h0 : 0 ∉ word) (hmin : o.minLength ≤ word.length)
    (a a' : MorAn) (ts : List StructTok) (hlen : ts.length = word.length) (hok : Ok ts) (s e : Nat) (hp : CompoundPart ts s e)
    (ha : an word = [a]) (hs : HasElements a ts) (ha' : an' (slice word s e) = [a'])
    (hs' : HasElements a' (asWord ((ts.drop s).take (e - s)))) (h : hyphenateUcs4 o an word = some (some r)) :
    ∃ r', hyphenateUcs4 o an' (slice word s e) = some (some r') ∧ r'.length = e - s ∧
      ∀ j, 1 ≤ j → j < e - s → r[s + j]? = r'[j]? := by
  have hlt := hp.lt
  have hle := hp.le
  obtain ⟨t0, ht0⟩ : ∃ t, ts[s]? = some t := ⟨_, List.getElem?_eq_getElem (by omega)⟩
  have hget : ∀ j, j < e - s → ((ts.drop s).take (e - s))[j]? = ts[s + j]? := by
    intro j hj
    rw [List.getElem?_take_of_lt hj, List.getElem?_drop]
  have hoks : Ok (asWord ((ts.drop s).take (e - s))) := by
    have := ok_take (ok_drop hok s) (e - s)
    have g0 := hget 0 (by omega)
    have g1 := hget 1
    have gl : ((ts.drop s).take (e - s)).length = e - s := by simp; omega
    revert this g0 g1 gl
    generalize (ts.drop s).take (e - s) = us
    intro this g0 g1 gl
    cases us with
    | nil => exact this
    | cons t us =>
      cases t with
      | plain c => exact this
      | hyphen => exact this
      | border c =>
        have hm := hp.mark c (by simpa using g0.symm)
        refine ⟨hm.1, hm.2.1, fun _ d hd => ?_, this⟩
        by_cases h1 : 1 < e - s
        · have g := g1 h1
          rw [List.getElem?_cons_succ, ← List.head?_eq_getElem?, hd] at g
          have := hp.inside (s + 1) (by omega) (by omega) _ g.symm
          cases this
        · rw [List.length_cons] at gl
          rw [List.length_eq_zero_iff.1 (by omega : us.length = 0)] at hd
          cases hd
  have hl' : (slice word s e).length = e - s := by simp [slice]; omega
  have hal' : (asWord ((ts.drop s).take (e - s))).length = (slice word s e).length := by
    rw [asWord_length, hl']; simp; omega
  have hP : OnePat o an word (tokCells true ts ++ [0]) :=
    ⟨by simp [dotCut, ha], .inr ⟨a, ha, by rw [← hlen]; exact rawPattern_cells a ts hok hs⟩⟩
  have hP' : OnePat o an' (slice word s e) (tokCells true (asWord ((ts.drop s).take (e - s))) ++ [0]) :=
    ⟨by simp [dotCut, ha'], .inr ⟨a', ha', by rw [← hal']; exact rawPattern_cells a' _ hoks hs'⟩⟩
  have hin : ∀ j, s < j → j < e → blankAt (tokCells true ts ++ [0]) j = true := by
    intro j h1 h2
    have ht : ts[j]? = some (ts[j]'(by omega)) := List.getElem?_eq_getElem _
    rw [blankAt_true_iff (cells_get ht)]
    exact tokCell_inner (hp.inside j h1 h2 _ ht)
  have hpos : ∀ {i : Nat} {t : StructTok}, 0 < i → ts[i]? = some t → (tokCells true ts ++ [0])[i]? = some (tokCell false t) := by
    intro i t hi ht
    rw [cells_get ht, decide_eq_false (by omega)]
  refine part_alone hP h0 hmin h ?_ hlt (by omega) hin ?_ ?_ hP' ?_ ?_ ?_
  · rw [cells_get (List.getElem?_eq_getElem (by omega : 0 < ts.length)), decide_eq_true rfl]
    cases ts[0] with
    | plain c => simp only [tokCell]; split <;> simp
    | border c => simp [tokCell]
    | hyphen => simp [tokCell]
  · rcases hp.fin with h1 | ⟨t, h1, h2⟩
    · exact .inl (by omega)
    · refine .inr ((blankAt_false_iff (hpos (by omega) h1)).2 ?_)
      cases t with
      | plain c => cases h2
      | border c => simp [tokCell]
      | hyphen => simp [tokCell]
  · by_cases hs0 : s = 0
    · exact .inl hs0
    · rcases hp.start with h1 | ⟨c, h1⟩ | ⟨h1, h2, h3⟩
      · exact .inl h1
      · refine .inr (.inl ⟨by omega, (blankAt_false_iff (hpos (by omega) h1)).2 (by simp [tokCell]), ?_⟩)
        rw [hpos (by omega) h1]; simp [tokCell]
      · refine .inr (.inr ⟨by omega, by rw [hpos (by omega) h2]; rfl, ?_⟩)
        have ht : ts[s - 2]? = some (ts[s - 2]'(by omega)) := List.getElem?_eq_getElem _
        rw [cells_get ht]
        generalize ts[s - 2]'(by omega) = t at ht
        cases t with
        | plain c => simp only [tokCell]; split <;> simp
        | border c => simp [tokCell]
        | hyphen =>
          have := h3 ht
          subst this
          simp [tokCell]
  · have ht : (asWord ((ts.drop s).take (e - s)))[0]? = some ((asWord ((ts.drop s).take (e - s)))[0]'(by omega)) := List.getElem?_eq_getElem _
    rw [cells_get ht, decide_eq_true rfl]
    cases (asWord ((ts.drop s).take (e - s)))[0]'(by omega) with
    | plain c => simp only [tokCell]; split <;> simp
    | border c => simp [tokCell]
    | hyphen => simp [tokCell]
  · intro j h1 h2
    obtain ⟨k, rfl⟩ : ∃ k, j = k + 1 := ⟨j - 1, by omega⟩
    have ht : ts[s + (k + 1)]? = some (ts[s + (k + 1)]'(by omega)) := List.getElem?_eq_getElem _
    have ht' := (asWord_succ ((ts.drop s).take (e - s)) k).trans ((hget (k + 1) h2).trans ht)
    rw [hpos (by omega) ht, cells_get ht', decide_eq_false (by omega)]
  · have g0 := (hget 0 (by omega)).trans ht0
    have hm := hp.mark
    rw [ht0] at hm
    rw [cells_get ht0]
    revert g0
    generalize (ts.drop s).take (e - s) = us
    intro g0
    cases us with
    | nil => simp at g0
    | cons t us =>
      rw [List.getElem?_cons_zero, Option.some.injEq] at g0
      subst g0
      cases t with
      | plain c => rw [show asWord (plain c :: us) = plain c :: us from rfl, cells_get (List.getElem?_cons_zero)]; rfl
      | border c =>
        obtain ⟨_, _, m1, m2⟩ := hm c rfl
        rw [show asWord (border c :: us) = plain c :: us from rfl, cells_get (List.getElem?_cons_zero)]
        simp [tokCell, m1, m2]
      | hyphen =>
        rw [show asWord (hyphen :: us) = hyphen :: us from rfl, cells_get (List.getElem?_cons_zero)]
        by_cases hs0 : s = 0 <;> simp [tokCell, hs0]

/-- A part of letters is hyphenated like a word that consists of one part. -/
theorem part_onePart (o : HyphOpts) (an : Analyzer) (word r : List Wc) (h0 : 0 ∉ word) (hmin : o.minLength ≤ word.length)
    (a : MorAn) (ts : List StructTok) (hlen : ts.length = word.length) (hok : Ok ts) (s e : Nat) (hp : CompoundPart ts s e)
    (ha : an word = [a]) (hs : HasElements a ts) (h : hyphenateUcs4 o an word = some (some r))
    (hplain : ∀ j, s ≤ j → j < e → ∃ c, (ts[j]? = some (plain c) ∨ ts[j]? = some (border c)) ∧ c ≠ 0x2D ∧ c ≠ 0x6A ∧ c ≠ 0x71) :
    ∃ an' r', OnePart o an' (slice word s e) ∧ hyphenateUcs4 o an' (slice word s e) = some (some r') ∧
      ∀ j, 1 ≤ j → j < e - s → r[s + j]? = r'[j]? := by
  have hlt := hp.lt
  have hle := hp.le
  have hl' : (slice word s e).length = e - s := by simp [slice]; omega
  let us := asWord ((ts.drop s).take (e - s))
  let a' : MorAn := { struct := some (structOf us) }
  have hget : ∀ j, j < e - s → ((ts.drop s).take (e - s))[j]? = ts[s + j]? := by
    intro j hj
    rw [List.getElem?_take_of_lt hj, List.getElem?_drop]
  have hus : us.length = e - s := by
    show (asWord _).length = _
    rw [asWord_length]; simp; omega
  have hall : ∀ t ∈ us, ∃ c, t = plain c ∧ c ≠ 0 ∧ c ≠ 0x2D ∧ c ≠ 0x3D ∧ c ≠ 0x6A ∧ c ≠ 0x71 := by
    intro t ht
    obtain ⟨k, hk, rfl⟩ := List.getElem_of_mem ht
    have hke : us[k]? = some us[k] := List.getElem?_eq_getElem hk
    rw [hus] at hk
    obtain ⟨c, hc, hc1, hc2, hc3⟩ := hplain (s + k) (by omega) (by omega)
    have hokc : ∀ {l : List StructTok} {i : Nat} {c : Wc}, Ok l → l[i]? = some (plain c) → c ≠ 0 ∧ c ≠ 0x3D := by
      intro l i c hl
      induction l generalizing i with
      | nil => intro h; simp at h
      | cons t l ih =>
        intro h
        cases i with
        | zero =>
          rw [List.getElem?_cons_zero, Option.some.injEq] at h
          subst h
          exact ⟨hl.1, hl.2.1⟩
        | succ i =>
          rw [List.getElem?_cons_succ] at h
          refine ih ?_ h
          cases t with
          | plain c => exact hl.2.2.2
          | border c => exact hl
          | hyphen => exact hl
    cases k with
    | zero =>
      have g0 := hget 0 hk
      rw [Nat.add_zero] at hc g0
      have hgo : us[0]? = some (plain c) ∧ c ≠ 0 ∧ c ≠ 0x3D := by
        rcases hc with hc | hc
        · refine ⟨?_, hokc hok hc⟩
          show (asWord ((ts.drop s).take (e - s)))[0]? = _
          rw [hc] at g0
          revert g0
          generalize (ts.drop s).take (e - s) = l
          intro g0
          cases l with
          | nil => simp at g0
          | cons t l =>
            rw [List.getElem?_cons_zero, Option.some.injEq] at g0
            subst g0; rfl
        · have hmk := hp.mark c hc
          refine ⟨?_, hmk.1, hmk.2.1⟩
          show (asWord ((ts.drop s).take (e - s)))[0]? = _
          rw [hc] at g0
          revert g0
          generalize (ts.drop s).take (e - s) = l
          intro g0
          cases l with
          | nil => simp at g0
          | cons t l =>
            rw [List.getElem?_cons_zero, Option.some.injEq] at g0
            subst g0; rfl
      rw [hgo.1, Option.some.injEq] at hke
      exact ⟨c, hke.symm, hgo.2.1, hc1, hgo.2.2, hc2, hc3⟩
    | succ k =>
      have g := (asWord_succ ((ts.drop s).take (e - s)) k).trans (hget (k + 1) hk)
      have hin := hp.inside (s + (k + 1)) (by omega) (by omega)
      rcases hc with hc | hc
      · rw [hc] at g
        rw [show us[k + 1]? = _ from g, Option.some.injEq] at hke
        obtain ⟨k1, k2⟩ := hokc hok hc
        exact ⟨c, hke.symm, k1, hc1, k2, hc2, hc3⟩
      · cases hin _ hc
  obtain ⟨r', hr', hl, hcell⟩ := C94_parts_partial o an (fun _ => [a']) word r h0 hmin a a' ts hlen hok s e hp ha hs rfl (.inl rfl) h
  have hst : ∀ l : List StructTok, (∀ t ∈ l, ∃ c, t = plain c ∧ c ≠ 0 ∧ c ≠ 0x2D ∧ c ≠ 0x3D ∧ c ≠ 0x6A ∧ c ≠ 0x71) →
      (l.flatMap render).length = l.length ∧ ∀ c ∈ l.flatMap render, c ≠ 0 ∧ c ≠ 0x2D ∧ c ≠ 0x3D ∧ c ≠ 0x6A ∧ c ≠ 0x71 := by
    intro l hl
    induction l with
    | nil => simp
    | cons t l ih =>
      obtain ⟨i1, i2⟩ := ih (fun t ht => hl t (by simp [ht]))
      obtain ⟨c, rfl, hc⟩ := hl t (by simp)
      refine ⟨by simp [render, i1, Nat.add_comm], fun d hd => ?_⟩
      rw [List.flatMap_cons, List.mem_append] at hd
      rcases hd with hd | hd
      · have : d = c := by simpa [render] using hd
        rw [this]; exact hc
      · exact i2 d hd
  obtain ⟨s1, s2⟩ := hst us hall
  have hone : OnePart o (fun _ => [a']) (slice word s e) := by
    refine .inr ⟨by simp, fun x hx => ?_⟩
    rw [List.mem_singleton] at hx
    subst hx
    exact ⟨us.flatMap render, rfl, by rw [s1, hus, hl'], s2⟩
  exact ⟨_, r', hone, hr', hcell⟩

/-- C94, exact result for the part of a compound when ugly points are not allowed: a part of letters, none of them marked as
not to be divided, without the groups of consonants, is hyphenated exactly before every consonant followed by a vowel that
has a vowel of the part before it, except after the first letter of the part. -/
theorem C94_exact_pretty (o : HyphOpts) (an : Analyzer) (word r : List Wc) (h0 : 0 ∉ word) (hmin : o.minLength ≤ word.length)
    (a : MorAn) (ts : List StructTok) (hlen : ts.length = word.length) (hok : Ok ts) (s e : Nat) (hp : CompoundPart ts s e)
    (ha : an word = [a]) (hs : HasElements a ts) (h : hyphenateUcs4 o an word = some (some r)) (hug : o.ugly = false)
    (hn : 2 ≤ e - s) (hm : o.minLength ≤ e - s) (hF : FinnishWord (slice word s e)) (hno : ∀ k, ¬ GroupAt ((slice word s e).map lower) k)
    (hplain : ∀ j, s ≤ j → j < e → ∃ c, (ts[j]? = some (plain c) ∨ ts[j]? = some (border c)) ∧ c ≠ 0x2D ∧ c ≠ 0x6A ∧ c ≠ 0x71)
    (j : Nat) (hj1 : 1 ≤ j) (hj2 : j < e - s) :
    r[s + j]? ≠ some 0x20 ↔ 2 ≤ j ∧ OpensSyllable ((slice word s e).map lower) j ∧ ∃ k, k < j ∧ VowelAt ((slice word s e).map lower) k := by
  have hlt := hp.lt
  have hle := hp.le
  have hl' : (slice word s e).length = e - s := by simp [slice]; omega
  obtain ⟨an', r', hone, hr', hcell⟩ := part_onePart o an word r h0 hmin a ts hlen hok s e hp ha hs h hplain
  have := C67_exact_pretty o an' (slice word s e) r' hF (by omega) (by omega) hug hone hno hr' j (by omega)
  rw [hcell j hj1 hj2]
  exact this

/-- C94, exact result for the part of a compound when ugly points are allowed, for parts without three vowels in a row: a point is before every consonant
followed by a vowel that has a vowel of the part before it, and between two vowels that are not of one syllable. -/
theorem C94_exact_ugly (o : HyphOpts) (an : Analyzer) (word r : List Wc) (h0 : 0 ∉ word) (hmin : o.minLength ≤ word.length)
    (a : MorAn) (ts : List StructTok) (hlen : ts.length = word.length) (hok : Ok ts) (s e : Nat) (hp : CompoundPart ts s e)
    (ha : an word = [a]) (hs : HasElements a ts) (h : hyphenateUcs4 o an word = some (some r)) (hug : o.ugly = true)
    (hn : 2 ≤ e - s) (hm : o.minLength ≤ e - s) (hF : FinnishWord (slice word s e)) (hno : ∀ k, ¬ GroupAt ((slice word s e).map lower) k)
    (h3 : ∀ k, ¬ (VowelAt ((slice word s e).map lower) k ∧ VowelAt ((slice word s e).map lower) (k + 1) ∧ VowelAt ((slice word s e).map lower) (k + 2)))
    (hplain : ∀ j, s ≤ j → j < e → ∃ c, (ts[j]? = some (plain c) ∨ ts[j]? = some (border c)) ∧ c ≠ 0x2D ∧ c ≠ 0x6A ∧ c ≠ 0x71)
    (j : Nat) (hj1 : 1 ≤ j) (hj2 : j < e - s) :
    r[s + j]? ≠ some 0x20 ↔ (OpensSyllable ((slice word s e).map lower) j ∧ ∃ k, k < j ∧ VowelAt ((slice word s e).map lower) k) ∨
      (1 ≤ j ∧ PairAt separatePairs ((slice word s e).map lower) (j - 1)) := by
  have hlt := hp.lt
  have hle := hp.le
  have hl' : (slice word s e).length = e - s := by simp [slice]; omega
  obtain ⟨an', r', hone, hr', hcell⟩ := part_onePart o an word r h0 hmin a ts hlen hok s e hp ha hs h hplain
  have := C67_exact_ugly o an' (slice word s e) r' hF (by omega) (by omega) hug hone hno h3 hr' j (by omega)
  rw [hcell j hj1 hj2]
  exact this

/-- Pattern of an unknown word that may be divided. -/
theorem unknown_cell {o : HyphOpts} {word p : List Wc} (hp : unknownPattern o word = some p) {i : Nat} {c : Wc} (hc : word[i]? = some c) :
    ∃ b : Bool, allowRule o.ugly word word.length = some b ∧
      p[i]? = some (if b = true ∧ 0 < i ∧ i + 1 < word.length ∧ c = 0x2D then 0x3D else if o.hyphenateUnknown then 0x20 else 0x58) := by
  obtain ⟨b, hb, _⟩ := allowRule_total o.ugly word word.length (Nat.le_refl _)
  refine ⟨b, hb, ?_⟩
  have hi : i < word.length := (List.getElem?_eq_some_iff.1 hc).1
  simp only [unknownPattern, hb, Option.bind_eq_bind, Option.bind_some, Option.pure_def, Option.some.injEq] at hp
  subst hp
  rw [List.getElem?_append_left (by simp; omega), List.getElem?_mapIdx, hc, Option.map_some]
  have : (i < word.length - 1) = (i + 1 < word.length) := propext (by omega)
  simp [this, and_assoc]

theorem mayDivide_allow {ugly : Bool} {word : List Wc} (hd : MayDivide ugly word) : allowRule ugly word word.length = some true := by
  unfold allowRule
  rw [if_neg (by have := hd.1; omega)]
  cases hu : ugly with
  | true => rfl
  | false =>
    obtain ⟨g1, g2⟩ := hd.2 hu
    have := hd.1
    simp only [Bool.not_false, if_true]
    rw [if_neg (by omega), List.take_length, g1, rd_eq_some (by omega)]
    simp only [Option.bind_eq_bind, Option.bind_some, Bool.false_eq_true, if_false, Option.pure_def, Option.some.injEq]
    have := g2 (word[word.length - 1]'(by omega)) (by
      rw [List.getLast?_eq_getElem?, List.getElem?_eq_getElem (by omega)])
    simp only [Bool.not_eq_true', Bool.and_eq_false_iff, decide_eq_false_iff_not]
    omega

/-- C94 for unknown words: a part between hyphens of an unknown word that may be divided is hyphenated exactly as the part
alone is, if it is unknown too. (An ignored full stop is not at issue: neither the word nor the part is one whose final full
stop is left out.) -/
theorem C94_unknown (o : HyphOpts) (an an' : Analyzer) (word r : List Wc) (h0 : 0 ∉ word) (hmin : o.minLength ≤ word.length)
    (hd : MayDivide o.ugly word) (s e : Nat) (hp : HyphenPart word s e) (ha : an word = []) (ha' : an' (slice word s e) = [])
    (hdot : o.ignoreDot = false ∨ (word.getLast? ≠ some 0x2E ∧ (slice word s e).getLast? ≠ some 0x2E))
    (h : hyphenateUcs4 o an word = some (some r)) :
    ∃ r', hyphenateUcs4 o an' (slice word s e) = some (some r') ∧ r'.length = e - s ∧
      ∀ j, 1 ≤ j → j < e - s → r[s + j]? = r'[j]? := by
  have hlt := hp.lt
  have hle := hp.le
  have hl' : (slice word s e).length = e - s := by simp [slice]; omega
  obtain ⟨p, hp1, _⟩ := unknownPattern_total o word
  obtain ⟨p', hp2, _⟩ := unknownPattern_total o (slice word s e)
  have hcut : dotCut o an word = false ∧ dotCut o an' (slice word s e) = false := by
    rcases hdot with hdot | ⟨k1, k2⟩
    · simp [dotCut, hdot]
    · simp [dotCut, k1, k2]
  have hcell : ∀ {i : Nat} {c : Wc}, word[i]? = some c →
      p[i]? = some (if 0 < i ∧ i + 1 < word.length ∧ c = 0x2D then 0x3D else if o.hyphenateUnknown then 0x20 else 0x58) := by
    intro i c hc
    obtain ⟨b, hb, hx⟩ := unknown_cell hp1 hc
    rw [mayDivide_allow hd, Option.some.injEq] at hb
    subst hb
    simpa using hx
  have hfill : ∀ i, i < word.length → ¬ (0 < i ∧ i + 1 < word.length ∧ word[i]? = some 0x2D) →
      p[i]? = some (if o.hyphenateUnknown then 0x20 else 0x58) := by
    intro i hi hno
    have hc : word[i]? = some (word[i]'hi) := List.getElem?_eq_getElem hi
    rw [hcell hc, if_neg]
    rintro ⟨k1, k2, k3⟩
    exact hno ⟨k1, k2, by rw [hc, k3]⟩
  have hsl : ∀ j, j < e - s → (slice word s e)[j]? = word[s + j]? := by
    intro j hj
    unfold slice
    rw [List.getElem?_take_of_lt hj, List.getElem?_drop]
  have hfill' : ∀ j, j < e - s → p'[j]? = some (if o.hyphenateUnknown then 0x20 else 0x58) := by
    intro j hj
    have hc : (slice word s e)[j]? = some ((slice word s e)[j]'(by omega)) := List.getElem?_eq_getElem _
    obtain ⟨b, _, hx⟩ := unknown_cell hp2 hc
    rw [hx, if_neg]
    rintro ⟨_, k1, k2, k3⟩
    rw [k3, hsl j hj] at hc
    rw [hl'] at k2
    exact hp.inside (s + j) (by omega) (by omega) (by omega) hc
  have hsfill : p[s]? = some (if o.hyphenateUnknown then 0x20 else 0x58) := by
    refine hfill s (by omega) ?_
    rintro ⟨k1, k2, k3⟩
    rcases hp.start with k | ⟨_, _, _, k⟩
    · omega
    · have := k k3; omega
  have hf : ∀ (b : Bool) (c : Wc), (c = if b then 0x20 else 0x58) → c = 0x20 ∨ c = 0x58 := by
    intro b c hc; cases b <;> simp_all
  have heq : ∀ {i : Nat}, 0 < i → i + 1 < word.length → word[i]? = some 0x2D → p[i]? = some 0x3D := by
    intro i k1 k2 k3
    rw [hcell k3, if_pos ⟨k1, k2, rfl⟩]
  refine part_alone ⟨hcut.1, .inl ⟨ha, hp1⟩⟩ h0 hmin h ?_ hlt hle ?_ ?_ ?_ ⟨hcut.2, .inl ⟨ha', hp2⟩⟩ ?_ ?_ ?_
  · rw [hfill 0 (by omega) (by omega)]
    cases o.hyphenateUnknown <;> simp
  · intro j k1 k2
    have hx := hfill j (by omega) (fun ⟨_, k3, k4⟩ => hp.inside j k1 k2 k3 k4)
    rw [blankAt_true_iff hx]
    exact hf _ _ rfl
  · rcases hp.fin with k | ⟨k1, k2⟩
    · exact .inl k
    · exact .inr (not_blank_eq (heq (by omega) k1 k2))
  · rcases hp.start with k | ⟨k1, k2, k3, k4⟩
    · exact .inl k
    · refine .inr (.inr ⟨by omega, heq (by omega) (by omega) k2, ?_⟩)
      rw [hcell (List.getElem?_eq_getElem (by omega : s - 2 < word.length))]
      split
      · rename_i hx
        have := k3 (by rw [List.getElem?_eq_getElem (by omega : s - 2 < word.length), hx.2.2])
        omega
      · cases o.hyphenateUnknown <;> simp
  · rw [hfill' 0 (by omega)]
    cases o.hyphenateUnknown <;> simp
  · intro j k1 k2
    rw [hfill' j k2, hfill (s + j) (by omega) (fun ⟨_, k3, k4⟩ => hp.inside (s + j) (by omega) (by omega) k3 k4)]
  · rw [hfill' 0 (by omega), hsfill]

/-- C94: with `HYPHENATE_UNKNOWN_WORDS` off, an unknown word is divided only at its hyphens. Missing for the full claim: words
with two consecutive hyphens (`C94_violation_unknown`). -/
theorem C94_off_partial (o : HyphOpts) (an : Analyzer) (word r : List Wc) (h0 : 0 ∉ word) (hoff : o.hyphenateUnknown = false)
    (hun : usedAnalyses o an word = []) (hhh : ∀ i, ¬ (word[i]? = some 0x2D ∧ word[i + 1]? = some 0x2D))
    (h : hyphenateUcs4 o an word = some (some r)) (i : Nat) (hi : i < word.length) (hri : r[i]? ≠ some 0x20) : word[i]? = some 0x2D := by
  by_cases hmin : o.minLength ≤ word.length
  · obtain ⟨hv, all, e⟩ := defined_cases intersectHyph o an word r hmin h
    obtain ⟨pats, rs, hr, e4, e2⟩ := hyphenateWith_of intersectHyph o an word hv h0 hmin all e
    rw [show hyphenateUcs4 o an word = _ from e2, Option.map_eq_some_iff] at h
    obtain ⟨r', e3, h4⟩ := h
    rw [Option.some.injEq] at h4
    subst h4
    have hall : all = [] := by rw [hun] at e; exact (Option.some.inj e).symm
    obtain ⟨p, hp, hpats⟩ := hr.split.unknown hall
    rw [hpats] at hr
    have hrr := hr.rules
    cases hrr with
    | cons h1 h2 =>
      next q qs =>
      cases h2
      obtain ⟨r'', e5, hl, g⟩ := intersect_spec word.length [q] (by simp) hr.ok
      have : r'' = r' := Option.some.inj (e5.symm.trans e3)
      subst this
      have hpl := patOk_length (hr.split.ok p (by simp))
      have hul : usedLen o an word ≤ word.length := by unfold usedLen; omega
      obtain ⟨q2, f1, _, _, f4⟩ := compound_spec o.ugly o.minLength (word ++ [0]) (usedLen o an word) p
        (take_word_ne h0 _ (by omega)) (by simp; omega) (by omega)
      have : q2 = q := Option.some.inj (f1.symm.trans h1)
      subst this
      have hqb : blankAt q2 i = false := by
        cases hb : blankAt q2 i with
        | false => rfl
        | true => exact absurd ((g i hi).1 ⟨q2, by simp, hb⟩) hri
      have hcell : ∀ {k : Nat} {c : Wc}, word[k]? = some c → p[k]? = some 0x58 ∨ (p[k]? = some 0x3D ∧ c = 0x2D) := by
        intro k c hc
        obtain ⟨b, _, hx⟩ := unknown_cell hp hc
        rw [hoff] at hx
        split at hx
        · rename_i hy
          exact .inr ⟨hx, hy.2.2.2⟩
        · exact .inl hx
      have hwi : word[i]? = some word[i] := List.getElem?_eq_getElem hi
      rcases f4 i with k | ⟨s, e, x, hpart, _, h6, h7, h8, _, h9⟩
      · rcases hcell hwi with k' | ⟨_, k'⟩
        · rw [k'] at k
          rw [blankAt_false_iff k] at hqb
          omega
        · rw [hwi, k']
      · have hle := hpart.le
        have hws : word[s]? = some (word[s]'(by omega)) := List.getElem?_eq_getElem _
        have hX : p[s]? = some 0x58 := by
          rcases hcell hws with k | ⟨k, k'⟩
          · exact k
          · rcases hpart.start with ⟨k1, k2⟩ | ⟨k1, k2⟩ | ⟨k1, k2⟩
            · subst k1; exact absurd k k2
            · have hw1 : word[s - 1]? = some (word[s - 1]'(by omega)) := List.getElem?_eq_getElem _
              rcases hcell hw1 with m | ⟨_, m⟩
              · rw [m] at k1; cases k1
              · exact absurd ⟨by rw [hw1, m], by rw [show s - 1 + 1 = s by omega, hws, k']⟩ (hhh (s - 1))
            · exact absurd k k2
        have hrule : x = p.drop s := by
          unfold ruleHyphenation at h8
          obtain ⟨b, hb, _⟩ := allowRule_total o.ugly ((word ++ [0]).drop s) (e - s) (by simp; omega)
          have hr0 : rd (p.drop s) 0 = some 0x58 := by
            show (p.drop s)[0]? = _
            rw [List.getElem?_drop]; exact hX
          rw [hb] at h8
          cases b with
          | false => exact (Option.some.inj h8).symm
          | true =>
            simp only [Option.bind_eq_bind, Option.bind_some, Bool.not_true, Bool.false_eq_true, if_false, hr0, if_true] at h8
            exact (Option.some.inj h8).symm
        rw [hrule, List.getElem?_drop, show s + (i - s) = i by omega] at h9
        rw [blankAt_congr h9, hpart.inside i h6 h7] at hqb
        cases hqb
  · rw [C38_short_word o an word (by omega)] at h
    cases h
    rw [List.getElem?_replicate, if_pos hi] at hri
    exact absurd rfl hri

/-- C94 fails: after a compound border without hyphen an abbreviation loses its mark and is divided ("puu" + "KISSA"),
although it is divided neither alone nor after a hyphen. -/
theorem C94_violation :
    hyphenateUcs4 {} (fun _ => [{ struct := some (lit "=ppp=jjjjj") }]) (lit "puuKISSA") = some (some (lit "   -  - ")) ∧
    hyphenateUcs4 {} (fun _ => [{ struct := some (lit "=jjjjj") }]) (lit "KISSA") = some (some (lit "     ")) ∧
    hyphenateUcs4 {} (fun _ => [{ struct := some (lit "=ppp-=jjjjj") }]) (lit "puu-KISSA") = some (some (lit "   =     ")) := by
  decide +kernel

/-- C94 fails: with `HYPHENATE_UNKNOWN_WORDS` off, an unknown word is divided after two hyphens. -/
theorem C94_violation_unknown :
    hyphenateUcs4 { hyphenateUnknown := false } (fun _ => []) (lit "talo--aika") = some (some (lit "    ==  - ")) := by
  decide +kernel

/-- The parts of "puutalo-osa". -/
example : CompoundPart demoToks 0 3 ∧ CompoundPart demoToks 3 7 ∧ CompoundPart demoToks 8 11 ∧
    slice (lit "puutalo-osa") 3 7 = lit "talo" ∧ HyphenPart (lit "puutalo-osa") 0 7 ∧ HyphenPart (lit "puutalo-osa") 8 11 ∧
    MayDivide false (lit "puutalo-osa") := by
  have hin : ∀ (s e : Nat), (∀ j < 11, s < j → j < e → ∃ c, demoToks[j]? = some (plain c)) → e ≤ 11 →
      ∀ j, s < j → j < e → ∀ t, demoToks[j]? = some t → t.inner = true := by
    intro s e hx he j h1 h2 t ht
    obtain ⟨c, hc⟩ := hx j (by omega) h1 h2
    rw [hc, Option.some.injEq] at ht
    subst ht; rfl
  have hpl : ∀ j, j < 11 → j ≠ 3 → j ≠ 7 → demoToks[j]? = some (plain 0x70) := by
    intro j h1 h2 h3
    rcases (by omega : j = 0 ∨ j = 1 ∨ j = 2 ∨ j = 4 ∨ j = 5 ∨ j = 6 ∨ j = 8 ∨ j = 9 ∨ j = 10) with
      rfl | rfl | rfl | rfl | rfl | rfl | rfl | rfl | rfl <;> rfl
  refine ⟨⟨by omega, by decide, hin 0 3 (fun j k1 k2 k3 => ⟨_, hpl j k1 (by omega) (by omega)⟩) (by omega), .inr ⟨border 0x70, rfl, rfl⟩,
      .inl rfl, by intro c hc; cases hc⟩,
    ⟨by omega, by decide, hin 3 7 (fun j k1 k2 k3 => ⟨_, hpl j k1 (by omega) (by omega)⟩) (by omega), .inr ⟨hyphen, rfl, rfl⟩,
      .inr (.inl ⟨0x70, rfl⟩), by intro c hc; cases hc; decide⟩,
    ⟨by omega, by decide, hin 8 11 (fun j k1 k2 k3 => ⟨_, hpl j k1 (by omega) (by omega)⟩) (by omega), .inl rfl,
      .inr (.inr ⟨by omega, rfl, by intro hc; cases hc⟩), by intro c hc; cases hc⟩, by decide, ?_, ?_, ?_⟩
  · refine ⟨by omega, by decide, ?_, .inr ⟨by decide, by decide⟩, .inl rfl⟩
    intro j h1 h2 _
    rcases (by omega : j = 1 ∨ j = 2 ∨ j = 3 ∨ j = 4 ∨ j = 5 ∨ j = 6) with rfl | rfl | rfl | rfl | rfl | rfl <;> decide
  · refine ⟨by omega, by decide, ?_, .inl (by decide), .inr ⟨by omega, by decide, by decide, by decide⟩⟩
    intro j h1 h2 _
    rcases (by omega : j = 9 ∨ j = 10) with rfl | rfl <;> decide
  · refine ⟨by decide, fun _ => ⟨by decide +kernel, ?_⟩⟩
    intro c hc
    have : c = 0x61 := by
      have e : (lit "puutalo-osa").getLast? = some 0x61 := by decide
      rw [e] at hc; exact (Option.some.inj hc).symm
    omega

/-- Such words and parts are hyphenated: "puutalo-osa" and its part "talo", both as known words. -/
example : hyphenateUcs4 {} (fun _ => [{ struct := some (structOf demoToks) }]) (lit "puutalo-osa") = some (some (lit "   - - = - ")) ∧
    structOf (asWord ((demoToks.drop 3).take 4)) = lit "=pppp" ∧
    hyphenateUcs4 {} (fun _ => [{ struct := some (lit "=pppp") }]) (lit "talo") = some (some (lit "  - ")) ∧
    hyphenateUcs4 { ugly := false } (fun _ => []) (lit "puutalo-osa") = some (some (lit "   - - =   ")) := by
  decide +kernel

/-- The part "talo" of "puutalo-osa" meets the hypotheses of `C94_exact_pretty`. -/
example : FinnishWord (slice (lit "puutalo-osa") 3 7) ∧ (∀ k, ¬ GroupAt ((slice (lit "puutalo-osa") 3 7).map lower) k) ∧
    (∀ j, 3 ≤ j → j < 7 → ∃ c, (demoToks[j]? = some (plain c) ∨ demoToks[j]? = some (border c)) ∧ c ≠ 0x2D ∧ c ≠ 0x6A ∧ c ≠ 0x71) := by
  refine ⟨by unfold FinnishWord; decide, ?_, ?_⟩
  · rintro k ⟨g, hg, hx⟩
    have h4 : ((slice (lit "puutalo-osa") 3 7).map lower) = lit "talo" := by decide
    rw [h4] at hx
    have hk : k < 4 := by
      rcases Nat.lt_or_ge k 4 with h | h
      · exact h
      · rw [List.drop_of_length_le (by exact h), List.prefix_nil] at hx
        subst hx
        exact absurd hg (by decide)
    revert hx
    rcases (by omega : k = 0 ∨ k = 1 ∨ k = 2 ∨ k = 3) with rfl | rfl | rfl | rfl <;> revert hg <;> revert g <;> decide
  · intro j h1 h2
    rcases (by omega : j = 3 ∨ j = 4 ∨ j = 5 ∨ j = 6) with rfl | rfl | rfl | rfl
    · exact ⟨0x70, .inr rfl, by decide, by decide, by decide⟩
    all_goals exact ⟨0x70, .inl rfl, by decide, by decide, by decide⟩

end Verif.Props
