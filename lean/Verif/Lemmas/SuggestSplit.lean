import Verif.Lemmas.SuggestGen3
/-!
# The word splitting generator without its buffers
-/
set_option linter.unusedSimpArgs false
set_option linter.unusedVariables false

namespace Verif.Props
open Verif Verif.Spec

/-! ### Specification -/

/-- Does the word begin with a capital letter? -/
def headUpper (x : List Wc) : Bool := (x.head?.map isUpper) == some true

/-- The word with its first letter capitalised if `b`. -/
def capIf (b : Bool) : List Wc → List Wc
  | [] => []
  | c :: cs => (if b then upper c else c) :: cs

/-- Verdicts good enough for a part. -/
def partOk (r : SpellRes) : Bool := r == .ok || r == .capFirst

/-- Places where a word may be split, in the order in which they are tried: at least two characters on both sides
(the hyphen of `ab-c` counts as belonging to the second part), no hyphen among the last two characters of the first
part and none as the second character after the place. -/
def splitPlaces (w : List Wc) : List Nat :=
  ((List.range w.length).filter fun i =>
    2 ≤ i ∧ i + 2 ≤ w.length ∧ w[i - 2]? ≠ some 0x2D ∧ w[i - 1]? ≠ some 0x2D ∧ w[i + 1]? ≠ some 0x2D).reverse

/-- The part before the place `i`. -/
def before (w : List Wc) (i : Nat) : List Wc := w.take i
/-- The part after the place `i`, without a hyphen in front. -/
def after (w : List Wc) (i : Nat) : List Wc := w.drop (if w[i]? = some 0x2D then i + 1 else i)

/-- Look-up of the first part `a`, which may end in a full stop: acceptable?, priority, capitalise from now on?. -/
def tryFirst (an : Analyzer) (a : List Wc) (cap : Bool) (s : SugStatus) : UB (Bool × Nat × Bool × SugStatus) := do
  let (r, p) ← spellWithPriority an (lowerFirst a)
  if partOk r then return (true, p, cap || headUpper a || r == .capFirst, s.charge)
  else if a.getLast? = some 0x2E then do
    let (r', p') ← spellWithPriority an (lowerFirst a.dropLast)
    return (partOk r', p', cap || headUpper a || r' == .capFirst, s.charge.charge)
  else return (false, p, cap || headUpper a, s.charge)

/-- One place. -/
def trySplit (an : Analyzer) (w : List Wc) (i : Nat) (cap : Bool) (s : SugStatus) : UB (Bool × SugStatus) := do
  let (ok, p, cap, s) ← tryFirst an (before w i) cap s
  if ok then do
    let (r, q) ← spellWithPriority an (lowerFirst (after w i))
    let s := s.charge
    if partOk r then do
      let s ← s.addSuggestion
        (capIf cap (before w i) ++ 0x20 :: capIf (headUpper (after w i) || r == .capFirst) (after w i))
        ((p + q) * (if w[i]? = some 0x2D then 6 else 1))
      return (cap, s)
    else return (cap, s)
  else return (cap, s)

/-- Several places. -/
def trySplits (an : Analyzer) (w : List Wc) : List Nat → Bool → Gen
  | [], _, s => some s
  | i :: is, cap, s => do
    let (cap, s) ← trySplit an w i cap s
    if s.shouldAbort then return s else trySplits an w is cap s

/-! ### Refinement -/

/-- What is known about one look-up. -/
theorem swp_total (an : Analyzer) (h : AnalyzerOk an) (x : List Wc) :
    ∃ r p, spellWithPriority an x = some (r, p) ∧ p ≤ 737280 ∧ (r = .failed ↔ an x = []) ∧
      (r ≠ .failed → ∃ a ∈ an x, Gives x a r) := by
  obtain ⟨r, p, h1, h2, h3⟩ := C25_priority an x (h x)
  obtain ⟨r', h1', h2', h3'⟩ := C25_best an x (h x)
  rw [h2] at h1'
  cases h1'
  refine ⟨r, p, h1, ?_, h2', ?_⟩
  · by_cases he : an x = []
    · simp [spellWithPriority, he] at h1
      omega
    · exact (h3 he).2.2
  · intro hr
    exact (h3' (fun he => hr (h2'.2 he))).1

theorem lower_of_not_upper (c : Wc) (h : isUpper c = false) : lower c = c := by
  unfold isUpper at h
  simp only [ne_eq, Bool.or_eq_false_iff, decide_eq_false_iff_not, not_not] at h
  exact h.1.symm

theorem upper_of_upper (c : Wc) (h : isUpper c = true) : upper c = c := (C09_case_laws c).2.2.2.2.2.1 h

theorem capIf_length (b : Bool) (x : List Wc) : (capIf b x).length = x.length := by cases x <;> rfl

theorem splitSpellOk_eq (an : Analyzer) (s : SugStatus) (cap : Bool) (x rest : List Wc) (hx : x ≠ []) :
    splitSpellOk an s (capIf cap x ++ rest) x.length =
      (spellWithPriority an (lowerFirst x)).map fun rp =>
        (partOk rp.1, capIf (cap || headUpper x || rp.1 == .capFirst) x ++ rest, rp.2, s.charge) := by
  cases x with
  | nil => exact absurd rfl hx
  | cons c cs =>
    obtain ⟨l1, l2, l3, l4, l5, l6, l7, l8, l9⟩ := C09_case_laws c
    unfold splitSpellOk
    simp only [capIf, List.cons_append, rd, List.getElem?_cons_zero, Option.bind_eq_bind, Option.bind_some,
      Option.pure_def, List.length_cons, headUpper, List.head?_cons, Option.map_some, lowerFirst]
    have hp : (if isUpper (if cap then upper c else c) = true then
        wr ((if cap then upper c else c) :: (cs ++ rest)) 0 (lower (if cap then upper c else c))
        else some ((if cap then upper c else c) :: (cs ++ rest)) : UB (List Wc)) =
        some (lower c :: (cs ++ rest)) := by
      have hl : lower (if cap then upper c else c) = lower c := by cases cap <;> simp [l3]
      by_cases hu : isUpper (if cap then upper c else c) = true
      · rw [if_pos hu, hl]; simp [wr]
      · rw [if_neg hu]
        have := lower_of_not_upper _ (by simpa using hu)
        rw [← this, hl]
    rw [hp]
    simp only [Option.bind_some]
    rw [show lower c :: (cs ++ rest) = (lower c :: cs) ++ rest by rfl, sub_eq _ _ _ (by simp)]
    simp only [Option.bind_some]
    cases spellWithPriority an (lower c :: cs) with
    | none => rfl
    | some rp =>
      obtain ⟨r, p⟩ := rp
      simp only [Option.bind_some, List.cons_append, List.getElem?_cons_zero, Option.map_some]
      have hq : (if (isUpper (if cap then upper c else c) || r == .capFirst) = true then
          wr (lower c :: (cs ++ rest)) 0 (upper (lower c))
          else some (lower c :: (cs ++ rest)) : UB (List Wc)) =
          some ((if (cap || (some (isUpper c) == some true) || r == .capFirst) = true then upper c else c) ::
            (cs ++ rest)) := by
        have hs : (some (isUpper c) == some true) = isUpper c := by cases isUpper c <;> rfl
        rw [hs, l4]
        cases hr : (r == SpellRes.capFirst)
        · cases cap
          · cases hu : isUpper c
            · simp [hu, lower_of_not_upper c hu]
            · simp [hu, wr]
          · cases hu : isUpper (upper c)
            · have := lower_of_not_upper _ hu
              rw [l3] at this
              simp [hu, this]
            · simp [hu, wr]
        · simp [wr]
      rw [hq]
      rfl

theorem partOk_failed_capFirst {r : SpellRes} (h : partOk r = false) : (r == .capFirst) = false := by
  cases r <;> simp_all [partOk]

theorem headUpper_dropLast (a : List Wc) (h : 2 ≤ a.length) : headUpper a.dropLast = headUpper a := by
  match a, h with
  | a :: b :: t, _ => simp [headUpper]

theorem capIf_append (b : Bool) (x y : List Wc) (h : x ≠ []) : capIf b (x ++ y) = capIf b x ++ y := by
  cases x with
  | nil => exact absurd rfl h
  | cons c cs => rfl

theorem splitPart1_eq (an : Analyzer) (s : SugStatus) (cap : Bool) (a rest : List Wc) (ha : 2 ≤ a.length) :
    splitPart1 an s (capIf cap a ++ rest) a.length =
      (tryFirst an a cap s).map fun x => (x.1, capIf x.2.2.1 a ++ rest, x.2.1, x.2.2.2) := by
  have hne : a ≠ [] := by rintro rfl; simp at ha
  unfold splitPart1 tryFirst
  rw [splitSpellOk_eq an s cap a rest hne]
  cases spellWithPriority an (lowerFirst a) with
  | none => rfl
  | some rp =>
    obtain ⟨r, p⟩ := rp
    simp only [Option.map_some, Option.bind_eq_bind, Option.bind_some, Option.pure_def]
    cases hok : partOk r with
    | true => simp
    | false =>
      simp only [Bool.false_eq_true, if_false]
      have hr := partOk_failed_capFirst hok
      rw [hr]
      simp only [Bool.or_false]
      obtain ⟨b, l, rfl⟩ : ∃ b l, a = b ++ [l] := ⟨a.dropLast, a.getLast hne, (List.dropLast_concat_getLast hne).symm⟩
      have hb : b ≠ [] := by rintro rfl; simp at ha
      have hbl : 1 ≤ b.length := List.length_pos_iff.2 hb
      rw [show (b ++ [l]).length - 1 = b.length by simp, capIf_append _ _ _ hb, List.append_assoc,
        List.cons_append, rd_mid _ _ _ _ (capIf_length _ _)]
      simp only [Option.bind_some, List.getLast?_append, List.getLast?_singleton, Option.some_or, Option.some.injEq,
        List.dropLast_concat]
      by_cases hl : l = 0x2E
      · rw [if_neg (by simpa using hl), if_pos hl, splitSpellOk_eq _ _ _ _ _ hb]
        cases spellWithPriority an (lowerFirst b) with
        | none => rfl
        | some rp' =>
          obtain ⟨r', p'⟩ := rp'
          have hh : headUpper (b ++ [l]) = headUpper b := by
            have := headUpper_dropLast (b ++ [l]) ha
            rw [List.dropLast_concat] at this; exact this.symm
          simp only [Option.map_some, Option.bind_some, hh]
          rw [capIf_append _ _ _ hb]
          simp [Bool.or_assoc]
      · rw [if_pos hl, if_neg hl]
        simp only [Option.map_some]
        rw [capIf_append _ _ _ hb]
        simp

theorem tryFirst_total (an : Analyzer) (h : AnalyzerOk an) (a : List Wc) (cap : Bool) (s : SugStatus) :
    ∃ ok p cap' s', tryFirst an a cap s = some (ok, p, cap', s') ∧ p ≤ 737280 ∧ SameTask s s' ∧
      s'.sugg = s.sugg ∧ s.cost + 1 ≤ s'.cost ∧ s'.cost ≤ s.cost + 2 := by
  obtain ⟨r, p, h1, h2, _⟩ := swp_total an h (lowerFirst a)
  unfold tryFirst
  rw [h1]
  simp only [Option.bind_eq_bind, Option.bind_some, Option.pure_def]
  by_cases h3 : partOk r = true
  · rw [if_pos h3]
    exact ⟨_, _, _, _, rfl, h2, ⟨rfl, rfl, rfl⟩, rfl, by simp [SugStatus.charge], by simp [SugStatus.charge]⟩
  rw [if_neg h3]
  by_cases h4 : a.getLast? = some 0x2E
  · rw [if_pos h4]
    obtain ⟨r', p', h1', h2', _⟩ := swp_total an h (lowerFirst a.dropLast)
    rw [h1']
    exact ⟨_, _, _, _, rfl, h2', ⟨rfl, rfl, rfl⟩, rfl, by simp [SugStatus.charge], by simp [SugStatus.charge]⟩
  · rw [if_neg h4]
    exact ⟨_, _, _, _, rfl, h2, ⟨rfl, rfl, rfl⟩, rfl, by simp [SugStatus.charge], by simp [SugStatus.charge]⟩

theorem splitAt_eq (an : Analyzer) (h : AnalyzerOk an) (w : List Wc) (h0 : 0 ∉ w) (i : Nat) (h2 : 2 ≤ i)
    (hi : i + 2 ≤ w.length) (cap : Bool) (x : Wc) (rest : List Wc) (s : SugStatus) :
    splitAt an w i (capIf cap (before w i) ++ x :: rest) s =
      (trySplit an w i cap s).map fun r => (capIf r.1 (before w i) ++ 0 :: rest, r.2) := by
  have hbl : (before w i).length = i := by simp [before]; omega
  unfold splitAt trySplit
  rw [rd_str w i (by omega)]
  simp only [Option.bind_eq_bind, Option.bind_some]
  rw [wr_mid _ _ _ _ _ (by rw [capIf_length, hbl])]
  simp only [Option.bind_some]
  have hp := splitPart1_eq an s cap (before w i) (0 :: rest) (by omega)
  rw [hbl] at hp
  rw [hp]
  obtain ⟨ok, p, cap', s', e1, e2, e3, e4, e5, e6⟩ := tryFirst_total an h (before w i) cap s
  rw [e1]
  simp only [Option.map_some, Option.bind_some, Option.pure_def]
  have hwi : w[i]? = some (w[i]'(by omega)) := by simp
  cases ok with
  | false => simp
  | true =>
    simp only [if_true]
    generalize hst : (if w[i]'(by omega) = 0x2D then 1 else 0 : Nat) = strip
    have hs1 : strip ≤ 1 := by rw [← hst]; split <;> omega
    have haf : after w i = w.drop (i + strip) := by
      unfold after
      rw [hwi, ← hst]
      by_cases hc : w[i]'(by omega) = 0x2D <;> simp [hc]
    have hal : (after w i).length = w.length - i - strip := by rw [haf]; simp; omega
    have hane : after w i ≠ [] := by intro e; rw [e] at hal; simp at hal; omega
    rw [if_neg (by omega), drop_str w (i + strip) (by omega), ← haf, ← hal]
    rw [wcsncpyR_str (after w i) [] _ (by rw [haf]; exact not_mem_drop h0 _)]
    simp only [Option.bind_some]
    rw [List.take_of_length_le (by omega), show (after w i).length + 1 - (after w i).length = 1 by omega]
    have hq := splitSpellOk_eq an s' false (after w i) [0] hane
    have hcf : capIf false (after w i) = after w i := by cases after w i <;> rfl
    rw [hcf] at hq
    rw [show List.replicate 1 0 = [0] by rfl, hq]
    obtain ⟨r, q, f1, f2, _⟩ := swp_total an h (lowerFirst (after w i))
    rw [f1]
    simp only [Option.map_some, Option.bind_some, Bool.false_or]
    have hm : 1 + strip * 5 = if w[i]? = some 0x2D then 6 else 1 := by
      rw [hwi, ← hst]
      by_cases hc : w[i]'(by omega) = 0x2D <;> simp [hc]
    have hm6 : (1 + strip * 5) ≤ 6 := by omega
    have hbig : (p + q) * (1 + strip * 5) < 2 ^ 31 := by nlinarith
    have hi1 : int32 (p + q) = some (p + q) := by unfold int32; rw [if_pos (by omega)]
    have hi2 : int32 ((p + q) * (1 + strip * 5)) = some ((p + q) * (1 + strip * 5)) := by
      unfold int32; rw [if_pos hbig]
    rw [hi1]
    simp only [Option.bind_some]
    rw [hi2]
    simp only [Option.bind_some]
    cases hok : partOk r with
    | false => simp
    | true =>
      simp only [if_true]
      have hb0 : 0 ∉ before w i := not_mem_take h0 i
      have hcap0 : ∀ b (u : List Wc), 0 ∉ u → 0 ∉ capIf b u := by
        intro b u hu
        cases u with
        | nil => exact hu
        | cons c cs =>
          simp only [List.mem_cons, not_or] at hu
          have := upper_ne_zero c (fun e => hu.1 e.symm)
          cases b <;> simp [capIf, hu.2] <;> [exact hu.1; exact fun e => this e.symm]
      rw [wcsncpyR_str _ _ _ (hcap0 cap' _ hb0), List.take_of_length_le (by rw [capIf_length, hbl])]
      simp only [Option.bind_some]
      rw [capIf_length, hbl, Nat.sub_self, List.replicate_zero, List.append_nil, hm]
      have ha0 : 0 ∉ after w i := by rw [haf]; exact not_mem_drop h0 _
      have etw : (capIf cap' (before w i) ++ 0x20 :: (capIf (headUpper (after w i) || r == SpellRes.capFirst) (after w i) ++ [0])).takeWhile
          (· ≠ 0) = capIf cap' (before w i) ++ 0x20 :: capIf (headUpper (after w i) || r == .capFirst) (after w i) := by
        have e : capIf cap' (before w i) ++ 0x20 :: (capIf (headUpper (after w i) || r == SpellRes.capFirst) (after w i) ++ [0]) =
          (capIf cap' (before w i) ++ 0x20 :: capIf (headUpper (after w i) || r == .capFirst) (after w i)) ++ [0] := by simp
        rw [e, List.takeWhile_append_of_pos]
        · simp
        · intro a ha
          simp only [ne_eq, decide_not, Bool.not_eq_eq_eq_not, Bool.not_true, decide_eq_false_iff_not]
          rintro rfl
          simp only [List.mem_append, List.mem_cons] at ha
          rcases ha with ha | ha | ha
          · exact hcap0 cap' _ hb0 ha
          · cases ha
          · exact hcap0 _ _ ha0 ha
      rw [etw]
      generalize SugStatus.addSuggestion _ _ _ = o
      cases o <;> rfl

theorem splitHyphenNear_eq (w : List Wc) (i : Nat) (h2 : 2 ≤ i) (hi : i + 2 ≤ w.length) :
    splitHyphenNear w i = some (!decide (w[i - 2]? ≠ some 0x2D ∧ w[i - 1]? ≠ some 0x2D ∧ w[i + 1]? ≠ some 0x2D)) := by
  unfold splitHyphenNear
  rw [rd_str w (i - 2) (by omega), rd_str w (i - 1) (by omega), rd_str w (i + 1) (by omega)]
  have e1 : w[i - 2]? = some (w[i - 2]'(by omega)) := by simp
  have e2 : w[i - 1]? = some (w[i - 1]'(by omega)) := by simp
  have e3 : w[i + 1]? = some (w[i + 1]'(by omega)) := by simp
  rw [e1, e2, e3]
  generalize w[i - 2]'(by omega) = a
  generalize w[i - 1]'(by omega) = b
  generalize w[i + 1]'(by omega) = c
  simp only [Option.bind_eq_bind, Option.bind_some, Option.pure_def]
  by_cases ha : a = 0x2D
  · simp [ha]
  · by_cases hb : b = 0x2D
    · simp [ha, hb]
    · by_cases hc : c = 0x2D <;> simp [ha, hb, hc]

/-- The places up to `n`. -/
def placesUpTo (w : List Wc) (n : Nat) : List Nat :=
  ((List.range (n + 1)).filter fun i =>
    2 ≤ i ∧ i + 2 ≤ w.length ∧ w[i - 2]? ≠ some 0x2D ∧ w[i - 1]? ≠ some 0x2D ∧ w[i + 1]? ≠ some 0x2D).reverse

theorem placesUpTo_succ (w : List Wc) (n : Nat) : placesUpTo w (n + 1) =
    if 2 ≤ n + 1 ∧ n + 1 + 2 ≤ w.length ∧ w[n + 1 - 2]? ≠ some 0x2D ∧ w[n + 1 - 1]? ≠ some 0x2D ∧
      w[n + 1 + 1]? ≠ some 0x2D then (n + 1) :: placesUpTo w n else placesUpTo w n := by
  unfold placesUpTo
  rw [List.range_succ (n := n + 1), List.filter_append, List.reverse_append]
  split
  · next h => rw [List.filter_cons_of_pos (by simpa using h)]; rfl
  · next h => rw [List.filter_cons_of_neg (by simpa using h)]; rfl

theorem placesUpTo_one (w : List Wc) (n : Nat) (h : n ≤ 1) : placesUpTo w n = [] := by
  unfold placesUpTo
  rw [List.reverse_eq_nil_iff, List.filter_eq_nil_iff]
  intro a ha
  simp only [List.mem_range] at ha
  simp only [decide_eq_true_eq]
  omega

theorem capIf_take (b : Bool) (w : List Wc) (i j : Nat) (hi : 1 ≤ i) (hij : i ≤ j) :
    (capIf b (w.take j)).take i = capIf b (w.take i) := by
  cases w with
  | nil => simp [capIf]
  | cons c cs =>
    obtain ⟨i, rfl⟩ : ∃ m, i = m + 1 := ⟨i - 1, by omega⟩
    obtain ⟨j, rfl⟩ : ∃ m, j = m + 1 := ⟨j - 1, by omega⟩
    simp [capIf, List.take_take, Nat.min_eq_left (by omega : i ≤ j)]

theorem splitLoop_eq (an : Analyzer) (h : AnalyzerOk an) (w : List Wc) (h0 : 0 ∉ w) (n : Nat) (hn : n + 2 ≤ w.length)
    (cap : Bool) (p : List Wc) (s : SugStatus) (hp : p.take n = capIf cap (w.take n)) (hpl : n < p.length) :
    splitLoop an w n p s = trySplits an w (placesUpTo w n) cap s := by
  induction n generalizing cap p s with
  | zero => rw [placesUpTo_one w 0 (by omega)]; rfl
  | succ n ih =>
    unfold splitLoop
    by_cases h1 : n + 1 < 2
    · rw [if_pos h1, placesUpTo_one w _ (by omega)]; rfl
    rw [if_neg h1, splitHyphenNear_eq w (n + 1) (by omega) (by omega), placesUpTo_succ]
    simp only [Option.bind_eq_bind, Option.bind_some]
    have htake : p.take n = capIf cap (w.take n) := by
      have : (p.take (n + 1)).take n = p.take n := by rw [List.take_take, Nat.min_eq_left (by omega)]
      rw [← this, hp, capIf_take cap w n (n + 1) (by omega) (by omega)]
    by_cases hc : w[n + 1 - 2]? ≠ some 0x2D ∧ w[n + 1 - 1]? ≠ some 0x2D ∧ w[n + 1 + 1]? ≠ some 0x2D
    · rw [decide_eq_true hc, if_pos (c := 2 ≤ n + 1 ∧ _) ⟨by omega, by omega, hc⟩]
      simp only [Bool.not_true, Bool.false_eq_true, if_false]
      have hsplit : p = capIf cap (before w (n + 1)) ++ p[n + 1] :: p.drop (n + 1 + 1) := by
        unfold before
        rw [← hp, ← List.drop_eq_getElem_cons, List.take_append_drop]
      rw [hsplit, splitAt_eq an h w h0 (n + 1) (by omega) (by omega), trySplits]
      simp only [Option.bind_eq_bind]
      cases htr : trySplit an w (n + 1) cap s with
      | none => rfl
      | some cs =>
        obtain ⟨cap', s'⟩ := cs
        simp only [Option.map_some, Option.bind_some]
        by_cases hab : s'.shouldAbort = true
        · rw [if_pos hab, if_pos hab]
        · rw [if_neg hab, if_neg hab]
          apply ih (by omega)
          · rw [List.take_append_of_le_length (by rw [capIf_length]; simp [before]; omega)]
            exact capIf_take cap' w n (n + 1) (by omega) (by omega)
          · simp [capIf_length, before]; omega
    · rw [decide_eq_false hc, if_neg (c := 2 ≤ n + 1 ∧ _) (fun h => hc h.2.2)]
      simp only [Bool.not_false, if_true]
      exact ih (by omega) cap p s htake (by omega)

theorem genSplitWord_eq (an : Analyzer) (h : AnalyzerOk an) (junk : Nat → Wc) (s : SugStatus) (h0 : 0 ∉ s.word)
    (h2 : 2 ≤ s.word.length) : genSplitWord an junk s = trySplits an s.word (splitPlaces s.word) false s := by
  unfold genSplitWord
  simp only [Option.bind_eq_bind]
  rw [copyWord_bind junk s.word h0]
  have e : subSize s.word.length 2 = s.word.length - 2 := by unfold subSize; rw [if_pos h2]
  rw [e, splitLoop_eq an h s.word h0 _ (by omega) false]
  · congr 1
    unfold placesUpTo splitPlaces
    congr 1
    have er : List.range s.word.length = List.range (s.word.length - 2 + 1) ++ [s.word.length - 2 + 1] := by
      rw [← List.range_succ]; congr 1; omega
    rw [er, List.filter_append, List.filter_cons_of_neg (by simp; omega), List.filter_nil, List.append_nil]
  · rw [List.take_append_of_le_length (by omega)]
    cases s.word.take (s.word.length - 2) <;> rfl
  · simp; omega

end Verif.Props
