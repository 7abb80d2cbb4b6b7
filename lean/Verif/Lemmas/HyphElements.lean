import Verif.Props.FinnishDict
import Verif.Props.HyphCompound
/-!
# Elements of a STRUCTURE: borders, letters, and the hyphenation of a word with one analysis
-/
set_option linter.unusedSimpArgs false
set_option linter.unusedVariables false

namespace Verif.Props
open Verif StructTok Compound

/-- The letter of an element. -/
def tokLetter : StructTok → Wc
  | plain c => c
  | border c => c
  | hyphen => 0x2D

/-- No element is a `=`. -/
def NoMark (ts : List StructTok) : Prop := ∀ t ∈ ts, tokLetter t ≠ 0x3D

theorem strip_elements {ts : List StructTok} (h : NoMark ts) : strip (ts.flatMap StructTok.render) = ts.map tokLetter := by
  induction ts with
  | nil => rfl
  | cons t ts ih =>
    have ih := ih fun x hx => h x (List.mem_cons_of_mem _ hx)
    have ht := h t List.mem_cons_self
    rw [List.flatMap_cons, List.map_cons, strip, List.filter_append, ← strip, ← strip, ih]
    cases t with
    | plain c => simp only [tokLetter] at ht ⊢; simp [StructTok.render, strip, ht]
    | border c => simp only [tokLetter] at ht ⊢; simp [StructTok.render, strip, ht]
    | hyphen => rfl

theorem marks_elements {ts : List StructTok} (h : NoMark ts) : ∀ k j : Nat, j ∈ marks k (ts.flatMap StructTok.render) ↔
    ∃ i, ((∃ c, ts[i]? = some (border c)) ∧ j = k + i) ∨ (ts[i]? = some hyphen ∧ j = k + i + 1) := by
  induction ts with
  | nil => intro k j; simp [marks]
  | cons t ts ih =>
    intro k j
    have ih := ih (fun x hx => h x (List.mem_cons_of_mem _ hx)) (k + 1) j
    have ht := h t List.mem_cons_self
    have shift : (∃ i, ((∃ c, ts[i]? = some (border c)) ∧ j = k + 1 + i) ∨ (ts[i]? = some hyphen ∧ j = k + 1 + i + 1)) ↔
        ∃ i, ((∃ c, (t :: ts)[i + 1]? = some (border c)) ∧ j = k + (i + 1)) ∨ ((t :: ts)[i + 1]? = some hyphen ∧ j = k + (i + 1) + 1) := by
      constructor
      · rintro ⟨i, h | h⟩
        · exact ⟨i, .inl ⟨by simpa using h.1, by omega⟩⟩
        · exact ⟨i, .inr ⟨by simpa using h.1, by omega⟩⟩
      · rintro ⟨i, h | h⟩
        · exact ⟨i, .inl ⟨by simpa using h.1, by omega⟩⟩
        · exact ⟨i, .inr ⟨by simpa using h.1, by omega⟩⟩
    have parts : ∀ P : Nat → Prop, (∃ i, P i) ↔ P 0 ∨ ∃ i, P (i + 1) := by
      intro P
      constructor
      · rintro ⟨i, h⟩
        cases i with
        | zero => exact .inl h
        | succ i => exact .inr ⟨i, h⟩
      · rintro (h | ⟨i, h⟩)
        · exact ⟨0, h⟩
        · exact ⟨i + 1, h⟩
    rw [parts, ← shift, ← ih, List.flatMap_cons]
    cases t with
    | plain c =>
      have hc : c ≠ 0x3D := ht
      show j ∈ marks k (c :: ts.flatMap StructTok.render) ↔ _
      rw [marks, if_neg hc]
      simp
    | border c =>
      have hc : c ≠ 0x3D := ht
      show j ∈ marks k (0x3D :: c :: ts.flatMap StructTok.render) ↔ _
      rw [marks, if_pos rfl, marks, if_neg hc]
      simp
    | hyphen =>
      show j ∈ marks k (0x2D :: 0x3D :: ts.flatMap StructTok.render) ↔ _
      rw [marks, if_neg (by decide), marks, if_pos rfl]
      simp

theorem hasDouble_tail {x : Wc} {l : List Wc} (h : hasDouble (x :: l) = false) : hasDouble l = false := by
  cases l with
  | nil => rfl
  | cons y l =>
    rw [hasDouble, Bool.or_eq_false_iff] at h
    exact h.2

theorem single_elements {ts : List StructTok} (hok : StructTok.Ok ts) (h : hasDouble (ts.flatMap StructTok.render) = false) :
    NoMark ts ∧ ∀ i c, ts[i]? = some hyphen → ts[i + 1]? ≠ some (border c) := by
  induction ts with
  | nil => exact ⟨(fun t ht => by cases ht), (fun i c h => by simp at h)⟩
  | cons t ts ih =>
    rw [List.flatMap_cons] at h
    have hts : StructTok.Ok ts := by
      cases t with
      | plain c => exact hok.2.2.2
      | border c => exact hok
      | hyphen => exact hok
    have ht : hasDouble (ts.flatMap StructTok.render) = false ∧ tokLetter t ≠ 0x3D ∧ (t = hyphen → ∀ c, ts[0]? ≠ some (border c)) := by
      cases t with
      | plain c => exact ⟨hasDouble_tail h, hok.2.1, fun e => by cases e⟩
      | border c =>
        have h' : hasDouble (0x3D :: c :: ts.flatMap StructTok.render) = false := h
        refine ⟨hasDouble_tail (hasDouble_tail h'), fun e => ?_, fun e => by cases e⟩
        simp only [tokLetter] at e
        subst e
        simp [hasDouble] at h'
      | hyphen =>
        have h' : hasDouble (0x2D :: 0x3D :: ts.flatMap StructTok.render) = false := h
        refine ⟨hasDouble_tail (hasDouble_tail h'), by simp [tokLetter], fun _ c e => ?_⟩
        cases ts with
        | nil => simp at e
        | cons u us =>
          simp only [List.getElem?_cons_zero, Option.some.injEq] at e
          subst e
          have : hasDouble (0x3D :: 0x3D :: c :: us.flatMap StructTok.render) = false := hasDouble_tail h'
          simp [hasDouble] at this
    obtain ⟨i1, i2⟩ := ih hts ht.1
    refine ⟨fun x hx => ?_, fun i c hi => ?_⟩
    · rcases List.mem_cons.1 hx with rfl | hx
      · exact ht.2.1
      · exact i1 x hx
    · cases i with
      | zero =>
        simp only [List.getElem?_cons_zero, Option.some.injEq] at hi
        simpa using ht.2.2 hi c
      | succ i => simpa using i2 i c (by simpa using hi)

/-- The elements of a STRUCTURE that describes a reading. -/
theorem describes_elements {its : List SItem} {st : List Wc} (hd : Describes its st) (h0 : 0 ∉ Verif.render its) {a : MorAn} (ha : a.struct = some st) :
    ∃ ts : List StructTok, StructTok.Ok ts ∧ HasElements a ts ∧ ts.map tokLetter = strip st ∧ NoMark ts ∧
      (∀ c, ts[0]? ≠ some (border c)) ∧ (∀ i c, ts[i]? = some hyphen → ts[i + 1]? ≠ some (border c)) ∧
      ∀ i, 0 < i → (Border its i ↔ (∃ c, ts[i]? = some (border c)) ∨ ts[i - 1]? = some hyphen) := by
  have hst0 := hd.nul h0
  have main : ∀ s : List Wc, 0 ∉ s → hasDouble s = false → s.getLast? ≠ some 0x3D → s.head? ≠ some 0x3D →
      ∃ ts : List StructTok, StructTok.Ok ts ∧ s = ts.flatMap StructTok.render ∧ ts.map tokLetter = strip s ∧ NoMark ts ∧
        (∀ c, ts[0]? ≠ some (border c)) ∧ (∀ i c, ts[i]? = some hyphen → ts[i + 1]? ≠ some (border c)) ∧
        ∀ i, 0 < i → (i ∈ marks 0 s ↔ (∃ c, ts[i]? = some (border c)) ∨ ts[i - 1]? = some hyphen) := by
    intro s h1 h2 h3 h4
    obtain ⟨ts, t1, t2, t3, t4, t5⟩ := elements_exist s.length s (Nat.le_refl _) h1 h2 h3
    have hs := single_elements t1 (by rw [← t2]; exact h2)
    refine ⟨ts, t1, t2, by rw [t2, strip_elements hs.1], hs.1, fun c => by rw [← List.head?_eq_getElem?]; exact t4 h4 c, hs.2, fun i hi => ?_⟩
    rw [t2, marks_elements hs.1]
    constructor
    · rintro ⟨j, ⟨h, e⟩ | ⟨h, e⟩⟩
      · rw [show i = j by omega]; exact .inl h
      · rw [show i - 1 = j by omega]; exact .inr h
    · rintro (h | h)
      · exact ⟨i, .inl ⟨h, by omega⟩⟩
      · exact ⟨i - 1, .inr ⟨h, by omega⟩⟩
  have hb := hd.borders
  have hs := hd.single
  have hl := hd.noTrailing
  by_cases hh : st.head? = some 0x3D
  · cases st with
    | nil => cases hh
    | cons c s =>
      simp only [List.head?_cons, Option.some.injEq] at hh
      subst hh
      have hs4 : s.head? ≠ some 0x3D := by
        cases s with
        | nil => simp
        | cons d s =>
          intro e
          simp only [List.head?_cons, Option.some.injEq] at e
          subst e
          simp [hasDouble] at hs
      obtain ⟨ts, t1, t2, t3, t4, t5, t6, t7⟩ := main s (fun e => hst0 (List.mem_cons_of_mem _ e)) (hasDouble_tail hs)
        (by
          cases s with
          | nil => simp
          | cons d s => simpa [List.getLast?_cons_cons] using hl) hs4
      refine ⟨ts, t1, .inl (by rw [ha, structOf, ← t2]), by rw [t3]; simp [strip], t4, t5, t6, fun i hi => ?_⟩
      rw [← hb, ← t7 i hi, marks, if_pos rfl, List.mem_cons]
      constructor
      · rintro (h | h)
        · omega
        · exact h
      · exact .inr
  · obtain ⟨ts, t1, t2, t3, t4, t5, t6, t7⟩ := main st hst0 hs hl hh
    refine ⟨ts, t1, .inr ⟨by rw [ha, ← t2], fun d => by rw [List.head?_eq_getElem?]; exact t5 d⟩, t3, t4, t5, t6, fun i hi => ?_⟩
    rw [← hb, ← t7 i hi]

/-- Each element inside a part is in a part. -/
theorem part_of {ts : List StructTok} (hm : ∀ c, border c ∈ ts → c ≠ 0 ∧ c ≠ 0x3D ∧ c ≠ 0x6A ∧ c ≠ 0x71)
    (h1 : ts[0]? ≠ some hyphen) (h2 : ∀ i, ts[i]? = some hyphen → ts[i + 1]? ≠ some hyphen) {i : Nat} {t : StructTok} (hi : ts[i]? = some t)
    (ht : t.inner = true) : ∃ s e, CompoundPart ts s e ∧ s ≤ i ∧ i < e := by
  have hlt : i < ts.length := (List.getElem?_eq_some_iff.1 hi).1
  -- the end
  have hend : ∀ n, n = ts.length - (i + 1) → ∃ e, i < e ∧ e ≤ ts.length ∧ (e = ts.length ∨ ∃ t, ts[e]? = some t ∧ t.inner = false) ∧
      ∀ j, i < j → j < e → ∀ t, ts[j]? = some t → t.inner = true := by
    have gen : ∀ n k, n = ts.length - k → i < k → k ≤ ts.length → (∀ j, i < j → j < k → ∀ t, ts[j]? = some t → t.inner = true) →
        ∃ e, i < e ∧ e ≤ ts.length ∧ (e = ts.length ∨ ∃ t, ts[e]? = some t ∧ t.inner = false) ∧
          ∀ j, i < j → j < e → ∀ t, ts[j]? = some t → t.inner = true := by
      intro n
      induction n with
      | zero =>
        intro k hn hk hk2 hin
        exact ⟨k, hk, hk2, .inl (by omega), hin⟩
      | succ n ih =>
        intro k hn hk hk2 hin
        have hkl : k < ts.length := by omega
        cases hc : (ts[k]'hkl).inner with
        | false => exact ⟨k, hk, hk2, .inr ⟨_, List.getElem?_eq_getElem hkl, hc⟩, hin⟩
        | true =>
          refine ih (k + 1) (by omega) (by omega) (by omega) fun j hj1 hj2 t ht => ?_
          by_cases hjk : j = k
          · subst hjk
            rw [List.getElem?_eq_getElem hkl, Option.some.injEq] at ht
            rw [← ht]; exact hc
          · exact hin j hj1 (by omega) t ht
    intro n hn
    exact gen n (i + 1) hn (by omega) (by omega) fun j h1 h2 => by omega
  -- the beginning
  have hbeg : ∃ s, s ≤ i ∧ (s = 0 ∨ (∃ c, ts[s]? = some (border c)) ∨ (0 < s ∧ ts[s - 1]? = some hyphen)) ∧
      ∀ j, s < j → j ≤ i → ∀ t, ts[j]? = some t → t.inner = true := by
    have gen : ∀ k, k ≤ i → (∀ j, k < j → j ≤ i → ∀ t, ts[j]? = some t → t.inner = true) → (∃ t, ts[k]? = some t ∧ t ≠ hyphen) →
        ∃ s, s ≤ i ∧ (s = 0 ∨ (∃ c, ts[s]? = some (border c)) ∨ (0 < s ∧ ts[s - 1]? = some hyphen)) ∧
          ∀ j, s < j → j ≤ i → ∀ t, ts[j]? = some t → t.inner = true := by
      intro k
      induction k with
      | zero => intro hk hin _; exact ⟨0, hk, .inl rfl, hin⟩
      | succ k ih =>
        rintro hk hin ⟨u, hu, hne⟩
        by_cases hh : ts[k]? = some hyphen
        · exact ⟨k + 1, hk, .inr (.inr ⟨by omega, hh⟩), hin⟩
        · cases u with
          | border c => exact ⟨k + 1, hk, .inr (.inl ⟨c, hu⟩), hin⟩
          | hyphen => exact absurd rfl hne
          | plain c =>
            have hkl : k < ts.length := by omega
            refine ih (by omega) (fun j hj1 hj2 t ht => ?_) ⟨_, List.getElem?_eq_getElem hkl, fun e => hh (by rw [List.getElem?_eq_getElem hkl, e])⟩
            by_cases hjk : j = k + 1
            · subst hjk
              rw [hu, Option.some.injEq] at ht
              rw [← ht]; rfl
            · exact hin j (by omega) hj2 t ht
    refine gen i (Nat.le_refl _) (fun j h1 h2 => by omega) ⟨t, hi, ?_⟩
    rintro rfl
    cases ht
  obtain ⟨e, e1, e2, e3, e4⟩ := hend _ rfl
  obtain ⟨s, s1, s2, s3⟩ := hbeg
  refine ⟨s, e, ⟨by omega, e2, fun j k1 k2 u hu => ?_, e3, ?_, fun c hc => hm c (List.mem_of_getElem? hc)⟩, s1, e1⟩
  · by_cases hj : j ≤ i
    · exact s3 j k1 hj u hu
    · exact e4 j (by omega) k2 u hu
  · rcases s2 with h | h | ⟨h, h'⟩
    · exact .inl h
    · exact .inr (.inl h)
    · have hs2 : 2 ≤ s := by
        rcases (by omega : s = 1 ∨ 2 ≤ s) with rfl | h
        · exact absurd h' h1
        · exact h
      refine .inr (.inr ⟨hs2, h', fun hx => ?_⟩)
      have := h2 (s - 2) hx
      rw [show s - 2 + 1 = s - 1 by omega] at this
      exact absurd h' this

/-- The first element after a hyphen has no point. -/
theorem after_hyphen (o : HyphOpts) (an : Analyzer) (word r : List Wc) (h0 : 0 ∉ word) (hmin : o.minLength ≤ word.length)
    (a : MorAn) (ts : List StructTok) (hlen : ts.length = word.length) (hok : StructTok.Ok ts) (ha : an word = [a]) (hs : HasElements a ts)
    (h : hyphenateUcs4 o an word = some (some r)) (h1 : ts[0]? ≠ some hyphen) (h2 : ∀ i, ts[i]? = some hyphen → ts[i + 1]? ≠ some hyphen)
    {i : Nat} {c : Wc} (hi : ts[i]? = some (plain c)) (hp : i = 0 ∨ ts[i - 1]? = some hyphen) : r[i]? = some 0x20 := by
  have hP : OnePat o an word (tokCells true ts ++ [0]) :=
    ⟨by simp [dotCut, ha], .inr ⟨a, ha, by rw [← hlen]; exact rawPattern_cells a ts hok hs⟩⟩
  have hv := (defined_cases intersectHyph o an word r hmin h).1
  obtain ⟨q, r1, hpok, hq, hr1, hrl, hrc⟩ := onePat_hyphenate hP hv h0 hmin
  rw [h, Option.some.injEq, Option.some.injEq] at hr1
  subst hr1
  have hlt : i < ts.length := (List.getElem?_eq_some_iff.1 hi).1
  have hpl : (tokCells true ts ++ [0]).length = ts.length + 1 := by
    cases ts <;> simp [tokCells]
  obtain ⟨q', f1, _, f3, f4⟩ := compound_spec o.ugly o.minLength (word ++ [0]) word.length (tokCells true ts ++ [0])
    (take_word_ne h0 _ (Nat.le_refl _)) (by simp) (by omega)
  have : q' = q := Option.some.inj (f1.symm.trans hq)
  subst this
  have hcell := cells_get hi
  have hbl : q'[i]? = (tokCells true ts ++ [0])[i]? := by
    rcases hp with rfl | hp
    · exact f3
    · rcases f4 i with k | ⟨s, e, x, hpart, _, k1, k2, _⟩
      · exact k
      · exfalso
        have i0 : 0 < i := by omega
        have hprev := cells_get hp
        have i1 : i - 1 ≠ 0 := by
          intro e
          rw [e] at hp
          exact h1 hp
        rw [decide_eq_false i1] at hprev
        have hs1 : s = i - 1 := by
          by_cases hss : s < i - 1
          · have := hpart.inside (i - 1) hss (by omega)
            rw [blankAt_true_iff hprev] at this
            simp [tokCell] at this
          · omega
        subst hs1
        rcases hpart.start with ⟨k3, _⟩ | ⟨k3, _⟩ | ⟨_, k4⟩
        · exact i1 k3
        · have hl2 : i - 1 - 1 < ts.length := by omega
          have hpp := cells_get (List.getElem?_eq_getElem hl2)
          rw [k3] at hpp
          have hhy : ts[i - 1 - 1]? = some hyphen := by
            rw [List.getElem?_eq_getElem hl2]
            revert hpp
            cases ts[i - 1 - 1]'hl2 with
            | plain c => intro hpp; simp only [tokCell] at hpp; split at hpp <;> simp at hpp
            | border c => intro hpp; simp [tokCell] at hpp
            | hyphen => intro _; rfl
          have := h2 _ hhy
          rw [show i - 1 - 1 + 1 = i - 1 by omega] at this
          exact this hp
        · exact k4 hprev
  have hb : blankAt q' i = true := by
    rw [blankAt_congr hbl, blankAt_true_iff hcell]
    exact tokCell_inner rfl
  rw [hrc i (by omega), if_pos hb]

/-- A point inside of a part, before its letter `k`: before a consonant followed by a vowel, if there is a vowel before it; but not after the first letter if ugly points
are not allowed. If they are, also between two vowels that do not belong together. -/
def PartPoint (ugly : Bool) (x : List Wc) (k : Nat) : Prop :=
  match ugly with
  | false => 2 ≤ k ∧ OpensSyllable x k ∧ ∃ j, j < k ∧ VowelAt x j
  | true => (OpensSyllable x k ∧ ∃ j, j < k ∧ VowelAt x j) ∨ (1 ≤ k ∧ PairAt separatePairs x (k - 1))

/-- Parts for which these are the points: of Finnish letters, without the groups of consonants that are kept together, and without three vowels in a row
if ugly points are allowed. -/
def SimplePart (ugly : Bool) (x : List Wc) : Prop :=
  FinnishWord x ∧ (∀ k, ¬ GroupAt (x.map lower) k) ∧
    (ugly = true → ∀ k, ¬ (VowelAt (x.map lower) k ∧ VowelAt (x.map lower) (k + 1) ∧ VowelAt (x.map lower) (k + 2)))

/-- The hyphenation of a word with one analysis: the borders, and in each part the rule for words of letters. -/
theorem alone_exact (o : HyphOpts) (an : Analyzer) (word r : List Wc) (h0 : 0 ∉ word) (hmin : o.minLength ≤ word.length)
    (a : MorAn) (ts : List StructTok) (hlen : ts.length = word.length) (hok : StructTok.Ok ts) (ha : an word = [a]) (hs : HasElements a ts)
    (h : hyphenateUcs4 o an word = some (some r))
    (hm : ∀ c, border c ∈ ts → c ≠ 0 ∧ c ≠ 0x3D ∧ c ≠ 0x6A ∧ c ≠ 0x71) (hpm : ∀ c, plain c ∈ ts → c ≠ 0x6A ∧ c ≠ 0x71)
    (h1 : ts[0]? ≠ some hyphen) (h1' : ∀ c, ts[0]? ≠ some (border c)) (h2 : ∀ i, ts[i]? = some hyphen → ts[i + 1]? ≠ some hyphen)
    (hw : ∀ (j : Nat) (c : Wc), (ts[j]? = some (plain c) ∨ ts[j]? = some (border c)) → c = 0x2D → word[j]? = some 0x2D)
    (hF : ∀ s e, CompoundPart ts s e → s + 2 ≤ e → SimplePart o.ugly (slice word s e))
    (i : Nat) (hi : i < word.length) :
    r[i]? ≠ some 0x20 ↔ (∃ c, ts[i]? = some (border c)) ∨ ts[i]? = some hyphen ∨
      ∃ s e, CompoundPart ts s e ∧ s < i ∧ i < e ∧ o.minLength ≤ e - s ∧ PartPoint o.ugly ((slice word s e).map lower) (i - s) := by
  have hil : i < ts.length := by omega
  have inside : ∀ s e, CompoundPart ts s e → s < i → i < e →
      (r[i]? ≠ some 0x20 ↔ o.minLength ≤ e - s ∧ PartPoint o.ugly ((slice word s e).map lower) (i - s)) := by
    intro s e hp hse hie
    have hle := hp.le
    by_cases hmn : o.minLength ≤ e - s
    · have hpl : ∀ j, s ≤ j → j < e → ∃ c, (ts[j]? = some (plain c) ∨ ts[j]? = some (border c)) ∧ c ≠ 0x2D ∧ c ≠ 0x6A ∧ c ≠ 0x71 := by
        intro j hj1 hj2
        have hjl : j < ts.length := by omega
        have hget := List.getElem?_eq_getElem hjl
        have nohy : ∀ c, (ts[j]? = some (plain c) ∨ ts[j]? = some (border c)) → c ≠ 0x2D := by
          intro c hc ec
          have hwj := hw j c hc ec
          have hmem : (0x2D : Wc) ∈ slice word s e := by
            unfold slice
            rw [List.mem_iff_getElem?]
            refine ⟨j - s, ?_⟩
            rw [List.getElem?_take_of_lt (by omega), List.getElem?_drop, show s + (j - s) = j by omega]
            exact hwj
          have := (hF s _ hp (by omega)).1 _ hmem
          revert this
          decide
        cases htj : ts[j]'hjl with
        | plain c =>
          rw [htj] at hget
          exact ⟨c, .inl hget, nohy c (.inl hget), hpm c (List.mem_of_getElem? hget)⟩
        | border c =>
          rw [htj] at hget
          have := hm c (List.mem_of_getElem? hget)
          exact ⟨c, .inr hget, nohy c (.inr hget), this.2.2⟩
        | hyphen =>
          rw [htj] at hget
          exfalso
          by_cases hjs : j = s
          · subst hjs
            rcases hp.start with k | ⟨c, k⟩ | ⟨k1, k2, _⟩
            · subst k; exact h1 hget
            · rw [hget] at k; cases k
            · have := h2 _ k2
              rw [show j - 1 + 1 = j by omega] at this
              exact this hget
          · have := hp.inside j (by omega) hj2 _ hget
            cases this
      have hsp := hF s e hp (by omega)
      have : r[s + (i - s)]? ≠ some 0x20 ↔ PartPoint o.ugly ((slice word s e).map lower) (i - s) := by
        cases hug : o.ugly with
        | false =>
          exact C94_exact_pretty o an word r h0 hmin a ts hlen hok s e hp ha hs h hug (by omega) hmn hsp.1 hsp.2.1 hpl (i - s) (by omega) (by omega)
        | true =>
          exact C94_exact_ugly o an word r h0 hmin a ts hlen hok s e hp ha hs h hug (by omega) hmn hsp.1 hsp.2.1 (hsp.2.2 hug) hpl (i - s) (by omega)
            (by omega)
      rw [show s + (i - s) = i by omega] at this
      rw [this]
      exact ⟨fun k => ⟨hmn, k⟩, fun k => k.2⟩
    · have hsl : (slice word s e).length = e - s := by simp [slice]; omega
      obtain ⟨r', g1, g2, g3⟩ := C94_parts_partial o an (fun _ => [{ struct := some (structOf (asWord ((ts.drop s).take (e - s)))) }]) word r h0 hmin a _
        ts hlen hok s e hp ha hs rfl (.inl rfl) h
      rw [C38_short_word o _ _ (by omega)] at g1
      rw [Option.some.injEq, Option.some.injEq] at g1
      have := g3 (i - s) (by omega) (by omega)
      rw [show s + (i - s) = i by omega, ← g1, List.getElem?_replicate, if_pos (by omega)] at this
      constructor
      · intro k; exact absurd this k
      · rintro ⟨k, _⟩; exact absurd k hmn
  constructor
  · intro hr
    cases ht : ts[i]'hil with
    | border c => exact .inl ⟨c, by rw [List.getElem?_eq_getElem hil, ht]⟩
    | hyphen => exact .inr (.inl (by rw [List.getElem?_eq_getElem hil, ht]))
    | plain c =>
      have hget : ts[i]? = some (plain c) := by rw [List.getElem?_eq_getElem hil, ht]
      obtain ⟨s, e, hp, k1, k2⟩ := part_of hm h1 h2 hget rfl
      by_cases hsi : s = i
      · subst hsi
        exfalso
        refine hr (after_hyphen o an word r h0 hmin a ts hlen hok ha hs h h1 h2 hget ?_)
        rcases hp.start with k | ⟨d, k⟩ | ⟨_, k, _⟩
        · exact .inl k
        · rw [hget] at k; cases k
        · exact .inr k
      · obtain ⟨g1, g2⟩ := (inside s e hp (by omega) k2).1 hr
        exact .inr (.inr ⟨s, e, hp, by omega, k2, g1, g2⟩)
  · have hb := C61_borders o an word r h0 hmin a ha ts hok hs h i hi
    rintro (⟨c, k⟩ | k | ⟨s, e, hp, k1, k2, k3, k4⟩)
    · rw [hb.1 c k]; simp
    · have : 0 < i := by
        rcases Nat.eq_zero_or_pos i with e | e
        · subst e; exact absurd k h1
        · exact e
      rw [hb.2 k this]; simp
    · exact (inside s e hp k1 k2).2 ⟨k3, k4⟩

end Verif.Props
