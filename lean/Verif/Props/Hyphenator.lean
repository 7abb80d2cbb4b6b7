import Verif.Lemmas.HyphUgly
/-! C35-C39, C61: hyphenation. -/

namespace Verif.Props
open Verif
set_option linter.unusedSimpArgs false

/-! ### Common results -/

/-- A word given to the API as a C string. -/
theorem invalid_null (join : List (List Wc) → UB (List Wc)) (o : HyphOpts) (an : Analyzer) (word : List Wc)
    (hv : ¬ ∀ c ∈ word, ValidCp c) (hmin : o.minLength ≤ word.length) : hyphenateWith join o an word = some none := by
  unfold hyphenateWith splitCompounds
  rw [if_neg (by omega), (utf8FromUcs4_eq word).2 (by
    by_contra hne
    exact hv (fun c hc => by
      by_contra h
      exact hne ⟨c, hc, h⟩))]
  rfl

theorem short_blank (join : List (List Wc) → UB (List Wc)) (o : HyphOpts) (an : Analyzer) (word : List Wc)
    (hmin : word.length < o.minLength) : hyphenateWith join o an word = some (some (List.replicate word.length 0x20)) := by
  unfold hyphenateWith
  rw [if_pos hmin]
  rfl

/-- If hyphenation of a long enough word gives a pattern, the word can be encoded and every analysis interpreted. -/
theorem defined_cases (join : List (List Wc) → UB (List Wc)) (o : HyphOpts) (an : Analyzer) (word : List Wc) (r : List Wc)
    (hmin : o.minLength ≤ word.length) (h : hyphenateWith join o an word = some (some r)) :
    (∀ c ∈ word, ValidCp c) ∧ ∃ all, interpretAll word.length (dotCut o an word) (usedAnalyses o an word) = some all := by
  by_cases hv : ∀ c ∈ word, ValidCp c
  · refine ⟨hv, ?_⟩
    cases he : interpretAll word.length (dotCut o an word) (usedAnalyses o an word) with
    | some all => exact ⟨all, rfl⟩
    | none =>
      unfold hyphenateWith at h
      rw [if_neg (by omega), splitCompounds_eq o an word hv, he] at h
      simp at h
  · rw [invalid_null join o an word hv hmin] at h
    simp at h

/-- A pattern character of the result of `intersectHyphenations`. -/
theorem intersect_char {n : Nat} {rs : List (List Wc)} {r : List Wc} (hne : rs ≠ []) (hok : ∀ p ∈ rs, PatOk n p)
    (h : intersectHyph rs = some r) :
    r.length = n ∧ (∀ c ∈ r, c = 0x20 ∨ c = 0x2D ∨ c = 0x3D) ∧
      ∀ i < n, (r[i]? ≠ some 0x20 ↔ ∀ p ∈ rs, blankAt p i = false) := by
  obtain ⟨r', e, l, hr⟩ := intersect_spec n rs hne hok
  have : r' = r := Option.some.inj (e.symm.trans h)
  subst this
  have hcell : ∀ i < n, (r'[i]? = some 0x20 ∧ ∃ p ∈ rs, blankAt p i = true) ∨
      ((∀ p ∈ rs, blankAt p i = false) ∧ ∃ c, r'[i]? = some c ∧ (c = 0x2D ∨ c = 0x3D)) := by
    intro i hi
    obtain ⟨f1, f2⟩ := hr i hi
    by_cases hex : ∃ p ∈ rs, blankAt p i = true
    · exact Or.inl ⟨f1 hex, hex⟩
    · have hall : ∀ p ∈ rs, blankAt p i = false := by
        intro p hp
        cases h : blankAt p i
        · rfl
        · exact absurd ⟨p, hp, h⟩ hex
      right
      refine ⟨hall, ?_⟩
      obtain ⟨c, hc, hpc⟩ := patOk_cell (hok _ (List.head_mem hne)) hi
      have hb := (blankAt_false_iff hc).1 (hall _ (List.head_mem hne))
      refine ⟨c, by rw [f2 hall, hc], ?_⟩
      unfold PatChar at hpc
      omega
  refine ⟨l, ?_, ?_⟩
  · intro c hc
    rw [List.mem_iff_getElem] at hc
    obtain ⟨i, hi, rfl⟩ := hc
    rcases hcell i (by omega) with ⟨h, _⟩ | ⟨_, c, h, h'⟩
    · rw [List.getElem?_eq_getElem hi, Option.some.injEq] at h
      exact Or.inl h
    · rw [List.getElem?_eq_getElem hi, Option.some.injEq] at h
      rw [h]; exact Or.inr h'
  · intro i hi
    rcases hcell i hi with ⟨h, p, hp, hb⟩ | ⟨hall, c, h, h'⟩
    · constructor
      · intro h2; exact absurd h h2
      · intro h2; rw [h2 p hp] at hb; simp at hb
    · constructor
      · intro _; exact hall
      · intro _ h2
        rw [h, Option.some.injEq] at h2
        omega

/-! ### C35 -/

/-- C35: whenever hyphenation gives a pattern, it has one character per character of the word, each of `' '`, `'-'`, `'='`;
for all words, options and analysers. -/
theorem C35_pattern (o : HyphOpts) (an : Analyzer) (word r : List Wc) (h0 : 0 ∉ word)
    (h : hyphenateUcs4 o an word = some (some r)) :
    r.length = word.length ∧ ∀ c ∈ r, c = 0x20 ∨ c = 0x2D ∨ c = 0x3D := by
  rcases Nat.lt_or_ge word.length o.minLength with hmin | hmin
  · rw [show hyphenateUcs4 o an word = _ from short_blank intersectHyph o an word hmin] at h
    simp only [Option.some.injEq] at h
    subst h
    exact ⟨by simp, fun c hc => Or.inl (List.eq_of_mem_replicate hc)⟩
  · obtain ⟨hv, all, e⟩ := defined_cases intersectHyph o an word r hmin h
    obtain ⟨pats, rs, hr, _, e2⟩ := hyphenateWith_of intersectHyph o an word hv h0 hmin all e
    rw [show hyphenateUcs4 o an word = _ from e2, Option.map_eq_some_iff] at h
    obtain ⟨r', e3, h4⟩ := h
    rw [Option.some.injEq] at h4
    subst h4
    obtain ⟨l, a, _⟩ := intersect_char hr.ne hr.ok e3
    exact ⟨l, a⟩

/-- C35 for the UTF-8 entry point: one pattern character per *character* of the word. -/
theorem C35_cstr (o : HyphOpts) (an : Analyzer) (bytes r : List Wc) (h0 : 0 ∉ bytes) (hb : ∀ b ∈ bytes, b < 256)
    (h : hyphenateCstr o an bytes = some (some r)) :
    ∃ word, ucs4FromUtf8 bytes = some (some word) ∧ r.length = word.length ∧ ∀ c ∈ r, c = 0x20 ∨ c = 0x2D ∨ c = 0x3D := by
  unfold hyphenateCstr at h
  split at h
  · simp at h
  · cases hd : ucs4FromUtf8 bytes with
    | none => rw [hd] at h; simp at h
    | some d =>
      rw [hd] at h
      cases d with
      | none => simp at h
      | some w =>
        simp only [Option.bind_eq_bind, Option.bind_some] at h
        obtain ⟨hv, he⟩ := (C15_decoder_exact bytes w hb).1 hd
        have hw0 : 0 ∉ w := by
          intro hm
          apply h0
          rw [he, encodeStr, List.mem_flatMap]
          exact ⟨0, hm, by decide⟩
        rw [cstr_eq w hw0] at h
        exact ⟨w, rfl, C35_pattern o an w r hw0 h⟩

/-! ### C36 -/

/-- C36 fails: a structure that ends in `=` makes `interpretAnalysis` read behind its terminator (first example), a missing
structure makes it dereference a null pointer (second example). -/
theorem C36_violation :
    hyphenateUcs4 {} (fun _ => [{ struct := some (lit "=ppp=") }]) (lit "talot") = none ∧
    hyphenateUcs4 {} (fun _ => [{ struct := none }]) (lit "talo") = none := by decide +kernel

/-- C36, weakened to analysers whose STRUCTURE strings are present and do not end in `=`: hyphenation performs no access
outside the word, the pattern buffers and the structure. Missing for the full claim: structures ending in `=`
(`C36_violation`). -/
theorem C36_partial (o : HyphOpts) (an : Analyzer) (ha : StructuresOk an) (word : List Wc) (h0 : 0 ∉ word) :
    ∃ out, hyphenateUcs4 o an word = some out ∧
      (out = none ↔ (o.minLength ≤ word.length ∧ ¬ ∀ c ∈ word, ValidCp c)) := by
  rcases Nat.lt_or_ge word.length o.minLength with hmin | hmin
  · exact ⟨_, short_blank intersectHyph o an word hmin, by simp; omega⟩
  · by_cases hv : ∀ c ∈ word, ValidCp c
    · obtain ⟨all, e⟩ := usedAnalyses_ok o an ha word
      obtain ⟨pats, rs, hr, _, e2⟩ := hyphenateWith_of intersectHyph o an word hv h0 hmin all e
      obtain ⟨r, e3, _⟩ := intersect_spec word.length rs hr.ne hr.ok
      refine ⟨some r, by rw [show hyphenateUcs4 o an word = _ from e2, e3]; rfl, ?_⟩
      constructor
      · intro h; simp at h
      · intro h; exact absurd hv h.2
    · exact ⟨none, invalid_null intersectHyph o an word hv hmin, by simp [hmin]; simpa using hv⟩

/-- C36 for the search for all hyphenation positions (used by the speller for soft hyphens). -/
theorem C36_all_positions_partial (o : HyphOpts) (an : Analyzer) (ha : StructuresOk an) (word : List Wc) (h0 : 0 ∉ word) :
    ∃ out, allPositions o an word = some out ∧ ∀ p, out = some p → p.length = word.length := by
  rcases Nat.lt_or_ge word.length o.minLength with hmin | hmin
  · refine ⟨_, short_blank unionHyph o an word hmin, ?_⟩
    intro p hp
    rw [Option.some.injEq] at hp
    simp [← hp]
  · by_cases hv : ∀ c ∈ word, ValidCp c
    · obtain ⟨all, e⟩ := usedAnalyses_ok o an ha word
      obtain ⟨pats, rs, hr, _, e2⟩ := hyphenateWith_of unionHyph o an word hv h0 hmin all e
      obtain ⟨r, e3, l, _⟩ := union_spec word.length rs hr.ne hr.ok
      refine ⟨some r, by rw [show allPositions o an word = _ from e2, e3]; rfl, ?_⟩
      intro p hp
      rw [Option.some.injEq] at hp
      rw [← hp]; exact l
    · exact ⟨none, invalid_null unionHyph o an word hv hmin, by simp⟩

/-- "kissa" as one part, "puu=talo" as two parts; other words are unknown. -/
def demoHyphAn : Analyzer := fun w =>
  if w = lit "kissa" then [{ struct := some (lit "=ppppp") }]
  else if w = lit "puutalo" then [{ struct := some (lit "=ppp=pppp") }]
  else if w = lit "alusta" then [{ struct := some (lit "=ppppp") }, { struct := some (lit "=ppp=ppp") }]
  else []

theorem demoHyphAn_ok : StructuresOk demoHyphAn := by
  intro w a h
  unfold demoHyphAn at h
  split at h
  · simp only [List.mem_singleton] at h; subst h; exact ⟨_, rfl, by decide⟩
  · split at h
    · simp only [List.mem_singleton] at h; subst h; exact ⟨_, rfl, by decide⟩
    · split at h
      · simp only [List.mem_cons, List.not_mem_nil, or_false] at h
        rcases h with rfl | rfl
        · exact ⟨_, rfl, by decide⟩
        · exact ⟨_, rfl, by decide⟩
      · simp at h

example : StructuresOk demoHyphAn ∧ 0 ∉ lit "puutalo" ∧ hyphenateUcs4 {} demoHyphAn (lit "puutalo") = some (some (lit "   - - ")) :=
  ⟨demoHyphAn_ok, by decide, by decide +kernel⟩

/-! ### C37 -/

/-- The structure of the analysis has no compound border inside the word. -/
def Unsplit (o : HyphOpts) (an : Analyzer) (word : List Wc) (a : MorAn) : Prop :=
  ∀ p, rawPattern word.length (dotCut o an word) a = some p → ∀ i < word.length, blankAt p i = true

/-- The hyphenation of the word according to one analysis has a point at `i`. -/
def PointBy (o : HyphOpts) (an : Analyzer) (word : List Wc) (a : MorAn) (i : Nat) : Prop :=
  ∃ p q, rawPattern word.length (dotCut o an word) a = some p ∧
    compoundHyphenation o.ugly o.minLength (word ++ [0]) (usedLen o an word) p = some q ∧ blankAt q i = false

theorem intersection_aux (o : HyphOpts) (an : Analyzer) (word r : List Wc) (h0 : 0 ∉ word) (hmin : o.minLength ≤ word.length)
    (hne : usedAnalyses o an word ≠ []) (h : hyphenateUcs4 o an word = some (some r)) (i : Nat) (hi : i < word.length) :
    r[i]? ≠ some 0x20 ↔ ∀ a ∈ usedAnalyses o an word,
      ((∃ b ∈ usedAnalyses o an word, Unsplit o an word b) → Unsplit o an word a) → PointBy o an word a i := by
  obtain ⟨hv, all, e⟩ := defined_cases intersectHyph o an word r hmin h
  obtain ⟨pats, rs, hr, _, e2⟩ := hyphenateWith_of intersectHyph o an word hv h0 hmin all e
  rw [show hyphenateUcs4 o an word = _ from e2, Option.map_eq_some_iff] at h
  obtain ⟨r', e3, h4⟩ := h
  rw [Option.some.injEq] at h4
  subst h4
  obtain ⟨_, _, hpt⟩ := intersect_char hr.ne hr.ok e3
  rw [hpt i hi]
  have hall := interpretAll_eq _ _ _ _ e
  have hallne : all ≠ [] := by
    rintro rfl
    cases hu : usedAnalyses o an word with
    | nil => exact hne hu
    | cons a as => rw [hu] at hall; cases hall
  have huns : ∀ a p, rawPattern word.length (dotCut o an word) a = some p →
      (Unsplit o an word a ↔ ∀ i < word.length, blankAt p i = true) := by
    intro a p hp
    constructor
    · intro h; exact h p hp
    · intro h q hq
      have : q = p := Option.some.inj (hq.symm.trans hp)
      subst this; exact h
  have hexiff : (∃ b ∈ usedAnalyses o an word, Unsplit o an word b) ↔ ∃ p ∈ all, ∀ i < word.length, blankAt p i = true := by
    constructor
    · rintro ⟨b, hb, hu⟩
      obtain ⟨p, hp, hbp⟩ := forall₂_mem_left hall b hb
      exact ⟨p, hp, (huns b p hbp).1 hu⟩
    · rintro ⟨p, hp, hu⟩
      obtain ⟨b, hb, hbp⟩ := forall₂_mem_right hall p hp
      exact ⟨b, hb, (huns b p hbp).2 hu⟩
  have hmem : ∀ p, p ∈ pats ↔ p ∈ all ∧ ((∃ p ∈ all, ∀ i < word.length, blankAt p i = true) →
      ∀ i < word.length, blankAt p i = true) := by
    intro p
    by_cases hex : ∃ p ∈ all, ∀ i < word.length, blankAt p i = true
    · rw [(hr.split.unsplit hallne hex).mem_iff, List.mem_filter, decide_eq_true_eq]
      exact ⟨fun h => ⟨h.1, fun _ => h.2⟩, fun h => ⟨h.1, h.2 hex⟩⟩
    · rw [hr.split.split hallne hex]
      exact ⟨fun h => ⟨h, fun h' => absurd h' hex⟩, fun h => h.1⟩
  constructor
  · intro hb a ha hret
    obtain ⟨p, hp, hap⟩ := forall₂_mem_left hall a ha
    have hpp : p ∈ pats := by
      rw [hmem]
      refine ⟨hp, fun hex => ?_⟩
      exact (huns a p hap).1 (hret (hexiff.2 hex))
    obtain ⟨q, hq, hpq⟩ := forall₂_mem_left hr.rules p hpp
    exact ⟨p, q, hap, hpq, hb q hq⟩
  · intro hb q hq
    obtain ⟨p, hp, hpq⟩ := forall₂_mem_right hr.rules q hq
    obtain ⟨hpa, hps⟩ := (hmem p).1 hp
    obtain ⟨a, ha, hap⟩ := forall₂_mem_right hall p hpa
    obtain ⟨p', q', h1, h2, h3⟩ := hb a ha (fun hex => (huns a p hap).2 (hps (hexiff.1 hex)))
    have e5 : p' = p := Option.some.inj (h1.symm.trans hap)
    subst e5
    have e6 : q' = q := Option.some.inj (h2.symm.trans hpq)
    subst e6
    exact h3

/-- The analyser that knows the same words, each with the single analysis `a`. -/
def only (an : Analyzer) (a : MorAn) : Analyzer := fun w => if an w = [] then [] else [a]

theorem dotCut_only (o : HyphOpts) (an : Analyzer) (a : MorAn) (word : List Wc) : dotCut o (only an a) word = dotCut o an word := by
  unfold dotCut only
  by_cases h : an word = []
  · simp [h]
  · simp [h]

theorem usedAnalyses_only (o : HyphOpts) (an : Analyzer) (a : MorAn) (word : List Wc) (hne : usedAnalyses o an word ≠ []) :
    usedAnalyses o (only an a) word = [a] := by
  unfold usedAnalyses at hne ⊢
  rw [dotCut_only]
  have hne' : (if dotCut o an word then an word.dropLast else an word) ≠ [] := by
    intro h; rw [h] at hne; simp at hne
  cases hd : dotCut o an word with
  | true => rw [hd] at hne'; simp only [if_true] at hne'; simp [only, hne']
  | false => rw [hd] at hne'; simp only [Bool.false_eq_true, if_false] at hne'; simp [only, hne']

/-- `PointBy` is what the library does when it is given that single analysis. -/
theorem pointBy_iff (o : HyphOpts) (an : Analyzer) (word : List Wc) (h0 : 0 ∉ word) (hv : ∀ c ∈ word, ValidCp c)
    (hmin : o.minLength ≤ word.length) (a : MorAn) (hne : usedAnalyses o an word ≠ []) (i : Nat) (hi : i < word.length) :
    PointBy o an word a i ↔
      ∃ q, hyphenateUcs4 o (only an a) word = some (some q) ∧ (q[i]? = some 0x2D ∨ q[i]? = some 0x3D) := by
  have hus := usedAnalyses_only o an a word hne
  have hlen : usedLen o (only an a) word = usedLen o an word := by unfold usedLen; rw [dotCut_only]
  have huniq : ∀ x ∈ usedAnalyses o (only an a) word, x = a := by rw [hus]; simp
  have hret : ∀ x ∈ usedAnalyses o (only an a) word,
      (∃ b ∈ usedAnalyses o (only an a) word, Unsplit o (only an a) word b) → Unsplit o (only an a) word x := by
    rintro x hx ⟨b, hb, h⟩
    rw [huniq b hb] at h
    rw [huniq x hx]; exact h
  have hpb : PointBy o (only an a) word a i ↔ PointBy o an word a i := by
    unfold PointBy; rw [dotCut_only, hlen]
  have hmem : a ∈ usedAnalyses o (only an a) word := by rw [hus]; simp
  constructor
  · intro hp
    have hp' := hpb.2 hp
    obtain ⟨p, q, hpr, hpc, hb⟩ := hp
    have hall : interpretAll word.length (dotCut o (only an a) word) (usedAnalyses o (only an a) word) = some [p] := by
      rw [hus, dotCut_only]
      unfold rawPattern at hpr
      rw [Option.map_eq_some_iff] at hpr
      obtain ⟨x, hx, hx2⟩ := hpr
      simp [interpretAll, hx, hx2]
    obtain ⟨pats, rs, hr, _, e2⟩ := hyphenateWith_of intersectHyph o (only an a) word hv h0 hmin [p] hall
    obtain ⟨r, e3, _⟩ := intersect_spec word.length rs hr.ne hr.ok
    have hdef : hyphenateUcs4 o (only an a) word = some (some r) := by
      rw [show hyphenateUcs4 o (only an a) word = _ from e2, e3]; rfl
    refine ⟨r, hdef, ?_⟩
    have hne2 := (intersection_aux o (only an a) word r h0 hmin (by rw [hus]; simp) hdef i hi).2
      (fun x hx _ => by rw [huniq x hx]; exact hp')
    obtain ⟨l, hc⟩ := C35_pattern o (only an a) word r h0 hdef
    rw [List.getElem?_eq_getElem (by omega)] at hne2 ⊢
    rcases hc _ (List.getElem_mem (by omega : i < r.length)) with h | h | h
    · exact absurd (by rw [h]) hne2
    · exact Or.inl (by rw [h])
    · exact Or.inr (by rw [h])
  · rintro ⟨q, hdef, hq⟩
    have := (intersection_aux o (only an a) word q h0 hmin (by rw [hus]; simp) hdef i hi).1 (by
      rcases hq with h | h <;> rw [h] <;> simp) a hmem (hret a hmem)
    exact hpb.1 this

/-- C37: an analysed word has a hyphenation point at `i` exactly if it gets one there with each retained analysis alone. All
(at most 31) analyses are retained, unless some analysis has no compound border: then those without compound border are. -/
theorem C37_intersection (o : HyphOpts) (an : Analyzer) (word r : List Wc) (h0 : 0 ∉ word) (hmin : o.minLength ≤ word.length)
    (hne : usedAnalyses o an word ≠ []) (h : hyphenateUcs4 o an word = some (some r)) (i : Nat) (hi : i < word.length) :
    (r[i]? = some 0x2D ∨ r[i]? = some 0x3D) ↔ ∀ a ∈ usedAnalyses o an word,
      ((∃ b ∈ usedAnalyses o an word, Unsplit o an word b) → Unsplit o an word a) →
      ∃ q, hyphenateUcs4 o (only an a) word = some (some q) ∧ (q[i]? = some 0x2D ∨ q[i]? = some 0x3D) := by
  obtain ⟨hv, _⟩ := defined_cases intersectHyph o an word r hmin h
  have hiff : (r[i]? = some 0x2D ∨ r[i]? = some 0x3D) ↔ r[i]? ≠ some 0x20 := by
    obtain ⟨l, hc⟩ := C35_pattern o an word r h0 h
    have hir : i < r.length := by omega
    rw [List.getElem?_eq_getElem hir]
    have := hc _ (List.getElem_mem hir)
    simp only [Option.some.injEq, ne_eq]
    omega
  rw [hiff, intersection_aux o an word r h0 hmin hne h i hi]
  constructor
  · intro hx a ha hr
    exact (pointBy_iff o an word h0 hv hmin a hne i hi).1 (hx a ha hr)
  · intro hx a ha hr
    exact (pointBy_iff o an word h0 hv hmin a hne i hi).2 (hx a ha hr)

/-- Two readings of "alusta", "alusta" and "alu=sta"; the one without border decides. -/
example : usedAnalyses {} demoHyphAn (lit "alusta") ≠ [] ∧
    hyphenateUcs4 {} demoHyphAn (lit "alusta") = some (some (lit " -  - ")) := by decide +kernel

/-! ### C38 -/

/-- C38: words shorter than the minimum are not hyphenated at all. -/
theorem C38_short_word (o : HyphOpts) (an : Analyzer) (word : List Wc) (h : word.length < o.minLength) :
    hyphenateUcs4 o an word = some (some (List.replicate word.length 0x20)) := short_blank intersectHyph o an word h

/-- C38 fails for two consecutive hyphens: the second one counts as a character of the following part. With minimum 5
"aika" in "talo--aika" is hyphenated (and not in "talo-aika"). -/
theorem C38_violation :
    hyphenateUcs4 { minLength := 5 } (fun _ => []) (lit "talo--aika") = some (some (lit "    ==  - ")) ∧
    hyphenateUcs4 { minLength := 5 } (fun _ => []) (lit "talo-aika") = some (some (lit "    =    ")) := by decide +kernel

/-- C38, weakened: if there is a hyphenation point at `i`, then in every reading (pattern of compound borders) `i` is a
border or lies in a part with at least the minimum number of characters. The part goes from a border (or the start) to the
next border (or the end) and has none inside; it does not contain the `=` it starts after, unless two `=` follow each other.
Missing for the full claim: parts after two consecutive hyphens (`C38_violation`). -/
theorem C38_parts_partial (o : HyphOpts) (an : Analyzer) (word r : List Wc) (h0 : 0 ∉ word) (hmin : o.minLength ≤ word.length)
    (h : hyphenateUcs4 o an word = some (some r)) :
    ∃ pats, splitCompounds o an word = some (some (pats, dotCut o an word)) ∧
      ∀ i < word.length, r[i]? ≠ some 0x20 → ∀ p ∈ pats, blankAt p i = false ∨
        ∃ s e, s < i ∧ i < e ∧ e ≤ word.length ∧ s + o.minLength ≤ e ∧ (∀ j, s < j → j < e → blankAt p j = true) ∧
          (e = usedLen o an word ∨ blankAt p e = false) ∧
          (s = 0 ∨ blankAt p (s - 1) = false ∨ blankAt p s = false) ∧
          (p[s]? = some 0x3D → 0 < s ∧ p[s - 1]? = some 0x3D) := by
  obtain ⟨hv, all, e⟩ := defined_cases intersectHyph o an word r hmin h
  obtain ⟨pats, rs, hr, e4, e2⟩ := hyphenateWith_of intersectHyph o an word hv h0 hmin all e
  refine ⟨pats, e4, ?_⟩
  rw [show hyphenateUcs4 o an word = _ from e2, Option.map_eq_some_iff] at h
  obtain ⟨r', e3, h4⟩ := h
  rw [Option.some.injEq] at h4
  subst h4
  obtain ⟨_, _, hpt⟩ := intersect_char hr.ne hr.ok e3
  intro i hi hne p hp
  obtain ⟨q, hq, hpq⟩ := forall₂_mem_left hr.rules p hp
  have hqb := (hpt i hi).1 hne q hq
  have hu : usedLen o an word ≤ word.length := by unfold usedLen; omega
  have hpl := patOk_length (hr.split.ok p hp)
  obtain ⟨q', f1, _, _, f4⟩ := compound_spec o.ugly o.minLength (word ++ [0]) (usedLen o an word) p
    (take_word_ne h0 _ hu) (by simp; omega) (by omega)
  have : q' = q := Option.some.inj (f1.symm.trans hpq)
  subst this
  rcases f4 i with hc | ⟨s, e, _, hpart, h1, h2, h3, _⟩
  · left; rw [← blankAt_congr hc]; exact hqb
  · right
    have hle := hpart.le
    refine ⟨s, e, h2, h3, by omega, h1, hpart.inside, hpart.fin, ?_, ?_⟩
    · rcases hpart.start with h | ⟨h, _⟩ | ⟨h, _⟩
      · exact Or.inl h.1
      · right; left; simp [blankAt, h]
      · exact Or.inr (Or.inr h)
    · intro h
      rcases hpart.start with ⟨h', h''⟩ | ⟨h', h''⟩ | ⟨_, h'⟩
      · subst h'; exact absurd h h''
      · exact ⟨h'', h'⟩
      · exact absurd h h'

example : 0 ∉ lit "puutalo" ∧ (4 : Nat) ≤ (lit "puutalo").length ∧
    hyphenateUcs4 { minLength := 4 } demoHyphAn (lit "puutalo") = some (some (lit "   - - ")) ∧
    hyphenateUcs4 { minLength := 5 } demoHyphAn (lit "puutalo") = some (some (lit "   -   ")) := by decide +kernel

/-! ### C39 -/

/-- C39 fails: with `NO_UGLY_HYPHENATION` "baa'tka" becomes "baa-'tka", a point that is not there without the option. -/
theorem C39_violation :
    hyphenateUcs4 { ugly := true } (fun _ => []) (lit "baa'tka") = some (some (lit "     - ")) ∧
    hyphenateUcs4 { ugly := false } (fun _ => []) (lit "baa'tka") = some (some (lit "   -   ")) := by decide +kernel

/-- C39 fails also for an unknown non-word with a final dot when `IGNORE_DOT` is on. -/
theorem C39_violation_dot :
    hyphenateUcs4 { ugly := true, ignoreDot := true } (fun _ => []) (lit "www.aa-ka.") = some (some (lit "      =   ")) ∧
    hyphenateUcs4 { ugly := false, ignoreDot := true } (fun _ => []) (lit "www.aa-ka.") = some (some (lit "       -  ")) := by
  decide +kernel

theorem forall₂_pair {α β γ : Type} {R : α → β → Prop} {S : α → γ → Prop} {T : β → γ → Prop} {as : List α} {bs : List β}
    {cs : List γ} (h1 : List.Forall₂ R as bs) (h2 : List.Forall₂ S as cs) (h : ∀ a ∈ as, ∀ b c, R a b → S a c → T b c) :
    ∀ c ∈ cs, ∃ b ∈ bs, T b c := by
  induction h1 generalizing cs with
  | nil => cases h2; simp
  | cons hr _ ih =>
    cases h2 with
    | cons hs h2 =>
      intro c hc
      rw [List.mem_cons] at hc
      rcases hc with rfl | hc
      · exact ⟨_, by simp, h _ (by simp) _ _ hr hs⟩
      · obtain ⟨b, hb, ht⟩ := ih h2 (fun a ha => h a (by simp [ha])) c hc
        exact ⟨b, by simp [hb], ht⟩

theorem allowRule_append (ugly : Bool) (word : List Wc) : allowRule ugly (word ++ [0]) word.length = allowRule ugly word word.length := by
  unfold allowRule
  by_cases h1 : word.length ≤ 1
  · simp [h1]
  · simp only [h1, if_false]
    cases ugly
    · have h2 : rd (word ++ [0]) (word.length - 1) = rd word (word.length - 1) := by
        simp only [rd]; rw [List.getElem?_append_left (by omega)]
      simp [h2, show ¬ word.length + 1 < word.length by omega]
    · rfl

/-- C39, weakened to words without apostrophe; if `IGNORE_DOT` is on and an unanalysed word ends in a dot, the word without
the dot must have an analysis. Then turning `NO_UGLY_HYPHENATION` on never adds a hyphenation point. Missing for the full
claim: `C39_violation`, `C39_violation_dot`. -/
theorem C39_partial (o : HyphOpts) (an : Analyzer) (word r1 r2 : List Wc) (h0 : 0 ∉ word) (hap : 0x27 ∉ word)
    (hdot : o.ignoreDot = false ∨ word.getLast? ≠ some 0x2E ∨ an word ≠ [] ∨ an word.dropLast ≠ [])
    (h1 : hyphenateUcs4 { o with ugly := false } an word = some (some r1))
    (h2 : hyphenateUcs4 { o with ugly := true } an word = some (some r2)) (i : Nat) (hi : r1[i]? = some 0x2D ∨ r1[i]? = some 0x3D) :
    r2[i]? = some 0x2D ∨ r2[i]? = some 0x3D := by
  rcases Nat.lt_or_ge word.length o.minLength with hmin | hmin
  · rw [show hyphenateUcs4 { o with ugly := false } an word = _ from short_blank intersectHyph _ an word hmin] at h1
    simp only [Option.some.injEq] at h1
    subst h1
    rcases hi with hi | hi
    · rw [List.getElem?_replicate] at hi; split at hi <;> simp at hi
    · rw [List.getElem?_replicate] at hi; split at hi <;> simp at hi
  · have ha2 := C35_pattern { o with ugly := true } an word r2 h0 h2
    have ha1 := C35_pattern { o with ugly := false } an word r1 h0 h1
    have hil : i < word.length := by
      rw [← ha1.1]
      rcases hi with hi | hi <;> exact (List.getElem?_eq_some_iff.1 hi).1
    obtain ⟨hv, all, e⟩ := defined_cases intersectHyph { o with ugly := false } an word r1 hmin h1
    obtain ⟨pats1, rs1, R1, _, x1⟩ := hyphenateWith_of intersectHyph { o with ugly := false } an word hv h0 hmin all e
    obtain ⟨pats2, rs2, R2, _, x2⟩ := hyphenateWith_of intersectHyph { o with ugly := true } an word hv h0 hmin all e
    rw [show hyphenateUcs4 { o with ugly := false } an word = _ from x1, Option.map_eq_some_iff] at h1
    rw [show hyphenateUcs4 { o with ugly := true } an word = _ from x2, Option.map_eq_some_iff] at h2
    obtain ⟨w1, y1, z1⟩ := h1
    obtain ⟨w2, y2, z2⟩ := h2
    rw [Option.some.injEq] at z1 z2
    rw [z1] at y1; rw [z2] at y2
    obtain ⟨_, _, p1⟩ := intersect_char R1.ne R1.ok y1
    obtain ⟨l2, c2, p2⟩ := intersect_char R2.ne R2.ok y2
    have hne1 : r1[i]? ≠ some 0x20 := by rcases hi with hi | hi <;> rw [hi] <;> simp
    have hb1 := (p1 i hil).1 hne1
    suffices hb2 : r2[i]? ≠ some 0x20 by
      have hil2 : i < r2.length := by omega
      rw [List.getElem?_eq_getElem hil2] at hb2 ⊢
      rcases c2 _ (List.getElem_mem hil2) with h | h | h
      · exact absurd (by rw [h]) hb2
      · exact Or.inl (by rw [h])
      · exact Or.inr (by rw [h])
    rw [p2 i hil]
    have hul : usedLen { o with ugly := true } an word = usedLen { o with ugly := false } an word := rfl
    have hu : usedLen { o with ugly := false } an word ≤ word.length := by unfold usedLen; omega
    have hwap : 0x27 ∉ (word ++ [0]).take (usedLen { o with ugly := false } an word) := by
      rw [List.take_append_of_le_length hu]
      exact fun hm => hap (List.mem_of_mem_take hm)
    have same : pats1 = pats2 → ∀ q ∈ rs2, blankAt q i = false := by
      rintro rfl q hq
      obtain ⟨q1, hq1, hT⟩ := forall₂_pair (T := PtLe) R1.rules R2.rules (by
        intro p hp b c hb hc
        have := patOk_length (R1.split.ok p hp)
        exact compound_mono o.minLength (word ++ [0]) _ p (take_word_ne h0 _ hu) hwap (by simp; omega) (by omega) b c hb hc) q hq
      rcases hT i with h | h
      · rw [hb1 q1 hq1] at h; simp at h
      · exact h
    by_cases hall : all = []
    · obtain ⟨u1, v1, w1⟩ := R1.split.unknown hall
      obtain ⟨u2, v2, w2⟩ := R2.split.unknown hall
      have hnodot : dotCut { o with ugly := false } an word = false := by
        have hus : usedAnalyses { o with ugly := false } an word = [] := by
          have := interpretAll_eq _ _ _ _ e
          rw [hall] at this
          cases hu : usedAnalyses { o with ugly := false } an word with
          | nil => rfl
          | cons a as => rw [hu] at this; cases this
        cases hd : dotCut { o with ugly := false } an word with
        | false => rfl
        | true =>
          exfalso
          have hd' := hd
          simp only [dotCut, Bool.and_eq_true, beq_iff_eq, List.isEmpty_iff] at hd'
          obtain ⟨⟨⟨d1, d2⟩, _⟩, d3⟩ := hd'
          simp only [usedAnalyses, hd, if_true] at hus
          rcases hdot with h | h | h | h
          · rw [d2] at h; simp at h
          · exact h d3
          · exact h d1
          · have := congrArg List.length hus
            rw [List.length_take, List.length_nil] at this
            have := List.length_pos_iff.2 h
            omega
      have hlen : usedLen { o with ugly := false } an word = word.length := by
        unfold usedLen; rw [hnodot]; simp
      obtain ⟨b, hb, hb2⟩ := allowRule_total false word word.length (Nat.le_refl _)
      cases b with
      | false =>
        exfalso
        have hu1 := v1
        unfold unknownPattern at hu1
        rw [show (({ o with ugly := false } : HyphOpts)).ugly = false from rfl, hb] at hu1
        simp only [Option.bind_eq_bind, Option.bind_some, Bool.false_and, Bool.false_eq_true, if_false, Option.pure_def,
          Option.some.injEq] at hu1
        have hblank : ∀ j < word.length, blankAt u1 j = true := by
          intro j hj
          have hc : u1[j]? = some (if o.hyphenateUnknown = true then 0x20 else 0x58) := by
            rw [← hu1, List.getElem?_append_left (by simpa using hj), List.getElem?_mapIdx, List.getElem?_eq_getElem hj]
            rfl
          rw [blankAt_true_iff hc]
          split <;> simp
        have hR := R1.rules
        rw [w1] at hR
        cases hR with
        | cons hc hnil =>
          rename_i q qs
          cases hnil
          have hpl := patOk_length (R1.split.ok u1 (by rw [w1]; simp))
          have := compound_blank false o.minLength (word ++ [0]) word.length u1
            (take_word_ne h0 _ (Nat.le_refl _)) (by simp) (by omega) hblank (by rw [allowRule_append, hb]) q
            (by rw [hlen] at hc; exact hc) i hil
          rw [hb1 q (by simp)] at this
          simp at this
      | true =>
        apply same
        have hu1 := v1
        have hu2 := v2
        unfold unknownPattern at hu1 hu2
        rw [show (({ o with ugly := false } : HyphOpts)).ugly = false from rfl, hb] at hu1
        rw [show (({ o with ugly := true } : HyphOpts)).ugly = true from rfl, allowRule_true (hb2 rfl)] at hu2
        have : u1 = u2 := Option.some.inj (hu1.symm.trans hu2)
        rw [w1, w2, this]
    · -- the patterns of the analyses do not depend on the option
      obtain ⟨pats, s1, _⟩ := splitCompounds_of { o with ugly := false } an word hv all e
      have hsame : ∀ q ∈ pats2, q ∈ pats1 := by
        intro q hq
        by_cases hex : ∃ p ∈ all, ∀ i < word.length, blankAt p i = true
        · rw [(R1.split.unsplit hall hex).mem_iff]
          exact (R2.split.unsplit hall hex).mem_iff.1 hq
        · rw [R1.split.split hall hex]
          rw [R2.split.split hall hex] at hq
          exact hq
      intro q hq
      obtain ⟨p, hp, hpq⟩ := forall₂_mem_right R2.rules q hq
      obtain ⟨q1, hq1, hpq1⟩ := forall₂_mem_left R1.rules p (hsame p hp)
      have hpl := patOk_length (R2.split.ok p hp)
      have := compound_mono o.minLength (word ++ [0]) _ p (take_word_ne h0 _ hu) hwap (by simp; omega) (by omega) q1 q hpq1 hpq
      rcases this i with h | h
      · rw [hb1 q1 hq1] at h; simp at h
      · exact h

example : 0 ∉ lit "korkeasaari" ∧ 0x27 ∉ lit "korkeasaari" ∧
    hyphenateUcs4 { ugly := false } (fun _ => []) (lit "korkeasaari") = some (some (lit "   -  -  - ")) ∧
    hyphenateUcs4 { ugly := true } (fun _ => []) (lit "korkeasaari") = some (some (lit "   - --  - ")) := by decide +kernel

end Verif.Props
