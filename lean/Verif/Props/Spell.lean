import Verif.Lemmas.Spell
import Verif.Model.Setup
/-! C16–C22, C24: the spelling functions of the API. -/

namespace Verif.Props
open Verif

/-- The word is accepted (result `VOIKKO_SPELL_OK`, caching disabled). -/
def Accepted (dict : List Wc → SpellRes) (o : SpellOpts) (w : List Wc) : Prop :=
  spellUcs4 dict o none w = some (.ok, none)

theorem accepted_iff (dict : List Wc → SpellRes) (o : SpellOpts) (w : List Wc) (hw : WordOk w) :
    Accepted dict o w ↔ accepts dict o w = true := by
  obtain ⟨c, h1, _, h3⟩ := spellUcs4_eq dict o none trivial w hw
  unfold Accepted
  rw [h1, h3 rfl]
  cases accepts dict o w <;> simp

/-! ### C17: totality -/

/-- C17: for every word (NUL terminated, characters up to U+10FFFF), every dictionary, all option values and
every cache that has been filled through the API (see C22), `voikkoSpellUcs4` has defined behaviour and
returns `VOIKKO_SPELL_OK` or `VOIKKO_SPELL_FAILED`; the empty word is OK and a word of more than 255
characters is FAILED. -/
theorem C17_total (dict : List Wc → SpellRes) (o : SpellOpts) (cache : Option SpellerCache)
    (hc : CacheInv (effDict dict o.acceptMissingHyphens) cache) (w : List Wc) (hw : WordOk w) :
    ∃ r cache', spellUcs4 dict o cache w = some (r, cache') ∧ (r = .ok ∨ r = .failed) ∧
      (w = [] → r = .ok) ∧ (255 < w.length → r = .failed) := by
  obtain ⟨c, h1, _, _⟩ := spellUcs4_eq dict o cache hc w hw
  refine ⟨_, c, h1, ?_, ?_, ?_⟩
  · cases accepts dict o w <;> simp
  · rintro rfl; rfl
  · intro hl
    have : accepts dict o w = false := by
      unfold accepts
      have h2 : ¬ w.length ≤ 255 := by omega
      have h3 : w.isEmpty = false := by cases w <;> simp_all
      simp [h2, h3]
    rw [this]; rfl

example : spellUcs4 (fun w => if w = [0x6B, 0x69, 0x73, 0x73, 0x61] then .ok else .failed) {} none
      [0x4B, 0x69, 0x73, 0x73, 0x61] = some (.ok, none) ∧
    spellUcs4 (fun w => if w = [0x6B, 0x69, 0x73, 0x73, 0x61] then .ok else .failed) {} none
      [0x6B, 0x69, 0x73, 0x61] = some (.failed, none) := by decide +kernel

/-! ### C16: UTF-8 and wide characters -/

/-- C16 as stated is false: 128 times "ä" is 256 bytes in UTF-8, which `voikkoSpellCstr` rejects because of
its length, while `voikkoSpellUcs4` accepts the 128 character word. -/
theorem C16_violation :
    spellCstr (fun _ => .ok) {} none (encodeStr (List.replicate 128 0xE4)) = some (.failed, none) ∧
    spellUcs4 (fun _ => .ok) {} none (List.replicate 128 0xE4) = some (.ok, none) := by
  decide +kernel

/-- C16 for words of at most 255 bytes. Missing for the full claim: longer UTF-8 words of at most 255
characters, where the code violates it (`C16_violation`). -/
theorem C16_agree_partial (dict : List Wc → SpellRes) (o : SpellOpts) (cache : Option SpellerCache)
    (w : List Wc) (hw : ∀ c ∈ w, ValidCp c) (hl : (encodeStr w).length ≤ 255) :
    spellCstr dict o cache (encodeStr w) = spellUcs4 dict o cache w := by
  unfold spellCstr
  have hd : ucs4FromUtf8 (encodeStr w) = some (some w) := (C15_decoder_exact _ _ (encodeStr_lt w hw)).2 ⟨hw, rfl⟩
  by_cases h0 : w = []
  · subst h0; rfl
  · have h1 : (encodeStr w).length ≠ 0 := by
      have := length_le_encodeStr w
      have := List.length_pos_iff.2 h0
      omega
    rw [if_neg h1, if_neg (by unfold maxWordChars; omega), hd]
    rfl

/-- C16: bytes that are not UTF-8 give the charset error (up to the length limit). -/
theorem C16_invalid (dict : List Wc → SpellRes) (o : SpellOpts) (cache : Option SpellerCache)
    (bytes : List Nat) (hb : ∀ b ∈ bytes, b < 256) (h1 : 0 < bytes.length) (hl : bytes.length ≤ 255)
    (hbad : ¬ ∃ w, (∀ c ∈ w, ValidCp c) ∧ bytes = encodeStr w) :
    spellCstr dict o cache bytes = some (.charsetConversionFailed, cache) := by
  unfold spellCstr
  rw [if_neg (by omega), if_neg (by unfold maxWordChars; omega)]
  cases h : ucs4FromUtf8 bytes with
  | none => exact absurd h (C15_in_bounds bytes hb)
  | some r =>
    cases r with
    | none => rfl
    | some w => exact absurd ⟨w, (C15_decoder_exact bytes w hb).1 h⟩ hbad

/-! ### C18: the ignore options only ever accept more -/

theorem dictAccepts_mono (d : List Wc → SpellRes) (o o' : SpellOpts) (w : List Wc)
    (h1 : o.ignoreDot = true → o'.ignoreDot = true)
    (h5 : o.acceptFirstUppercase = o'.acceptFirstUppercase) (h6 : o.acceptAllUppercase = o'.acceptAllUppercase)
    (h : dictAccepts d o w = true) : dictAccepts d o' w = true := by
  have hcap : effectiveCaps o' (caseType w) = effectiveCaps o (caseType w) := by
    unfold effectiveCaps; rw [h6]
  have hex : ∀ c r, exactOk o' c r = exactOk o c r := by intro c r; unfold exactOk; rw [h5]
  have hco : ∀ t r, caseOk o' t r = caseOk o t r := by
    intro t r; cases t <;> simp only [caseOk, h5]
  unfold dictAccepts at h ⊢
  rw [hcap]
  simp only [hex, hco]
  generalize effectiveCaps o (caseType w) = t at *
  cases hd : o.ignoreDot with
  | true =>
    have := h1 hd
    rw [hd] at h
    rw [this]; exact h
  | false =>
    rw [hd] at h
    cases t <;> simp only [Bool.false_and, Bool.or_false] at h <;> simp only [h, Bool.true_or]

/-- C18: switching on any of IGNORE_DOT, IGNORE_NUMBERS, IGNORE_UPPERCASE, IGNORE_NONWORDS (one or several
at once, the other options fixed) never turns an accepted word into a rejected one. -/
theorem C18_ignore_monotone (dict : List Wc → SpellRes) (o o' : SpellOpts) (w : List Wc) (hw : WordOk w)
    (h1 : o.ignoreDot = true → o'.ignoreDot = true) (h2 : o.ignoreNumbers = true → o'.ignoreNumbers = true)
    (h3 : o.ignoreUppercase = true → o'.ignoreUppercase = true)
    (h4 : o.ignoreNonwords = true → o'.ignoreNonwords = true)
    (h5 : o.acceptFirstUppercase = o'.acceptFirstUppercase) (h6 : o.acceptAllUppercase = o'.acceptAllUppercase)
    (h7 : o.acceptMissingHyphens = o'.acceptMissingHyphens) (h : Accepted dict o w) : Accepted dict o' w := by
  rw [accepted_iff _ _ _ hw] at h ⊢
  unfold accepts at h ⊢
  simp only [Bool.or_eq_true, Bool.and_eq_true] at h ⊢
  rcases h with h | ⟨hl, ((⟨ha, hb⟩ | ⟨ha, hb⟩) | ⟨ha, hb⟩) | h⟩
  · exact Or.inl h
  · exact Or.inr ⟨hl, Or.inl (Or.inl (Or.inl ⟨h2 ha, hb⟩))⟩
  · exact Or.inr ⟨hl, Or.inl (Or.inl (Or.inr ⟨h3 ha, hb⟩))⟩
  · exact Or.inr ⟨hl, Or.inl (Or.inr ⟨h4 ha, hb⟩)⟩
  · refine Or.inr ⟨hl, Or.inr ?_⟩
    rw [← h7]
    exact dictAccepts_mono _ _ _ _ h1 h5 h6 h

/-- Non-vacuity: "abc1" is accepted only with IGNORE_NUMBERS, "kissa." only with IGNORE_DOT. -/
example : ¬ Accepted (fun _ => .failed) {} [0x61, 0x62, 0x31] ∧
    Accepted (fun _ => .failed) { ignoreNumbers := true } [0x61, 0x62, 0x31] ∧
    ¬ Accepted (fun w => if w = [0x61] then .ok else .failed) {} [0x61, 0x2E] ∧
    Accepted (fun w => if w = [0x61] then .ok else .failed) { ignoreDot := true } [0x61, 0x2E] := by
  unfold Accepted; decide +kernel

/-! ### C19: IGNORE_DOT -/

theorem caseSpec_append_dot (v : List Wc) (hv : v ≠ []) (t : CaseType) (h : CaseSpec v t) :
    CaseSpec (v ++ [0x2E]) t := by
  have hu : ∀ l : List Wc, HasUpper (l ++ [0x2E]) ↔ HasUpper l := by
    intro l
    have : isUpper 0x2E = false := by decide
    simp only [HasUpper, List.mem_append, List.mem_singleton]
    constructor
    · rintro ⟨c, hc | hc, h⟩
      · exact ⟨c, hc, h⟩
      · subst hc; rw [this] at h; simp at h
    · rintro ⟨c, hc, h⟩; exact ⟨c, Or.inl hc, h⟩
  have hl : ∀ l : List Wc, HasLower (l ++ [0x2E]) ↔ HasLower l := by
    intro l
    have : isLower 0x2E = false := by decide
    simp only [HasLower, List.mem_append, List.mem_singleton]
    constructor
    · rintro ⟨c, hc | hc, h⟩
      · exact ⟨c, hc, h⟩
      · subst hc; rw [this] at h; simp at h
    · rintro ⟨c, hc, h⟩; exact ⟨c, Or.inl hc, h⟩
  cases v with
  | nil => exact absurd rfl hv
  | cons c cs =>
    have ht : ((c :: cs) ++ [0x2E]).tail = cs ++ [0x2E] := rfl
    cases t <;> simp only [CaseSpec, hu, hl, ht, List.tail_cons] at h ⊢ <;> exact h

theorem caseType_append_dot (v : List Wc) (hv : v ≠ []) : caseType (v ++ [0x2E]) = caseType v := by
  rw [C11_caseType]
  exact caseSpec_append_dot v hv _ ((C11_caseType v _).1 rfl)

theorem nonwordB_iff (w : List Wc) : nonwordB w = true ↔ NonwordCode w := by
  obtain ⟨b, h1, h2⟩ := C29_exact w
  unfold nonwordB
  rw [h1, ← h2]
  cases b <;> simp

theorem nonword_append_dot (v : List Wc) (h : nonwordB v = true) : nonwordB (v ++ [0x2E]) = true := by
  rw [nonwordB_iff] at h ⊢
  have hg : ∀ k < v.length, (v ++ [0x2E])[k]? = v[k]? := fun k hk => List.getElem?_append_left hk
  obtain ⟨h4, hh⟩ := h
  refine ⟨by simp; omega, ?_⟩
  rcases hh with ⟨p, q, p1, p2, p3, p4, p5, p6, p7⟩ | ⟨p, q, p1, p2, p3, p4, p5, p6, p7⟩ | ⟨w7, ww, w4, q, q1, q2, q3⟩
  · refine Or.inl ⟨p, q, by simp; omega, by rw [hg p (by omega)]; exact p2, ?_, by rw [hg _ (by omega)]; exact p4, p5,
      by simp; omega, by rw [hg _ (by omega)]; exact p7⟩
    intro k hk; rw [hg k (by omega)]; exact p3 k hk
  · refine Or.inr (Or.inl ⟨p, q, by simp; omega, by rw [hg p (by omega)]; exact p2, ?_, by rw [hg _ (by omega)]; exact p4, p5,
      by simp; omega, by rw [hg _ (by omega)]; exact p7⟩)
    intro k hk; rw [hg k (by omega)]; exact p3 k hk
  · refine Or.inr (Or.inr ⟨by simp; omega, ?_, by rw [hg _ (by omega)]; exact w4, q, q1, by simp; omega,
      by rw [hg q (by rw [List.getElem?_eq_some_iff] at q3; exact q3.1)]; exact q3⟩)
    rw [List.take_append_of_le_length h4]; exact ww

theorem normSpec_append_dot (v : List Wc) : normSpec (v ++ [0x2E]) = normSpec v ++ [0x2E] := by
  rw [normSpec_append v 0x2E [] (by decide +kernel)]
  congr 1

theorem lowerFirst_append (v : List Wc) (x : Wc) (hv : v ≠ []) : lowerFirst (v ++ [x]) = lowerFirst v ++ [x] := by
  cases v with
  | nil => exact absurd rfl hv
  | cons c cs => rfl

/-- C19: with IGNORE_DOT on, a word `v.` (at most 255 characters, `v` not empty) is accepted exactly if, with
the option off, `v.` or `v` is accepted. -/
theorem C19_ignore_dot (dict : List Wc → SpellRes) (o : SpellOpts) (v : List Wc) (hv : WordOk v) (hne : v ≠ [])
    (hlen : v.length < 255) :
    Accepted dict { o with ignoreDot := true } (v ++ [0x2E]) ↔
      (Accepted dict { o with ignoreDot := false } (v ++ [0x2E]) ∨ Accepted dict { o with ignoreDot := false } v) := by
  have hw : WordOk (v ++ [0x2E]) := by
    intro c hc
    rw [List.mem_append, List.mem_singleton] at hc
    rcases hc with hc | rfl
    · exact hv c hc
    · omega
  rw [accepted_iff _ _ _ hw, accepted_iff _ _ _ hw, accepted_iff _ _ _ hv]
  have hn := normSpec_append_dot v
  have hnn := normSpec_ne_nil hne
  generalize hN : normSpec v = n at *
  have he1 : (v ++ [0x2E]).isEmpty = false := by cases v <;> rfl
  have he2 : v.isEmpty = false := by cases v with | nil => exact absurd rfl hne | cons => rfl
  have hl1 : decide ((v ++ [0x2E]).length ≤ 255) = true := by simp; omega
  have hl2 : decide (v.length ≤ 255) = true := by simp; omega
  have hct := caseType_append_dot n hnn
  have hdig : (n ++ [0x2E]).any isDigit = n.any isDigit := by
    rw [List.any_append]
    have : [0x2E].any isDigit = false := by decide
    rw [this, Bool.or_false]
  unfold accepts
  simp only [hn, hN, he1, he2, hl1, hl2, hct, hdig, Bool.false_or, Bool.true_and, Bool.or_eq_true, Bool.and_eq_true]
  have hnw := nonword_append_dot n
  have hd : ∀ d, dictAccepts d { o with ignoreDot := true } (n ++ [0x2E]) = true ↔
      (dictAccepts d { o with ignoreDot := false } (n ++ [0x2E]) = true ∨
       dictAccepts d { o with ignoreDot := false } n = true) := by
    intro d
    have hcap : ∀ b, effectiveCaps { o with ignoreDot := b } (caseType n) = effectiveCaps o (caseType n) := fun _ => rfl
    have hex : ∀ b c r, exactOk { o with ignoreDot := b } c r = exactOk o c r := fun _ _ _ => rfl
    have hco : ∀ b t r, caseOk { o with ignoreDot := b } t r = caseOk o t r := by
      intro b t r; cases t <;> rfl
    have hhd : (n ++ [0x2E]).headD 0 = n.headD 0 := by cases n with | nil => exact absurd rfl hnn | cons => rfl
    have hlast : ((n ++ [0x2E]).getLast? == some 0x2E) = true := by simp
    unfold dictAccepts
    simp only [hct, hcap, hex, hco, hhd, lowerFirst_append n _ hnn, List.map_append, hlast, Bool.and_true,
      Bool.false_and, Bool.or_false, Bool.true_and]
    have hm : [0x2E].map lower = [0x2E] := rfl
    rw [hm, List.dropLast_concat, List.dropLast_concat]
    generalize effectiveCaps o (caseType n) = t
    cases t <;> simp only [Bool.or_eq_true]
  rw [hd]
  constructor
  · rintro (((h | h) | h) | h | h)
    · exact Or.inl (Or.inl (Or.inl (Or.inl h)))
    · exact Or.inl (Or.inl (Or.inl (Or.inr h)))
    · exact Or.inl (Or.inl (Or.inr h))
    · exact Or.inl (Or.inr h)
    · exact Or.inr (Or.inr h)
  · rintro ((((h | h) | h) | h) | (((h | h) | h) | h))
    · exact Or.inl (Or.inl (Or.inl h))
    · exact Or.inl (Or.inl (Or.inr h))
    · exact Or.inl (Or.inr h)
    · exact Or.inr (Or.inl h)
    · exact Or.inl (Or.inl (Or.inl h))
    · exact Or.inl (Or.inl (Or.inr h))
    · exact Or.inl (Or.inr ⟨h.1, hnw h.2⟩)
    · exact Or.inr (Or.inr h)

/-- IGNORE_DOT is not consulted for words without a final dot. -/
theorem C19_no_dot (dict : List Wc → SpellRes) (o : SpellOpts) (w : List Wc) (hw : WordOk w) (b : Bool)
    (h : w.getLast? ≠ some 0x2E) (hu : normSpec w = w) :
    Accepted dict { o with ignoreDot := b } w ↔ Accepted dict o w := by
  rw [accepted_iff _ _ _ hw, accepted_iff _ _ _ hw]
  have hl : (w.getLast? == some 0x2E) = false := by simpa using h
  unfold accepts dictAccepts
  simp only [hu, hl, Bool.and_false]
  have hcap : effectiveCaps { o with ignoreDot := b } (caseType w) = effectiveCaps o (caseType w) := rfl
  have hco : ∀ t r, caseOk { o with ignoreDot := b } t r = caseOk o t r := by
    intro t r; cases t <;> rfl
  simp only [hcap, hco]
  rfl

/-! ### C20: capitalised forms -/

theorem lower_or_upper_fixed (c : Wc) : lower c = c ∨ upper c = c := by
  obtain ⟨_, _, _, _, _, _, h7, _⟩ := C09_case_laws c
  cases h : isLower c with
  | true => exact Or.inl (h7 h)
  | false =>
    right
    simp only [isLower, ne_eq, decide_not, Bool.not_eq_false', decide_eq_true_eq] at h
    exact h.symm

theorem convSingle_upper (c : Wc) (h : convSingle c = [c]) : convSingle (upper c) = [upper c] := by
  have key : lower (upper c) = upper c → convSingle (upper c) = [upper c] := by
    intro hk
    rw [(C09_case_laws c).2.2.1] at hk
    have : upper c = c := by
      rcases lower_or_upper_fixed c with h1 | h1
      · rw [← hk]; exact h1
      · exact h1
    rw [this]; exact h
  have t1 : ∀ e ∈ conv1to1, lower e.1 = e.1 := by decide
  have t2 : ∀ e ∈ conv1to2, lower e.1 = e.1 := by decide
  have t3 : ∀ e ∈ conv1to3, lower e.1 = e.1 := by decide
  rcases convSingle_cases (upper c) with h1 | ⟨e, he, h2, h1⟩ | ⟨e, he, h2, h1⟩ | ⟨e, he, h2, h1⟩
  · exact h1
  · exact key (h2 ▸ t1 e he)
  · exact key (h2 ▸ t2 e he)
  · exact key (h2 ▸ t3 e he)

theorem findPair_upper (c d d' : Wc) (hd : d' = d ∨ d' = upper d) (h : findPair c d = none) :
    findPair (upper c) d' = none := by
  have t : ∀ f ∈ conv2to1, lower f.2.1 = f.2.1 ∧ (findPair (lower f.1) f.2.1).isSome ∧
      (findPair f.1 f.2.1).isSome := by decide +kernel
  cases hf : findPair (upper c) d' with
  | none => rfl
  | some e =>
    exfalso
    obtain ⟨t1, t2, t3⟩ := t _ (findPair_some hf)
    simp only [(C09_case_laws c).2.2.1] at t1 t2 t3
    have hdd : d' = d := by
      rcases hd with rfl | rfl
      · rfl
      · rw [(C09_case_laws d).2.2.1] at t1
        rcases lower_or_upper_fixed d with h1 | h1
        · rw [← t1]; exact h1
        · exact h1
    subst hdd
    rcases lower_or_upper_fixed c with h1 | h1
    · rw [h1, h] at t2; simp at t2
    · rw [h1, h] at t3; simp at t3

theorem unconvertible_map_upper (w : List Wc) (h : Unconvertible w) : Unconvertible (w.map upper) := by
  induction w using Unconvertible.induct with
  | case1 => trivial
  | case2 c => exact convSingle_upper c h
  | case3 c d rest ih =>
    obtain ⟨h1, h2, h3⟩ := h
    exact ⟨convSingle_upper c h1, findPair_upper c d _ (Or.inr rfl) h2, ih h3⟩

theorem unconvertible_upper_head (c : Wc) (cs : List Wc) (h : Unconvertible (c :: cs)) :
    Unconvertible (upper c :: cs) := by
  cases cs with
  | nil => exact convSingle_upper c h
  | cons d rest =>
    obtain ⟨h1, h2, h3⟩ := h
    exact ⟨convSingle_upper c h1, findPair_upper c d _ (Or.inl rfl) h2, h3⟩

theorem norm_unconvertible {w : List Wc} (h : Unconvertible w) : normSpec w = w := by
  have := C12_unchanged w h
  rw [normalise_eq, Option.some.injEq] at this
  exact this

theorem upper_digit (c : Wc) (h : isDigit c = true) : upper c = c := by
  simp only [isDigit, Bool.and_eq_true, decide_eq_true_eq] at h
  unfold upper
  repeat rw [if_neg (by omega)]

theorem map_lower_of_no_upper {w : List Wc} (h : ¬ HasUpper w) : w.map lower = w := by
  induction w with
  | nil => rfl
  | cons c cs ih =>
    have h1 : isUpper c = false := by
      cases hc : isUpper c with
      | false => rfl
      | true => exact absurd ⟨c, by simp, hc⟩ h
    have h2 : lower c = c := by
      simp only [isUpper, ne_eq, decide_not, Bool.or_eq_false_iff, Bool.not_eq_false', decide_eq_true_eq] at h1
      exact h1.1.symm
    rw [List.map_cons, h2, ih (fun ⟨d, hd, hu⟩ => h ⟨d, by simp [hd], hu⟩)]

theorem wordOk_upper {w : List Wc} (h : WordOk w) : WordOk (w.map upper) := by
  intro c hc
  rw [List.mem_map] at hc
  obtain ⟨d, hd, rfl⟩ := hc
  have := h d hd
  rcases upper_eq_or d with h1 | h1 <;> omega

/-- Dictionary acceptance of a lower case word carries over to any capitalised variant `v` of it whose case
type is one that the options allow. -/
theorem dictAccepts_capitalised (d : List Wc → SpellRes) (o : SpellOpts) (w v : List Wc)
    (hw : caseType w = .allLower) (hv : v.map lower = w.map lower) (h : dictAccepts d o w = true)
    (hcap : (caseType v = .firstUpper ∧ o.acceptFirstUppercase = true) ∨
      (caseType v = .allUpper ∧ (o.acceptAllUppercase = true ∨ lowerFirst v = w))) :
    dictAccepts d o v = true := by
  have hnu : ¬ HasUpper w := ((C11_caseType w _).1 hw).2
  have hm := map_lower_of_no_upper hnu
  have hlast : (v.getLast? == some 0x2E) = (w.getLast? == some 0x2E) := by
    have h1 := map_lower_getLast? v
    rw [hv, map_lower_getLast?] at h1
    rw [Bool.eq_iff_iff]
    simp only [beq_iff_eq]
    exact h1.symm
  have hwcap : effectiveCaps o (caseType w) = .allLower := by rw [hw]; rfl
  have hok : (d w == .ok || (o.ignoreDot && w.getLast? == some 0x2E && d w.dropLast == .ok)) = true := by
    unfold dictAccepts at h
    rw [hwcap, hm] at h
    exact h
  rw [Bool.or_eq_true, Bool.and_eq_true] at hok
  unfold dictAccepts
  rw [hlast, hv, hm]
  rcases hcap with ⟨h1, h2⟩ | ⟨h1, h2⟩
  · have e : effectiveCaps o (caseType v) = .firstUpper := by rw [h1]; rfl
    rw [e]
    simp only [caseOk, h2, Bool.and_true]
    rcases hok with h | ⟨ha, hb⟩
    · rw [h]; rfl
    · rw [ha, hb]; simp
  · by_cases hall : o.acceptAllUppercase = true
    · have e : effectiveCaps o (caseType v) = .allUpper := by rw [h1]; simp [effectiveCaps, hall]
      rw [e]
      simp only [caseOk]
      rcases hok with h | ⟨ha, hb⟩
      · rw [beq_iff_eq] at h; rw [h]; rfl
      · rw [beq_iff_eq] at hb; rw [ha, hb]; simp
    · have hlf : lowerFirst v = w := by
        rcases h2 with h2 | h2
        · exact absurd h2 hall
        · exact h2
      have e : effectiveCaps o (caseType v) = .complex := by
        rw [h1]; simp only [effectiveCaps, beq_self_eq_true, Bool.true_and]
        cases hb : o.acceptAllUppercase with
        | true => exact absurd hb hall
        | false => rfl
      rw [e]
      simp only [hlf, exactOk]
      rcases hok with h | ⟨ha, hb⟩
      · rw [h]; rfl
      · rw [ha, hb]; simp

/-- Acceptance of a capitalised variant of a lower case word. -/
theorem accepts_capitalised (dict : List Wc → SpellRes) (o : SpellOpts) (w v : List Wc)
    (hu : Unconvertible w) (huv : Unconvertible v) (hlen : v.length = w.length)
    (hw : caseType w = .allLower) (hv : v.map lower = w.map lower)
    (hdig : w.any isDigit = true → v.any isDigit = true)
    (hnw : o.ignoreNonwords = true → nonwordB w = false)
    (hcap : (caseType v = .firstUpper ∧ o.acceptFirstUppercase = true) ∨
      (caseType v = .allUpper ∧ (o.acceptAllUppercase = true ∨ lowerFirst v = w)))
    (h : accepts dict o w = true) : accepts dict o v = true := by
  unfold accepts at h ⊢
  rw [norm_unconvertible hu] at h
  rw [norm_unconvertible huv, hlen]
  simp only [Bool.or_eq_true, Bool.and_eq_true] at h ⊢
  rcases h with h | ⟨hl, ((⟨ha, hb⟩ | ⟨ha, hb⟩) | ⟨ha, hb⟩) | h⟩
  · rw [List.isEmpty_iff] at h
    subst h
    left
    rw [List.isEmpty_iff]
    exact List.eq_nil_of_length_eq_zero hlen
  · exact Or.inr ⟨hl, Or.inl (Or.inl (Or.inl ⟨ha, hdig hb⟩))⟩
  · rw [hw] at hb; simp at hb
  · rw [hnw ha] at hb; simp at hb
  · exact Or.inr ⟨hl, Or.inr (dictAccepts_capitalised _ o w v hw hv h hcap)⟩

/-- C20: an accepted lower case word (already normalised; not accepted merely because it looks like a URL or
e-mail address) is also accepted with its first letter capitalised when ACCEPT_FIRST_UPPERCASE is on. -/
theorem C20_first_uppercase (dict : List Wc → SpellRes) (o : SpellOpts) (c : Wc) (cs : List Wc)
    (hw : WordOk (c :: cs)) (hu : Unconvertible (c :: cs)) (hl : caseType (c :: cs) = .allLower)
    (hnw : o.ignoreNonwords = true → isNonword (c :: cs) = some false)
    (hopt : o.acceptFirstUppercase = true) (h : Accepted dict o (c :: cs)) : Accepted dict o (upper c :: cs) := by
  have hw' : WordOk (upper c :: cs) := by
    intro x hx
    rw [List.mem_cons] at hx
    rcases hx with rfl | hx
    · have := hw c (by simp)
      rcases upper_eq_or c with h1 | h1 <;> omega
    · exact hw x (by simp [hx])
  rw [accepted_iff _ _ _ hw] at h
  rw [accepted_iff _ _ _ hw']
  have hspec := (C11_caseType _ _).1 hl
  have hlow : lower c = c := by
    have := map_lower_of_no_upper hspec.2
    simp only [List.map_cons, List.cons.injEq] at this
    exact this.1
  cases hc : isLower c with
  | false =>
    have : upper c = c := by
      simp only [isLower, ne_eq, decide_not, Bool.not_eq_false', decide_eq_true_eq] at hc
      exact hc.symm
    rw [this]; exact h
  | true =>
    obtain ⟨_, l2, l3, _, l5, _, _, _, l9⟩ := C09_case_laws c
    have hupc : isUpper (upper c) = true := l9 hc
    have hncs : ¬ HasUpper cs := fun ⟨d, hd, hu⟩ => hspec.2 ⟨d, by simp [hd], hu⟩
    have hnotlow : isLower (upper c) = false := by simp [isLower, l2]
    refine accepts_capitalised dict o (c :: cs) (upper c :: cs) hu (unconvertible_upper_head c cs hu) rfl hl
      (by simp [l3]) ?_ ?_ ?_ h
    · simp only [List.any_cons, Bool.or_eq_true]
      rintro (hd | hd)
      · left; rw [upper_digit c hd]; exact hd
      · exact Or.inr hd
    · intro ho
      have := hnw ho
      unfold nonwordB; rw [this]; rfl
    · by_cases hlc : HasLower cs
      · left
        refine ⟨(C11_caseType _ _).2 ⟨?_, hncs, upper c, rfl, hupc⟩, hopt⟩
        obtain ⟨d, hd, hx⟩ := hlc
        exact ⟨d, by simp [hd], hx⟩
      · right
        refine ⟨(C11_caseType _ _).2 ⟨⟨upper c, by simp, hupc⟩, ?_⟩, Or.inr ?_⟩
        · rintro ⟨d, hd, hx⟩
          rw [List.mem_cons] at hd
          rcases hd with rfl | hd
          · rw [hnotlow] at hx; simp at hx
          · exact hlc ⟨d, hd, hx⟩
        · simp only [lowerFirst, l3, hlow]

/-- C20: ... and in capitals throughout when ACCEPT_ALL_UPPERCASE is on. -/
theorem C20_all_uppercase (dict : List Wc → SpellRes) (o : SpellOpts) (w : List Wc)
    (hw : WordOk w) (hu : Unconvertible w) (hl : caseType w = .allLower)
    (hnw : o.ignoreNonwords = true → isNonword w = some false)
    (hopt : o.acceptAllUppercase = true) (h : Accepted dict o w) : Accepted dict o (w.map upper) := by
  rw [accepted_iff _ _ _ hw] at h
  rw [accepted_iff _ _ _ (wordOk_upper hw)]
  have hspec := (C11_caseType _ _).1 hl
  refine accepts_capitalised dict o w (w.map upper) hu (unconvertible_map_upper w hu) (by simp) hl ?_ ?_ ?_ ?_ h
  · rw [List.map_map]
    apply List.map_congr_left
    intro c _
    exact (C09_case_laws c).2.2.1
  · simp only [List.any_eq_true, List.mem_map]
    rintro ⟨d, hd, hx⟩
    exact ⟨d, ⟨d, hd, upper_digit d hx⟩, hx⟩
  · intro ho
    have := hnw ho
    unfold nonwordB; rw [this]; rfl
  · right
    refine ⟨(C11_caseType _ _).2 ⟨?_, ?_⟩, Or.inl hopt⟩
    · obtain ⟨d, hd, hx⟩ := hspec.1
      exact ⟨upper d, List.mem_map.2 ⟨d, hd, rfl⟩, (C09_case_laws d).2.2.2.2.2.2.2.2 hx⟩
    · rintro ⟨e, he, hx⟩
      rw [List.mem_map] at he
      obtain ⟨d, _, rfl⟩ := he
      have := (C09_case_laws d).2.1
      simp [isLower, this] at hx

/-- The exclusion of URL-like words in C20 is necessary: "www.x.fi" is accepted without consulting the
dictionary, "WWW.X.FI" is not. -/
theorem C20_nonword_violation :
    Accepted (fun _ => .failed) {} [0x77, 0x77, 0x77, 0x2E, 0x78, 0x2E, 0x66, 0x69] ∧
    ¬ Accepted (fun _ => .failed) {} ([0x77, 0x77, 0x77, 0x2E, 0x78, 0x2E, 0x66, 0x69].map upper) := by
  unfold Accepted; decide +kernel

/-- Non-vacuity: "kissa". -/
example : WordOk [0x6B, 0x69, 0x73, 0x73, 0x61] ∧ Unconvertible [0x6B, 0x69, 0x73, 0x73, 0x61] ∧
    caseType [0x6B, 0x69, 0x73, 0x73, 0x61] = .allLower ∧ isNonword [0x6B, 0x69, 0x73, 0x73, 0x61] = some false ∧
    Accepted (fun w => if w = [0x6B, 0x69, 0x73, 0x73, 0x61] then .ok else .failed) {} [0x6B, 0x69, 0x73, 0x73, 0x61] := by
  simp only [WordOk, Unconvertible, Accepted]; decide +kernel

/-! ### C21: ACCEPT_FIRST_UPPERCASE off -/

/-- C21 as stated is false: with ACCEPT_FIRST_UPPERCASE off, "E-X" is accepted although the dictionary has
only "e-X" (verdict OK, no capital required); the option is not consulted for mixed case words. -/
theorem C21_violation :
    Accepted (fun w => if w = [0x65, 0x61, 0x2D, 0x58] then .ok else .failed) { acceptFirstUppercase := false }
      [0x45, 0x61, 0x2D, 0x58] := by
  unfold Accepted; decide +kernel

/-- C21 for capitalised words (first letter upper case, all other letters lower case): with
ACCEPT_FIRST_UPPERCASE off such a word is accepted only if the dictionary demands the capital (verdict
CAP_FIRST for the lower case form, without its final dot if IGNORE_DOT is on), or if one of the ignore options
applies. Missing for the full claim: mixed case words, where the code violates it (`C21_violation`). -/
theorem C21_first_uppercase_partial (dict : List Wc → SpellRes) (o : SpellOpts) (w : List Wc) (hw : WordOk w)
    (hu : Unconvertible w) (ht : caseType w = .firstUpper) (ho : o.acceptFirstUppercase = false)
    (h : Accepted dict o w) :
    (o.ignoreNumbers = true ∧ ∃ c ∈ w, isDigit c = true) ∨ (o.ignoreNonwords = true ∧ isNonword w = some true) ∨
    effDict dict o.acceptMissingHyphens (w.map lower) = .capFirst ∨
    (o.ignoreDot = true ∧ ∃ v, w.map lower = v ++ [0x2E] ∧ effDict dict o.acceptMissingHyphens v = .capFirst) := by
  rw [accepted_iff _ _ _ hw] at h
  unfold accepts at h
  rw [norm_unconvertible hu] at h
  simp only [Bool.or_eq_true, Bool.and_eq_true] at h
  rcases h with h | ⟨hl, ((⟨ha, hb⟩ | ⟨ha, hb⟩) | ⟨ha, hb⟩) | h⟩
  · rw [List.isEmpty_iff] at h; subst h; simp [caseType] at ht
  · left; exact ⟨ha, by simpa using hb⟩
  · rw [ht] at hb; simp at hb
  · right; left; exact ⟨ha, by unfold nonwordB at hb; simpa using hb⟩
  · right; right
    have hcap : effectiveCaps o (caseType w) = .firstUpper := by rw [ht]; rfl
    unfold dictAccepts at h
    rw [hcap] at h
    simp only [caseOk, ho, Bool.and_false, Bool.false_or, Bool.or_eq_true, Bool.and_eq_true, beq_iff_eq] at h
    rcases h with h | ⟨⟨h1, h2⟩, h3⟩
    · exact Or.inl h
    · refine Or.inr ⟨h1, (w.map lower).dropLast, ?_, h3⟩
      exact dropLast_append_getLast? ((map_lower_getLast? w).2 h2)

/-- Non-vacuity: "Maija" with verdict CAP_FIRST is accepted, with verdict OK it is not. -/
example : Accepted (fun _ => .capFirst) { acceptFirstUppercase := false } [0x4D, 0x61] ∧
    ¬ Accepted (fun _ => .ok) { acceptFirstUppercase := false } [0x4D, 0x61] ∧
    caseType [0x4D, 0x61] = .firstUpper := by
  unfold Accepted; decide +kernel

/-! ### C24: ACCEPT_MISSING_HYPHENS -/

/-- C24: with ACCEPT_MISSING_HYPHENS on the result is exactly the one obtained with the option off from a
dictionary that, for a word it does not know, answers for the word with its missing edge hyphens added. -/
theorem C24_exact (dict : List Wc → SpellRes) (o : SpellOpts) (w : List Wc) (hw : WordOk w) :
    Accepted dict { o with acceptMissingHyphens := true } w ↔
      Accepted (withEdges dict) { o with acceptMissingHyphens := false } w := by
  rw [accepted_iff _ _ _ hw, accepted_iff _ _ _ hw]
  have hd : ∀ b d v, dictAccepts d { o with acceptMissingHyphens := b } v = dictAccepts d o v := by
    intro b d v
    have hco : ∀ t r, caseOk { o with acceptMissingHyphens := b } t r = caseOk o t r := by
      intro t r; cases t <;> rfl
    unfold dictAccepts
    simp only [hco]
    rfl
  unfold accepts
  simp only [hd, effDict, if_true, Bool.false_eq_true, if_false]

/-- C24: the option only ever accepts more. -/
theorem C24_monotone (dict : List Wc → SpellRes) (o : SpellOpts) (w : List Wc) (hw : WordOk w)
    (h : Accepted dict { o with acceptMissingHyphens := false } w) :
    Accepted dict { o with acceptMissingHyphens := true } w := by
  rw [C24_exact dict o w hw]
  rw [accepted_iff _ _ _ hw] at h ⊢
  generalize ho : { o with acceptMissingHyphens := false } = o' at *
  have hm : o'.acceptMissingHyphens = false := by rw [← ho]
  unfold accepts at h ⊢
  rw [hm] at h ⊢
  simp only [effDict, Bool.false_eq_true, if_false, Bool.or_eq_true, Bool.and_eq_true] at h ⊢
  rcases h with h | ⟨hl, h | h⟩
  · exact Or.inl h
  · exact Or.inr ⟨hl, Or.inl h⟩
  · refine Or.inr ⟨hl, Or.inr ?_⟩
    have hex : ∀ c v, exactOk o' c (dict v) = true → exactOk o' c (withEdges dict v) = true := by
      intro c v hv
      unfold withEdges
      split
      · rename_i hf; rw [hf] at hv; simp [exactOk] at hv
      · exact hv
    have hco : ∀ t v, caseOk o' t (dict v) = true → caseOk o' t (withEdges dict v) = true := by
      intro t v hv
      unfold withEdges
      split
      · rename_i hf; rw [hf] at hv; cases t <;> simp [caseOk] at hv
      · exact hv
    unfold dictAccepts at h ⊢
    generalize effectiveCaps o' (caseType (normSpec w)) = t at *
    cases t <;> simp only [Bool.or_eq_true, Bool.and_eq_true] at h ⊢ <;>
      first
      | exact h.imp (hco _ _) (fun h => ⟨h.1, hco _ _ h.2⟩)
      | exact h.imp (hex _ _) (fun h => ⟨h.1, hex _ _ h.2⟩)

/-- C24 in terms of words: an all lower case word `w` (already normalised, at least two characters, no
hyphen at either end, no IGNORE option applying) is accepted with the option on exactly if, with the option off,
`w` itself is accepted, or the dictionary does not know `w` in any capitalisation and `-w-` is accepted. -/
theorem C24_lower_words (dict : List Wc → SpellRes) (o : SpellOpts) (w : List Wc) (hw : WordOk w)
    (hu : Unconvertible w) (hl2 : 2 ≤ w.length) (hl : w.length ≤ 253) (hcase : caseType w = .allLower)
    (hh : w.head? ≠ some 0x2D) (ht : w.getLast? ≠ some 0x2D)
    (hdot : o.ignoreDot = false) (hnum : o.ignoreNumbers = false) (hnw : o.ignoreNonwords = false) :
    Accepted dict { o with acceptMissingHyphens := true } w ↔
      (Accepted dict { o with acceptMissingHyphens := false } w ∨
       (dict w = .failed ∧ Accepted dict { o with acceptMissingHyphens := false } (0x2D :: w ++ [0x2D]))) := by
  have hw2 : WordOk (0x2D :: w ++ [0x2D]) := by
    intro c hc
    simp only [List.cons_append, List.mem_cons, List.mem_append, List.not_mem_nil, or_false] at hc
    rcases hc with rfl | hc | rfl
    · omega
    · exact hw c hc
    · omega
  have hn2 : normSpec (0x2D :: w ++ [0x2D]) = 0x2D :: w ++ [0x2D] := by
    rw [normSpec_append (0x2D :: w) 0x2D [] (by decide +kernel)]
    have h1 : normSpec (0x2D :: w) = 0x2D :: w := by
      rw [normSpec_cons_single 0x2D w (fun d _ => findPair_none_of (fun f hf => Or.inl ?_)),
        norm_unconvertible hu]
      · rfl
      · have : ∀ f ∈ conv2to1, f.1 ≠ 0x2D := by decide
        exact this f hf
    rw [h1]; rfl
  have hnu : ¬ HasUpper w := ((C11_caseType w _).1 hcase).2
  have hlo : HasLower w := ((C11_caseType w _).1 hcase).1
  have hm := map_lower_of_no_upper hnu
  have hcase2 : caseType (0x2D :: w ++ [0x2D]) = .allLower := by
    rw [C11_caseType]
    have hd : isUpper 0x2D = false := by decide
    constructor
    · obtain ⟨c, hc, hx⟩ := hlo
      exact ⟨c, by simp [hc], hx⟩
    · rintro ⟨c, hc, hx⟩
      simp only [List.cons_append, List.mem_cons, List.mem_append, List.not_mem_nil, or_false] at hc
      rcases hc with rfl | hc | rfl
      · rw [hd] at hx; simp at hx
      · exact hnu ⟨c, hc, hx⟩
      · rw [hd] at hx; simp at hx
  have hm2 : (0x2D :: w ++ [0x2D]).map lower = 0x2D :: w ++ [0x2D] := by
    rw [List.map_append, List.map_cons, hm]; rfl
  have he : edgeHyphens w = some (0x2D :: w ++ [0x2D]) := by
    unfold edgeHyphens
    rw [if_neg (by omega), if_neg hh, if_neg ht]
  have hne : w.isEmpty = false := by cases w with | nil => simp at hl2 | cons => rfl
  rw [accepted_iff _ _ _ hw, accepted_iff _ _ _ hw, accepted_iff _ _ _ hw2]
  have hacc : ∀ b v, normSpec v = v → v.isEmpty = false → v.length ≤ 255 → caseType v = .allLower → v.map lower = v →
      accepts dict { o with acceptMissingHyphens := b } v = (effDict dict b v == .ok) := by
    intro b v h1 h2 h3 h4 h5
    unfold accepts
    simp only [h1, h2, h3, h4, hnum, hnw, dictAccepts, h5, hdot, caseOk, Bool.false_and, Bool.or_false,
      Bool.false_or, decide_true, Bool.true_and]
    have h6 : (CaseType.allLower == CaseType.allUpper) = false := by decide
    rw [h6]; simp only [Bool.and_false, Bool.false_or]; rfl
  rw [hacc true w (norm_unconvertible hu) hne (by omega) hcase hm,
    hacc false w (norm_unconvertible hu) hne (by omega) hcase hm,
    hacc false _ hn2 rfl (by simp; omega) hcase2 hm2]
  simp only [effDict, if_true, Bool.false_eq_true, if_false, beq_iff_eq, withEdges, he]
  by_cases hf : dict w = .failed
  · simp [hf]
  · simp [hf]

/-- Non-vacuity: a dictionary that knows only "-a-x-". -/
example : Accepted (fun w => if w = [0x2D, 0x61, 0x2D, 0x78, 0x2D] then .ok else .failed)
      { acceptMissingHyphens := true } [0x61, 0x2D, 0x78] ∧
    ¬ Accepted (fun w => if w = [0x2D, 0x61, 0x2D, 0x78, 0x2D] then .ok else .failed)
      {} [0x61, 0x2D, 0x78] := by
  unfold Accepted; decide +kernel

end Verif.Props
