import Verif.Model.HfstSpell
import Verif.Props.SpellExact
import Verif.Props.Utf8
import Verif.Props.SpellUtils
import Verif.Lemmas.SuggestInv
import Verif.Lemmas.SuggestSplit
import Verif.Props.Suggest
/-!
# C112: spelling and suggestions with a ZHFST dictionary
-/

set_option linter.unusedSimpArgs false
set_option linter.unusedVariables false

namespace Verif.Hfst
open Verif Verif.Props

/-! ## Specification -/

/-- The string can be encoded in UTF-8 and has no NUL. -/
def Encodable (w : List Wc) : Prop := ∀ c ∈ w, ValidCp c ∧ c ≠ 0

/-- The HFST speller accepts the word exactly as it is written. -/
def Knows (accept : List Nat → Bool) (w : List Wc) : Prop := accept (encodeStr w) = true

/-- The word with its first letter in upper case. -/
def capital : List Wc → List Wc
  | [] => []
  | c :: rest => upper c :: rest

/-- The same word, apart from the case of its letters. -/
def SameLetters (u v : List Wc) : Prop := u.map lower = v.map lower

/-- The first of the words with the same key, for each key, in order. -/
def firsts (key : List Wc → List Wc) : List (List Wc) → List (List Wc)
  | [] => []
  | x :: xs => x :: (firsts key xs).filter fun y => key y ≠ key x

/-! ## Encoding -/

theorem encode_no_nul {w : List Wc} (h : Encodable w) : (encodeStr w).takeWhile (· ≠ 0) = encodeStr w := by
  obtain ⟨bytes, h1, h2⟩ := C14_no_nul w h
  rw [(utf8FromUcs4_eq w).1 fun c hc => (h c hc).1] at h1
  cases h1
  generalize encodeStr w = l at h2
  induction l with
  | nil => rfl
  | cons x xs ih =>
    rw [List.mem_cons, not_or] at h2
    rw [List.takeWhile_cons_of_pos (by simpa using fun h => h2.1 h.symm), ih h2.2]

theorem doSpell_eq (accept : List Nat → Bool) {buf : List Wc} {wlen : Nat} (hl : wlen ≤ buf.length) (he : Encodable (buf.take wlen)) :
    hfstDoSpell accept buf wlen = some (if accept (encodeStr (buf.take wlen)) then .ok else .failed) := by
  unfold hfstDoSpell
  rw [if_neg (by omega), (utf8FromUcs4_eq _).1 fun c hc => (he c hc).1]
  simp only [Option.bind_eq_bind, Option.bind_some, encode_no_nul he]
  rfl

theorem caseValid_table : ∀ c < 0x530, c ≠ 0 → (upper c ≠ 0 ∧ upper c < 0xd800) ∧ (lower c ≠ 0 ∧ lower c < 0xd800) := by decide +kernel

theorem upper_valid {c : Wc} (h : ValidCp c ∧ c ≠ 0) : ValidCp (upper c) ∧ upper c ≠ 0 := by
  rcases Nat.lt_or_ge c 0x530 with hl | hl
  · obtain ⟨⟨h1, h2⟩, _⟩ := caseValid_table c hl h.2
    refine ⟨?_, h1⟩
    unfold ValidCp
    omega
  · rw [upper_of_ge c hl]; exact h

theorem lower_valid {c : Wc} (h : ValidCp c ∧ c ≠ 0) : ValidCp (lower c) ∧ lower c ≠ 0 := by
  rcases Nat.lt_or_ge c 0x530 with hl | hl
  · obtain ⟨_, ⟨h1, h2⟩⟩ := caseValid_table c hl h.2
    refine ⟨?_, h1⟩
    unfold ValidCp
    omega
  · rw [lower_of_ge c hl]; exact h

theorem encodable_map_upper {w : List Wc} (h : Encodable w) : Encodable (w.map upper) := by
  intro c hc
  obtain ⟨d, hd, rfl⟩ := List.mem_map.1 hc
  exact upper_valid (h d hd)

theorem encodable_map_lower {w : List Wc} (h : Encodable w) : Encodable (w.map lower) := by
  intro c hc
  obtain ⟨d, hd, rfl⟩ := List.mem_map.1 hc
  exact lower_valid (h d hd)

theorem encodable_cons {c : Wc} {w : List Wc} : Encodable (c :: w) ↔ (ValidCp c ∧ c ≠ 0) ∧ Encodable w := by
  unfold Encodable
  simp

theorem upperLoop_eq : ∀ (n i : Nat) (buf : List Wc), i + n ≤ buf.length →
    ∃ r, hfstUpperLoop buf i n = some r ∧ r.length = buf.length ∧
      ∀ j, r[j]? = if i ≤ j ∧ j < i + n then (buf[j]?).map upper else buf[j]? := by
  intro n
  induction n with
  | zero =>
    intro i buf _
    refine ⟨buf, rfl, rfl, fun j => ?_⟩
    rw [if_neg (by omega)]
  | succ n ih =>
    intro i buf hl
    have hi : i < buf.length := by omega
    have hr : rd buf i = some buf[i] := List.getElem?_eq_getElem hi
    simp only [hfstUpperLoop, hr, wr_eq_some _ hi, Option.bind_eq_bind, Option.bind_some]
    obtain ⟨r, h1, h2, h3⟩ := ih (i + 1) (buf.set i (upper buf[i])) (by simp; omega)
    refine ⟨r, h1, by simpa using h2, fun j => ?_⟩
    rw [h3 j]
    by_cases hj : j = i
    · subst hj
      rw [if_neg (by omega), if_pos (by omega), List.getElem?_set, if_pos rfl, if_pos hi, List.getElem?_eq_getElem hi]
      rfl
    · have e : (buf.set i (upper buf[i]))[j]? = buf[j]? := by rw [List.getElem?_set, if_neg (by omega)]
      rw [e]
      by_cases hc : i + 1 ≤ j ∧ j < i + 1 + n
      · rw [if_pos hc, if_pos (by omega)]
      · rw [if_neg hc, if_neg (by omega)]

theorem upperLoop_take {c : Wc} {rest tail : List Wc} :
    ∃ r, hfstUpperLoop (c :: (rest ++ tail)) 1 rest.length = some r ∧ (rest.length + 1) ≤ r.length ∧
      r.take (rest.length + 1) = c :: rest.map upper := by
  obtain ⟨r, h1, h2, h3⟩ := upperLoop_eq rest.length 1 (c :: (rest ++ tail)) (by simp; omega)
  refine ⟨r, h1, by rw [h2]; simp, ?_⟩
  apply List.ext_getElem?
  intro j
  rw [List.getElem?_take]
  cases j with
  | zero =>
    rw [if_pos (by omega), h3 0, if_neg (by omega)]
    rfl
  | succ j =>
    simp only [List.getElem?_cons_succ, List.getElem?_map]
    by_cases hj : j < rest.length
    · rw [if_pos (by omega), h3, if_pos (by omega)]
      simp only [List.getElem?_cons_succ]
      rw [List.getElem?_append_left hj]
    · rw [if_neg (by omega), List.getElem?_eq_none_iff.2 (by omega)]
      rfl

/-! ## Verdicts -/

theorem spell_eq (accept : List Nat → Bool) (up : Bool) {c : Wc} {rest tail : List Wc} (he : Encodable (c :: rest)) :
    hfstSpell accept up (c :: (rest ++ tail)) (rest.length + 1) =
      some (if accept (encodeStr (c :: rest)) then .ok
        else if isLower c = true ∧ accept (encodeStr (upper c :: rest)) = true then .capFirst
        else if isLower c = true ∧ up = true ∧ caseType (upper c :: rest) = .firstUpper ∧
          accept (encodeStr (upper c :: rest.map upper)) = true then .capError
        else .failed) := by
  have t0 : (c :: (rest ++ tail) ++ [0]).take (rest.length + 1) = c :: rest := by
    simp [List.take_append]
  have t1 : (upper c :: (rest ++ tail) ++ [0]).take (rest.length + 1) = upper c :: rest := by
    simp [List.take_append]
  have he1 : Encodable (upper c :: rest) := encodable_cons.2 ⟨upper_valid (encodable_cons.1 he).1, (encodable_cons.1 he).2⟩
  have he2 : Encodable (upper c :: rest.map upper) :=
    encodable_cons.2 ⟨upper_valid (encodable_cons.1 he).1, encodable_map_upper (encodable_cons.1 he).2⟩
  have hlen : ∀ x : Wc, rest.length + 1 ≤ (x :: (rest ++ tail) ++ [0]).length := by
    intro x
    simp only [List.length_append, List.length_cons]
    omega
  have d0 := doSpell_eq accept (buf := c :: (rest ++ tail) ++ [0]) (wlen := rest.length + 1) (hlen c) (by rw [t0]; exact he)
  have d1 := doSpell_eq accept (buf := upper c :: (rest ++ tail) ++ [0]) (wlen := rest.length + 1) (hlen _) (by rw [t1]; exact he1)
  rw [t0] at d0
  rw [t1] at d1
  have hw : wr (c :: (rest ++ tail) ++ [0]) 0 (upper c) = some (upper c :: (rest ++ tail) ++ [0]) := rfl
  have hrd : rd (c :: (rest ++ tail) ++ [0]) 0 = some c := rfl
  unfold hfstSpell
  simp only [d0, hrd, Option.bind_eq_bind, Option.bind_some]
  cases ha : accept (encodeStr (c :: rest)) with
  | true => simp
  | false =>
    cases hl : isLower c with
    | false => simp
    | true =>
      rw [if_pos (by simp)]
      simp only [hw, d1, Option.bind_some]
      cases hb : accept (encodeStr (upper c :: rest)) with
      | true => simp
      | false =>
        simp only [Bool.false_eq_true, if_false, reduceCtorEq, t1]
        by_cases hup : up = true ∧ caseType (upper c :: rest) = .firstUpper
        · rw [if_pos hup]
          obtain ⟨r, h1, h2, h3⟩ := upperLoop_take (c := upper c) (rest := rest) (tail := tail ++ [0])
          have e : upper c :: (rest ++ tail) ++ [0] = upper c :: (rest ++ (tail ++ [0])) := by simp
          rw [e]
          have d2 := doSpell_eq accept (buf := r) (wlen := rest.length + 1) h2 (by rw [h3]; exact he2)
          rw [h3] at d2
          simp only [Nat.add_sub_cancel, h1, Option.bind_some, d2]
          cases hcx : accept (encodeStr (upper c :: rest.map upper)) with
          | true => simp [hup]
          | false => simp
        · rw [if_neg hup]
          have : ¬ (up = true ∧ caseType (upper c :: rest) = .firstUpper ∧ accept (encodeStr (upper c :: rest.map upper)) = true) :=
            fun h => hup ⟨h.1, h.2.1⟩
          simp [this]

/-- C112: the verdict on the first `wlen` characters of a string. OK: the speller knows the word. Capital missing: the word begins with
a small letter and is known with a capital, not without. Wrong capitals: with ACCEPT_ALL_UPPERCASE, a word of small letters (more than
the first one) that is known in capitals, not otherwise. -/
theorem C112_verdict (accept : List Nat → Bool) (up : Bool) {word w : List Wc} {wlen : Nat} (h1 : 1 ≤ wlen) (hl : wlen ≤ word.length)
    (hw : w = word.take wlen) (he : Encodable w) :
    ∃ r, hfstSpell accept up word wlen = some r ∧
      (r = .ok ↔ Knows accept w) ∧
      (r = .capFirst ↔ ¬ Knows accept w ∧ (∃ c ∈ w.head?, isLower c = true) ∧ Knows accept (capital w)) ∧
      (r = .capError ↔ ¬ Knows accept w ∧ ¬ Knows accept (capital w) ∧ up = true ∧ (∃ c ∈ w.head?, isLower c = true) ∧
        HasLower w.tail ∧ ¬ HasUpper w ∧ Knows accept (w.map upper)) := by
  cases word with
  | nil => simp at hl; omega
  | cons c all =>
    obtain ⟨n, rfl⟩ : ∃ n, wlen = n + 1 := ⟨wlen - 1, by omega⟩
    simp only [List.length_cons] at hl
    have hn : (all.take n).length = n := by rw [List.length_take]; omega
    have hall : all = all.take n ++ all.drop n := (List.take_append_drop n all).symm
    generalize hrest : all.take n = rest at *
    generalize all.drop n = tail at *
    have hw' : w = c :: rest := by rw [hw, List.take_succ_cons, hrest]
    subst hw'
    rw [hall, ← hn, spell_eq accept up he]
    refine ⟨_, rfl, ?_⟩
    have hU : isLower c = true → isUpper (upper c) = true := (C09_case_laws c).2.2.2.2.2.2.2.2
    have hct : isLower c = true → (caseType (upper c :: rest) = .firstUpper ↔ HasLower rest ∧ ¬ HasUpper (c :: rest)) := by
      intro hlc
      rw [C11_caseType]
      simp only [CaseSpec, List.tail_cons, List.head?_cons, Option.some.injEq, exists_eq_left', hU hlc, and_true]
      have nu : isLower (upper c) = false := not_upper_and_lower _ (hU hlc)
      have nc : isUpper c = false := by
        cases h : isUpper c with
        | false => rfl
        | true => have := not_upper_and_lower c h; rw [hlc] at this; cases this
      simp only [HasLower, HasUpper, List.mem_cons, exists_eq_or_imp, nu, nc, Bool.false_eq_true, false_or]
    simp only [Knows, capital, List.head?_cons, Option.mem_def, Option.some.injEq, exists_eq_left', List.tail_cons, List.map_cons]
    cases hlc : isLower c with
    | false => cases ha : accept (encodeStr (c :: rest)) <;> simp
    | true =>
      by_cases hx : HasLower rest ∧ ¬ HasUpper (c :: rest)
      · have hq := (hct hlc).2 hx
        cases ha : accept (encodeStr (c :: rest)) <;> cases hb : accept (encodeStr (upper c :: rest)) <;>
          cases hd : accept (encodeStr (upper c :: rest.map upper)) <;> cases up <;> simp [hq, hx]
      · have hq : ¬ caseType (upper c :: rest) = .firstUpper := fun h => hx ((hct hlc).1 h)
        have hx' : ∀ p : Prop, ¬ (HasLower rest ∧ ¬ HasUpper (c :: rest) ∧ p) := fun p h => hx ⟨h.1, h.2.1⟩
        cases ha : accept (encodeStr (c :: rest)) <;> cases hb : accept (encodeStr (upper c :: rest)) <;>
          cases hd : accept (encodeStr (upper c :: rest.map upper)) <;> cases up <;> simp [hq, hx'] <;>
          exact fun h => Classical.byContradiction fun h' => hx ⟨h, h'⟩

/-! ## Words accepted through the public interface -/

/-- `dict` gives the verdicts of the HFST speller. -/
def Backs (accept : List Nat → Bool) (up : Bool) (dict : List Wc → SpellRes) : Prop :=
  ∀ w, Encodable w → hfstSpell accept up w w.length = some (dict w)

theorem spell_nil (accept : List Nat → Bool) (up : Bool) :
    hfstSpell accept up [] 0 = some (if accept (encodeStr []) then .ok else .failed) := by
  have d0 := doSpell_eq accept (buf := [0]) (wlen := 0) (by simp) (by intro c hc; simp at hc)
  have hr : rd [0] 0 = some 0 := rfl
  have hl : isLower 0 = false := by decide
  unfold hfstSpell
  simp only [List.nil_append, d0, hr, hl, Option.bind_eq_bind, Option.bind_some, Bool.false_eq_true, and_false, if_false]
  rfl

theorem backs_ok {accept : List Nat → Bool} {up : Bool} {dict : List Wc → SpellRes} (hb : Backs accept up dict) {w : List Wc}
    (he : Encodable w) : dict w = .ok ↔ Knows accept w := by
  have h := hb w he
  cases w with
  | nil =>
    rw [List.length_nil, spell_nil] at h
    injection h with h
    rw [← h]
    unfold Knows
    cases accept (encodeStr []) <;> simp
  | cons c rest =>
    obtain ⟨r, h1, h2, _⟩ := C112_verdict accept up (word := c :: rest) (wlen := rest.length + 1) (by omega) (by simp) rfl
      (by rw [List.take_of_length_le (by simp)]; exact he)
    rw [List.length_cons, h1] at h
    injection h with h
    rw [← h, h2, List.take_of_length_le (by simp)]

theorem backs_cons {accept : List Nat → Bool} {up : Bool} {dict : List Wc → SpellRes} (hb : Backs accept up dict) {c : Wc}
    {rest : List Wc} (he : Encodable (c :: rest)) :
    (dict (c :: rest) = .capFirst ↔ ¬ Knows accept (c :: rest) ∧ isLower c = true ∧ Knows accept (upper c :: rest)) ∧
    (dict (c :: rest) = .capError ↔ ¬ Knows accept (c :: rest) ∧ ¬ Knows accept (upper c :: rest) ∧ up = true ∧ isLower c = true ∧
      HasLower rest ∧ ¬ HasUpper (c :: rest) ∧ Knows accept ((c :: rest).map upper)) := by
  have h := hb _ he
  obtain ⟨r, h1, _, h3, h4⟩ := C112_verdict accept up (word := c :: rest) (wlen := rest.length + 1) (by omega) (by simp) rfl
    (by rw [List.take_of_length_le (by simp)]; exact he)
  rw [List.length_cons, h1] at h
  injection h with h
  rw [List.take_of_length_le (by simp)] at h3 h4
  rw [← h]
  simp only [List.head?_cons, Option.mem_def, Option.some.injEq, exists_eq_left', capital, List.tail_cons] at h3 h4
  exact ⟨h3, h4⟩

theorem lower_eq_schwa (c : Wc) (h : lower c = 0x18F) : c = 0x18F := by
  rcases Nat.lt_or_ge c 0x530 with hl | hl
  · have t : ∀ c < 0x530, lower c = 0x18F → c = 0x18F := by decide +kernel
    exact t c hl h
  · rw [lower_of_ge c hl] at h; exact h

theorem upper_of_not_lower (c : Wc) (h : isLower c = false) : upper c = c := by
  unfold isLower at h
  have : c = upper c := by simpa using h
  exact this.symm

theorem no_upper_lowered {n : List Wc} (h : 0x18F ∉ n) : ¬ HasUpper (n.map lower) := by
  rintro ⟨c, hc, hu⟩
  obtain ⟨d, hd, rfl⟩ := List.mem_map.1 hc
  exact h (lower_eq_schwa d (isUpper_lower d hu) ▸ hd)

theorem map_upper_of_no_lower {w : List Wc} (h : ¬ HasLower w) : w.map upper = w := by
  induction w with
  | nil => rfl
  | cons c cs ih =>
    have hc : isLower c = false := by
      cases hx : isLower c with
      | false => rfl
      | true => exact absurd ⟨c, by simp, hx⟩ h
    rw [List.map_cons, upper_of_not_lower c hc, ih fun ⟨x, hx, hu⟩ => h ⟨x, by simp [hx], hu⟩]

/-- A word whose first letter is a known word's capital made small is known at least as a name. -/
theorem first_small {accept : List Nat → Bool} {up : Bool} {dict : List Wc → SpellRes} (hb : Backs accept up dict) {c : Wc}
    {rest : List Wc} (he : Encodable (c :: rest)) (hk : Knows accept (c :: rest)) (hu : isUpper c = true) (h18 : c ≠ 0x18F) :
    dict (lower c :: rest) = .ok ∨ dict (lower c :: rest) = .capFirst := by
  obtain ⟨_, _, _, ul, _, uu, _, ll, _⟩ := C09_case_laws c
  have he' : Encodable (lower c :: rest) := encodable_cons.2 ⟨lower_valid (encodable_cons.1 he).1, (encodable_cons.1 he).2⟩
  by_cases h : Knows accept (lower c :: rest)
  · exact .inl ((backs_ok hb he').2 h)
  · refine .inr ((backs_cons hb he').1.2 ⟨h, ll hu h18, ?_⟩)
    rw [ul, uu hu]
    exact hk

/-- With ACCEPT_MISSING_HYPHENS the verdicts other than rejection stay. -/
theorem eff_of {dict : List Wc → SpellRes} {w : List Wc} {r : SpellRes} (b : Bool) (h : dict w = r) (hr : r ≠ .failed) : effDict dict b w = r := by
  unfold effDict withEdges
  cases b with
  | false => exact h
  | true => simp only [if_true, h, if_neg hr]

/-- C112: with the options ACCEPT_FIRST_UPPERCASE and ACCEPT_ALL_UPPERCASE set (as they are by default) a word that the HFST speller
knows is accepted. Missing: words in capitals that do not begin with a capital letter, see `C112_violation`. -/
theorem C112_known_partial {accept : List Nat → Bool} {dict : List Wc → SpellRes} {o : SpellOpts} {cache : Option SpellerCache}
    {word n : List Wc} (hb : Backs accept o.acceptAllUppercase dict) (hf : o.acceptFirstUppercase = true)
    (hu : o.acceptAllUppercase = true) (hc : CacheInv (effDict dict o.acceptMissingHyphens) cache) (hw : WordOk word)
    (hl : word.length ≤ 255) (hn : n = normSpec word) (he : Encodable n) (h18 : 0x18F ∉ n) (hk : Knows accept n)
    (hcap : IsUpperWord n → ∃ c ∈ n.head?, isUpper c = true) :
    ∃ cache', spellUcs4 dict o cache word = some (.ok, cache') := by
  obtain ⟨r, cache', h1, _, h2⟩ := C65_exact dict o cache hc word hw
  refine ⟨cache', ?_⟩
  rw [h1, h2.2]
  rw [← hn]
  refine .dictionary n hl .word ?_
  have ok : ∀ {w}, dict w = .ok → effDict dict o.acceptMissingHyphens w = .ok := fun h => eff_of _ h (by simp)
  have cap : ∀ {w}, dict w = .capFirst → effDict dict o.acceptMissingHyphens w = .capFirst := fun h => eff_of _ h (by simp)
  by_cases hL : IsLowerWord n
  · refine .lower hL ?_
    rw [map_lower_of_no_upper hL.2]
    exact ok ((backs_ok hb he).2 hk)
  by_cases hC : IsCapitalised n
  · have hC' := hC
    obtain ⟨c, rest, rfl, hcu, _, hr⟩ := hC
    have e : (c :: rest).map lower = lower c :: rest := by rw [List.map_cons, map_lower_of_no_upper hr]
    rcases first_small hb he hk hcu (fun h => h18 (by simp [h])) with h | h
    · exact .capitalised hC' hf (by rw [e]; exact ok h)
    · exact .properNoun hC' (by rw [e]; exact cap h)
  by_cases hU : IsUpperWord n
  · refine .capitals hU hu ?_
    obtain ⟨c, hcm, hcu⟩ := hcap hU
    cases n with
    | nil => simp at hcm
    | cons d rest =>
      simp only [List.head?_cons, Option.mem_def, Option.some.injEq] at hcm
      subst hcm
      have hd18 : d ≠ 0x18F := fun h => h18 (by simp [h])
      by_cases hR : HasUpper rest
      · obtain ⟨x, hx, hxu⟩ := hR
        have hx18 : x ≠ 0x18F := fun h => h18 (by rw [← h]; simp [hx])
        by_cases h0 : dict ((d :: rest).map lower) = .ok
        · rw [ok h0]; simp
        by_cases h3 : dict ((d :: rest).map lower) = .capFirst
        · rw [cap h3]; simp
        have he' : Encodable (lower d :: rest.map lower) := encodable_map_lower he
        have := (backs_cons hb he').2.2
        obtain ⟨_, _, _, ul, _, uu, _, ll, _⟩ := C09_case_laws d
        have hne : dict ((d :: rest).map lower) = .capError := by
          refine this ⟨fun h => h0 ((backs_ok hb he').2 h), fun h => h3 ?_, hu, ll hcu hd18, ⟨lower x, List.mem_map_of_mem hx, ?_⟩,
            no_upper_lowered h18, ?_⟩
          · exact (backs_cons hb he').1.2 ⟨fun h => h0 ((backs_ok hb he').2 h), ll hcu hd18, h⟩
          · exact (C09_case_laws x).2.2.2.2.2.2.2.1 hxu hx18
          · have e : (lower d :: rest.map lower).map upper = (d :: rest).map upper := by
              simp only [List.map_cons, List.map_map, List.cons.injEq, List.map_inj_left, Function.comp_apply]
              exact ⟨ul, fun y _ => (C09_case_laws y).2.2.2.1⟩
            rw [e, map_upper_of_no_lower hU.2]
            exact hk
        rw [eff_of _ hne (by simp)]; simp
      · have e : (d :: rest).map lower = lower d :: rest := by rw [List.map_cons, map_lower_of_no_upper hR]
        rw [e]
        rcases first_small hb he hk hcu hd18 with h | h
        · rw [ok h]; simp
        · rw [cap h]; simp
  · have hO : IsOther n := ⟨hL, hU, hC⟩
    cases n with
    | nil => exact .exact [] (.inl hO) (.inl ⟨rfl, rfl⟩) (ok ((backs_ok hb he).2 hk))
    | cons d rest =>
      cases hdu : isUpper d with
      | false =>
        refine .exact _ (.inl hO) (.inr ⟨d, rest, rfl, rfl⟩) ?_
        rw [lower_of_not_upper d hdu]
        exact ok ((backs_ok hb he).2 hk)
      | true =>
        rcases first_small hb he hk hdu (fun h => h18 (by simp [h])) with h | h
        · exact .exact _ (.inl hO) (.inr ⟨d, rest, rfl, rfl⟩) (ok h)
        · exact .exactNoun _ d rest (.inl hO) (.inr ⟨d, rest, rfl, rfl⟩) rfl hdu hf (cap h)

theorem same_lower (v : List Wc) : SameLetters (v.map lower) v := by
  unfold SameLetters
  rw [List.map_map]
  exact List.map_congr_left fun c _ => (C09_case_laws c).1

theorem same_first {v w : List Wc} (h : FirstLowered v w) : SameLetters w v := by
  rcases h with ⟨rfl, rfl⟩ | ⟨c, rest, rfl, rfl⟩
  · rfl
  · simp [SameLetters, (C09_case_laws c).1]

/-- A word that is not rejected by the speller is known with the same letters. -/
theorem not_failed {accept : List Nat → Bool} {up : Bool} {dict : List Wc → SpellRes} (hb : Backs accept up dict) {w : List Wc}
    (he : Encodable w) (h : dict w ≠ .failed) : ∃ u, Knows accept u ∧ SameLetters u w := by
  cases hd : dict w with
  | failed => exact absurd hd h
  | ok => exact ⟨w, (backs_ok hb he).1 hd, rfl⟩
  | capFirst =>
    cases w with
    | nil =>
      have h := hb [] he
      rw [List.length_nil, spell_nil, hd] at h
      cases hx : accept (encodeStr []) <;> rw [hx] at h <;> simp at h
    | cons c rest =>
      refine ⟨upper c :: rest, ((backs_cons hb he).1.1 hd).2.2, ?_⟩
      simp [SameLetters, (C09_case_laws c).2.2.1]
  | capError =>
    cases w with
    | nil =>
      have h := hb [] he
      rw [List.length_nil, spell_nil, hd] at h
      cases hx : accept (encodeStr []) <;> rw [hx] at h <;> simp at h
    | cons c rest =>
      refine ⟨_, ((backs_cons hb he).2.1 hd).2.2.2.2.2.2, ?_⟩
      unfold SameLetters
      rw [List.map_map]
      exact List.map_congr_left fun c _ => (C09_case_laws c).2.2.1

theorem encodable_lookedUp {o : SpellOpts} {n v : List Wc} (he : Encodable n) (h : LookedUp o n v) : Encodable v := by
  cases h with
  | word => exact he
  | noDot _ _ hn => intro c hc; exact he c (by rw [hn]; simp [hc])

theorem encodable_first {v w : List Wc} (he : Encodable v) (h : FirstLowered v w) : Encodable w := by
  rcases h with ⟨rfl, rfl⟩ | ⟨c, rest, rfl, rfl⟩
  · exact he
  · exact encodable_cons.2 ⟨lower_valid (encodable_cons.1 he).1, (encodable_cons.1 he).2⟩

/-- `v'` is `v` with the hyphens that it lacks at its ends, of which there is at least one; `v` has at least two characters. -/
def MissingHyphens (v v' : List Wc) : Prop :=
  2 ≤ v.length ∧ v' ≠ v ∧ ∃ p s, v' = p ++ v ++ s ∧ (p = [] ∧ v.head? = some 0x2D ∨ p = [0x2D] ∧ v.head? ≠ some 0x2D) ∧
    (s = [] ∧ v.getLast? = some 0x2D ∨ s = [0x2D] ∧ v.getLast? ≠ some 0x2D)

theorem edge_missing (v v' : List Wc) : edgeHyphens v = some v' ↔ MissingHyphens v v' := by
  unfold edgeHyphens MissingHyphens
  by_cases h1 : v.length < 2
  · rw [if_pos h1]
    constructor
    · intro h; cases h
    · rintro ⟨h, _⟩; omega
  rw [if_neg h1]
  by_cases h2 : v.head? = some 0x2D <;> by_cases h3 : v.getLast? = some 0x2D
  · rw [if_pos h2, if_pos h3]
    constructor
    · intro h; cases h
    · rintro ⟨_, hne, p, s, rfl, hp, hs⟩
      have ep : p = [] := hp.elim (·.1) fun h => absurd h2 h.2
      have es : s = [] := hs.elim (·.1) fun h => absurd h3 h.2
      exact absurd (by rw [ep, es, List.nil_append, List.append_nil]) hne
  · rw [if_pos h2, if_neg h3]
    constructor
    · intro h
      cases h
      exact ⟨by omega, by simp, [], [0x2D], by simp, .inl ⟨rfl, h2⟩, .inr ⟨rfl, h3⟩⟩
    · rintro ⟨_, hne, p, s, rfl, hp, hs⟩
      rw [hp.elim (·.1) fun h => absurd h2 h.2, hs.elim (fun h => absurd h.2 h3) (·.1), List.nil_append]
  · rw [if_neg h2, if_pos h3]
    constructor
    · intro h
      cases h
      exact ⟨by omega, by simp, [0x2D], [], by simp, .inr ⟨rfl, h2⟩, .inl ⟨rfl, h3⟩⟩
    · rintro ⟨_, hne, p, s, rfl, hp, hs⟩
      rw [hp.elim (fun h => absurd h.2 h2) (·.1), hs.elim (·.1) fun h => absurd h3 h.2, List.append_nil]
      rfl
  · rw [if_neg h2, if_neg h3]
    constructor
    · intro h
      cases h
      refine ⟨by omega, fun h => ?_, [0x2D], [0x2D], by simp, .inr ⟨rfl, h2⟩, .inr ⟨rfl, h3⟩⟩
      have := congrArg List.length h
      simp only [List.length_append, List.length_cons, List.length_nil] at this
      omega
    · rintro ⟨_, hne, p, s, rfl, hp, hs⟩
      rw [hp.elim (fun h => absurd h.2 h2) (·.1), hs.elim (fun h => absurd h.2 h3) (·.1)]
      rfl

theorem encodable_missing {v v' : List Wc} (he : Encodable v) (h : MissingHyphens v v') : Encodable v' := by
  obtain ⟨_, _, p, s, rfl, hp, hs⟩ := h
  have h2D : ValidCp 0x2D ∧ (0x2D : Wc) ≠ 0 := ⟨by unfold ValidCp; omega, by omega⟩
  intro c hc
  rw [List.mem_append, List.mem_append] at hc
  rcases hc with (hc | hc) | hc
  · rcases hp with ⟨rfl, _⟩ | ⟨rfl, _⟩
    · cases hc
    · rw [List.mem_singleton.1 hc]; exact h2D
  · exact he c hc
  · rcases hs with ⟨rfl, _⟩ | ⟨rfl, _⟩
    · cases hc
    · rw [List.mem_singleton.1 hc]; exact h2D

/-- The letters of the speller are those of the word, or with ACCEPT_MISSING_HYPHENS of the word with the missing hyphens. -/
def LettersOf (o : SpellOpts) (v u : List Wc) : Prop :=
  SameLetters u v ∨ (o.acceptMissingHyphens = true ∧ ∃ w w', SameLetters w v ∧ MissingHyphens w w' ∧ SameLetters u w')

/-- C112: a word is accepted only for one of the reasons that have nothing to do with the dictionary, or because the HFST speller knows
it, or it without its final dot, with some choice of capital and small letters; with ACCEPT_MISSING_HYPHENS also because the speller knows it
with the hyphens that are missing at its ends. -/
theorem C112_sound {accept : List Nat → Bool} {up : Bool} {dict : List Wc → SpellRes} {o : SpellOpts} {cache cache' : Option SpellerCache}
    {word n : List Wc} (hb : Backs accept up dict) (hc : CacheInv (effDict dict o.acceptMissingHyphens) cache) (hw : WordOk word)
    (hn : n = normSpec word) (he : Encodable n) (hok : spellUcs4 dict o cache word = some (.ok, cache')) :
    word = [] ∨ (o.ignoreNumbers = true ∧ ∃ c ∈ n, 0x30 ≤ c ∧ c ≤ 0x39) ∨ (o.ignoreUppercase = true ∧ IsUpperWord n) ∨
      (o.ignoreNonwords = true ∧ NonwordCode n) ∨ ∃ v u, LookedUp o n v ∧ Knows accept u ∧ LettersOf o v u := by
  obtain ⟨r, c', h1, _, h2⟩ := C65_exact dict o cache hc word hw
  rw [hok] at h1
  injection h1 with h1
  injection h1 with h1 _
  have h := h2.1 h1.symm
  rw [← hn] at h
  cases h with
  | empty h => exact .inl h
  | number c _ ho h h' h'' => exact .inr (.inl ⟨ho, c, h, h', h''⟩)
  | capitals _ ho h => exact .inr (.inr (.inl ⟨ho, h⟩))
  | nonword _ ho h => exact .inr (.inr (.inr (.inl ⟨ho, h⟩)))
  | dictionary v _ hv ha =>
    refine .inr (.inr (.inr (.inr ?_)))
    have hev := encodable_lookedUp he hv
    have key : ∀ w, Encodable w → SameLetters w v → effDict dict o.acceptMissingHyphens w ≠ .failed → ∃ v u, LookedUp o n v ∧ Knows accept u ∧ LettersOf o v u := by
      intro w hew hs hf
      by_cases h0 : dict w = .failed
      · cases hm : o.acceptMissingHyphens with
        | false => rw [hm] at hf; exact absurd h0 hf
        | true =>
          rw [hm] at hf
          simp only [effDict, withEdges, if_true, h0] at hf
          cases hedge : edgeHyphens w with
          | none => rw [hedge] at hf; exact absurd rfl hf
          | some w' =>
            rw [hedge] at hf
            have hmis := (edge_missing w w').1 hedge
            obtain ⟨u, hu1, hu2⟩ := not_failed hb (encodable_missing hew hmis) hf
            exact ⟨v, u, hv, hu1, .inr ⟨hm, w, w', hs, hmis, hu2⟩⟩
      · obtain ⟨u, hu1, hu2⟩ := not_failed hb hew h0
        exact ⟨v, u, hv, hu1, .inl (hu2.trans hs)⟩
    cases ha with
    | lower _ h => exact key _ (encodable_map_lower hev) (same_lower v) (by rw [h]; simp)
    | properNoun _ h => exact key _ (encodable_map_lower hev) (same_lower v) (by rw [h]; simp)
    | capitalised _ _ h => exact key _ (encodable_map_lower hev) (same_lower v) (by rw [h]; simp)
    | capitals _ _ h => exact key _ (encodable_map_lower hev) (same_lower v) h
    | exact w _ hw h => exact key w (encodable_first hev hw) (same_first hw) (by rw [h]; simp)
    | exactNoun w _ _ _ hw _ _ _ h => exact key w (encodable_first hev hw) (same_first hw) (by rw [h]; simp)

/-- C112: with ACCEPT_MISSING_HYPHENS a word of small letters is accepted if the speller knows it with the hyphens that are missing at its ends,
and does not know the word without them, nor with a capital letter or in capitals (it is then a proper noun, and small letters are wrong). -/
theorem C112_missing {accept : List Nat → Bool} {up : Bool} {dict : List Wc → SpellRes} {o : SpellOpts} {cache : Option SpellerCache} {word n n' : List Wc}
    (hb : Backs accept up dict) (hm : o.acceptMissingHyphens = true) (hc : CacheInv (effDict dict o.acceptMissingHyphens) cache) (hw : WordOk word)
    (hl : word.length ≤ 255) (hn : n = normSpec word) (he : Encodable n) (hlow : IsLowerWord n) (hmis : MissingHyphens n n') (hk : Knows accept n')
    (hno : ¬ Knows accept n ∧ ¬ Knows accept (capital n) ∧ ¬ Knows accept (n.map upper)) : ∃ cache', spellUcs4 dict o cache word = some (.ok, cache') := by
  obtain ⟨r, cache', h1, _, h2⟩ := C65_exact dict o cache hc word hw
  refine ⟨cache', ?_⟩
  rw [h1, h2.2]
  rw [← hn]
  refine .dictionary n hl .word (.lower hlow ?_)
  rw [map_lower_of_no_upper hlow.2, hm]
  have h0 : dict n = .failed := by
    obtain ⟨⟨a, ha, _⟩, _⟩ := hlow
    cases n with
    | nil => cases ha
    | cons c rest =>
      cases hd : dict (c :: rest) with
      | failed => rfl
      | ok => exact absurd ((backs_ok hb he).1 hd) hno.1
      | capFirst => exact absurd ((backs_cons hb he).1.1 hd).2.2 hno.2.1
      | capError => exact absurd ((backs_cons hb he).2.1 hd).2.2.2.2.2.2 hno.2.2
  simp only [effDict, withEdges, if_true, h0, (edge_missing n n').2 hmis]
  exact (backs_ok hb (encodable_missing he hmis)).2 hk

/-! ## Suggestions -/

/-- Ordered by the priority, best first. -/
def Ascending (l : List (List Wc × Nat)) : Prop := l.Pairwise fun a b => a.2 ≤ b.2

theorem insertBack_last (x : List Wc × Nat) (acc : List (List Wc × Nat)) (h : ∀ a ∈ acc, a.2 ≤ x.2) : insertBack x acc = x :: acc := by
  cases acc with
  | nil => rfl
  | cons a as =>
    have := h a (by simp)
    rw [insertBack, if_neg (by omega)]

theorem sortLoop_ascending : ∀ (l acc : List (List Wc × Nat)), Ascending l → (∀ a ∈ acc, ∀ b ∈ l, a.2 ≤ b.2) →
    sortLoop acc l = acc.reverse ++ l := by
  intro l
  induction l with
  | nil => intro acc _ _; simp [sortLoop]
  | cons x xs ih =>
    intro acc ha hb
    obtain ⟨h1, h2⟩ := List.pairwise_cons.1 ha
    rw [sortLoop, insertBack_last x acc fun a h => hb a h x (by simp), ih (x :: acc) h2]
    · simp
    · intro a h b hb'
      rcases List.mem_cons.1 h with rfl | h
      · exact h1 b hb'
      · exact hb a h b (by simp [hb'])

theorem sort_ascending {l : List (List Wc × Nat)} (h : Ascending l) : sortSuggestions l = l := by
  rw [sortSuggestions, sortLoop_ascending l [] h (by simp)]
  simp

/-- The words of the queue that become suggestions when those with the keys `seen` are dropped. -/
def kept (cu : Bool) : List (List Wc) → List (List Wc) → List (List Wc)
  | _, [] => []
  | seen, x :: xs =>
    if cu = true ∧ capital x ∈ seen then kept cu seen xs
    else x :: kept cu (if cu then capital x :: seen else seen) xs

theorem kept_false : ∀ (q seen : List (List Wc)), kept false seen q = q := by
  intro q
  induction q with
  | nil => intro _; rfl
  | cons x xs ih => intro seen; simp [kept, ih]

theorem kept_true : ∀ (q seen : List (List Wc)), kept true seen q = (firsts capital q).filter fun y => capital y ∉ seen := by
  intro q
  induction q with
  | nil => intro _; rfl
  | cons x xs ih =>
    intro seen
    rw [kept, firsts]
    by_cases h : capital x ∈ seen
    · rw [if_pos ⟨rfl, h⟩, ih, List.filter_cons_of_neg (by simpa using h), List.filter_filter]
      apply List.filter_congr
      intro y _
      by_cases hy : capital y = capital x
      · simp [hy, h]
      · simp [hy]
    · rw [if_neg (by simpa using h), if_pos rfl, ih, List.filter_cons_of_pos (by simpa using h), List.filter_filter]
      congr 1
      apply List.filter_congr
      intro y _
      simp only [List.mem_cons, not_or, ne_eq, Bool.decide_and]
      exact Bool.and_comm _ _

theorem uppercased_eq (w : List Wc) : hfstUppercased w = capital w := by cases w <;> rfl

theorem decode_eq {w : List Wc} (h : Encodable w) : ucs4FromUtf8 ((encodeStr w).takeWhile (· ≠ 0)) = some (some w) := by
  rw [encode_no_nul h]
  obtain ⟨bytes, h1, _, _, h4⟩ := C14_round_trip w fun c hc => (h c hc).1
  rw [(utf8FromUcs4_eq w).1 fun c hc => (h c hc).1] at h1
  cases h1
  exact h4

/-- What is needed of the corrections: words that can be encoded, best first, with weights up to `W`. -/
structure Queue (W : Nat) (q : List (List Wc × Nat)) : Prop where
  encodable : ∀ x ∈ q, Encodable x.1
  ascending : Ascending q
  bounded : ∀ x ∈ q, x.2 ≤ W

/-- The corrections as the HFST library gives them. -/
def encoded (q : List (List Wc × Nat)) : List (List Nat × Int) := q.map fun x => (encodeStr x.1, (x.2 : Int))

theorem loop_spec (cu : Bool) (W m : Nat) (hW : (W + m) * (m + 4) < 2 ^ 31) : ∀ (q : List (List Wc × Nat)) (seen : List (List Wc)) (s : SugStatus),
    Queue W q → s.maxSug = m → s.maxCost = m → s.cost = s.sugg.length → s.sugg.length ≤ m → Ascending s.sugg →
    (∀ y ∈ s.sugg, ∀ x ∈ q, y.2 ≤ (x.2 + s.sugg.length) * (s.sugg.length + 4)) →
    ∃ s', hfstLoop cu (encoded q) seen s = some s' ∧ Ascending s'.sugg ∧
      s'.sugg.map (·.1) = s.sugg.map (·.1) ++ (kept cu seen (q.map (·.1))).take (m - s.sugg.length) := by
  intro q
  induction q with
  | nil =>
    intro seen s _ _ _ _ _ ha _
    exact ⟨s, rfl, ha, by simp [kept]⟩
  | cons x xs ih =>
    intro seen s hq hm hmc hcost hlen ha hb
    obtain ⟨w, k⟩ := x
    have hq' : Queue W xs := ⟨fun y hy => hq.encodable y (by simp [hy]), (List.pairwise_cons.1 hq.ascending).2, fun y hy => hq.bounded y (by simp [hy])⟩
    have hk : k ≤ W := hq.bounded (w, k) (by simp)
    have hw : Encodable w := hq.encodable (w, k) (by simp)
    by_cases hfull : s.sugg.length = m
    · have hab : s.shouldAbort = true := by unfold SugStatus.shouldAbort; rw [if_pos (by omega)]
      refine ⟨s, ?_, ha, ?_⟩
      · rw [encoded, List.map_cons, hfstLoop, if_pos hab]
      · rw [hfull, Nat.sub_self, List.take_zero, List.append_nil]
    · have hab : s.shouldAbort = false := by
        unfold SugStatus.shouldAbort
        rw [if_neg (by omega), if_pos (by omega)]
      rw [encoded, List.map_cons, hfstLoop, if_neg (by simp [hab])]
      simp only [decode_eq hw, Option.bind_eq_bind, Option.bind_some, uppercased_eq]
      simp only [List.map_cons, kept]
      by_cases hs : cu = true ∧ capital w ∈ seen
      · rw [if_pos hs, if_pos hs]
        exact ih seen s hq' hm hmc hcost hlen ha fun y hy z hz => hb y hy z (by simp [hz])
      · rw [if_neg hs, if_neg hs]
        have hlt : s.sugg.length < m := by omega
        have hle : (k + s.sugg.length + 1) * (s.sugg.length + 5) ≤ (W + m) * (m + 4) := Nat.mul_le_mul (by omega) (by omega)
        have h5 : (k + s.sugg.length + 1) * 1 ≤ (k + s.sugg.length + 1) * (s.sugg.length + 5) := Nat.mul_le_mul_left _ (by omega)
        have hn : ((k : Int) + (s.sugg.length : Int) + 1).toNat = k + s.sugg.length + 1 := by omega
        rw [if_neg (by omega), hn]
        have hadd : s.addSuggestion w (k + s.sugg.length + 1) =
            some { s with sugg := s.sugg ++ [(w, (k + s.sugg.length + 1) * (s.sugg.length + 5))] } := by
          unfold SugStatus.addSuggestion
          rw [if_pos (by omega), int32_some (by omega)]
          rfl
        rw [hadd, Option.bind_some]
        obtain ⟨s', e1, e2, e3⟩ := ih (if cu = true then capital w :: seen else seen)
          (SugStatus.charge { s with sugg := s.sugg ++ [(w, (k + s.sugg.length + 1) * (s.sugg.length + 5))] }) hq' hm hmc
          (by simp [SugStatus.charge, hcost]) (by simp [SugStatus.charge]; omega)
          (by
            simp only [SugStatus.charge, Ascending]
            rw [List.pairwise_append]
            refine ⟨ha, by simp, fun y hy z hz => ?_⟩
            simp only [List.mem_singleton] at hz
            subst hz
            exact Nat.le_trans (hb y hy (w, k) (by simp)) (Nat.mul_le_mul (by simp) (by omega)))
          (by
            simp only [SugStatus.charge, List.length_append, List.length_cons, List.length_nil]
            intro y hy z hz
            have hkz : k ≤ z.2 := (List.pairwise_cons.1 hq.ascending).1 z hz
            rcases List.mem_append.1 hy with hy | hy
            · exact Nat.le_trans (hb y hy z (by simp [hz])) (Nat.mul_le_mul (by omega) (by omega))
            · simp only [List.mem_singleton] at hy
              subst hy
              exact Nat.mul_le_mul (by omega) (by omega))
        refine ⟨s', e1, e2, ?_⟩
        rw [e3]
        simp only [SugStatus.charge, List.length_append, List.length_cons, List.length_nil, List.map_append, List.map_cons, List.map_nil]
        obtain ⟨j, hj⟩ : ∃ j, m - s.sugg.length = j + 1 := ⟨m - s.sugg.length - 1, by omega⟩
        have hj' : m - (s.sugg.length + (0 + 1)) = j := by omega
        rw [hj, hj', List.take_succ_cons]
        simp

theorem isCapitalised_iff (w : List Wc) : caseType w = .firstUpper ↔ IsCapitalised w := by
  rw [C11_caseType]
  unfold CaseSpec IsCapitalised
  constructor
  · intro h
    cases w with
    | nil => simp at h
    | cons c rest =>
      simp only [List.head?_cons, Option.some.injEq, exists_eq_left', List.tail_cons] at h
      exact ⟨c, rest, rfl, by simp_all, by simp_all, by simp_all⟩
  · rintro ⟨c, rest, rfl, h1, h2, h3⟩
    simp_all

open Classical in
/-- C112: the suggestions are the corrections of the HFST speller in its order, as many as asked for; for a capitalised word those that
an earlier one equals after making the first letter a capital are left out. -/
theorem C112_suggestions (suggest : List Nat → List (List Nat × Int)) {word : List Wc} {q : List (List Wc × Nat)} {m W : Nat}
    (hw : Encodable word) (hs : suggest (encodeStr word) = encoded q) (hq : Queue W q) (hW : (W + m) * (m + 4) < 2 ^ 31) :
    ∃ s, hfstGenerate suggest { word := word, maxSug := m } = some s ∧
      (sortSuggestions s.sugg).map (·.1) =
        (if IsCapitalised word then firsts capital (q.map (·.1)) else q.map (·.1)).take m := by
  unfold hfstGenerate
  simp only [(utf8FromUcs4_eq word).1 fun c hc => (hw c hc).1, Option.bind_eq_bind, Option.bind_some, encode_no_nul hw, hs]
  obtain ⟨s, h1, h2, h3⟩ := loop_spec (decide (caseType word = .firstUpper)) W m hW q [] { word := word, maxSug := m, maxCost := m } hq rfl rfl rfl
    (by simp) (by simp [Ascending]) (by simp)
  refine ⟨s, h1, ?_⟩
  rw [sort_ascending h2, h3]
  simp only [List.map_nil, List.nil_append, List.length_nil, Nat.sub_zero]
  by_cases h : IsCapitalised word
  · rw [if_pos h, decide_eq_true ((isCapitalised_iff word).2 h), kept_true, List.filter_eq_self.2 (by simp)]
  · rw [if_neg h, decide_eq_false (fun h' => h ((isCapitalised_iff word).1 h')), kept_false]

/-- C112: what `firsts` leaves: no two words with the same key, each in its order, and one for every key there was. -/
theorem C112_firsts (key : List Wc → List Wc) (q : List (List Wc)) :
    (firsts key q).Pairwise (fun a b => key a ≠ key b) ∧ (firsts key q).Sublist q ∧ ∀ x ∈ q, ∃ y ∈ firsts key q, key y = key x := by
  induction q with
  | nil => simp [firsts]
  | cons x xs ih =>
    obtain ⟨h1, h2, h3⟩ := ih
    refine ⟨?_, ?_, ?_⟩
    · rw [firsts, List.pairwise_cons]
      refine ⟨fun y hy => ?_, h1.sublist List.filter_sublist⟩
      have := (List.mem_filter.1 hy).2
      simp only [ne_eq, decide_eq_true_eq] at this
      exact fun h => this h.symm
    · rw [firsts]
      exact (List.filter_sublist.trans h2).cons_cons x
    · intro z hz
      rcases List.mem_cons.1 hz with rfl | hz
      · exact ⟨z, by simp [firsts], rfl⟩
      · obtain ⟨y, hy, hk⟩ := h3 z hz
        by_cases h : key y = key x
        · exact ⟨x, by simp [firsts], by rw [← h, hk]⟩
        · exact ⟨y, by rw [firsts]; exact List.mem_cons_of_mem _ (List.mem_filter.2 ⟨hy, by simpa using h⟩), hk⟩

/-! ## What goes wrong -/

/-- The verdicts of the HFST speller as a function. -/
def verdicts (accept : List Nat → Bool) (up : Bool) (w : List Wc) : SpellRes :=
  match hfstSpell accept up w w.length with
  | some r => r
  | none => .failed

theorem backs_verdicts (accept : List Nat → Bool) (up : Bool) : Backs accept up (verdicts accept up) := by
  intro w he
  unfold verdicts
  cases w with
  | nil => rw [List.length_nil, spell_nil]
  | cons c rest =>
    obtain ⟨r, h1, _⟩ := C112_verdict accept up (word := c :: rest) (wlen := rest.length + 1) (by omega) (by simp) rfl
      (by rw [List.take_of_length_le (by simp)]; exact he)
    rw [List.length_cons, h1]

/-- C112 (negative): the word "3D" is rejected with the default options although the HFST speller knows it: only words that begin with a
small letter are also looked up in capitals. -/
theorem C112_violation : ∃ (accept : List Nat → Bool) (dict : List Wc → SpellRes) (word : List Wc), Backs accept true dict ∧
    Knows accept word ∧ normSpec word = word ∧ spellUcs4 dict {} none word = some (.failed, none) :=
  ⟨fun b => b == [0x33, 0x44], verdicts (fun b => b == [0x33, 0x44]) true, [0x33, 0x44], backs_verdicts _ _, by unfold Knows; decide,
    by decide, by decide +kernel⟩

/-- C112 (negative): a word with a character that cannot be encoded in UTF-8 makes the library pass a null pointer to HFST. -/
theorem C112_violation_encoding (accept : List Nat → Bool) (up : Bool) {word : List Wc} {wlen : Nat} (hl : wlen ≤ word.length)
    (h : ∃ c ∈ word.take wlen, ¬ ValidCp c) : hfstSpell accept up word wlen = none := by
  have t : (word ++ [0]).take wlen = word.take wlen := List.take_append_of_le_length hl
  unfold hfstSpell hfstDoSpell
  rw [if_neg (by simp; omega), t, (utf8FromUcs4_eq _).2 h]
  rfl

example (accept : List Nat → Bool) : hfstSpell accept true [0x61, 0xFFFE] 2 = none :=
  C112_violation_encoding accept true (by simp) ⟨0xFFFE, by simp, by unfold ValidCp; omega⟩

/-! ## Examples -/

theorem encodable_ascii {w : List Wc} (h : ∀ c ∈ w, 0 < c ∧ c < 128) : Encodable w := by
  intro c hc
  have := h c hc
  refine ⟨?_, by omega⟩
  unfold ValidCp
  omega

/-- A speller that knows "kala", "Oslo" and "NATO". -/
def sample (b : List Nat) : Bool :=
  b == [0x6B, 0x61, 0x6C, 0x61] || b == [0x4F, 0x73, 0x6C, 0x6F] || b == [0x4E, 0x41, 0x54, 0x4F]

example : hfstSpell sample true [0x6B, 0x61, 0x6C, 0x61] 4 = some .ok := by decide +kernel
example : hfstSpell sample true [0x6F, 0x73, 0x6C, 0x6F, 0x2E] 4 = some .capFirst := by decide +kernel
example : hfstSpell sample true [0x6E, 0x61, 0x74, 0x6F] 4 = some .capError := by decide +kernel
example : hfstSpell sample false [0x6E, 0x61, 0x74, 0x6F] 4 = some .failed := by decide +kernel

/-- C112 (negative): without the two options the known word "NATO" is rejected. -/
theorem C112_violation_options : Knows sample [0x4E, 0x41, 0x54, 0x4F] ∧
    spellUcs4 (verdicts sample false) { acceptFirstUppercase := false, acceptAllUppercase := false } none [0x4E, 0x41, 0x54, 0x4F] =
      some (.failed, none) :=
  ⟨by unfold Knows; decide +kernel, by decide +kernel⟩

/-- The word "NATO" meets the hypotheses of `C112_known_partial`. -/
example : ∃ cache', spellUcs4 (verdicts sample true) {} none [0x4E, 0x41, 0x54, 0x4F] = some (.ok, cache') :=
  C112_known_partial (accept := sample) (n := [0x4E, 0x41, 0x54, 0x4F]) (backs_verdicts _ _) rfl rfl (by trivial)
    (by intro c hc; simp at hc; omega) (by simp) (by decide) (encodable_ascii (by decide)) (by decide) (by unfold Knows; decide +kernel)
    (fun _ => ⟨0x4E, by simp, by decide⟩)

/-- "OSLO" is accepted because "Oslo" is known. -/
example : ∃ v u, LookedUp {} [0x4F, 0x53, 0x4C, 0x4F] v ∧ Knows sample u ∧ LettersOf {} v u := by
  have h := C112_sound (accept := sample) (o := {}) (cache := none) (cache' := none) (word := [0x4F, 0x53, 0x4C, 0x4F])
    (n := [0x4F, 0x53, 0x4C, 0x4F]) (backs_verdicts sample true) (by trivial) (by intro c hc; simp at hc; omega) (by decide)
    (encodable_ascii (by decide)) (by decide +kernel)
  rcases h with h | h | h | h | h
  · cases h
  · cases h.1
  · cases h.1
  · exact ⟨_, [0x4F, 0x73, 0x6C, 0x6F], .word, by unfold Knows; decide +kernel, .inl (by unfold SameLetters; decide +kernel)⟩
  · exact h

/-- A speller that knows only "-kala-". -/
def hyphened (b : List Nat) : Bool := b == [0x2D, 0x6B, 0x61, 0x6C, 0x61, 0x2D]

/-- The word "kala-" meets the hypotheses of `C112_missing` if the speller knows only "-kala-". -/
example : ∃ cache', spellUcs4 (verdicts hyphened true) { acceptMissingHyphens := true } none [0x6B, 0x61, 0x6C, 0x61, 0x2D] = some (.ok, cache') := by
  refine C112_missing (accept := hyphened) (n := [0x6B, 0x61, 0x6C, 0x61, 0x2D]) (n' := [0x2D, 0x6B, 0x61, 0x6C, 0x61, 0x2D]) (backs_verdicts _ _) rfl (by trivial)
    (by intro c hc; simp at hc; omega) (by simp) (by decide) (encodable_ascii (by decide)) ⟨⟨0x6B, by simp, by decide⟩, ?_⟩ ?_ (by unfold Knows; decide +kernel) ?_
  · rintro ⟨c, hc, hu⟩
    revert c
    decide
  · exact (edge_missing _ _).1 (by decide)
  · unfold Knows; decide +kernel

/-- For "Kala" the second of "kana" and "Kana" is left out. -/
example : ∃ s, hfstGenerate (fun _ => encoded [([0x6B, 0x61, 0x6E, 0x61], 10), ([0x4B, 0x61, 0x6E, 0x61], 10), ([0x73, 0x61, 0x6E, 0x61], 20)])
      { word := [0x4B, 0x61, 0x6C, 0x61], maxSug := 15 } = some s ∧
    (sortSuggestions s.sugg).map (·.1) = [[0x6B, 0x61, 0x6E, 0x61], [0x73, 0x61, 0x6E, 0x61]] := by
  have hc : IsCapitalised [0x4B, 0x61, 0x6C, 0x61] :=
    (isCapitalised_iff _).1 (by decide +kernel)
  obtain ⟨s, h1, h2⟩ := C112_suggestions
    (fun _ => encoded [([0x6B, 0x61, 0x6E, 0x61], 10), ([0x4B, 0x61, 0x6E, 0x61], 10), ([0x73, 0x61, 0x6E, 0x61], 20)])
    (word := [0x4B, 0x61, 0x6C, 0x61]) (m := 15) (W := 20) (encodable_ascii (by decide)) rfl
    ⟨by
      intro x hx
      simp only [List.mem_cons, List.not_mem_nil, or_false] at hx
      rcases hx with rfl | rfl | rfl <;> exact encodable_ascii (by decide), by unfold Ascending; decide, by decide⟩ (by decide)
  refine ⟨s, h1, ?_⟩
  rw [h2, if_pos hc]
  decide +kernel

end Verif.Hfst
