import Verif.Model.SpellUtils
/-!
# `spellchecker/FinnishSpellerTweaksWrapper.cpp`

The wrapped speller is `AnalyzerToSpellerAdapter` on the same analyser (`SpellerFactory.cpp:53-54`,
`V5DictionaryLoader.cpp:88`). The private hyphenator is a parameter `hyph` giving the result of
`allPossibleHyphenPositions` (`none` inside = null pointer); it is instantiated in `Model/Hyphenator.lean`.
-/

set_option linter.unusedVariables false

namespace Verif

/-- `wcsncpy(dest, src, n)`: the `n` characters written. `src` is the memory that can be read. -/
def wcsncpy (src : List Wc) (n : Nat) : List Wc :=
  let p := (src.take n).takeWhile (· ≠ 0)
  p ++ List.replicate (n - p.length) 0

theorem wcsncpy_length (src : List Wc) (n : Nat) : (wcsncpy src n).length = n := by
  have h : ((src.take n).takeWhile (· ≠ 0)).length ≤ n :=
    Nat.le_trans (List.takeWhile_sublist _).length_le (by simp [List.length_take]; omega)
  simp only [wcsncpy, List.length_append, List.length_replicate]
  omega

/-- `FinnishSpellerTweaksWrapper.cpp:55-61`: index of the first hyphen that is neither the first nor the last
character (`wmemchr(word + 1, L'-', wlen - 2)`). -/
def firstInnerHyphen (word : List Wc) : Option Nat :=
  ((word.drop 1).take (word.length - 2)).findIdx? (· == 0x2D) |>.map (· + 1)

theorem firstInnerHyphen_lt {word : List Wc} {l : Nat} (h : firstInnerHyphen word = some l) :
    1 ≤ l ∧ l + 1 < word.length := by
  simp only [firstInnerHyphen, Option.map_eq_some_iff] at h
  obtain ⟨k, hk, rfl⟩ := h
  have := (List.findIdx?_eq_some_iff_getElem.1 hk).choose
  simp only [List.length_take, List.length_drop] at this
  omega

/-- `FinnishSpellerTweaksWrapper.cpp:67-69`: the word without the hyphen at `l` (without the terminator written in
line 70; the allocated size is `wlen`). -/
def withoutHyphen (word : List Wc) (l : Nat) : List Wc :=
  wcsncpy word l ++ wcsncpy (word.drop (l + 1)) (word.length - l - 1)

theorem withoutHyphen_length {word : List Wc} {l : Nat} (h : l < word.length) :
    (withoutHyphen word l).length + 1 = word.length := by
  simp only [withoutHyphen, List.length_append, wcsncpy_length]; omega

/-- `VOIKKO_VOWELS` (`utils/utils.hpp`). -/
def voikkoVowels : List Wc := lit "aeiouyäö"
/-- `VOIKKO_CONSONANTS` (`utils/utils.hpp`). -/
def voikkoConsonants : List Wc := lit "bcdfghjklmnpqrstvwxzšž"

/-- `FinnishSpellerTweaksWrapper.cpp:85-91`: same VC pair around the hyphen at `l`. -/
def sameVC (word : List Wc) (l : Nat) : UB Bool :=
  if l ≥ 2 ∧ word.length - l ≥ 3 then do
    let a ← rd word (l - 2)
    let b ← rd word (l - 1)
    let c ← rd word (l + 1)
    let d ← rd word (l + 2)
    let v1 := lower a
    let v2 := lower b
    return wcschr voikkoVowels v1 && wcschr voikkoConsonants v2 && lower c == v1 && lower d == v2
  else return false

/-- `FinnishSpellerTweaksWrapper.cpp:101-103`: index of the last hyphen that is neither the first nor the last
character: the loop `for (i = wlen - 2; i > 0; --i)` entered with `i = n`. -/
def lastInnerHyphen (word : List Wc) : Nat → UB (Option Nat)
  | 0 => return none
  | i + 1 => do
    let c ← rd word (i + 1)
    if c = 0x2D then return some (i + 1) else lastInnerHyphen word i

theorem lastInnerHyphen_le {word : List Wc} {n i : Nat} (h : lastInnerHyphen word n = some (some i)) :
    1 ≤ i ∧ i ≤ n := by
  induction n with
  | zero => simp [lastInnerHyphen] at h
  | succ n ih =>
    rw [lastInnerHyphen] at h
    cases hr : rd word (n + 1) with
    | none => rw [hr] at h; simp at h
    | some c =>
      rw [hr] at h
      simp only [Option.bind_eq_bind, Option.bind_some, Option.pure_def] at h
      by_cases hc : c = 0x2D
      · rw [if_pos hc] at h; cases h; omega
      · rw [if_neg hc] at h; have := ih h; omega

/-- `FinnishSpellerTweaksWrapper.cpp:106-116`: does any analysis have MALAGA_VAPAA_JALKIOSA = "true"? -/
def trailingAcceptable (as : List MorAn) : Bool := as.any (fun a => a.vapaaJalkiosa == some (lit "true"))

/-- `FinnishSpellerTweaksWrapper.cpp:141-149`: skip `n` letters of the structure. `none` inside: the structure ended
before (`i < leading_len`). -/
def skipLetters : Nat → List Wc → UB (Option (List Wc))
  | 0, s => return some s
  | n + 1, s => do
    let s ← skipEq s
    let k ← rd s 0
    if k = 0 then return none else skipLetters n (s.drop 1)

/-- `best == SPELL_FAILED || best > r` -/
def improves (best r : SpellRes) : Bool := best == .failed || decide (r.toNat < best.toNat)

/-- `FinnishSpellerTweaksWrapper.cpp:137-163`: loop over the analyses; state
`(result_with_border, result_without_border)`. -/
def borderLoop (buffer : List Wc) (l : Nat) : SpellRes × SpellRes → List MorAn → UB (SpellRes × SpellRes)
  | st, [] => return st
  | st, a :: as => do
    let cells ← a.structCells
    let pos ← skipLetters l cells
    match pos with
    | none => borderLoop buffer l st as
    | some s => do
      let spres ← matchWordAndAnalysis buffer cells
      let k ← rd s 0
      let st := if k = 0x3D then (if improves st.1 spres then (spres, st.2) else st)
        else (if improves st.2 spres then (st.1, spres) else st)
      borderLoop buffer l st as

/-- `FinnishSpellerTweaksWrapper.cpp:127-170`: ambiguous compounds. `analyzer->analyze(buffer, wcslen(buffer))`. -/
def ambiguousCompound (an : Analyzer) (buffer : List Wc) (l : Nat) (result : SpellRes) : UB SpellRes := do
  let as := an (buffer.takeWhile (· ≠ 0))
  if as.isEmpty then return result
  else
    let (w, wo) ← borderLoop buffer l (.failed, .failed) as
    if w != .failed && wo != .failed && improves result w then return w else return result

/-- `FinnishSpellerTweaksWrapper.cpp:178-190`: loop removing soft hyphens. State: `j` characters copied to the buffer
(`out`, its contents) and `shyPositions` (latest first). Result `none` inside: `return SPELL_FAILED`. -/
def shyLoop : List Wc → List Wc → List Nat → Option (List Wc × List Nat)
  | [], out, pos => some (out, pos)
  | c :: cs, out, pos =>
    if c ≠ 0xAD then shyLoop cs (out ++ [c]) pos
    else if out.length = 0 ∨ cs = [] ∨ pos.head? = some out.length then none
    else shyLoop cs out (out.length :: pos)

/-- `FinnishSpellerTweaksWrapper.cpp:201-206`: are all soft hyphens at possible hyphenation points? -/
def shyPositionsOk (positions : List Wc) : List Nat → UB Bool
  | [] => return true
  | p :: ps => do
    let c ← rd positions p
    if c ≠ 0x2D then return false else shyPositionsOk positions ps

theorem shyLoop_length {cs out : List Wc} {pos : List Nat} {b : List Wc} {ps : List Nat}
    (h : shyLoop cs out pos = some (b, ps)) : b.length ≤ out.length + cs.length := by
  induction cs generalizing out pos with
  | nil => simp [shyLoop] at h; simp [h.1]
  | cons c cs ih =>
    rw [shyLoop] at h
    split at h
    · have := ih h; simp at this ⊢; omega
    · split at h
      · cases h
      · have := ih h; simp at this ⊢; omega

mutual

/-- `FinnishSpellerTweaksWrapper.cpp:53-174`, `spellWithoutSoftHyphen`. `extra` is `accept_extra_hyphens`. -/
def spellNoShy (hyph : List Wc → UB (Option (List Wc))) (extra : Bool) (an : Analyzer) (word : List Wc) :
    UB SpellRes := do
  let result ← adapterSpell an word
  if result = .ok ∨ word.length ≤ 3 then return result
  else
    match hf : firstInnerHyphen word with
    | none => return result
    | some l =>
      let buffer := withoutHyphen word l
      let atl ← rd (buffer ++ [0]) l
      -- lines 72-81 (`failed` if the branch is not taken)
      let early ← (if extra && decide (l > 1) && atl != 0x2D then spellNoShy hyph extra an buffer else some .failed :
        UB SpellRes)
      if early = .ok then return .ok
      else
        -- lines 83-98
        let vc ← sameVC word l
        let spres ← (if vc then adapterSpell an buffer else some .failed : UB SpellRes)
        if spres ≠ .failed ∧ improves result spres = true then return spres
        else
          -- lines 100-125
          match hl : lastInnerHyphen word (word.length - 2) with
          | none => ub
          | some none => ambiguousCompound an buffer l result
          | some (some i) =>
            let leading ← spellTweaked hyph extra an (word.take i)
            if leading ≠ .failed ∧ trailingAcceptable (an (word.drop (i + 1))) = true then return leading
            else ambiguousCompound an buffer l result
termination_by (word.length, 0)
decreasing_by
  · have h1 := firstInnerHyphen_lt hf
    have h2 := withoutHyphen_length (word := word) (l := l) (by omega)
    apply Prod.Lex.left; omega
  · have h1 := lastInnerHyphen_le hl
    apply Prod.Lex.left
    simp only [List.length_take]
    have h2 := firstInnerHyphen_lt hf
    omega

/-- `FinnishSpellerTweaksWrapper.cpp:176-215`, `spell`. The buffer of `wlen` characters holds at most `wlen - 1`
characters and a terminator because at least one soft hyphen is removed. -/
def spellTweaked (hyph : List Wc → UB (Option (List Wc))) (extra : Bool) (an : Analyzer) (word : List Wc) :
    UB SpellRes :=
  if 0xAD ∈ word then
    match hs : shyLoop word [] [] with
    | none => return .failed
    | some (buffer, positions) => do
      let r ← spellNoShy hyph extra an buffer
      if r ≠ .failed then
        let hp ← hyph buffer
        match hp with
        | none => return .failed
        | some p =>
          let ok ← shyPositionsOk p positions.reverse
          if ok then return r else return .failed
      else return r
  else spellNoShy hyph extra an word
termination_by (word.length, 1)
decreasing_by
  · have := shyLoop_length hs
    simp only [List.length_nil, Nat.zero_add] at this
    rcases Nat.lt_or_ge buffer.length word.length with h | h
    · exact Prod.Lex.left _ _ h
    · have e : buffer.length = word.length := by omega
      rw [e]; exact Prod.Lex.right _ (by omega)
  · exact Prod.Lex.right _ (by omega)

end

end Verif
