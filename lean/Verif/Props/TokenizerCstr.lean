import Verif.Model.TokenizerCstr
import Verif.Lemmas.TokenizerTake
import Verif.Props.Utf8
import Verif.Props.Tokenizer
/-! C05: tokenising UTF-8 text versus tokenising the decoded text. -/

namespace Verif.Props
open Verif

/-- `abc/` followed by 60 letters and `@foo.fi`. -/
def longEmail : List Wc :=
  [0x61, 0x62, 0x63, 0x2F] ++ List.replicate 60 0x61 ++ [0x40, 0x66, 0x6F, 0x6F, 0x2E, 0x66, 0x69]

/-- C05 fails: an e-mail address longer than 50 characters with a `/` near its start is one token for the wide
character function, but the UTF-8 function returns `abc`. -/
theorem C05_violation : (∀ c ∈ longEmail, ValidCp c ∧ c ≠ 0) ∧
    nextToken longEmail false = some (.word, 71) ∧
    nextTokenCstr (encodeStr longEmail) false = some (.word, 3) := by
  refine ⟨by unfold ValidCp; decide +kernel, by decide +kernel, by decide +kernel⟩

theorem encodeStr_length_le (cps : List Nat) : (encodeStr cps).length ≤ 4 * cps.length := by
  induction cps with
  | nil => simp [encodeStr]
  | cons c cs ih =>
    have := (enc_length c).2
    simp only [encodeStr, List.flatMap_cons, List.length_append, List.length_cons] at *
    omega

theorem length_le_encodeStr (cps : List Nat) : cps.length ≤ (encodeStr cps).length := by
  induction cps with
  | nil => simp [encodeStr]
  | cons c cs ih =>
    have := (enc_length c).1
    simp only [encodeStr, List.flatMap_cons, List.length_append, List.length_cons] at *
    omega

theorem encodeStr_lt (cps : List Nat) (h : ∀ cp ∈ cps, ValidCp cp) : ∀ b ∈ encodeStr cps, b < 256 := by
  intro b hb
  simp only [encodeStr, List.mem_flatMap] at hb
  obtain ⟨cp, hcp, hb⟩ := hb
  obtain ⟨hv, _⟩ := h cp hcp
  unfold enc at hb
  repeat' split at hb
  all_goals (simp only [List.mem_cons, List.not_mem_nil, or_false] at hb; omega)

theorem doUcs4_take (cps : List Nat) (M : Nat) (h : ∀ cp ∈ cps, ValidCp cp) (hM : M ≤ cps.length) :
    doUcs4FromUtf8 (encodeStr cps) M = some (cps.take M) := by
  have e : encodeStr cps = encodeStr (cps.take M) ++ encodeStr (cps.drop M) := by
    unfold encodeStr
    rw [← List.flatMap_append, List.take_append_drop]
  have := doUcs4_enc (cps.take M) (encodeStr (cps.drop M)) (fun c hc => h c (List.mem_of_mem_take hc))
  rw [← e, List.length_take, Nat.min_eq_left hM] at this
  exact this

/-- Bounded conversion of valid text yields a prefix. -/
theorem ucs4Max_valid (cps : List Nat) (M : Nat) (h : ∀ cp ∈ cps, ValidCp cp) :
    ucs4FromUtf8Max (encodeStr cps) M = some (some (cps.take M)) := by
  unfold ucs4FromUtf8Max
  split
  · have := encodeStr_length_le cps
    rw [doUcs4_take cps M h (by omega)]; rfl
  · rcases utf8Distance_spec _ (encodeStr cps) (encodeStr_lt cps h) (Nat.le_refl _) with ⟨cps', h1, h2, h3⟩ | ⟨h1, h2⟩
    · have : cps' = cps := (encodeStr_injective _ _ h h2 h3).symm
      subst this
      simp only [h1, Option.bind_eq_bind, Option.bind_some, Option.pure_def]
      rw [doUcs4_take cps' _ h (by omega)]
      simp only [Option.bind_some, Option.some.injEq]
      by_cases hm : M ≤ cps'.length
      · rw [Nat.min_eq_right hm]
      · rw [Nat.min_eq_left (by omega), List.take_of_length_le (Nat.le_refl _), List.take_of_length_le (by omega)]
    · exact absurd rfl (h2 cps h)

theorem cstr_eq (s : List Wc) (h : 0 ∉ s) : cstr s = s := by
  induction s with
  | nil => rfl
  | cons x xs ih =>
    simp only [List.mem_cons, not_or] at h
    have hx : (x != 0) = true := by simp only [bne_iff_ne, ne_eq]; omega
    rw [cstr, List.takeWhile_cons, if_pos hx]
    exact congrArg _ (ih h.2)

/-- C05 (partial): the UTF-8 function agrees with the wide character function on every valid text, unless the
token is an e-mail address (contains `@`) of 45 or more characters. Missing: those long addresses, for which
`C05_violation` shows that the two functions disagree. -/
theorem C05_agree_partial (text : List Wc) (dot : Bool) (hv : ∀ c ∈ text, ValidCp c ∧ c ≠ 0)
    (t : TokenType) (n : Nat) (hn : nextToken text dot = some (t, n))
    (hshort : n + 5 < 50 ∨ 0x40 ∉ text.take n) :
    nextTokenCstr (encodeStr text) dot = some (t, n) := by
  have hval : ∀ c ∈ text, ValidCp c := fun c hc => (hv c hc).1
  have hnul : 0 ∉ text := fun h0 => (hv 0 h0).2 rfl
  have hnlen : n ≤ text.length := by
    by_cases ht : text = []
    · subst ht; simp [nextToken] at hn; omega
    · obtain ⟨t', n', h1, _, _, h2⟩ := C01_progress text dot ht
      rw [hn, Option.some.injEq, Prod.mk.injEq] at h1
      omega
  have main : ∀ fuel tl M, 50 ≤ M → text.length + 6 - M < fuel →
      nextTokenCstrLoop (encodeStr text) dot fuel tl M = some (t, n) := by
    intro fuel
    induction fuel with
    | zero => intro tl M _ h; omega
    | succ fuel ih =>
      intro tl M hM hf
      have hdo : doNextTokenCstr (encodeStr text) dot tl M = nextToken (text.take M) dot := by
        unfold doNextTokenCstr
        rw [ucs4Max_valid text M hval]
        simp only [Option.bind_eq_bind, Option.bind_some]
        rw [cstr_eq _ (fun h => hnul (List.mem_of_mem_take h))]
      rw [nextTokenCstrLoop, hdo]
      by_cases hMl : text.length ≤ M
      · rw [List.take_of_length_le hMl, hn]
        simp only [Option.bind_eq_bind, Option.bind_some]
        split
        · rfl
        · exact ih _ _ (by omega) (by omega)
      · rcases nextToken_take text M dot (by omega) (by omega) with h | ⟨t', a, h1, h2⟩ | ⟨t', b, h1, h2, h3⟩
        · rw [h, hn]
          simp only [Option.bind_eq_bind, Option.bind_some]
          split
          · rfl
          · exact ih _ _ (by omega) (by omega)
        · rw [h1]
          simp only [Option.bind_eq_bind, Option.bind_some]
          rw [if_neg]
          · exact ih _ _ (by omega) (by omega)
          · rintro (h | h)
            · subst h
              have hne : text.take M ≠ [] := by
                intro e
                have := congrArg List.length e
                rw [List.length_take, Nat.min_eq_left (by omega), List.length_nil] at this
                omega
              obtain ⟨t', n', g1, g2, _⟩ := C01_progress (text.take M) dot hne
              rw [h1, Option.some.injEq, Prod.mk.injEq] at g1
              exact g2 g1.1.symm
            · have h : a + 5 < M := h
              omega
        · rw [hn, Option.some.injEq, Prod.mk.injEq] at h1
          obtain ⟨_, rfl⟩ := h1
          rcases hshort with h | h
          · omega
          · exact absurd h3 h
  have := length_le_encodeStr text
  exact main _ _ _ (Nat.le_refl _) (by omega)

/-- "kissa" followed by 100 spaces and more text satisfies the hypotheses. -/
example : nextToken ([0x6B, 0x69, 0x73, 0x73, 0x61] ++ List.replicate 100 0x20 ++ [0x40]) false = some (.word, 5) ∧
    0x40 ∉ ([0x6B, 0x69, 0x73, 0x73, 0x61] ++ List.replicate 100 0x20 ++ [0x40]).take 5 := by decide +kernel

end Verif.Props
