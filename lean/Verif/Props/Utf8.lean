import Verif.Model.Utf8
/-! C14, C15: UTF-8 conversion. -/

set_option linter.unusedSimpArgs false

namespace Verif.Props
open Verif

/-! ### Specification: arithmetic definition of UTF-8 -/

/-- Code points the library works with: Unicode scalar values except U+FFFE and U+FFFF. -/
def ValidCp (cp : Nat) : Prop :=
  (cp < 0xD800 ∨ (0xE000 ≤ cp ∧ cp ≤ 0x10FFFF)) ∧ cp ≠ 0xFFFE ∧ cp ≠ 0xFFFF

/-- UTF-8 encoding of one code point (RFC 3629), by division and remainder. -/
def enc (cp : Nat) : List Nat :=
  if cp < 0x80 then [cp]
  else if cp < 0x800 then [0xC0 + cp / 64, 0x80 + cp % 64]
  else if cp < 0x10000 then [0xE0 + cp / 4096, 0x80 + cp / 64 % 64, 0x80 + cp % 64]
  else [0xF0 + cp / 262144, 0x80 + cp / 4096 % 64, 0x80 + cp / 64 % 64, 0x80 + cp % 64]

/-- UTF-8 encoding of a string. -/
def encodeStr (cps : List Nat) : List Nat := cps.flatMap enc

/-! ### Bit operations as arithmetic -/

theorem and_ff (x : Nat) : x &&& 0xff = x % 256 := Nat.and_two_pow_sub_one_eq_mod x 8
theorem and_3f (x : Nat) : x &&& 0x3f = x % 64 := Nat.and_two_pow_sub_one_eq_mod x 6
theorem and_7ff (x : Nat) : x &&& 0x7ff = x % 2048 := Nat.and_two_pow_sub_one_eq_mod x 11
theorem and_fff (x : Nat) : x &&& 0xfff = x % 4096 := Nat.and_two_pow_sub_one_eq_mod x 12
theorem and_ffff (x : Nat) : x &&& 0xffff = x % 65536 := Nat.and_two_pow_sub_one_eq_mod x 16
theorem and_3ffff (x : Nat) : x &&& 0x3ffff = x % 262144 := Nat.and_two_pow_sub_one_eq_mod x 18
theorem and_1fffff (x : Nat) : x &&& 0x1fffff = x % 2097152 := Nat.and_two_pow_sub_one_eq_mod x 21
theorem shl6 (x : Nat) : x <<< 6 = x * 64 := Nat.shiftLeft_eq x 6
theorem shl12 (x : Nat) : x <<< 12 = x * 4096 := Nat.shiftLeft_eq x 12
theorem shl18 (x : Nat) : x <<< 18 = x * 262144 := Nat.shiftLeft_eq x 18
theorem shr3 (x : Nat) : x >>> 3 = x / 8 := Nat.shiftRight_eq_div_pow x 3
theorem shr4 (x : Nat) : x >>> 4 = x / 16 := Nat.shiftRight_eq_div_pow x 4
theorem shr5 (x : Nat) : x >>> 5 = x / 32 := Nat.shiftRight_eq_div_pow x 5
theorem shr6 (x : Nat) : x >>> 6 = x / 64 := Nat.shiftRight_eq_div_pow x 6
theorem shr12 (x : Nat) : x >>> 12 = x / 4096 := Nat.shiftRight_eq_div_pow x 12
theorem shr18 (x : Nat) : x >>> 18 = x / 262144 := Nat.shiftRight_eq_div_pow x 18

theorem or_80 (x : Nat) (h : x < 64) : x ||| 0x80 = 0x80 + x := by
  have : ∀ x < 64, x ||| 0x80 = 0x80 + x := by decide
  exact this x h
theorem or_c0 (x : Nat) (h : x < 32) : x ||| 0xc0 = 0xC0 + x := by
  have : ∀ x < 32, x ||| 0xc0 = 0xC0 + x := by decide
  exact this x h
theorem or_e0 (x : Nat) (h : x < 16) : x ||| 0xe0 = 0xE0 + x := by
  have : ∀ x < 16, x ||| 0xe0 = 0xE0 + x := by decide
  exact this x h
theorem or_f0 (x : Nat) (h : x < 8) : x ||| 0xf0 = 0xF0 + x := by
  have : ∀ x < 8, x ||| 0xf0 = 0xF0 + x := by decide
  exact this x h

theorem valid_iff (cp : Nat) : isCodePointValid cp = true ↔ ValidCp cp := by
  simp only [isCodePointValid, ValidCp, Bool.and_eq_true, Bool.not_eq_true', Bool.and_eq_false_imp,
    decide_eq_true_eq, decide_eq_false_iff_not, bne_iff_ne, ne_eq]
  omega

theorem isTrail_iff (b : Nat) (h : b < 256) : isTrail b = true ↔ 0x80 ≤ b ∧ b < 0xC0 := by
  simp only [isTrail, mask8, and_ff, shr6, beq_iff_eq]
  omega

/-! ### Encoder -/

theorem utf8Append_eq (cp : Nat) (h : ValidCp cp) : utf8Append cp = some (enc cp) := by
  unfold utf8Append enc
  rw [(valid_iff cp).2 h]
  obtain ⟨h1, h2, h3⟩ := h
  simp only [Bool.not_true, Bool.false_eq_true, if_false, and_3f, shr6, shr12, shr18, u8]
  split
  · rw [Nat.mod_eq_of_lt (by omega)]
  · split
    · rw [or_c0 _ (by omega), or_80 (cp % 64) (by omega)]
      simp only [Option.some.injEq, List.cons.injEq, and_true]
      omega
    · split
      · rw [or_e0 _ (by omega), or_80 _ (Nat.mod_lt _ (by decide)), or_80 (cp % 64) (by omega)]
        simp only [Option.some.injEq, List.cons.injEq, and_true]
        omega
      · rw [or_f0 _ (by omega), or_80 (cp / 4096 % 64) (by omega), or_80 (cp / 64 % 64) (by omega),
          or_80 (cp % 64) (by omega)]
        simp only [Option.some.injEq, List.cons.injEq, and_true]
        omega

theorem enc_length (cp : Nat) : 1 ≤ (enc cp).length ∧ (enc cp).length ≤ 4 := by
  unfold enc
  repeat' split
  all_goals simp

theorem enc_ne_nil (cp : Nat) : enc cp ≠ [] := by
  intro h
  have := (enc_length cp).1
  rw [h] at this; simp at this

theorem utf8Loop_spec (cap : Nat) (word out : List Nat) (hcap : out.length + 6 * word.length + 1 ≤ cap) :
    (∀ cp ∈ word, ValidCp cp) → utf8Loop cap word out = some (some (out ++ encodeStr word)) := by
  induction word generalizing out with
  | nil =>
    intro _
    simp only [List.length_nil] at hcap
    simp [utf8Loop, encodeStr, if_pos (show out.length + 1 ≤ cap by omega)]
  | cons cp rest ih =>
    intro h
    rw [utf8Loop, utf8Append_eq cp (h cp (by simp))]
    simp only [List.length_cons] at hcap
    have := enc_length cp
    simp only
    rw [if_pos (by omega), ih (out ++ enc cp) (by rw [List.length_append]; omega)
      (fun c hc => h c (by simp [hc]))]
    simp [encodeStr]

theorem utf8Loop_invalid (cap : Nat) (word out : List Nat) (hcap : out.length + 6 * word.length + 1 ≤ cap) :
    (∃ cp ∈ word, ¬ ValidCp cp) → utf8Loop cap word out = some none := by
  induction word generalizing out with
  | nil => simp
  | cons cp rest ih =>
    rintro ⟨c, hc, hv⟩
    rw [utf8Loop]
    by_cases hcp : ValidCp cp
    · rw [utf8Append_eq cp hcp]
      simp only [List.length_cons] at hcap
      have := enc_length cp
      simp only
      rw [if_pos (by omega)]
      refine ih (out ++ enc cp) (by rw [List.length_append]; omega) ⟨c, ?_, hv⟩
      rw [List.mem_cons] at hc
      rcases hc with rfl | hc
      · exact absurd hcp hv
      · exact hc
    · have : utf8Append cp = none := by
        unfold utf8Append
        cases hb : isCodePointValid cp with
        | false => rfl
        | true => exact absurd ((valid_iff cp).1 hb) hcp
      rw [this]; rfl

/-- Encoder: exact result on valid strings, null on invalid ones, never outside the buffer. -/
theorem utf8FromUcs4_eq (word : List Nat) :
    ((∀ cp ∈ word, ValidCp cp) → utf8FromUcs4 word = some (some (encodeStr word))) ∧
    ((∃ cp ∈ word, ¬ ValidCp cp) → utf8FromUcs4 word = some none) := by
  constructor
  · intro h
    have := utf8Loop_spec (word.length * 6 + 1) word [] (by simp; omega) h
    simpa [utf8FromUcs4] using this
  · exact utf8Loop_invalid (word.length * 6 + 1) word [] (by simp; omega)

/-! ### Decoder -/

theorem deref_cons (b : Nat) (r : List Nat) : deref (b :: r) = some b := rfl

/-- One step of the checked decoder on a byte string: it succeeds exactly on a valid encoding. -/
theorem checkedNext_spec (it : List Nat) (h0 : it ≠ []) (hb : ∀ b ∈ it, b < 256) :
    (∃ cp rest, checkedNext it = some (some (cp, rest)) ∧ ValidCp cp ∧ it = enc cp ++ rest) ∨
    (checkedNext it = some none ∧ ∀ cp rest, ValidCp cp → it ≠ enc cp ++ rest) := by
  obtain ⟨b0, r0, rfl⟩ := List.exists_cons_of_ne_nil h0
  have hb0 : b0 < 256 := hb b0 (by simp)
  have hm0 : mask8 b0 = b0 := by rw [mask8, and_ff, Nat.mod_eq_of_lt hb0]
  have htr : ∀ b, b < 256 → (isTrail b = true ↔ 0x80 ≤ b ∧ b < 0xC0) := isTrail_iff
  -- shape of encodings, by first byte
  have e1 : ∀ cp rest, ValidCp cp → b0 :: r0 = enc cp ++ rest → b0 < 0x80 → cp = b0 ∧ rest = r0 := by
    intro cp rest hv he h1
    unfold enc at he
    split at he
    · simp only [List.cons_append, List.nil_append, List.cons.injEq] at he
      exact ⟨he.1.symm, he.2.symm⟩
    · repeat' split at he
      all_goals (simp only [List.cons_append, List.nil_append, List.cons.injEq] at he; omega)
  unfold checkedNext
  simp only [deref_cons, Option.bind_eq_bind, Option.bind_some, Option.pure_def]
  by_cases l1 : b0 < 0x80
  · left
    have hs : sequenceLength b0 = 1 := by simp only [sequenceLength, hm0, l1, if_true]
    have hv : ValidCp b0 := ⟨by omega, by omega, by omega⟩
    have ho : isOverlong b0 1 = false := by simp [isOverlong, l1]
    refine ⟨b0, r0, ?_, hv, by simp [enc, l1]⟩
    simp [hs, getSequence, getSequence1, deref_cons, hm0, (valid_iff b0).2 hv, ho]
  · by_cases l2 : b0 / 32 = 6
    · have hs : sequenceLength b0 = 2 := by
        simp only [sequenceLength, hm0, l1, if_false, shr5, l2, if_true]
      simp only [hs, getSequence, getSequence2, deref_cons]
      -- any encoding starting with this byte has two bytes
      have hform : ∀ cp rest, ValidCp cp → b0 :: r0 = enc cp ++ rest →
          0x80 ≤ cp ∧ cp < 0x800 ∧ b0 = 0xC0 + cp / 64 ∧ r0 = (0x80 + cp % 64) :: rest := by
        intro cp rest hv he
        unfold enc at he
        split at he
        · simp only [List.cons_append, List.nil_append, List.cons.injEq] at he; omega
        · split at he
          · simp only [List.cons_append, List.nil_append, List.cons.injEq] at he
            exact ⟨by omega, by omega, he.1, he.2⟩
          · repeat' split at he
            all_goals (simp only [List.cons_append, List.nil_append, List.cons.injEq] at he; obtain ⟨_, _⟩ := hv; omega)
      cases r0 with
      | nil =>
        right
        refine ⟨by simp, fun cp rest hv he => ?_⟩
        have := (hform cp rest hv he).2.2.2
        simp at this
      | cons b1 r1 =>
        have hb1 : b1 < 256 := hb b1 (by simp)
        by_cases t1 : isTrail b1 = true
        · have t1' := (htr b1 hb1).1 t1
          simp only [ne_eq, reduceCtorEq, not_false_eq_true, if_true, Option.bind_eq_bind, Option.pure_def, Option.bind_some, List.tail_cons,
            deref_cons, t1, hm0, and_7ff, and_3f, shl6]
          generalize hcp : b0 * 64 % 2048 + b1 % 64 = cp
          have hv : ValidCp cp := by unfold ValidCp; omega
          simp only [(valid_iff cp).2 hv, if_true]
          by_cases ho : cp < 0x80
          · right
            have : isOverlong cp 2 = true := by simp [isOverlong, ho]
            simp only [this]
            refine ⟨by simp, fun cp' rest hv' he => ?_⟩
            obtain ⟨f1, f2, f3, f4⟩ := hform cp' rest hv' he
            simp only [List.cons.injEq] at f4
            omega
          · left
            have : isOverlong cp 2 = false := by
              simp only [isOverlong, ho, if_false]
              rw [if_pos (by omega)]; rfl
            simp only [this]
            refine ⟨cp, r1, by simp, hv, ?_⟩
            unfold enc
            rw [if_neg ho, if_pos (by omega)]
            simp only [List.cons_append, List.nil_append, List.cons.injEq, and_true]
            omega
        · right
          refine ⟨by simp [t1, deref_cons], fun cp rest hv he => ?_⟩
          obtain ⟨f1, f2, f3, f4⟩ := hform cp rest hv he
          simp only [List.cons.injEq] at f4
          rw [htr b1 hb1] at t1
          omega
    · by_cases l3 : b0 / 16 = 14
      · have hs : sequenceLength b0 = 3 := by
          simp only [sequenceLength, hm0, l1, if_false, shr5, shr4, l2, l3, if_true]
        simp only [hs, getSequence, getSequence3, deref_cons]
        have hform : ∀ cp rest, ValidCp cp → b0 :: r0 = enc cp ++ rest →
            0x800 ≤ cp ∧ cp < 0x10000 ∧ b0 = 0xE0 + cp / 4096 ∧
              r0 = (0x80 + cp / 64 % 64) :: (0x80 + cp % 64) :: rest := by
          intro cp rest hv he
          unfold enc at he
          split at he
          · simp only [List.cons_append, List.nil_append, List.cons.injEq] at he; omega
          · split at he
            · simp only [List.cons_append, List.nil_append, List.cons.injEq] at he; omega
            · split at he
              · simp only [List.cons_append, List.nil_append, List.cons.injEq] at he
                exact ⟨by omega, by omega, he.1, he.2⟩
              · simp only [List.cons_append, List.nil_append, List.cons.injEq] at he; obtain ⟨_, _⟩ := hv; omega
        match r0, hb with
        | [], _ =>
          right
          refine ⟨by simp, fun cp rest hv he => ?_⟩
          have := (hform cp rest hv he).2.2.2
          simp at this
        | [b1], hb =>
          right
          refine ⟨by cases h1 : isTrail b1 <;> simp [deref_cons, h1], fun cp rest hv he => ?_⟩
          have := (hform cp rest hv he).2.2.2
          simp at this
        | b1 :: b2 :: r2, hb =>
          have hb1 : b1 < 256 := hb b1 (by simp)
          have hb2 : b2 < 256 := hb b2 (by simp)
          have hm1 : mask8 b1 = b1 := by rw [mask8, and_ff, Nat.mod_eq_of_lt hb1]
          by_cases t1 : isTrail b1 = true ∧ isTrail b2 = true
          · have t1' := (htr b1 hb1).1 t1.1
            have t2' := (htr b2 hb2).1 t1.2
            simp only [ne_eq, reduceCtorEq, not_false_eq_true, if_true, Option.bind_eq_bind, Option.pure_def, Option.bind_some, List.tail_cons,
              deref_cons, t1.1, t1.2, hm0, hm1, and_ffff, and_fff, and_3f, shl6, shl12]
            generalize hcp : b0 * 4096 % 65536 + b1 * 64 % 4096 + b2 % 64 = cp
            by_cases hv : ValidCp cp
            · simp only [(valid_iff cp).2 hv, if_true]
              by_cases ho : cp < 0x800
              · right
                have : isOverlong cp 3 = true := by
                  simp only [isOverlong]
                  split
                  · rfl
                  · rfl
                simp only [this]
                refine ⟨by simp, fun cp' rest hv' he => ?_⟩
                obtain ⟨f1, f2, f3, f4⟩ := hform cp' rest hv' he
                simp only [List.cons.injEq] at f4
                omega
              · left
                have : isOverlong cp 3 = false := by
                  simp only [isOverlong]
                  rw [if_neg (by omega), if_neg ho, if_pos (by omega)]; rfl
                simp only [this]
                refine ⟨cp, r2, by simp, hv, ?_⟩
                unfold enc
                rw [if_neg (by omega), if_neg ho, if_pos (by omega)]
                simp only [List.cons_append, List.nil_append, List.cons.injEq, and_true]
                omega
            · right
              have : isCodePointValid cp = false := by
                cases hx : isCodePointValid cp with
                | false => rfl
                | true => exact absurd ((valid_iff cp).1 hx) hv
              simp only [this]
              refine ⟨by simp, fun cp' rest hv' he => ?_⟩
              obtain ⟨f1, f2, f3, f4⟩ := hform cp' rest hv' he
              simp only [List.cons.injEq] at f4
              have : cp' = cp := by omega
              exact hv (this ▸ hv')
          · right
            refine ⟨?_, fun cp rest hv he => ?_⟩
            · cases h1 : isTrail b1 <;> cases h2 : isTrail b2 <;> simp_all [deref_cons]
            · obtain ⟨f1, f2, f3, f4⟩ := hform cp rest hv he
              simp only [List.cons.injEq] at f4
              rw [htr b1 hb1, htr b2 hb2] at t1
              omega
      · by_cases l4 : b0 / 8 = 30
        · have hs : sequenceLength b0 = 4 := by
            simp only [sequenceLength, hm0, l1, if_false, shr5, shr4, shr3, l2, l3, l4, if_true]
          simp only [hs, getSequence, getSequence4, deref_cons]
          have hform : ∀ cp rest, ValidCp cp → b0 :: r0 = enc cp ++ rest →
              0x10000 ≤ cp ∧ b0 = 0xF0 + cp / 262144 ∧
                r0 = (0x80 + cp / 4096 % 64) :: (0x80 + cp / 64 % 64) :: (0x80 + cp % 64) :: rest := by
            intro cp rest hv he
            unfold enc at he
            split at he
            · simp only [List.cons_append, List.nil_append, List.cons.injEq] at he; omega
            · split at he
              · simp only [List.cons_append, List.nil_append, List.cons.injEq] at he; omega
              · split at he
                · simp only [List.cons_append, List.nil_append, List.cons.injEq] at he; omega
                · simp only [List.cons_append, List.nil_append, List.cons.injEq] at he
                  exact ⟨by omega, he.1, he.2⟩
          match r0, hb with
          | [], _ =>
            right
            refine ⟨by simp, fun cp rest hv he => ?_⟩
            have := (hform cp rest hv he).2.2
            simp at this
          | [b1], hb =>
            right
            refine ⟨by cases h1 : isTrail b1 <;> simp [deref_cons, h1], fun cp rest hv he => ?_⟩
            have := (hform cp rest hv he).2.2
            simp at this
          | [b1, b2], hb =>
            right
            refine ⟨by cases h1 : isTrail b1 <;> cases h2 : isTrail b2 <;> simp [deref_cons, h1, h2], fun cp rest hv he => ?_⟩
            have := (hform cp rest hv he).2.2
            simp at this
          | b1 :: b2 :: b3 :: r3, hb =>
            have hb1 : b1 < 256 := hb b1 (by simp)
            have hb2 : b2 < 256 := hb b2 (by simp)
            have hb3 : b3 < 256 := hb b3 (by simp)
            have hm1 : mask8 b1 = b1 := by rw [mask8, and_ff, Nat.mod_eq_of_lt hb1]
            have hm2 : mask8 b2 = b2 := by rw [mask8, and_ff, Nat.mod_eq_of_lt hb2]
            by_cases t1 : isTrail b1 = true ∧ isTrail b2 = true ∧ isTrail b3 = true
            · have t1' := (htr b1 hb1).1 t1.1
              have t2' := (htr b2 hb2).1 t1.2.1
              have t3' := (htr b3 hb3).1 t1.2.2
              simp only [ne_eq, reduceCtorEq, not_false_eq_true, if_true, Option.bind_eq_bind, Option.pure_def, Option.bind_some, List.tail_cons,
                deref_cons, t1.1, t1.2.1, t1.2.2, hm0, hm1, hm2, and_1fffff, and_3ffff, and_fff, and_3f, shl6,
                shl12, shl18]
              generalize hcp : b0 * 262144 % 2097152 + b1 * 4096 % 262144 + b2 * 64 % 4096 + b3 % 64 = cp
              by_cases hv : ValidCp cp
              · simp only [(valid_iff cp).2 hv, if_true]
                by_cases ho : cp < 0x10000
                · right
                  have : isOverlong cp 4 = true := by
                    simp only [isOverlong]
                    split
                    · rfl
                    · split
                      · rfl
                      · rfl
                  simp only [this]
                  refine ⟨by simp, fun cp' rest hv' he => ?_⟩
                  obtain ⟨f1, f3, f4⟩ := hform cp' rest hv' he
                  simp only [List.cons.injEq] at f4
                  have := hv'.1
                  omega
                · left
                  have : isOverlong cp 4 = false := by
                    simp only [isOverlong]
                    rw [if_neg (by omega), if_neg (by omega), if_neg ho]
                  simp only [this]
                  refine ⟨cp, r3, by simp, hv, ?_⟩
                  unfold enc
                  rw [if_neg (by omega), if_neg (by omega), if_neg ho]
                  simp only [List.cons_append, List.nil_append, List.cons.injEq, and_true]
                  omega
              · right
                have : isCodePointValid cp = false := by
                  cases hx : isCodePointValid cp with
                  | false => rfl
                  | true => exact absurd ((valid_iff cp).1 hx) hv
                simp only [this]
                refine ⟨by simp, fun cp' rest hv' he => ?_⟩
                obtain ⟨f1, f3, f4⟩ := hform cp' rest hv' he
                simp only [List.cons.injEq] at f4
                have := hv'.1
                have : cp' = cp := by omega
                exact hv (this ▸ hv')
            · right
              refine ⟨?_, fun cp rest hv he => ?_⟩
              · cases h1 : isTrail b1 <;> cases h2 : isTrail b2 <;> cases h3 : isTrail b3 <;> simp_all [deref_cons]
              · obtain ⟨f1, f3, f4⟩ := hform cp rest hv he
                simp only [List.cons.injEq] at f4
                rw [htr b1 hb1, htr b2 hb2, htr b3 hb3] at t1
                omega
        · right
          have hs : sequenceLength b0 = 0 := by
            simp only [sequenceLength, hm0, l1, if_false, shr5, shr4, shr3, l2, l3, l4]
          refine ⟨by simp [hs], fun cp rest hv he => ?_⟩
          obtain ⟨hv1, _⟩ := hv
          unfold enc at he
          repeat' split at he
          all_goals (simp only [List.cons_append, List.nil_append, List.cons.injEq] at he; omega)

/-- The unchecked decoder on a valid encoding. -/
theorem uncheckedNext_enc (cp : Nat) (rest : List Nat) (h : ValidCp cp) :
    uncheckedNext (enc cp ++ rest) = some (cp, rest) := by
  obtain ⟨h1, _, _⟩ := h
  unfold enc
  split
  · rename_i h
    have hm : mask8 cp = cp := by rw [mask8, and_ff, Nat.mod_eq_of_lt (by omega)]
    have hs : sequenceLength cp = 1 := by simp only [sequenceLength, hm, h, if_true]
    simp [uncheckedNext, deref, hs, hm]
  · split
    · have hm : mask8 (0xC0 + cp / 64) = 0xC0 + cp / 64 := by rw [mask8, and_ff, Nat.mod_eq_of_lt (by omega)]
      have hs : sequenceLength (0xC0 + cp / 64) = 2 := by
        simp only [sequenceLength, hm, shr5]
        rw [if_neg (by omega), if_pos (by omega)]
      simp only [uncheckedNext, deref, List.cons_append, List.nil_append, List.head?_cons, Option.bind_eq_bind,
        Option.bind_some, hs, List.tail_cons, hm, and_7ff, and_3f, shl6, Option.pure_def, Option.some.injEq,
        Prod.mk.injEq, and_true]
      omega
    · split
      · have hm : mask8 (0xE0 + cp / 4096) = 0xE0 + cp / 4096 := by
          rw [mask8, and_ff, Nat.mod_eq_of_lt (by omega)]
        have hm1 : mask8 (0x80 + cp / 64 % 64) = 0x80 + cp / 64 % 64 := by
          rw [mask8, and_ff, Nat.mod_eq_of_lt (by omega)]
        have hs : sequenceLength (0xE0 + cp / 4096) = 3 := by
          simp only [sequenceLength, hm, shr5, shr4]
          rw [if_neg (by omega), if_neg (by omega), if_pos (by omega)]
        simp only [uncheckedNext, deref, List.cons_append, List.nil_append, List.head?_cons, Option.bind_eq_bind,
          Option.bind_some, hs, List.tail_cons, hm, hm1, and_ffff, and_fff, and_3f, shl6, shl12, Option.pure_def,
          Option.some.injEq, Prod.mk.injEq, and_true]
        omega
      · have hm : mask8 (0xF0 + cp / 262144) = 0xF0 + cp / 262144 := by
          rw [mask8, and_ff, Nat.mod_eq_of_lt (by omega)]
        have hm1 : mask8 (0x80 + cp / 4096 % 64) = 0x80 + cp / 4096 % 64 := by
          rw [mask8, and_ff, Nat.mod_eq_of_lt (by omega)]
        have hm2 : mask8 (0x80 + cp / 64 % 64) = 0x80 + cp / 64 % 64 := by
          rw [mask8, and_ff, Nat.mod_eq_of_lt (by omega)]
        have hs : sequenceLength (0xF0 + cp / 262144) = 4 := by
          simp only [sequenceLength, hm, shr5, shr4, shr3]
          rw [if_neg (by omega), if_neg (by omega), if_neg (by omega), if_pos (by omega)]
        simp only [uncheckedNext, deref, List.cons_append, List.nil_append, List.head?_cons, Option.bind_eq_bind,
          Option.bind_some, hs, List.tail_cons, hm, hm1, hm2, and_1fffff, and_3ffff, and_fff, and_3f, shl6, shl12,
          shl18, Option.pure_def, Option.some.injEq, Prod.mk.injEq, and_true]
        omega

theorem doUcs4_enc (cps tail : List Nat) (h : ∀ cp ∈ cps, ValidCp cp) :
    doUcs4FromUtf8 (encodeStr cps ++ tail) cps.length = some cps := by
  induction cps with
  | nil => rfl
  | cons cp rest ih =>
    have : encodeStr (cp :: rest) ++ tail = enc cp ++ (encodeStr rest ++ tail) := by simp [encodeStr]
    rw [this, List.length_cons, doUcs4FromUtf8, uncheckedNext_enc cp _ (h cp (by simp))]
    simp [ih (fun c hc => h c (by simp [hc]))]

/-- The validating count: succeeds exactly on encodings of valid strings. -/
theorem utf8Distance_spec (fuel : Nat) (it : List Nat) (hb : ∀ b ∈ it, b < 256) (hf : it.length ≤ fuel) :
    (∃ cps, utf8Distance fuel it = some (some cps.length) ∧ (∀ cp ∈ cps, ValidCp cp) ∧ it = encodeStr cps) ∨
    (utf8Distance fuel it = some none ∧ ∀ cps, (∀ cp ∈ cps, ValidCp cp) → it ≠ encodeStr cps) := by
  induction fuel generalizing it with
  | zero =>
    have : it = [] := List.eq_nil_of_length_eq_zero (by omega)
    subst this
    exact Or.inl ⟨[], rfl, by simp, rfl⟩
  | succ fuel ih =>
    cases it with
    | nil => exact Or.inl ⟨[], rfl, by simp, rfl⟩
    | cons b r =>
      rw [utf8Distance]
      rcases checkedNext_spec (b :: r) (by simp) hb with ⟨cp, rest, h1, h2, h3⟩ | ⟨h1, h2⟩
      · have hlen : rest.length ≤ fuel := by
          have e := congrArg List.length h3
          rw [List.length_append] at e
          have := (enc_length cp).1
          omega
        have hbr : ∀ x ∈ rest, x < 256 := fun x hx => hb x (by rw [h3]; simp [hx])
        rw [h1]
        rcases ih rest hbr hlen with ⟨cps, g1, g2, g3⟩ | ⟨g1, g2⟩
        · left
          refine ⟨cp :: cps, by simp [g1], ?_, by rw [h3, g3]; simp [encodeStr]⟩
          intro c hc
          rw [List.mem_cons] at hc
          rcases hc with rfl | hc
          · exact h2
          · exact g2 c hc
        · right
          refine ⟨by simp [g1], fun cps hv he => ?_⟩
          cases cps with
          | nil => simp [encodeStr] at he
          | cons c cs =>
            have e : b :: r = enc c ++ encodeStr cs := by rw [he]; simp [encodeStr]
            have k1 := uncheckedNext_enc c (encodeStr cs) (hv c (by simp))
            have k2 := uncheckedNext_enc cp rest h2
            rw [← e] at k1
            rw [← h3] at k2
            rw [k1, Option.some.injEq, Prod.mk.injEq] at k2
            exact g2 cs (fun x hx => hv x (by simp [hx])) k2.2.symm
      · right
        refine ⟨by simp [h1], fun cps hv he => ?_⟩
        cases cps with
        | nil => simp [encodeStr] at he
        | cons c cs => exact h2 c (encodeStr cs) (hv c (by simp)) (by rw [he]; simp [encodeStr])

/-- Different valid strings have different encodings. -/
theorem encodeStr_injective (a b : List Nat) (ha : ∀ cp ∈ a, ValidCp cp) (hb : ∀ cp ∈ b, ValidCp cp)
    (h : encodeStr a = encodeStr b) : a = b := by
  induction a generalizing b with
  | nil =>
    cases b with
    | nil => rfl
    | cons c cs =>
      have := enc_ne_nil c
      simp [encodeStr] at h
      exact absurd h.1 this
  | cons x xs ih =>
    cases b with
    | nil =>
      have := enc_ne_nil x
      simp [encodeStr] at h
      exact absurd h.1 this
    | cons c cs =>
      have e : enc x ++ encodeStr xs = enc c ++ encodeStr cs := by simpa [encodeStr] using h
      have k1 := uncheckedNext_enc x (encodeStr xs) (ha x (by simp))
      rw [e, uncheckedNext_enc c (encodeStr cs) (hb c (by simp)), Option.some.injEq, Prod.mk.injEq] at k1
      rw [k1.1, ih cs (fun y hy => ha y (by simp [hy])) (fun y hy => hb y (by simp [hy])) k1.2.symm]

/-! ### C15 -/

/-- C15: on any byte string the decoder stays inside the given bytes; it returns `cps` exactly if the
bytes are the UTF-8 encoding of `cps` and all are valid code points. -/
theorem C15_decoder_exact (bytes cps : List Nat) (hb : ∀ b ∈ bytes, b < 256) :
    ucs4FromUtf8 bytes = some (some cps) ↔ ((∀ cp ∈ cps, ValidCp cp) ∧ bytes = encodeStr cps) := by
  unfold ucs4FromUtf8
  rcases utf8Distance_spec bytes.length bytes hb (Nat.le_refl _) with ⟨cps', h1, h2, h3⟩ | ⟨h1, h2⟩
  · have h4 := doUcs4_enc cps' [] h2
    rw [List.append_nil, ← h3] at h4
    simp only [h1, h4, Option.bind_eq_bind, Option.bind_some, Option.pure_def, Option.some.injEq]
    constructor
    · rintro rfl; exact ⟨h2, h3⟩
    · rintro ⟨g1, g2⟩
      exact encodeStr_injective _ _ h2 g1 (h3.symm.trans g2)
  · simp only [h1, Option.bind_eq_bind, Option.bind_some, Option.pure_def, Option.some.injEq, reduceCtorEq,
      false_iff, not_and]
    exact fun hv he => h2 cps hv he

/-- C15: no read past the end on any byte string, well-formed or not. -/
theorem C15_in_bounds (bytes : List Nat) (hb : ∀ b ∈ bytes, b < 256) : ucs4FromUtf8 bytes ≠ none := by
  unfold ucs4FromUtf8
  rcases utf8Distance_spec bytes.length bytes hb (Nat.le_refl _) with ⟨cps', h1, h2, h3⟩ | ⟨h1, h2⟩
  · have h4 := doUcs4_enc cps' [] h2
    rw [List.append_nil, ← h3] at h4
    simp [h1, h4]
  · simp [h1]

/-- Well-formed UTF-8 for U+FFFE / U+FFFF (Unicode scalar values) is rejected: the library excludes these two
noncharacters, which is why `ValidCp` does. -/
theorem C15_nonchar_rejected : ucs4FromUtf8 [0xEF, 0xBF, 0xBF] = some none := by decide +kernel

/-- "ä€😀" decodes; an overlong form, a surrogate and a truncated sequence do not. -/
example : ucs4FromUtf8 [0xC3, 0xA4, 0xE2, 0x82, 0xAC, 0xF0, 0x9F, 0x98, 0x80] = some (some [0xE4, 0x20AC, 0x1F600]) ∧
    ucs4FromUtf8 [0xC0, 0x80] = some none ∧ ucs4FromUtf8 [0xED, 0xA0, 0x80] = some none ∧
    ucs4FromUtf8 [0xE2, 0x82] = some none := by decide +kernel

/-! ### C14 -/

/-- C14: encoding fits its buffer and decoding the result gives the original back. -/
theorem C14_round_trip (word : List Nat) (h : ∀ cp ∈ word, ValidCp cp) :
    ∃ bytes, utf8FromUcs4 word = some (some bytes) ∧ bytes.length ≤ 4 * word.length ∧
      (∀ b ∈ bytes, b < 256) ∧ ucs4FromUtf8 bytes = some (some word) := by
  have hlt : ∀ b ∈ encodeStr word, b < 256 := by
    intro b hb
    simp only [encodeStr, List.mem_flatMap] at hb
    obtain ⟨cp, hcp, hb⟩ := hb
    obtain ⟨hv, _⟩ := h cp hcp
    unfold enc at hb
    repeat' split at hb
    all_goals (simp only [List.mem_cons, List.not_mem_nil, or_false] at hb; omega)
  refine ⟨encodeStr word, (utf8FromUcs4_eq word).1 h, ?_, hlt, (C15_decoder_exact _ _ hlt).2 ⟨h, rfl⟩⟩
  clear h hlt
  induction word with
  | nil => simp [encodeStr]
  | cons c cs ih =>
    have := (enc_length c).2
    simp only [encodeStr, List.flatMap_cons, List.length_append, List.length_cons] at *
    omega

/-- C14: a string without NUL encodes to bytes without NUL, so C string length is preserved. -/
theorem C14_no_nul (word : List Nat) (h : ∀ cp ∈ word, ValidCp cp ∧ cp ≠ 0) :
    ∃ bytes, utf8FromUcs4 word = some (some bytes) ∧ 0 ∉ bytes := by
  refine ⟨encodeStr word, (utf8FromUcs4_eq word).1 (fun c hc => (h c hc).1), ?_⟩
  intro hb
  simp only [encodeStr, List.mem_flatMap] at hb
  obtain ⟨cp, hcp, hb⟩ := hb
  have := (h cp hcp).2
  unfold enc at hb
  repeat' split at hb
  all_goals (simp only [List.mem_cons, List.not_mem_nil, or_false] at hb; omega)

/-- C14: a string with an invalid code point is refused (null pointer), without overflow. -/
theorem C14_invalid_refused (word : List Nat) (h : ∃ cp ∈ word, ¬ ValidCp cp) :
    utf8FromUcs4 word = some none := (utf8FromUcs4_eq word).2 h

example : utf8FromUcs4 [0xE4, 0x20AC] = some (some [0xC3, 0xA4, 0xE2, 0x82, 0xAC]) ∧ ValidCp 0x20AC := by
  unfold ValidCp; decide +kernel

end Verif.Props
