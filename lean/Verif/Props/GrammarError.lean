import Verif.Model.GrammarError
import Verif.Props.GrammarCache
/-! C84: descriptions of grammar errors. -/

namespace Verif.Props
open Verif
set_option linter.unusedSimpArgs false
set_option linter.unusedVariables false

/-- The descriptions of errors that do not exist. -/
def isUnknownText (m : List Nat) : Prop := m = encodeStr (lit "Tuntematon virhe") ∨ m = encodeStr (lit "Unknown error")

instance (m : List Nat) : Decidable (isUnknownText m) := by unfold isUnknownText; infer_instance

/-- A language whose name begins with `fi`. -/
def Fi (l : List Nat) : Prop := ∃ r, l = 0x66 :: 0x69 :: r

theorem message_eq (code : Int) (l : List Nat) :
    (Fi l → errorMessage code (some l) = some (messageFi code)) ∧ (¬ Fi l → errorMessage code (some l) = some (messageEn code)) := by
  have hlit : lit "fi" = [0x66, 0x69] := by decide
  unfold errorMessage
  simp only [hlit]
  constructor
  · rintro ⟨r, rfl⟩
    simp [wcsncmpEq, rd]
  · intro h
    match l with
    | [] => simp [wcsncmpEq, rd]
    | [a] => by_cases ha : a = 0x66 <;> simp [wcsncmpEq, rd, ha]
    | a :: b :: r =>
      by_cases ha : a = 0x66
      · by_cases hb : b = 0x69
        · exact absurd ⟨r, by rw [ha, hb]⟩ h
        · simp [wcsncmpEq, rd, ha, hb]
      · simp [wcsncmpEq, rd, ha]

/-- The codes of grammar errors. -/
def errorCodes : List Nat := (List.range 18).map (· + 1)

theorem int_cases {code : Nat} (h0 : 0 < code) (h1 : code ≤ 18) : code ∈ errorCodes := by
  simp only [errorCodes, List.mem_map, List.mem_range]
  exact ⟨code - 1, by omega, by omega⟩

theorem messages_ok : ∀ code ∈ errorCodes, ∀ m ∈ [messageFi (code : Int), messageEn (code : Int)],
    ¬ isUnknownText m ∧ m ≠ [] ∧ 0 ∉ m ∧ (∀ b ∈ m, b < 256) ∧ (ucs4FromUtf8 m).isSome = true ∧ ucs4FromUtf8 m ≠ some none := by
  decide +kernel

/-- C84: after any sequence of calls each error that is reported for a UTF-8 text has a description in every language: a UTF-8 string that is
neither empty nor the description of an unknown error. -/
theorem C84_described {σ : Type} (env : GramEnv σ) (he : EnvOk env) (dict : Bool → List Wc → SpellRes)
    (h h' : Handle GErr) (c c' : σ) (hr : GReach env dict h c) (bytes : List Nat) (hb : ∀ b ∈ bytes, b < 256) (startpos : Nat)
    (skip : Int) (e : GErr) (hc : nextGrammarErrorCstr env h c bytes startpos skip = some (some e, h', c')) (language : List Nat) :
    ∃ m text, shortDescription e.code (some language) = some m ∧ ucs4FromUtf8 m = some (some text) ∧ m ≠ [] ∧ 0 ∉ m ∧ ¬ isUnknownText m := by
  obtain ⟨_, _, _, _, h0, h1⟩ := C55_inside_utf8 env he dict h h' c c' hr bytes hb startpos skip e hc
  have ht := messages_ok e.code (int_cases h0 h1)
  by_cases hl : Fi language
  · obtain ⟨k1, k2, k3, -, k4, k5⟩ := ht (messageFi e.code) (by simp)
    obtain ⟨t, hm⟩ := Option.isSome_iff_exists.1 k4
    cases t with
    | none => exact absurd hm k5
    | some t => exact ⟨_, t, (message_eq _ _).1 hl, hm, k2, k3, k1⟩
  · obtain ⟨k1, k2, k3, -, k4, k5⟩ := ht (messageEn e.code) (by simp)
    obtain ⟨t, hm⟩ := Option.isSome_iff_exists.1 k4
    cases t with
    | none => exact absurd hm k5
    | some t => exact ⟨_, t, (message_eq _ _).2 hl, hm, k2, k3, k1⟩

/-- The same for wide character texts, with the restriction of C55. -/
theorem C84_described_ucs4_partial {σ : Type} (env : GramEnv σ) (he : EnvOk env) (dict : Bool → List Wc → SpellRes)
    (h h' : Handle GErr) (c c' : σ) (hr : GReach env dict h c) (text junk : List Wc) (hz : 0 ∉ text) (startpos : Nat)
    (skip : Int) (e : GErr) (hc : nextGrammarError env h c (text ++ 0 :: junk) text.length startpos skip = some (some e, h', c'))
    (language : List Nat) : ∃ m, shortDescription e.code (some language) = some m ∧ m ≠ [] ∧ ¬ isUnknownText m := by
  obtain ⟨_, _, h0, h1⟩ := C55_inside_partial env he dict h h' c c' hr text junk hz startpos skip e hc
  have ht := messages_ok e.code (int_cases h0 h1)
  by_cases hl : Fi language
  · obtain ⟨k1, k2, -⟩ := ht (messageFi e.code) (by simp)
    exact ⟨_, (message_eq _ _).1 hl, k2, k1⟩
  · obtain ⟨k1, k2, -⟩ := ht (messageEn e.code) (by simp)
    exact ⟨_, (message_eq _ _).2 hl, k2, k1⟩

theorem messages_distinct : ∀ a ∈ errorCodes, ∀ b ∈ errorCodes,
    (messageFi (a : Int) = messageFi (b : Int) → a = b) ∧ (messageEn (a : Int) = messageEn (b : Int) → a = b) ∧
    messageFi (a : Int) ≠ messageEn (b : Int) := by decide +kernel

/-- C84: the descriptions of two different kinds of errors differ, in the same language and in different ones. -/
theorem C84_distinct {a b : Nat} (ha : 0 < a) (ha' : a ≤ 18) (hb : 0 < b) (hb' : b ≤ 18) (l l' : List Nat)
    (h : shortDescription a (some l) = shortDescription b (some l')) : a = b ∧ (Fi l ↔ Fi l') := by
  obtain ⟨t1, t2, t3⟩ := messages_distinct a (int_cases ha ha') b (int_cases hb hb')
  have t3' := (messages_distinct b (int_cases hb hb') a (int_cases ha ha')).2.2
  unfold shortDescription at h
  by_cases hl : Fi l <;> by_cases hl' : Fi l'
  · rw [(message_eq _ _).1 hl, (message_eq _ _).1 hl', Option.some.injEq] at h
    exact ⟨t1 h, by simp [hl, hl']⟩
  · rw [(message_eq _ _).1 hl, (message_eq _ _).2 hl', Option.some.injEq] at h
    exact absurd h t3
  · rw [(message_eq _ _).2 hl, (message_eq _ _).1 hl', Option.some.injEq] at h
    exact absurd h.symm t3'
  · rw [(message_eq _ _).2 hl, (message_eq _ _).2 hl', Option.some.injEq] at h
    exact ⟨t2 h, by simp [hl, hl']⟩

/-- C84: any other number is described as an unknown error. -/
theorem C84_unknown (code : Int) (hc : code < 1 ∨ 18 < code) (l : List Nat) :
    ∃ m, errorMessage code (some l) = some m ∧ isUnknownText m := by
  have h1 : messageFi code = encodeStr (lit "Tuntematon virhe") := by
    have : messageFi code = escaped "Tuntematon virhe" := by
      unfold messageFi
      split <;> first | omega | rfl
    rw [this]; decide +kernel
  have h2 : messageEn code = encodeStr (lit "Unknown error") := by
    have : messageEn code = escaped "Unknown error" := by
      unfold messageEn
      split <;> first | omega | rfl
    rw [this]; decide +kernel
  by_cases hl : Fi l
  · exact ⟨_, (message_eq _ _).1 hl, .inl h1⟩
  · exact ⟨_, (message_eq _ _).2 hl, .inr h2⟩

/-- C84 fails for other languages whose code begins with `fi`: Filipino (`fil`) is described in Finnish; also a null pointer is read. -/
theorem C84_violation_language :
    shortDescription 8 (some (lit "fil")) = some (encodeStr (lit "Sana on kirjoitettu kahteen kertaan.")) ∧
    shortDescription 8 (some (lit "sv")) = some (encodeStr (lit "Remove duplicate word.")) ∧ shortDescription 8 none = none := by
  decide +kernel

/-- The descriptions of an error that is reported for "Ab  cd.". -/
example : (nextGrammarErrorCstr dotEnv {} () (encodeStr (lit "Ab  cd.")) 0 1).map (fun r => r.1.map (·.code)) = some (some 2) ∧
    shortDescription 2 (some (lit "fi")) = some (encodeStr (lit "Poista ylimääräinen väli.")) ∧
    shortDescription 2 (some (lit "en")) = some (encodeStr (lit "Remove extra space.")) := by decide +kernel

end Verif.Props
