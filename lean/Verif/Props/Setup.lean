import Verif.Props.SpellHistory
/-! C46: options behave as independent variables. -/

namespace Verif.Props
open Verif

/-- The value of a Boolean option as stored in the handle (`none`: no such option). -/
def readBool {G : Type} (h : Handle G) (n : Int) : Option Bool :=
  if n = 0 then some h.spell.ignoreDot
  else if n = 1 then some h.spell.ignoreNumbers
  else if n = 3 then some h.spell.ignoreUppercase
  else if n = 4 then some (!h.hyph.ugly)
  else if n = 6 then some h.spell.acceptFirstUppercase
  else if n = 7 then some h.spell.acceptAllUppercase
  else if n = 8 then some h.ocr
  else if n = 10 then some h.spell.ignoreNonwords
  else if n = 11 then some h.acceptExtraHyphens
  else if n = 12 then some h.spell.acceptMissingHyphens
  else if n = 13 then some h.acceptTitles
  else if n = 14 then some h.acceptUnfinished
  else if n = 15 then some h.hyph.hyphenateUnknown
  else if n = 16 then some h.acceptBulleted
  else none

/-- Documented defaults (`voikko_defines.h:60-143`): on for options 6, 7, 10 and 15. -/
def defaultBool (n : Int) : Option Bool :=
  if n ∈ [(0 : Int), 1, 3, 4, 8, 11, 12, 13, 14, 16] then some false
  else if n ∈ [(6 : Int), 7, 10, 15] then some true
  else none

/-- A call that sets an option. -/
inductive SetCall where
  | bool (option value : Int)
  | int (option value : Int)
  deriving DecidableEq

/-- Effect of a call: new handle and return value. -/
def setStep {G : Type} (h : Handle G) : SetCall → UB (Handle G × Int)
  | .bool n v => some (setBooleanOption h n v)
  | .int n v => setIntegerOption h n v

/-- A sequence of calls. -/
def setAll {G : Type} (h : Handle G) : List SetCall → UB (Handle G)
  | [] => some h
  | c :: cs => do
    let (h', _) ← setStep h c
    setAll h' cs

/-- Specification: the last value given for Boolean option `n`, or `d`. -/
def lastBool (n : Int) (d : Option Bool) : List SetCall → Option Bool
  | [] => d
  | .bool m v :: cs => lastBool n (if m = n ∧ d.isSome then some (v != 0) else d) cs
  | .int _ _ :: cs => lastBool n d cs

/-- Specification: the last value given for integer option `n`, or `d`. -/
def lastInt (n : Int) (d : Int) : List SetCall → Int
  | [] => d
  | .int m v :: cs => lastInt n (if m = n then v else d) cs
  | .bool _ _ :: cs => lastInt n d cs

theorem readBool_set {G : Type} (h : Handle G) (n m v : Int) :
    readBool (setBooleanOption h m v).1 n =
      if m = n ∧ (readBool h n).isSome then some (v != 0) else readBool h n := by
  by_cases hmn : m = n
  · subst hmn
    unfold setBooleanOption readBool
    by_cases e0 : m = 0; · subst e0; simp
    by_cases e1 : m = 1; · subst e1; simp
    by_cases e3 : m = 3; · subst e3; simp
    by_cases e6 : m = 6; · subst e6; simp
    by_cases e7 : m = 7; · subst e7; simp
    by_cases e4 : m = 4; · subst e4; simp
    by_cases e8 : m = 8; · subst e8; simp
    by_cases e10 : m = 10; · subst e10; simp
    by_cases e11 : m = 11; · subst e11; simp
    by_cases e12 : m = 12; · subst e12; simp
    by_cases e13 : m = 13; · subst e13; simp
    by_cases e14 : m = 14; · subst e14; simp
    by_cases e16 : m = 16; · subst e16; simp
    by_cases e15 : m = 15; · subst e15; simp
    simp [*]
  · rw [if_neg (fun h => hmn h.1)]
    by_cases e0 : m = 0
    · subst e0
      have hn : ¬ n = 0 := fun e => hmn e.symm
      simp [setBooleanOption, readBool, hn]
    by_cases e1 : m = 1
    · subst e1
      have hn : ¬ n = 1 := fun e => hmn e.symm
      simp [setBooleanOption, readBool, hn]
    by_cases e3 : m = 3
    · subst e3
      have hn : ¬ n = 3 := fun e => hmn e.symm
      simp [setBooleanOption, readBool, hn]
    by_cases e6 : m = 6
    · subst e6
      have hn : ¬ n = 6 := fun e => hmn e.symm
      simp [setBooleanOption, readBool, hn]
    by_cases e7 : m = 7
    · subst e7
      have hn : ¬ n = 7 := fun e => hmn e.symm
      simp [setBooleanOption, readBool, hn]
    by_cases e4 : m = 4
    · subst e4
      have hn : ¬ n = 4 := fun e => hmn e.symm
      simp [setBooleanOption, readBool, hn]
    by_cases e8 : m = 8
    · subst e8
      have hn : ¬ n = 8 := fun e => hmn e.symm
      simp [setBooleanOption, readBool, hn]
    by_cases e10 : m = 10
    · subst e10
      have hn : ¬ n = 10 := fun e => hmn e.symm
      simp [setBooleanOption, readBool, hn]
    by_cases e11 : m = 11
    · subst e11
      have hn : ¬ n = 11 := fun e => hmn e.symm
      simp [setBooleanOption, readBool, hn]
    by_cases e12 : m = 12
    · subst e12
      have hn : ¬ n = 12 := fun e => hmn e.symm
      simp [setBooleanOption, readBool, hn]
    by_cases e13 : m = 13
    · subst e13
      have hn : ¬ n = 13 := fun e => hmn e.symm
      simp [setBooleanOption, readBool, hn]
    by_cases e14 : m = 14
    · subst e14
      have hn : ¬ n = 14 := fun e => hmn e.symm
      simp [setBooleanOption, readBool, hn]
    by_cases e16 : m = 16
    · subst e16
      have hn : ¬ n = 16 := fun e => hmn e.symm
      simp [setBooleanOption, readBool, hn]
    by_cases e15 : m = 15
    · subst e15
      have hn : ¬ n = 15 := fun e => hmn e.symm
      simp [setBooleanOption, readBool, hn]
    simp [setBooleanOption, *]

theorem readBool_setInt {G : Type} (h h' : Handle G) (n m v r : Int) (hs : setIntegerOption h m v = some (h', r)) :
    readBool h' n = readBool h n ∧ (h.hyph.ignoreDot = h.spell.ignoreDot → h'.hyph.ignoreDot = h'.spell.ignoreDot) := by
  unfold setIntegerOption at hs
  split at hs
  · simp only [Option.pure_def, Option.some.injEq, Prod.mk.injEq] at hs
    rw [← hs.1]; exact ⟨rfl, id⟩
  · split at hs
    · cases hc : resizeCache h.spellerCache v with
      | none => rw [hc] at hs; simp at hs
      | some c =>
        rw [hc] at hs
        simp only [Option.bind_eq_bind, Option.bind_some, Option.pure_def, Option.some.injEq, Prod.mk.injEq] at hs
        rw [← hs.1]; exact ⟨rfl, id⟩
    · simp only [Option.pure_def, Option.some.injEq, Prod.mk.injEq] at hs
      rw [← hs.1]; exact ⟨rfl, id⟩

theorem init_readBool {G : Type} (h : Handle G) (hi : initHandle G = some h) (n : Int) :
    readBool h n = defaultBool n := by
  unfold initHandle at hi
  cases hc : newCache 0 with
  | none => rw [hc] at hi; simp at hi
  | some c =>
    rw [hc] at hi
    simp only [Option.bind_eq_bind, Option.bind_some, Option.pure_def, Option.some.injEq] at hi
    rw [← hi]
    unfold readBool defaultBool
    by_cases e0 : n = 0; · subst e0; simp
    by_cases e1 : n = 1; · subst e1; simp
    by_cases e3 : n = 3; · subst e3; simp
    by_cases e6 : n = 6; · subst e6; simp
    by_cases e7 : n = 7; · subst e7; simp
    by_cases e4 : n = 4; · subst e4; simp
    by_cases e8 : n = 8; · subst e8; simp
    by_cases e10 : n = 10; · subst e10; simp
    by_cases e11 : n = 11; · subst e11; simp
    by_cases e12 : n = 12; · subst e12; simp
    by_cases e13 : n = 13; · subst e13; simp
    by_cases e14 : n = 14; · subst e14; simp
    by_cases e16 : n = 16; · subst e16; simp
    by_cases e15 : n = 15; · subst e15; simp
    simp [*]

/-- C46: after any sequence of option calls on a new handle, every Boolean option has the value given to it
last, or its documented default if it was never set; other options do not influence it. -/
theorem C46_boolean_options {G : Type} (calls : List SetCall) (h0 h : Handle G) (hi : initHandle G = some h0)
    (hr : setAll h0 calls = some h) (n : Int) : readBool h n = lastBool n (defaultBool n) calls := by
  rw [← init_readBool h0 hi n]
  clear hi
  induction calls generalizing h0 with
  | nil =>
    simp only [setAll, Option.some.injEq] at hr
    subst hr; rfl
  | cons c cs ih =>
    cases c with
    | bool m v =>
      simp only [setAll, setStep, Option.bind_eq_bind, Option.bind_some] at hr
      rw [ih _ hr, readBool_set]; rfl
    | int m v =>
      simp only [setAll, setStep, Option.bind_eq_bind] at hr
      cases hs : setIntegerOption h0 m v with
      | none => rw [hs] at hr; simp at hr
      | some p =>
        rw [hs] at hr
        simp only [Option.bind_some] at hr
        rw [ih _ hr, (readBool_setInt h0 p.1 n m v p.2 hs).1]; rfl

/-- C46: the return value of `voikkoSetBooleanOption` is 1 exactly for the existing options; otherwise it is
0 and the handle is unchanged. -/
theorem C46_unknown_boolean {G : Type} (h : Handle G) (n v : Int) :
    (setBooleanOption h n v).2 = (if (defaultBool n).isSome then 1 else 0) ∧
    (defaultBool n = none → (setBooleanOption h n v).1 = h) := by
  unfold setBooleanOption defaultBool
  by_cases e0 : n = 0; · subst e0; simp
  by_cases e1 : n = 1; · subst e1; simp
  by_cases e3 : n = 3; · subst e3; simp
  by_cases e6 : n = 6; · subst e6; simp
  by_cases e7 : n = 7; · subst e7; simp
  by_cases e4 : n = 4; · subst e4; simp
  by_cases e8 : n = 8; · subst e8; simp
  by_cases e10 : n = 10; · subst e10; simp
  by_cases e11 : n = 11; · subst e11; simp
  by_cases e12 : n = 12; · subst e12; simp
  by_cases e13 : n = 13; · subst e13; simp
  by_cases e14 : n = 14; · subst e14; simp
  by_cases e16 : n = 16; · subst e16; simp
  by_cases e15 : n = 15; · subst e15; simp
  simp [*]

/-- Size parameter of a cache, -1 when there is none. -/
def sizeOfCache : Option SpellerCache → Int
  | some c => c.sizeParam
  | none => -1

/-- Size of the speller cache as seen in the handle. -/
def cacheSize {G : Type} (h : Handle G) : Int := sizeOfCache h.spellerCache

theorem setBool_ints {G : Type} (h : Handle G) (n v : Int) :
    (setBooleanOption h n v).1.hyph.minLength = h.hyph.minLength ∧
    cacheSize (setBooleanOption h n v).1 = cacheSize h := by
  constructor
  · unfold setBooleanOption
    by_cases e0 : n = 0; · subst e0; simp
    by_cases e1 : n = 1; · subst e1; simp
    by_cases e3 : n = 3; · subst e3; simp
    by_cases e6 : n = 6; · subst e6; simp
    by_cases e7 : n = 7; · subst e7; simp
    by_cases e4 : n = 4; · subst e4; simp
    by_cases e8 : n = 8; · subst e8; simp
    by_cases e10 : n = 10; · subst e10; simp
    by_cases e11 : n = 11; · subst e11; simp
    by_cases e12 : n = 12; · subst e12; simp
    by_cases e13 : n = 13; · subst e13; simp
    by_cases e14 : n = 14; · subst e14; simp
    by_cases e16 : n = 16; · subst e16; simp
    by_cases e15 : n = 15; · subst e15; simp
    simp [*]
  · unfold cacheSize
    rw [(setBool_frame h n v).1]

theorem makeCache_size (v : Int) (c : Option SpellerCache) (h : makeCache v = some c) :
    sizeOfCache c = if v < 0 then -1 else v := by
  unfold makeCache at h
  split at h
  · rename_i hv
    unfold newCache at h
    cases hi : int32 (6544 * 2 ^ v.toNat) with
    | none => rw [hi] at h; simp at h
    | some k =>
      rw [hi] at h
      simp only [Option.bind_eq_bind, Option.bind_some, Option.pure_def, Option.some.injEq] at h
      rw [← h, if_neg (by omega)]
      simp only [sizeOfCache]; omega
  · simp only [Option.pure_def, Option.some.injEq] at h
    rw [← h, if_pos (by omega)]; rfl

theorem setInt_step {G : Type} (h h' : Handle G) (m v r : Int) (hs : setIntegerOption h m v = some (h', r)) :
    h'.hyph.minLength = (if m = 9 then intToSize v else h.hyph.minLength) ∧
    cacheSize h' = (if m = 17 then (if v < 0 then -1 else v) else cacheSize h) := by
  unfold setIntegerOption at hs
  by_cases h9 : m = 9
  · subst h9
    simp only [if_true, Option.pure_def, Option.some.injEq, Prod.mk.injEq] at hs
    rw [← hs.1]; exact ⟨rfl, rfl⟩
  · rw [if_neg h9] at hs
    by_cases h17 : m = 17
    · subst h17
      simp only [if_true] at hs
      cases hc : resizeCache h.spellerCache v with
      | none => rw [hc] at hs; simp at hs
      | some c =>
        rw [hc] at hs
        simp only [Option.bind_eq_bind, Option.bind_some, Option.pure_def, Option.some.injEq, Prod.mk.injEq] at hs
        rw [← hs.1]
        refine ⟨rfl, ?_⟩
        simp only [if_true]
        unfold resizeCache at hc
        unfold cacheSize
        cases hold : h.spellerCache with
        | none => rw [hold] at hc; exact makeCache_size v c hc
        | some old =>
          rw [hold] at hc
          simp only [] at hc
          split at hc
          · rename_i heq
            simp only [Option.pure_def, Option.some.injEq] at hc
            rw [← hc]
            simp only [sizeOfCache, heq]
            rw [if_neg (by omega)]
          · exact makeCache_size v c hc
    · rw [if_neg h17] at hs
      simp only [Option.pure_def, Option.some.injEq, Prod.mk.injEq] at hs
      rw [← hs.1, if_neg h9, if_neg h17]; exact ⟨rfl, rfl⟩

theorem setAll_ints {G : Type} (calls : List SetCall) (h0 h : Handle G) (d9 d17 : Int)
    (hr : setAll h0 calls = some h) (h9 : h0.hyph.minLength = intToSize d9)
    (h17 : cacheSize h0 = (if d17 < 0 then -1 else d17)) :
    h.hyph.minLength = intToSize (lastInt 9 d9 calls) ∧
    cacheSize h = (if lastInt 17 d17 calls < 0 then -1 else lastInt 17 d17 calls) := by
  induction calls generalizing h0 d9 d17 with
  | nil =>
    simp only [setAll, Option.some.injEq] at hr
    subst hr; exact ⟨h9, h17⟩
  | cons c cs ih =>
    cases c with
    | bool m v =>
      simp only [setAll, setStep, Option.bind_eq_bind, Option.bind_some] at hr
      obtain ⟨b1, b2⟩ := setBool_ints h0 m v
      exact ih _ d9 d17 hr (by rw [b1, h9]) (by rw [b2, h17])
    | int m v =>
      simp only [setAll, setStep, Option.bind_eq_bind] at hr
      cases hs : setIntegerOption h0 m v with
      | none => rw [hs] at hr; simp at hr
      | some p =>
        rw [hs] at hr
        simp only [Option.bind_some] at hr
        obtain ⟨b1, b2⟩ := setInt_step h0 p.1 m v p.2 hs
        refine ih _ (if m = 9 then v else d9) (if m = 17 then v else d17) hr ?_ ?_
        · rw [b1]; split
          · rfl
          · exact h9
        · rw [b2]; split
          · rfl
          · exact h17

/-- C46: after any sequence of option calls on a new handle the minimum hyphenated word length and the cache
size are the values last given (as `size_t`, default 2; every negative cache size means "no cache", default 0). -/
theorem C46_integer_options {G : Type} (calls : List SetCall) (h0 h : Handle G) (hi : initHandle G = some h0)
    (hr : setAll h0 calls = some h) :
    h.hyph.minLength = intToSize (lastInt 9 2 calls) ∧
    cacheSize h = (if lastInt 17 0 calls < 0 then -1 else lastInt 17 0 calls) := by
  have h1 : h0.hyph.minLength = intToSize 2 ∧ cacheSize h0 = (if (0 : Int) < 0 then -1 else 0) := by
    unfold initHandle newCache at hi
    cases hc : int32 (6544 * 2 ^ 0) with
    | none => rw [hc] at hi; cases hi
    | some c =>
      rw [hc] at hi
      simp only [Option.bind_eq_bind, Option.bind_some, Option.pure_def, Option.some.injEq] at hi
      rw [← hi]; exact ⟨rfl, rfl⟩
  exact setAll_ints calls h0 h 2 0 hr h1.1 h1.2

/-- C46: `voikkoSetIntegerOption` with an unknown option number returns 0 and changes nothing; for the two
known options it returns 1 whenever it returns (`C23_size_overflow` shows when it does not). -/
theorem C46_unknown_integer {G : Type} (h : Handle G) (n v : Int) :
    (n ≠ 9 → n ≠ 17 → setIntegerOption h n v = some (h, 0)) ∧
    (∀ h' r, setIntegerOption h n v = some (h', r) → (r = 1 ↔ n = 9 ∨ n = 17)) ∧
    (n ≠ 17 ∨ v ≤ 18 → setIntegerOption h n v ≠ none) := by
  unfold setIntegerOption
  refine ⟨fun h1 h2 => by rw [if_neg h1, if_neg h2]; rfl, ?_, ?_⟩
  · intro h' r hs
    by_cases h9 : n = 9
    · rw [if_pos h9] at hs
      simp only [Option.pure_def, Option.some.injEq, Prod.mk.injEq] at hs
      simp [h9, hs.2.symm]
    · rw [if_neg h9] at hs
      by_cases h17 : n = 17
      · rw [if_pos h17] at hs
        cases hc : resizeCache h.spellerCache v with
        | none => rw [hc] at hs; simp at hs
        | some c =>
          rw [hc] at hs
          simp only [Option.bind_eq_bind, Option.bind_some, Option.pure_def, Option.some.injEq, Prod.mk.injEq] at hs
          simp [h17, hs.2.symm]
      · rw [if_neg h17] at hs
        simp only [Option.pure_def, Option.some.injEq, Prod.mk.injEq] at hs
        simp [h9, h17, hs.2.symm]
  · intro hv
    by_cases h9 : n = 9
    · simp [h9]
    · rw [if_neg h9]
      by_cases h17 : n = 17
      · rw [if_pos h17]
        have hv : v ≤ 18 := by
          rcases hv with h | h
          · exact absurd h17 h
          · exact h
        have : ∃ c, resizeCache h.spellerCache v = some c := by
          obtain ⟨c, hc, _⟩ := makeCache_ok (fun _ => .ok) v hv
          unfold resizeCache
          cases h.spellerCache with
          | none => exact ⟨c, hc⟩
          | some old =>
            simp only []
            split
            · exact ⟨_, rfl⟩
            · exact ⟨c, hc⟩
        obtain ⟨c, hc⟩ := this
        simp [hc]
      · simp [h17]

/-- C46: the copy of IGNORE_DOT kept by the hyphenator never differs from the handle's. -/
theorem C46_ignore_dot_in_sync {G : Type} (calls : List SetCall) (h0 h : Handle G) (hi : initHandle G = some h0)
    (hr : setAll h0 calls = some h) : h.hyph.ignoreDot = h.spell.ignoreDot := by
  have h1 : h0.hyph.ignoreDot = h0.spell.ignoreDot := by
    unfold initHandle at hi
    cases hc : newCache 0 with
    | none => rw [hc] at hi; simp at hi
    | some c =>
      rw [hc] at hi
      simp only [Option.bind_eq_bind, Option.bind_some, Option.pure_def, Option.some.injEq] at hi
      rw [← hi]
  clear hi
  induction calls generalizing h0 with
  | nil =>
    simp only [setAll, Option.some.injEq] at hr
    subst hr; exact h1
  | cons c cs ih =>
    cases c with
    | bool m v =>
      simp only [setAll, setStep, Option.bind_eq_bind, Option.bind_some] at hr
      refine ih _ hr ?_
      unfold setBooleanOption
      by_cases e0 : m = 0; · subst e0; simp
      by_cases e1 : m = 1; · subst e1; simp [h1]
      by_cases e3 : m = 3; · subst e3; simp [h1]
      by_cases e6 : m = 6; · subst e6; simp [h1]
      by_cases e7 : m = 7; · subst e7; simp [h1]
      by_cases e4 : m = 4; · subst e4; simp [h1]
      by_cases e8 : m = 8; · subst e8; simp [h1]
      by_cases e10 : m = 10; · subst e10; simp [h1]
      by_cases e11 : m = 11; · subst e11; simp [h1]
      by_cases e12 : m = 12; · subst e12; simp [h1]
      by_cases e13 : m = 13; · subst e13; simp [h1]
      by_cases e14 : m = 14; · subst e14; simp [h1]
      by_cases e16 : m = 16; · subst e16; simp [h1]
      by_cases e15 : m = 15; · subst e15; simp [h1]
      simp [*]
    | int m v =>
      simp only [setAll, setStep, Option.bind_eq_bind] at hr
      cases hs : setIntegerOption h0 m v with
      | none => rw [hs] at hr; simp at hr
      | some p =>
        rw [hs] at hr
        simp only [Option.bind_some] at hr
        exact ih _ hr ((readBool_setInt h0 p.1 0 m v p.2 hs).2 h1)

/-- Non-vacuity: a history of calls that goes through, including an unknown option. -/
example : ∃ h0 h : Handle Unit, initHandle Unit = some h0 ∧
    setAll h0 [.bool 0 1, .bool 99 1, .int 9 5, .int 17 (-1), .bool 0 0, .bool 6 0] = some h ∧
    readBool h 0 = some false ∧ readBool h 6 = some false ∧ readBool h 7 = some true := by
  refine ⟨_, _, rfl, rfl, rfl, rfl, rfl⟩

end Verif.Props
