import Verif.Model.NullBackends
import Verif.Props.SpellExact
import Verif.Props.SpellHistory
import Verif.Props.GrammarCache
import Verif.Props.Suggest
/-! C114: a dictionary whose components have no data: every answer is determined by the options and the text of the call. -/

set_option linter.unusedSimpArgs false
set_option linter.unusedVariables false

namespace Verif.NullBackends
open Verif Verif.Props

/-! ## Specification -/

/-- A call for which the library makes a promise: texts are strings of Unicode characters, and the size of the cache is at
most 18. -/
def CallOk : NullCall → Prop
  | .setBool _ _ => True
  | .setInt n v => n = 17 → v ≤ 18
  | .spell w => WordOk w
  | .suggest w => WordOk w
  | .analyze w => WordOk w
  | .check t _ _ => 0 ∉ t

/-- The words accepted because of an option, whatever the dictionary. `n` is the normalised word. -/
inductive ByOptions (o : SpellOpts) (word n : List Wc) : Prop
  | empty : word = [] → ByOptions o word n
  | number (c : Wc) : word.length ≤ 255 → o.ignoreNumbers = true → c ∈ n → 0x30 ≤ c → c ≤ 0x39 → ByOptions o word n
  | capitals : word.length ≤ 255 → o.ignoreUppercase = true → IsUpperWord n → ByOptions o word n
  | nonword : word.length ≤ 255 → o.ignoreNonwords = true → NonwordCode n → ByOptions o word n

/-- The words that the speller "AllOk" (`true`) or "AllError" (`false`) accepts. -/
def Accepts (allOk : Bool) (o : SpellOpts) (word : List Wc) : Prop :=
  ByOptions o word (normSpec word) ∨
    (allOk = true ∧ word.length ≤ 255 ∧ (o.acceptFirstUppercase = true ∨ ¬ IsCapitalised (normSpec word)))

/-- The result of a call under the spelling options `o`. -/
def Answer (allOk : Bool) (o : SpellOpts) : NullCall → NullResult → Prop
  | .setBool n _, r => r = .done (if n ∈ [0, 1, 3, 4, 6, 7, 8, 10, 11, 12, 13, 14, 15, 16] then 1 else 0)
  | .setInt n _, r => r = .done (if n = 9 ∨ n = 17 then 1 else 0)
  | .spell w, r => (r = .spelling .ok ∧ Accepts allOk o w) ∨ (r = .spelling .failed ∧ ¬ Accepts allOk o w)
  | .suggest _, r => r = .suggestions []
  | .analyze _, r => r = .analyses []
  | .check _ _ _, r => r = .error none

/-- The spelling options after a call: only `voikkoSetBooleanOption` changes them. -/
def optsAfter (o : SpellOpts) : NullCall → SpellOpts
  | .setBool n v =>
    { ignoreDot := if n = 0 then v != 0 else o.ignoreDot
      ignoreNumbers := if n = 1 then v != 0 else o.ignoreNumbers
      ignoreUppercase := if n = 3 then v != 0 else o.ignoreUppercase
      ignoreNonwords := if n = 10 then v != 0 else o.ignoreNonwords
      acceptFirstUppercase := if n = 6 then v != 0 else o.acceptFirstUppercase
      acceptAllUppercase := if n = 7 then v != 0 else o.acceptAllUppercase
      acceptMissingHyphens := if n = 12 then v != 0 else o.acceptMissingHyphens }
  | _ => o

/-- The results of a sequence of calls that starts with the options `o`. -/
inductive Answers (allOk : Bool) : SpellOpts → List NullCall → List NullResult → Prop
  | nil (o : SpellOpts) : Answers allOk o [] []
  | cons (o : SpellOpts) (c : NullCall) (r : NullResult) (cs : List NullCall) (rs : List NullResult) :
      Answer allOk o c r → Answers allOk (optsAfter o c) cs rs → Answers allOk o (c :: cs) (r :: rs)

/-! ## Lemmas -/

theorem fixed_eff (allOk m : Bool) : effDict (fixedSpeller allOk) m = fun _ => if allOk then .ok else .failed := by
  funext w
  unfold effDict fixedSpeller fixedSpell withEdges
  cases allOk <;> cases m <;> simp
  split <;> rfl

theorem accepted_iff (allOk : Bool) (o : SpellOpts) (word : List Wc) :
    AcceptedWord (fun _ => if allOk then .ok else .failed) o word (normSpec word) ↔ Accepts allOk o word := by
  unfold Accepts
  constructor
  · intro h
    cases h with
    | empty h => exact .inl (.empty h)
    | number c h1 h2 h3 h4 h5 => exact .inl (.number c h1 h2 h3 h4 h5)
    | capitals h1 h2 h3 => exact .inl (.capitals h1 h2 h3)
    | nonword h1 h2 h3 => exact .inl (.nonword h1 h2 h3)
    | dictionary v h1 h2 h3 =>
      cases allOk with
      | false => cases h3 <;> simp_all
      | true =>
        refine .inr ⟨rfl, h1, ?_⟩
        cases h3 with
        | lower h _ =>
          refine .inr fun k => ?_
          rw [isLowerWord_iff] at h; rw [isCapitalised_iff, h] at k; cases k
        | properNoun _ h => simp at h
        | capitalised _ h _ => exact .inl h
        | capitals h _ _ =>
          refine .inr fun k => ?_
          rw [isUpperWord_iff] at h; rw [isCapitalised_iff, h] at k; cases k
        | exact w h _ _ =>
          refine .inr fun k => ?_
          rcases h with h | h
          · exact h.2.2 k
          · have h := h.1
            rw [isUpperWord_iff] at h; rw [isCapitalised_iff, h] at k; cases k
        | exactNoun _ _ _ _ _ _ _ _ h => simp at h
  · rintro (h | ⟨rfl, h1, h2⟩)
    · cases h with
      | empty h => exact .empty h
      | number c h1 h2 h3 h4 h5 => exact .number c h1 h2 h3 h4 h5
      | capitals h1 h2 h3 => exact .capitals h1 h2 h3
      | nonword h1 h2 h3 => exact .nonword h1 h2 h3
    · refine .dictionary (normSpec word) h1 .word ?_
      by_cases hc : IsCapitalised (normSpec word)
      · rcases h2 with h2 | h2
        · exact .capitalised hc h2 rfl
        · exact absurd hc h2
      by_cases hl : IsLowerWord (normSpec word)
      · exact .lower hl rfl
      by_cases hu : IsUpperWord (normSpec word)
      · cases ha : o.acceptAllUppercase with
        | true => exact .capitals hu ha (by simp)
        | false => exact .exact _ (.inr ⟨hu, ha⟩) ((firstLowered_iff _ _).2 rfl) rfl
      · exact .exact _ (.inl ⟨hl, hu, hc⟩) ((firstLowered_iff _ _).2 rfl) rfl

/-- What is true of a handle after any calls. -/
structure Inv (allOk : Bool) (h : Handle GErr) : Prop where
  spell : CacheInv (fun _ => if allOk then .ok else .failed) h.spellerCache
  noErrors : ∀ p es, h.gcCache = some (p, es) → 0 ∉ p ∧ es = []

theorem setBool_all (h : Handle GErr) (n v : Int) :
    (setBooleanOption h n v).1.spell = optsAfter h.spell (.setBool n v) ∧
    (setBooleanOption h n v).1.spellerCache = h.spellerCache ∧
    ((setBooleanOption h n v).1.gcCache = h.gcCache ∨ (setBooleanOption h n v).1.gcCache = none) ∧
    (setBooleanOption h n v).2 = if n ∈ [0, 1, 3, 4, 6, 7, 8, 10, 11, 12, 13, 14, 15, 16] then 1 else 0 := by
  refine ⟨?_, (setBool_frame h n v).1, ?_, ?_⟩
  all_goals
    simp only [setBooleanOption, gcCacheAfter, optsAfter]
    by_cases e0 : n = 0; · subst e0; simp
    by_cases e1 : n = 1; · subst e1; simp
    by_cases e3 : n = 3; · subst e3; simp
    by_cases e6 : n = 6; · subst e6; simp
    by_cases e7 : n = 7; · subst e7; simp
    by_cases e4 : n = 4; · subst e4; simp
    by_cases e8 : n = 8; · subst e8; simp
    by_cases e10 : n = 10; · subst e10; simp
    by_cases e11 : n = 11; · subst e11; simp
    by_cases e12 : n = 12; · subst e12; simp
    by_cases e13 : n = 13
    · subst e13; simp <;> (cases h.acceptTitles <;> cases (v != 0) <;> simp)
    by_cases e14 : n = 14
    · subst e14; simp <;> (cases h.acceptUnfinished <;> cases (v != 0) <;> simp)
    by_cases e16 : n = 16
    · subst e16; simp <;> (cases h.acceptBulleted <;> cases (v != 0) <;> simp)
    by_cases e15 : n = 15; · subst e15; simp
    simp [*]

theorem setInt_all (allOk : Bool) (h : Handle GErr) (hi : Inv allOk h) (n v : Int) (hv : n = 17 → v ≤ 18) :
    ∃ h', setIntegerOption h n v = some (h', if n = 9 ∨ n = 17 then 1 else 0) ∧ Inv allOk h' ∧ h'.spell = h.spell := by
  unfold setIntegerOption
  by_cases h9 : n = 9
  · subst h9
    exact ⟨{ h with hyph := { h.hyph with minLength := intToSize v } }, by simp, ⟨hi.spell, hi.noErrors⟩, rfl⟩
  by_cases h17 : n = 17
  · subst h17
    obtain ⟨c, e, hc⟩ := resizeCache_ok _ h.spellerCache hi.spell v (hv rfl)
    exact ⟨{ h with spellerCache := c }, by simp [e], ⟨hc, hi.noErrors⟩, rfl⟩
  · exact ⟨h, by simp [h9, h17], hi, rfl⟩

theorem spell_all (allOk : Bool) (h : Handle GErr) (hi : Inv allOk h) (w : List Wc) (hw : WordOk w) :
    ∃ h' r, h.spellWord (fun _ => fixedSpeller allOk) w = some (h', r) ∧ Inv allOk h' ∧ h'.spell = h.spell ∧
      ((r = .ok ∧ Accepts allOk h.spell w) ∨ (r = .failed ∧ ¬ Accepts allOk h.spell w)) := by
  obtain ⟨r, c1, e1, h2, h3⟩ := C65_exact (fixedSpeller allOk) h.spell h.spellerCache
    (by rw [fixed_eff]; exact hi.spell) w hw
  obtain ⟨c2, e2, h4, _⟩ := spellUcs4_eq (fixedSpeller allOk) h.spell h.spellerCache
    (by rw [fixed_eff]; exact hi.spell) w hw
  rw [fixed_eff, accepted_iff] at h3
  rw [fixed_eff] at h4
  rw [e1] at e2
  simp only [Option.some.injEq, Prod.mk.injEq] at e2
  obtain ⟨_, rfl⟩ := e2
  refine ⟨{ h with spellerCache := c1 }, r, by unfold Handle.spellWord; rw [e1]; rfl, ⟨h4, hi.noErrors⟩, rfl, ?_⟩
  by_cases hr : r = .ok
  · exact .inl ⟨hr, h3.1 hr⟩
  · exact .inr ⟨h2.resolve_left hr, fun k => hr (h3.2 k)⟩

theorem suggest_all (dot up : Bool) (w : List Wc) (hw : WordOk w) : suggestUcs4 nullGenerate dot up w = some [] := by
  unfold suggestUcs4
  split
  · rfl
  · rename_i hl
    rw [normalise_eq]
    have hne : normSpec w ≠ [] := normSpec_ne_nil (by rintro rfl; simp at hl)
    have hpos := List.length_pos_iff.2 hne
    have hcut : ∃ x, cutSuggestDot dot (cstr (normSpec w)) = some x := by
      rw [cstr_eq _ (zero_notMem (wordOk_normSpec hw))]
      unfold cutSuggestDot
      split
      · split
        · exact ⟨_, rfl⟩
        · rw [if_neg (by omega), rd_eq_some (by omega)]
          simp only [Option.bind_eq_bind, Option.bind_some]
          split <;> exact ⟨_, rfl⟩
      · exact ⟨_, rfl⟩
    obtain ⟨x, hx⟩ := hcut
    simp only [Option.bind_eq_bind, Option.bind_some, hx]
    cases x with
    | none => rfl
    | some x => simp [nullGenerate]

theorem check_all (allOk : Bool) (h : Handle GErr) (hi : Inv allOk h) (t : List Wc) (ht : 0 ∉ t) (startpos : Nat) (skip : Int) :
    ∃ h', nullNextGrammarError h (t ++ [0]) t.length startpos skip = some (none, h') ∧ Inv allOk h' ∧ h'.spell = h.spell := by
  have key : ∀ p : List Wc, 0 ∉ p → ∃ r, errorFromCache (some (p, [])) (t ++ [0]) startpos skip = some r ∧
      realError r = none := by
    intro p hp
    simp only [errorFromCache]
    rw [wcscmpEq_spec p t [] hp ht]
    by_cases e : p = t
    · exact ⟨some none, by simp [e, findError], rfl⟩
    · exact ⟨none, by simp [e], rfl⟩
  have store : nullParagraphToCache h (t ++ [0]) t.length = some { h with gcCache := some (t, []) } := by
    unfold nullParagraphToCache
    rw [if_neg (by simp)]
    simp [nullRuleEngine]
  have fresh : ∃ h', (do
      let h ← nullParagraphToCache h (t ++ [0]) t.length
      let r ← errorFromCache h.gcCache (t ++ [0]) startpos skip
      return (realError r, h) : UB (Option GErr × Handle GErr)) = some (none, h') ∧ Inv allOk h' ∧ h'.spell = h.spell := by
    obtain ⟨r, e, hr⟩ := key t ht
    refine ⟨{ h with gcCache := some (t, []) }, by rw [store]; simp [e, hr], ⟨hi.spell, ?_⟩, rfl⟩
    rintro p es ⟨⟩
    exact ⟨ht, rfl⟩
  unfold nullNextGrammarError
  split
  · exact ⟨h, rfl, hi, rfl⟩
  · cases hc : h.gcCache with
    | none => simpa [errorFromCache] using fresh
    | some x =>
      obtain ⟨p, es⟩ := x
      obtain ⟨hp, rfl⟩ := hi.noErrors p es hc
      obtain ⟨r, e, hr⟩ := key p hp
      rw [e]
      cases r with
      | none => simpa using fresh
      | some r => exact ⟨h, by simp [hr], hi, rfl⟩

theorem call_all (allOk : Bool) (h : Handle GErr) (hi : Inv allOk h) (c : NullCall) (hc : CallOk c) :
    ∃ h' r, nullCall allOk h c = some (h', r) ∧ Inv allOk h' ∧ h'.spell = optsAfter h.spell c ∧ Answer allOk h.spell c r := by
  cases c with
  | setBool n v =>
    obtain ⟨h1, h2, h3, h4⟩ := setBool_all h n v
    refine ⟨(setBooleanOption h n v).1, .done (setBooleanOption h n v).2, rfl, ⟨by rw [h2]; exact hi.spell, ?_⟩, h1,
      by rw [Answer, h4]⟩
    intro p es he
    rcases h3 with h3 | h3
    · exact hi.noErrors p es (h3 ▸ he)
    · rw [h3] at he; cases he
  | setInt n v =>
    obtain ⟨h', e, h1, h2⟩ := setInt_all allOk h hi n v hc
    exact ⟨h', _, by simp only [nullCall, e]; rfl, h1, h2, rfl⟩
  | spell w =>
    obtain ⟨h', r, e, h1, h2, h3⟩ := spell_all allOk h hi w hc
    refine ⟨h', _, by simp only [nullCall, e]; rfl, h1, h2, ?_⟩
    simpa [Answer] using h3
  | suggest w => exact ⟨h, _, by simp only [nullCall, suggest_all _ _ w hc]; rfl, hi, rfl, rfl⟩
  | analyze w => exact ⟨h, _, rfl, hi, rfl, rfl⟩
  | check t s k =>
    obtain ⟨h', e, h1, h2⟩ := check_all allOk h hi t hc s k
    exact ⟨h', _, by simp only [nullCall, e]; rfl, h1, h2, rfl⟩

/-! ## Theorems -/

/-- C114: on a new handle of a dictionary without data, every sequence of calls has defined behaviour and gives the results of
`Answers`: no suggestions, no analyses and no grammar errors for any text, and for the speller the verdict that follows from
the word and the options set before. Earlier calls have no other influence. -/
theorem C114_session (allOk : Bool) (h0 : Handle GErr) (hinit : initHandle GErr = some h0) (calls : List NullCall)
    (hok : ∀ c ∈ calls, CallOk c) : ∃ h rs, nullCalls allOk h0 calls = some (h, rs) ∧ Answers allOk {} calls rs := by
  have hi : Inv allOk h0 ∧ h0.spell = {} := by
    obtain ⟨c, h1, _, h3⟩ := newCache_ok (fun _ => if allOk then .ok else .failed) 0 (by omega)
    unfold initHandle at hinit
    rw [h1] at hinit
    simp only [Option.bind_eq_bind, Option.bind_some, Option.pure_def, Option.some.injEq] at hinit
    rw [← hinit]
    exact ⟨⟨h3, by simp⟩, rfl⟩
  obtain ⟨hi, hs⟩ := hi
  rw [← hs]
  clear hinit hs
  induction calls generalizing h0 with
  | nil => exact ⟨h0, [], rfl, .nil _⟩
  | cons c cs ih =>
    obtain ⟨h1, r, e1, hi1, hs1, ha⟩ := call_all allOk h0 hi c (hok c (by simp))
    obtain ⟨h2, rs, e2, ha2⟩ := ih h1 (fun c hc => hok c (by simp [hc])) hi1
    rw [hs1] at ha2
    exact ⟨h2, r :: rs, by simp only [nullCalls, e1, Option.bind_eq_bind, Option.bind_some, e2, Option.pure_def],
      .cons _ _ _ _ _ ha ha2⟩

/-- A session that changes options between calls, with every kind of call, satisfies the hypotheses. -/
example : ∀ c ∈ [NullCall.spell [0x41, 0x62], .setBool 6 0, .spell [0x41, 0x62], .check [0x61, 0x20, 0x20, 0x61] 0 0, .setInt 17 3,
    .suggest [0x61, 0x62, 0x63], .analyze [0x61], .check [0x61, 0x20, 0x20, 0x61] 0 0], CallOk c := by
  intro c hc
  simp only [List.mem_cons, List.not_mem_nil, or_false] at hc
  rcases hc with rfl | rfl | rfl | rfl | rfl | rfl | rfl | rfl <;> simp [CallOk, WordOk]

/-- C114: with the speller "AllOk" and the default options every word of at most 255 characters is accepted
(`C114_session` says that no call but `voikkoSetBooleanOption` matters). -/
theorem C114_allOk_default (word : List Wc) (h : word.length ≤ 255) : Accepts true {} word := .inr ⟨rfl, h, .inl rfl⟩

/-- C114: "AllOk" does not accept every word: if `ACCEPT_FIRST_UPPERCASE` is off, it rejects the capitalised words that no
option excuses, and it rejects all words of more than 255 characters. -/
theorem C114_allOk_rejects (o : SpellOpts) (word : List Wc) :
    (o.acceptFirstUppercase = false → IsCapitalised (normSpec word) → ¬ ByOptions o word (normSpec word) →
      ¬ Accepts true o word) ∧ (255 < word.length → ¬ Accepts true o word) := by
  constructor
  · rintro h1 h2 h3 (k | ⟨_, _, k | k⟩)
    · exact h3 k
    · rw [h1] at k; cases k
    · exact k h2
  · rintro h (k | ⟨_, k, _⟩)
    · cases k with
      | empty k => subst k; simp at h
      | number _ k => omega
      | capitals k => omega
      | nonword k => omega
    · omega

/-- The verdict in a result. -/
def verdict : NullResult → Option SpellCode
  | .spelling c => some c
  | _ => none

/-- C114: "Ab" is such a word: "AllOk" accepts it in a new session and rejects it after the option is switched off. -/
theorem C114_capital_example :
    ((initHandle GErr).bind fun h =>
      (nullCalls true h [.spell [0x41, 0x62], .setBool 6 0, .spell [0x41, 0x62]]).map fun x => x.2.map verdict) =
      some [some .ok, none, some .failed] := by
  decide +kernel

theorem accepts_iff_spell (allOk : Bool) (o : SpellOpts) (w : List Wc) (hw : WordOk w) :
    Accepts allOk o w ↔ spellUcs4 (fixedSpeller allOk) o none w = some (.ok, none) := by
  obtain ⟨r, c, e, _, h⟩ := C65_exact (fixedSpeller allOk) o none trivial w hw
  obtain ⟨c2, e2, _, h2⟩ := spellUcs4_eq (fixedSpeller allOk) o none trivial w hw
  rw [fixed_eff, accepted_iff] at h
  rw [← h, e]
  have : c = none := by
    rw [e] at e2
    simp only [Option.some.injEq, Prod.mk.injEq] at e2
    rw [e2.2]; exact h2 rfl
  subst this
  simp

/-- C114: "AllError" accepts exactly the words that an option excuses. -/
theorem C114_allError (o : SpellOpts) (word : List Wc) : Accepts false o word ↔ ByOptions o word (normSpec word) := by
  unfold Accepts
  simp

/-- Neither side is trivial: with the default options "AllError" rejects "ab" and accepts "a@b.c". -/
example : ¬ Accepts false {} [0x61, 0x62] ∧ Accepts false {} [0x61, 0x40, 0x62, 0x2E, 0x63] := by
  rw [accepts_iff_spell _ _ _ (by unfold WordOk; decide), accepts_iff_spell _ _ _ (by unfold WordOk; decide)]
  decide +kernel

end Verif.NullBackends
