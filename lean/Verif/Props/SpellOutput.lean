import Verif.Spec.SpellOutput
import Verif.Props.Threads
/-! C88: what the spelling program prints. -/

set_option linter.unusedSimpArgs false

namespace Verif.Props
open Verif Verif.SpellOutput

theorem linesOf_line : ∀ {l : List Wc} (r : List Wc), 0x0A ∉ l → linesOf (l ++ 0x0A :: r) = l :: linesOf r
  | [], r, _ => by simp [linesOf]
  | c :: l, r, h => by
    have hc : c ≠ 0x0A := fun e => h (by simp [e])
    rw [List.cons_append, linesOf, if_neg hc, linesOf_line r (fun e => h (List.mem_cons_of_mem _ e))]

/-- A text made of lines. -/
def textOf (ls : List (List Wc)) : List Wc := ls.flatMap (· ++ nl)

theorem linesOf_text : ∀ {ls : List (List Wc)}, (∀ l ∈ ls, 0x0A ∉ l) → linesOf (textOf ls) = ls
  | [], _ => rfl
  | l :: ls, h => by
    have : textOf (l :: ls) = l ++ 0x0A :: textOf ls := by simp [textOf, nl]
    rw [this, linesOf_line _ (h l List.mem_cons_self), linesOf_text fun x hx => h x (List.mem_cons_of_mem _ hx)]

theorem textOf_append (a b : List (List Wc)) : textOf (a ++ b) = textOf a ++ textOf b := by simp [textOf]

theorem textOf_flatMap (f : List Wc → List (List Wc)) : ∀ ws : List (List Wc), textOf (ws.flatMap f) = ws.flatMap fun w => textOf (f w)
  | [] => rfl
  | w :: r => by rw [List.flatMap_cons, textOf_append, textOf_flatMap f r, List.flatMap_cons]

/-- The line of an attribute. -/
def attributeLine (w : List Wc) (t : Nat × List Wc × List Wc) : List Wc := lit "A(" ++ w ++ lit "):" ++ decimal t.1 ++ lit ":" ++ t.2.1 ++ lit "=" ++ t.2.2

theorem printAttributes_eq (w : List Wc) (n : Nat) : ∀ a, printAttributes w n a = textOf ((a.map fun kv => (n, kv)).map (attributeLine w))
  | [] => rfl
  | (k, v) :: r => by
    rw [printAttributes, printAttributes_eq w n r]
    simp [textOf, attributeLine]

theorem printAnalyses_eq (w : List Wc) : ∀ (l : List (List (List Wc × List Wc))) (n : Nat), printAnalyses w n l = textOf ((numbered n l).map (attributeLine w))
  | [], _ => rfl
  | a :: r, n => by
    rw [printAnalyses, printAnalyses_eq w r (n + 1), printAttributes_eq, numbered, List.map_append, textOf_append]

theorem suggestionLines_eq : ∀ l : List (List Wc), suggestionLines l = textOf (l.map (lit "S: " ++ ·))
  | [] => rfl
  | s :: r => by
    rw [suggestionLines, suggestionLines_eq r]
    simp [textOf]

/-! ### Numbers -/

theorem decimal_eq (n : Nat) : decimal n = (Nat.toDigits 10 n).map Char.toNat := by simp [decimal, lit, toString]

theorem decimal_digit (n : Nat) : ∀ c ∈ decimal n, 0x30 ≤ c ∧ c ≤ 0x39 := by
  intro c hc
  rw [decimal_eq, List.mem_map] at hc
  obtain ⟨d, h1, rfl⟩ := hc
  have := Nat.isDigit_of_mem_toDigits (by omega) (by omega) h1
  simp [Char.isDigit, UInt32.le_iff_toNat_le] at this
  exact ⟨this.1, this.2⟩

theorem number_append (a b : List Wc) (c : Wc) : number (a ++ [c]) = 10 * number a + (c - 0x30) := by simp [number]

theorem number_decimal (n : Nat) : number (decimal n) = n := by
  induction n using Nat.strongRecOn with
  | ind n ih =>
    rw [decimal_eq, Nat.toDigits_eq_if (by omega)]
    by_cases h : n < 10
    · rw [if_pos h]
      simp [number, Nat.toNat_digitChar_of_lt_ten h]
    · rw [if_neg h, List.map_append, List.map_singleton, number_append _ [], ← decimal_eq, ih (n / 10) (by omega),
        Nat.toNat_digitChar_of_lt_ten (by omega)]
      omega

theorem after_append : ∀ (p l : List Wc), after p (p ++ l) = some l
  | [], l => rfl
  | a :: p, l => by rw [List.cons_append, after, if_pos rfl, after_append p l]

theorem takeWhile_stop {a b : List Wc} {c : Wc} (h : c ∉ a) : (a ++ c :: b).takeWhile (· ≠ c) = a ∧ (a ++ c :: b).dropWhile (· ≠ c) = c :: b := by
  have h' : ∀ x ∈ a, decide (x ≠ c) = true := fun x hx => by simp; rintro rfl; exact h hx
  constructor
  · rw [List.takeWhile_append_of_pos h']; simp
  · rw [List.dropWhile_append_of_pos h']; simp

/-- The line of an attribute is understood, if the key does not contain `=`. -/
theorem readAnalysis_line (w : List Wc) (t : Nat × List Wc × List Wc) (h : 0x3D ∉ t.2.1) : readAnalysis w (attributeLine w t) = some t := by
  obtain ⟨n, k, v⟩ := t
  have e : attributeLine w (n, k, v) = ([0x41, 0x28] ++ w ++ [0x29, 0x3A]) ++ (decimal n ++ 0x3A :: (k ++ 0x3D :: v)) := by
    simp [attributeLine, lit]
  have hd : (0x3A : Nat) ∉ decimal n := fun hm => by have := decimal_digit n _ hm; omega
  unfold readAnalysis
  rw [e, after_append]
  obtain ⟨a1, a2⟩ := takeWhile_stop (b := k ++ 0x3D :: v) hd
  obtain ⟨b1, b2⟩ := takeWhile_stop (b := v) (show 0x3D ∉ k from h)
  simp only [a1, a2, b1, b2, number_decimal]

/-! ### What is printed for a word -/

section
variable {σ : Type} {api : ToolApi σ} {P : σ → Prop} {verdict : List Wc → Bool} {sugg : List Wc → List (List Wc)}
  {an : List Wc → List (List (List Wc × List Wc))} {words : List (List Wc)}

/-- The lines printed for a word in the usual format. -/
def usualLines (o : ToolOpts) (verdict : List Wc → Bool) (sugg : List Wc → List (List Wc)) (an : List Wc → List (List (List Wc × List Wc)))
    (w : List Wc) : List (List Wc) :=
  (match o.mode with
    | .normal => [if verdict w then lit "C: " ++ w else lit "W: " ++ w]
    | .onlyCW => [if verdict w then lit "C" else lit "W"]
    | .onlyIncorrect => if verdict w then [] else [w]
    | .none => []) ++
  (if o.morphology && verdict w then (numbered 1 (an w)).map (attributeLine w) else []) ++
  (if o.suggest && !verdict w then (sugg w).map (lit "S: " ++ ·) else [])

theorem usual_steady (ha : Answers api P verdict sugg an words) (o : ToolOpts) (hm : o.mode ≠ .none) (ho : o.oneLine = false) :
    Threads.Steady (checkWord api o) P (fun w => textOf (usualLines o verdict sugg an w)) words := by
  intro h w hp hw
  obtain ⟨h', e1, e2⟩ := ha.spell h w hp hw
  obtain ⟨l, e3, e4⟩ := ha.suggest w hw
  have e5 := ha.analyze w hw
  refine ⟨h', ?_, e2⟩
  have e6 : ∀ x : List (List Wc), suggestionLines x = textOf (x.map (lit "S: " ++ ·)) := suggestionLines_eq
  have e7 : printAnalyses w 1 (an w) = textOf ((numbered 1 (an w)).map (attributeLine w)) := printAnalyses_eq w _ 1
  rcases o with ⟨m, s, mo, ol, sep, sp⟩
  simp only at hm ho
  subst ho
  cases l <;> cases hv : verdict w <;> cases m <;> cases s <;> cases mo <;>
    first
    | exact absurd rfl hm
    | (simp [checkWord, e1, e3, e5, hv, printMorphology, bind, pure, Option.bind, usualLines, textOf_append, verdictLine, e7, e6, ← e4]
       try simp [textOf])

/-- The words, suggestions, keys and values are single lines. -/
structure SingleLines (sugg : List Wc → List (List Wc)) (an : List Wc → List (List (List Wc × List Wc))) (words : List (List Wc)) : Prop where
  word : ∀ w ∈ words, 0x0A ∉ w
  suggestion : ∀ w ∈ words, ∀ s ∈ sugg w, 0x0A ∉ s
  attr : ∀ w ∈ words, ∀ a ∈ an w, ∀ kv ∈ a, 0x0A ∉ kv.1 ∧ 0x3D ∉ kv.1 ∧ 0x0A ∉ kv.2

theorem mem_numbered {t : Nat × List Wc × List Wc} : ∀ {l : List (List (List Wc × List Wc))} {n : Nat}, t ∈ numbered n l → ∃ a ∈ l, t.2 ∈ a
  | [], _, h => by simp [numbered] at h
  | a :: r, n, h => by
    rw [numbered, List.mem_append] at h
    rcases h with h | h
    · obtain ⟨kv, h1, rfl⟩ := List.mem_map.1 h
      exact ⟨a, List.mem_cons_self, h1⟩
    · obtain ⟨a', h1, h2⟩ := mem_numbered h
      exact ⟨a', List.mem_cons_of_mem _ h1, h2⟩

theorem attributeLine_single {w : List Wc} {t : Nat × List Wc × List Wc} (hw : 0x0A ∉ w) (h1 : 0x0A ∉ t.2.1) (h2 : 0x0A ∉ t.2.2) : 0x0A ∉ attributeLine w t := by
  intro h
  have hd : (0x0A : Nat) ∉ decimal t.1 := fun hm => by have := decimal_digit t.1 _ hm; omega
  simp [attributeLine, lit] at h
  rcases h with h | h | h | h
  · exact hw h
  · exact hd h
  · exact h1 h
  · exact h2 h

theorem usualLines_single (hs : SingleLines sugg an words) (o : ToolOpts) {w : List Wc} (hw : w ∈ words) : ∀ l ∈ usualLines o verdict sugg an w, 0x0A ∉ l := by
  intro l hl
  have h1 := hs.word w hw
  unfold usualLines at hl
  simp only [List.mem_append] at hl
  rcases hl with (hl | hl) | hl
  · cases hm : o.mode <;> rw [hm] at hl <;> simp only at hl
    · rw [List.mem_singleton] at hl
      split at hl <;> subst hl <;> simp [lit, h1]
    · rw [List.mem_singleton] at hl
      split at hl <;> subst hl <;> simp [lit]
    · split at hl
      · simp at hl
      · rw [List.mem_singleton] at hl; subst hl; exact h1
    · simp at hl
  · split at hl
    · obtain ⟨t, ht, rfl⟩ := List.mem_map.1 hl
      obtain ⟨a, ha, hta⟩ := mem_numbered ht
      obtain ⟨k1, k2, k3⟩ := hs.attr w hw a ha _ hta
      exact attributeLine_single h1 k1 k3
    · simp at hl
  · split at hl
    · obtain ⟨s, hs', rfl⟩ := List.mem_map.1 hl
      have := hs.suggestion w hw s hs'
      simp [lit, this]
    · simp at hl

theorem usual_output (ha : Answers api P verdict sugg an words) (hs : SingleLines sugg an words) (o : ToolOpts) (hm : o.mode ≠ .none) (ho : o.oneLine = false)
    (h : σ) (hp : P h) : ∃ out, runSingle (checkWord api o) h words = some out ∧ linesOf out = words.flatMap (usualLines o verdict sugg an) := by
  refine ⟨_, Threads.runSingle_steady (usual_steady ha o hm ho) hp, ?_⟩
  unfold Threads.expected
  rw [← textOf_flatMap, linesOf_text]
  intro l hl
  obtain ⟨w, hw, hl⟩ := List.mem_flatMap.1 hl
  exact usualLines_single hs o hw l hl

/-- What is to be said about a word. -/
def entryOf (o : ToolOpts) (verdict : List Wc → Bool) (sugg : List Wc → List (List Wc)) (an : List Wc → List (List (List Wc × List Wc))) (w : List Wc) : Entry :=
  { word := w, correct := verdict w,
    attributes := if o.morphology ∧ verdict w then (numbered 1 (an w)).map some else [],
    suggestions := if o.suggest ∧ ¬ verdict w then sugg w else [] }

theorem readLines_suggestions (ls : List (List Wc)) : ∀ l : List (List Wc), readLines (l.map (lit "S: " ++ ·) ++ ls) =
    (l ++ (readLines ls).1, (readLines ls).2.1, (readLines ls).2.2)
  | [] => rfl
  | s :: r => by
    rw [List.map_cons, List.cons_append, readLines, readLines_suggestions ls r]
    rfl

theorem readLines_attributes (w : List Wc) (ls : List (List Wc)) : ∀ l : List (Nat × List Wc × List Wc), readLines (l.map (attributeLine w) ++ ls) =
    ((readLines ls).1, l.map (attributeLine w) ++ (readLines ls).2.1, (readLines ls).2.2)
  | [] => rfl
  | s :: r => by
    rw [List.map_cons, List.cons_append, readLines, readLines_attributes w ls r]
    rfl

theorem lit_C (w : List Wc) : lit "C: " ++ w = 0x43 :: 0x3A :: 0x20 :: w := rfl

theorem lit_W (w : List Wc) : lit "W: " ++ w = 0x57 :: 0x3A :: 0x20 :: w := rfl

theorem readLines_word (hs : SingleLines sugg an words) (o : ToolOpts) (hm : o.mode = .normal) {w : List Wc} (hw : w ∈ words) (ls : List (List Wc))
    (h1 : (readLines ls).1 = []) (h2 : (readLines ls).2.1 = []) :
    readLines (usualLines o verdict sugg an w ++ ls) = ([], [], entryOf o verdict sugg an w :: (readLines ls).2.2) := by
  have hatt : ((numbered 1 (an w)).map (attributeLine w)).map (readAnalysis w) = (numbered 1 (an w)).map some := by
    rw [List.map_map]
    refine List.map_congr_left fun t ht => ?_
    obtain ⟨a, ha, hta⟩ := mem_numbered ht
    exact readAnalysis_line w t (hs.attr w hw a ha _ hta).2.1
  unfold usualLines entryOf
  rw [hm]
  cases hv : verdict w <;> cases hs : o.suggest <;> cases hmo : o.morphology <;>
    simp [lit_C, lit_W, readLines, readLines_suggestions, readLines_attributes, h1, h2, hatt]

/-- C88: what the program prints in the usual format says for every word, in the order of the words, whether it is correct, with its analyses
if it is correct and `-m` is given, and its suggestions if it is wrong and `-s` is given. -/
theorem C88_readback (ha : Answers api P verdict sugg an words) (hs : SingleLines sugg an words) (o : ToolOpts) (hm : o.mode = .normal) (ho : o.oneLine = false)
    (h : σ) (hp : P h) : ∃ out, runSingle (checkWord api o) h words = some out ∧ entries out = words.map (entryOf o verdict sugg an) := by
  obtain ⟨out, e1, e2⟩ := usual_output ha hs o (by rw [hm]; decide) ho h hp
  refine ⟨out, e1, ?_⟩
  unfold entries
  rw [e2]
  clear e1 e2 out ha hp
  have key : ∀ ws : List (List Wc), (∀ w ∈ ws, w ∈ words) → readLines (ws.flatMap (usualLines o verdict sugg an)) = ([], [], ws.map (entryOf o verdict sugg an)) := by
    intro ws
    induction ws with
    | nil => intro _; rfl
    | cons w r ih =>
      intro hsub
      have := ih fun x hx => hsub x (List.mem_cons_of_mem _ hx)
      rw [List.flatMap_cons, readLines_word hs o hm (hsub w List.mem_cons_self) _ (by rw [this]) (by rw [this]), this]
      rfl
  rw [key words fun _ h => h]

/-- C88: with `-tt` exactly the wrong words are printed, in their order. -/
theorem C88_only_incorrect (ha : Answers api P verdict sugg an words) (hs : SingleLines sugg an words) (o : ToolOpts) (hm : o.mode = .onlyIncorrect)
    (ho : o.oneLine = false) (hsu : o.suggest = false) (hmo : o.morphology = false) (h : σ) (hp : P h) :
    ∃ out, runSingle (checkWord api o) h words = some out ∧ linesOf out = words.filter (fun w => !verdict w) := by
  obtain ⟨out, e1, e2⟩ := usual_output ha hs o (by rw [hm]; decide) ho h hp
  refine ⟨out, e1, ?_⟩
  rw [e2]
  have key : ∀ ws : List (List Wc), ws.flatMap (usualLines o verdict sugg an) = ws.filter (fun w => !verdict w) := by
    intro ws
    induction ws with
    | nil => rfl
    | cons w r ih =>
      rw [List.flatMap_cons, ih]
      cases hv : verdict w <;> simp [usualLines, hm, hsu, hmo, hv]
  exact key words

/-- C88: with `-t` a letter is printed for every word, in their order. -/
theorem C88_only_letters (ha : Answers api P verdict sugg an words) (hs : SingleLines sugg an words) (o : ToolOpts) (hm : o.mode = .onlyCW)
    (ho : o.oneLine = false) (hsu : o.suggest = false) (hmo : o.morphology = false) (h : σ) (hp : P h) :
    ∃ out, runSingle (checkWord api o) h words = some out ∧ linesOf out = words.map (fun w => if verdict w then [0x43] else [0x57]) := by
  obtain ⟨out, e1, e2⟩ := usual_output ha hs o (by rw [hm]; decide) ho h hp
  refine ⟨out, e1, ?_⟩
  rw [e2]
  have key : ∀ ws : List (List Wc), ws.flatMap (usualLines o verdict sugg an) = ws.map (fun w => if verdict w then [0x43] else [0x57]) := by
    intro ws
    induction ws with
    | nil => rfl
    | cons w r ih =>
      rw [List.flatMap_cons, ih]
      cases hv : verdict w <;> simp [usualLines, hm, hsu, hmo, hv, lit]
  exact key words

/-! ### One line per word -/

theorem fields_line {sep : Wc} : ∀ {l : List Wc} (r : List Wc), sep ∉ l → fields sep (l ++ sep :: r) = l :: fields sep r
  | [], r, _ => by simp [fields]
  | c :: l, r, h => by
    have hc : c ≠ sep := fun e => h (by simp [e])
    rw [List.cons_append, fields, if_neg hc, fields_line r (fun e => h (List.mem_cons_of_mem _ e))]

theorem fields_last {sep : Wc} : ∀ {l : List Wc}, sep ∉ l → fields sep l = [l]
  | [], _ => rfl
  | c :: l, h => by
    have hc : c ≠ sep := fun e => h (by simp [e])
    rw [fields, if_neg hc, fields_last fun e => h (List.mem_cons_of_mem _ e)]

/-- The suggestions printed with `-x`. -/
def shown (o : ToolOpts) (l : List (List Wc)) : List (List Wc) := l.filter fun s => o.space || !s.contains 0x20

theorem inline_fields (o : ToolOpts) : ∀ (l : List (List Wc)) (w : List Wc), o.separator ∉ w → (∀ s ∈ shown o l, o.separator ∉ s) →
    fields o.separator (w ++ inlineSuggestions o l) = w :: shown o l
  | [], w, hw, _ => by rw [inlineSuggestions, List.append_nil, fields_last hw]; rfl
  | s :: r, w, hw, h => by
    rw [inlineSuggestions]
    by_cases hs : (o.space || !s.contains 0x20) = true
    · have e : shown o (s :: r) = s :: shown o r := by unfold shown; exact List.filter_cons_of_pos (p := fun s : List Wc => o.space || !s.contains 0x20) hs
      rw [e] at h
      rw [if_pos hs, List.cons_append, fields_line _ hw, inline_fields o r s (h s List.mem_cons_self) fun x hx => h x (List.mem_cons_of_mem _ hx), e]
    · have e : shown o (s :: r) = shown o r := by unfold shown; exact List.filter_cons_of_neg (p := fun s : List Wc => o.space || !s.contains 0x20) hs
      rw [if_neg hs, List.nil_append, inline_fields o r w hw (by rw [← e]; exact h), e]

theorem inline_single (o : ToolOpts) (hsep : o.separator ≠ 0x0A) : ∀ (l : List (List Wc)), (∀ s ∈ l, 0x0A ∉ s) → 0x0A ∉ inlineSuggestions o l
  | [], _ => by simp [inlineSuggestions]
  | s :: r, h => by
    have hn : ¬ (0x0A = o.separator) := fun e => hsep e.symm
    rw [inlineSuggestions, List.mem_append, not_or]
    refine ⟨?_, inline_single o hsep r fun x hx => h x (List.mem_cons_of_mem _ hx)⟩
    split
    · simp only [List.mem_cons, not_or]; exact ⟨hn, h s List.mem_cons_self⟩
    · simp

/-- C88: with `-x` there is exactly one line for every word; its fields are the word and, if it is wrong, the suggestions: without those with
spaces if the separator is the space. -/
theorem C88_one_line (ha : Answers api P verdict sugg an words) (hs : SingleLines sugg an words) (o : ToolOpts) (hm : o.mode ≠ .none) (ho : o.oneLine = true)
    (hmo : o.morphology = false) (hsep : o.separator ≠ 0x0A) (hspace : o.space = (o.separator != 0x20)) (hw : ∀ w ∈ words, o.separator ∉ w)
    (hsu : ∀ w ∈ words, ∀ s ∈ sugg w, o.separator ≠ 0x20 → o.separator ∉ s) (h : σ) (hp : P h) :
    ∃ out, runSingle (checkWord api o) h words = some out ∧
      (linesOf out).map (fields o.separator) =
        words.map (fun w => w :: if verdict w then [] else if o.separator = 0x20 then (sugg w).filter (fun s => !s.contains 0x20) else sugg w) := by
  have hst : Threads.Steady (checkWord api o) P (fun w => textOf [w ++ if verdict w then [] else inlineSuggestions o (sugg w)]) words := by
    intro h w hp hw
    obtain ⟨h', e1, e2⟩ := ha.spell h w hp hw
    obtain ⟨l, e3, e4⟩ := ha.suggest w hw
    refine ⟨h', ?_, e2⟩
    have hor : ∀ b : Bool, ¬ ((if b then SpellCode.ok else SpellCode.failed) = .charsetConversionFailed ∨ (if b then SpellCode.ok else SpellCode.failed) = .internalError) := by
      intro b; cases b <;> simp
    cases l <;> cases hv : verdict w <;>
      simp [checkWord, hm, ho, hmo, e1, e3, hv, bind, pure, Option.bind, textOf, ← e4, inlineSuggestions]
  refine ⟨_, Threads.runSingle_steady hst hp, ?_⟩
  have e : Threads.expected (fun w => textOf [w ++ if verdict w then [] else inlineSuggestions o (sugg w)]) words =
      textOf (words.map fun w => w ++ if verdict w then [] else inlineSuggestions o (sugg w)) := by
    unfold Threads.expected textOf
    rw [List.flatMap_map]
    simp
  rw [e, linesOf_text, List.map_map]
  · refine List.map_congr_left fun w hmem => ?_
    rw [Function.comp]
    cases hv : verdict w with
    | true => simp [fields_last (hw w hmem)]
    | false =>
      have hshown : shown o (sugg w) = if o.separator = 0x20 then (sugg w).filter (fun s => !s.contains 0x20) else sugg w := by
        unfold shown
        rw [hspace]
        by_cases hc : o.separator = 0x20
        · simp [hc]
        · have : (o.separator != 0x20) = true := by simpa using hc
          rw [if_neg hc, this]
          simp
      simp only [Bool.false_eq_true, if_false]
      rw [inline_fields o (sugg w) w (hw w hmem), hshown]
      intro s hsm
      by_cases hc : o.separator = 0x20
      · rw [hshown, if_pos hc] at hsm
        have := (List.mem_filter.1 hsm).2
        rw [hc]
        simpa using this
      · exact hsu w hmem s (List.mem_filter.1 hsm).1 hc
  · intro l hl
    obtain ⟨w, hmem, rfl⟩ := List.mem_map.1 hl
    rw [List.mem_append, not_or]
    refine ⟨hs.word w hmem, ?_⟩
    split
    · simp
    · exact inline_single o hsep _ (hs.suggestion w hmem)

/-- C88 with several threads (C86): if the program ends, its output says the same. -/
theorem C88_readback_threads (ha : Answers api P verdict sugg an words) (hs : SingleLines sugg an words) (o : ToolOpts) (hm : o.mode = .normal) (ho : o.oneLine = false)
    {handles : List σ} (hT : 0 < handles.length) (hP : ∀ h ∈ handles, P h) {n : Nat} {t : Tool σ} (hr : ToolRun (checkWord api o) n (startTool handles words) t)
    (he : t.pc = .terminated) : entries t.out = words.map (entryOf o verdict sugg an) := by
  have hp : P handles[0] := hP _ (List.getElem_mem hT)
  obtain ⟨out, e1, e2⟩ := C88_readback ha hs o hm ho handles[0] hp
  have := (C86_same_output hT hP (usual_steady ha o (by rw [hm]; decide) ho) hr he handles[0] hp).1
  rw [e1] at this
  rw [← Option.some.inj this]
  exact e2

end

/-- The library meets the conditions, with the verdict of `voikkoSpellUcs4` without a cache. -/
theorem C88_library (dict : List Wc → SpellRes) (o : SpellOpts) (suggest : List Wc → UB (Option (List (List Wc))))
    (analyze : List Wc → UB (List (List (List Wc × List Wc)))) (words : List (List Wc)) (hw : ∀ w ∈ words, WordOk w)
    (sugg : List Wc → List (List Wc)) (hs : ∀ w ∈ words, ∃ l, suggest w = some l ∧ l.getD [] = sugg w)
    (an : List Wc → List (List (List Wc × List Wc))) (ha : ∀ w ∈ words, analyze w = some (an w)) (verdict : List Wc → Bool)
    (hv : ∀ w ∈ words, verdict w = true ↔ Accepted dict o w) :
    Answers (libraryApi dict o suggest analyze) (CacheInv (effDict dict o.acceptMissingHyphens)) verdict sugg an words := by
  refine ⟨?_, hs, ha⟩
  intro c w hc hmem
  obtain ⟨c1, a1, a2, _⟩ := spellUcs4_eq dict o c hc w (hw w hmem)
  refine ⟨c1, ?_, a2⟩
  have : verdict w = accepts dict o w := by
    have := (hv w hmem).trans (accepted_iff dict o w (hw w hmem))
    cases h1 : verdict w <;> cases h2 : accepts dict o w <;> simp [h1, h2] at this ⊢
  rw [this]
  exact a1

/-- A library that knows the word "kissa". -/
def kissaApi : ToolApi Nat where
  spell h w := some (if w = lit "kissa" then .ok else .failed, h + 1)
  suggest _ := some (some [lit "kissa", lit "kis sa"])
  analyze _ := some [[(lit "CLASS", lit "nimisana"), (lit "SIJAMUOTO", lit "nimento")], [(lit "CLASS", lit "nimi")]]

/-- The conditions hold, and what is printed. -/
example : Answers kissaApi (fun _ => True) (fun w => decide (w = lit "kissa")) (fun _ => [lit "kissa", lit "kis sa"])
      (fun _ => [[(lit "CLASS", lit "nimisana"), (lit "SIJAMUOTO", lit "nimento")], [(lit "CLASS", lit "nimi")]]) [lit "kissa", lit "kisa"] ∧
    SingleLines (fun _ => [lit "kissa", lit "kis sa"])
      (fun _ => [[(lit "CLASS", lit "nimisana"), (lit "SIJAMUOTO", lit "nimento")], [(lit "CLASS", lit "nimi")]]) [lit "kissa", lit "kisa"] ∧
    runSingle (checkWord kissaApi { suggest := true, morphology := true }) 0 [lit "kissa", lit "kisa"] =
      some (lit "C: kissa\nA(kissa):1:CLASS=nimisana\nA(kissa):1:SIJAMUOTO=nimento\nA(kissa):2:CLASS=nimi\nW: kisa\nS: kissa\nS: kis sa\n") ∧
    runSingle (checkWord kissaApi { oneLine := true }) 0 [lit "kissa", lit "kisa"] = some (lit "kissa\nkisa kissa\n") ∧
    runSingle (checkWord kissaApi { oneLine := true, separator := 0x2C, space := true }) 0 [lit "kissa", lit "kisa"] = some (lit "kissa\nkisa,kissa,kis sa\n") := by
  refine ⟨⟨?_, ?_, ?_⟩, ⟨?_, ?_, ?_⟩, ?_, ?_, ?_⟩
  · intro h w _ _; exact ⟨h + 1, by simp [kissaApi], trivial⟩
  · intro w _; exact ⟨_, rfl, rfl⟩
  · intro w _; rfl
  · decide
  · intro w _; decide
  · intro w _; decide
  · decide +kernel
  · decide +kernel
  · decide +kernel

end Verif.Props
