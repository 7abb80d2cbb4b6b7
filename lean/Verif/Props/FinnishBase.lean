import Verif.Lemmas.FinnishBaseValue
import Verif.Props.FinnishGrammatical
/-!
# C80: the base forms of the analyses of Finnish words

`Verif.Spec.Baseform` says what the base form of a reading is.
-/

set_option linter.unusedSimpArgs false
set_option linter.unusedVariables false

namespace Verif.Props
open Verif Verif.Baseform Verif.Attrs

theorem firstNumeral_unique {its Q R Q' R' : List SItem} (h : FirstNumeral its Q R) (h' : FirstNumeral its Q' R') : Q = Q' ∧ R = R' := by
  obtain ⟨e, hq, -⟩ := h
  obtain ⟨e', hq', -⟩ := h'
  rw [e] at e'
  clear e
  induction Q generalizing Q' with
  | nil =>
    cases Q' with
    | nil => exact ⟨rfl, (List.cons.inj e').2⟩
    | cons y Q' => exact absurd (Or.inl ⟨_, (List.cons.inj e').1.symm⟩) (hq' y (List.mem_cons_self ..))
  | cons x Q ih =>
    cases Q' with
    | nil => exact absurd (Or.inl ⟨_, (List.cons.inj e').1⟩) (hq x (List.mem_cons_self ..))
    | cons y Q' =>
      obtain ⟨h1, h2⟩ := List.cons.inj e'
      obtain ⟨h3, h4⟩ := ih (fun y hy => hq y (List.mem_cons_of_mem _ hy)) h2 (fun y hy => hq' y (List.mem_cons_of_mem _ hy))
      exact ⟨by rw [h1, h3], h4⟩

/-- The base form of a reading, as it is computed. -/
theorem baseform_value {its : List SItem} (hw : WellFormed its) (ht : Tidy its) (hr : Regular its) (st : List Wc) {v : Option (List Wc)}
    (h : parseBaseform (render its) st = some v) (b : List Wc) : v = some b ↔ BaseOf its st b := by
  by_cases hn : ∃ Q R, FirstNumeral its Q R ∧ ¬ GoesOn R
  · obtain ⟨Q, R, hf, hg⟩ := hn
    obtain ⟨t, h1, h2⟩ := parseBaseform_numeral its Q R st hw ht hr.1 hf hg ((hr.2 Q R hf).2 hg)
    rw [h] at h2
    cases h2
    constructor
    · intro e
      cases e
      exact Or.inl ⟨Q, R, t, hf, hg, h1, rfl⟩
    · rintro (⟨Q', R', t', hf', -, h1', rfl⟩ | ⟨hall, -⟩)
      · obtain ⟨rfl, rfl⟩ := firstNumeral_unique hf hf'
        rw [written_unique Q.length Q (Nat.le_refl _) _ _ h1 h1']
      · exact absurd (hall Q R hf) hg
  · have hall : ∀ Q R, FirstNumeral its Q R → GoesOn R := fun Q R hf => by
      by_cases hg : GoesOn R
      · exact hg
      · exact absurd ⟨Q, R, hf, hg⟩ hn
    obtain ⟨b', h1, h2⟩ := parseBaseform_eq its st hw ht hr.1 fun Q R hf => ⟨hall Q R hf, (hr.2 Q R hf).1 (hall Q R hf)⟩
    rw [h] at h2
    have h2 := Option.some.inj h2
    constructor
    · rintro rfl
      split at h2
      · cases h2
      · cases h2
        exact Or.inr ⟨hall, by assumption, h1⟩
    · rintro (⟨Q', R', t', hf', hg, -⟩ | ⟨-, hne, hb⟩)
      · exact absurd ⟨Q', R', hf', hg⟩ hn
      · rw [baseForm_unique hb h1] at hne ⊢
        rw [h2, if_neg hne]

/-- The analyses of a reading, and where their base forms come from. -/
theorem analyses_made (its : List SItem) (full : Bool) (hw : WellFormed its) (hlen : (render its).length < 2 ^ 64)
    (hv : isValidAnalysis (render its) = some true) :
    ∃ a r, analyzeOutput (content its).length full (render its) = some (a :: r) ∧ (∀ b ∈ r, Made (render its) b)
      ∧ (full = true → Made (render its) a) ∧ (full = false → a.getValue .baseform = none) := by
  obtain ⟨st, hst, hd, -⟩ := C59_structure_partial its hw
  have hne : render its ≠ [] := by
    intro e
    refine hw.2.2 ?_
    clear hw hlen hv hst hd
    induction its with
    | nil => rfl
    | cons a t ih =>
      rw [render] at e
      have e1 := (List.append_eq_nil_iff.1 e).1
      cases a <;> simp [SItem.render] at e1
  have h2 : (render its).head? ≠ some 0x2D → 2 ≤ st.length := by
    intro hh
    have h0 : st.head? = some 0x3D := head_mark hd hh
    have h1 : 0 < (strip st).length := by rw [hd.count]; exact List.length_pos_iff.2 hw.2.2
    match st, h0, h1 with
    | [c], h0, h1 => cases h0; simp [strip] at h1
    | a :: b :: s, _, _ => simp
  obtain ⟨l, hl, a, r, rfl, h⟩ := rest_made full hne hlen h2
  exact ⟨a, r, by rw [analyzeOutput_eq]; exact (bind_valid _ _ _ hv hst).trans hl, h⟩

theorem made_value {its : List SItem} (hw : WellFormed its) (ht : Tidy its) (hr : Regular its) {a : Ana} (h : Made (render its) a) :
    ∃ st, analysisValue a (lit "STRUCTURE") = some st ∧ ∀ b, analysisValue a (lit "BASEFORM") = some b ↔ BaseOf its st b := by
  obtain ⟨st, v, h1, h2⟩ := h
  exact ⟨st, h2.str, fun b => by rw [← baseform_value hw ht hr st h1 b, ← h2.base]; rfl⟩

/-- **C80** (one reading): every analysis that a valid reading gives has as BASEFORM exactly the base form of the reading, written with the
capital letters of its STRUCTURE, and no BASEFORM if that is empty. -/
theorem C80_baseform (its : List SItem) (hw : WellFormed its) (ht : Tidy its) (hr : Regular its) (hlen : (render its).length < 2 ^ 64)
    (hv : isValidAnalysis (render its) = some true) :
    ∃ l, analyzeOutput (content its).length true (render its) = some l ∧ l ≠ [] ∧ ∀ a ∈ l, ∃ st,
      analysisValue a (lit "STRUCTURE") = some st ∧ ∀ b, analysisValue a (lit "BASEFORM") = some b ↔ BaseOf its st b := by
  obtain ⟨a, r, h1, h2, h3, -⟩ := analyses_made its true hw hlen hv
  refine ⟨_, h1, by simp, fun c hc => ?_⟩
  rcases List.mem_cons.1 hc with rfl | hc
  · exact made_value hw ht hr (h3 rfl)
  · exact made_value hw ht hr (h2 c hc)

/-- **C80** (without the full morphology): the analysis of the reading has no BASEFORM, but an added analysis as the name of an organisation
has one. -/
theorem C80_short (its : List SItem) (hw : WellFormed its) (ht : Tidy its) (hr : Regular its) (hlen : (render its).length < 2 ^ 64)
    (hv : isValidAnalysis (render its) = some true) :
    ∃ a r, analyzeOutput (content its).length false (render its) = some (a :: r) ∧ analysisValue a (lit "BASEFORM") = none
      ∧ ∀ c ∈ r, ∃ st, analysisValue c (lit "STRUCTURE") = some st ∧ ∀ b, analysisValue c (lit "BASEFORM") = some b ↔ BaseOf its st b := by
  obtain ⟨a, r, h1, h2, -, h4⟩ := analyses_made its false hw hlen hv
  exact ⟨a, r, h1, h4 rfl, fun c hc => made_value hw ht hr (h2 c hc)⟩

/-- **C80**: there is at most one base form. -/
theorem C80_unique {its : List SItem} {st b b' : List Wc} (h : BaseOf its st b) (h' : BaseOf its st b') : b = b' := by
  rcases h with ⟨Q, R, t, hf, hg, hw, rfl⟩ | ⟨hall, -, hb⟩ <;> rcases h' with ⟨Q', R', t', hf', hg', hw', rfl⟩ | ⟨hall', -, hb'⟩
  · obtain ⟨rfl, rfl⟩ := firstNumeral_unique hf hf'
    rw [written_unique Q.length Q (Nat.le_refl _) _ _ hw hw']
  · exact absurd (hall' Q R hf) hg
  · exact absurd (hall Q' R' hf') hg'
  · exact baseForm_unique hb hb'

theorem spell_concat (p w : List Wc) (c : Wc) :
    spell p (w ++ [c]) = spell p w ++ [if p[w.length]? = some 0x69 ∨ p[w.length]? = some 0x6A then upper c else c] := by
  induction w generalizing p with
  | nil =>
    cases p with
    | nil => simp [spell]
    | cons k p => simp [spell]
  | cons a w ih =>
    cases p with
    | nil => simp [spell]
    | cons k p => simp [spell, ih]

/-- Without compound place names the text is the word with the capital letters of STRUCTURE. -/
theorem written_spell {its P : List SItem} {st : List Wc} (hno : .tag (lit "De") ∉ its) (hp : P <+: its) :
    Written its st P (spell (strip st) (content P)) := by
  have hnr : ∀ P A body, ¬ Replaced its P A body := by
    rintro P A body ⟨-, ⟨Q, R, e, -⟩, -, R', e', -⟩
    rw [e', e] at hno
    simp at hno
  induction P using List.reverseRecOn with
  | nil => 
    have : spell (strip st) (content []) = [] := by cases strip st <;> rfl
    rw [this]; exact .nil
  | append_singleton P x ih =>
    have h0 := ih ((List.prefix_append _ _).trans hp)
    by_cases hx : ∃ c, x = .chr c
    · obtain ⟨c, rfl⟩ := hx
      have : content (P ++ [SItem.chr c]) = content P ++ [c] := by rw [content_append]; rfl
      rw [this, spell_concat]
      exact .letter h0 fun _ A body => hnr P A body
    · have : content (P ++ [x]) = content P := by
        rw [content_append]
        cases x <;> first | exact List.append_nil _ | exact absurd ⟨_, rfl⟩ hx
      rw [this]
      exact .mark h0 fun c e => hx ⟨c, e⟩

/-- **C80** (words): if the base form of the last word of a reading is known, and there is no hyphen behind it that is not in the base form,
then BASEFORM is what is before the word, with its capital letters, and the base form. -/
theorem C80_last_word (its A M : List SItem) (body : List Wc) (hw : WellFormed its) (ht : Tidy its) (hr : Regular its)
    (hlen : (render its).length < 2 ^ 64) (hv : isValidAnalysis (render its) = some true) (hno : .tag (lit "De") ∉ its)
    (hnum : ∀ Q R, FirstNumeral its Q R → GoesOn R) (hl : LastBase its A body M) (hh : hyphens (content M) ≤ hyphens body)
    (hb : strip body ≠ []) :
    ∃ l, analyzeOutput (content its).length true (render its) = some l ∧ l ≠ [] ∧ ∀ a ∈ l, ∃ st,
      analysisValue a (lit "STRUCTURE") = some st ∧ analysisValue a (lit "BASEFORM") = some (spell (strip st) (content A) ++ strip body) := by
  obtain ⟨l, h1, h2, h3⟩ := C80_baseform its hw ht hr hlen hv
  refine ⟨l, h1, h2, fun a ha => ?_⟩
  obtain ⟨st, h4, h5⟩ := h3 a ha
  refine ⟨st, h4, (h5 _).2 (Or.inr ⟨hnum, by simp [hb], Or.inl ⟨A, body, M, _, hl, hh, written_spell hno ?_, rfl⟩⟩)⟩
  obtain ⟨x, e, -⟩ := hl
  exact ⟨_, e.symm⟩

/-- **C80** (words without a base form): if no word of a reading has a base form then BASEFORM is the word itself, with its capital letters. -/
theorem C80_itself (its : List SItem) (hw : WellFormed its) (ht : Tidy its) (hr : Regular its)
    (hlen : (render its).length < 2 ^ 64) (hv : isValidAnalysis (render its) = some true) (hno : .tag (lit "De") ∉ its)
    (hnum : ∀ Q R, FirstNumeral its Q R → GoesOn R) (hl : NoBase its) :
    ∃ l, analyzeOutput (content its).length true (render its) = some l ∧ l ≠ [] ∧ ∀ a ∈ l, ∃ st,
      analysisValue a (lit "STRUCTURE") = some st ∧ analysisValue a (lit "BASEFORM") = some (spell (strip st) (content its)) := by
  obtain ⟨l, h1, h2, h3⟩ := C80_baseform its hw ht hr hlen hv
  refine ⟨l, h1, h2, fun a ha => ?_⟩
  obtain ⟨st, h4, h5⟩ := h3 a ha
  refine ⟨st, h4, (h5 _).2 (Or.inr ⟨hnum, ?_, Or.inr ⟨?_, written_spell hno (List.prefix_refl _)⟩⟩)⟩
  · have := hw.2.2
    cases hc : content its with
    | nil => exact absurd hc this
    | cons c w => cases strip st <;> simp [spell]
  · rintro A body M ⟨x, e, hx, -⟩
    exact absurd hx (hl x (by rw [e]; simp) body)

/-- **C80** (simple words): if nothing is before the base form, the base form is BASEFORM, whatever the form of the word. -/
theorem C80_simple (its A M : List SItem) (body : List Wc) (hw : WellFormed its) (ht : Tidy its) (hr : Regular its)
    (hlen : (render its).length < 2 ^ 64) (hv : isValidAnalysis (render its) = some true) (hno : .tag (lit "De") ∉ its)
    (hnum : ∀ Q R, FirstNumeral its Q R → GoesOn R) (hl : LastBase its A body M) (hA : content A = [])
    (hh : hyphens (content M) ≤ hyphens body) (hb : strip body ≠ []) :
    ∃ l, analyzeOutput (content its).length true (render its) = some l ∧ l ≠ [] ∧ ∀ a ∈ l, analysisValue a (lit "BASEFORM") = some (strip body) := by
  obtain ⟨l, h1, h2, h3⟩ := C80_last_word its A M body hw ht hr hlen hv hno hnum hl hh hb
  refine ⟨l, h1, h2, fun a ha => ?_⟩
  obtain ⟨st, -, h5⟩ := h3 a ha
  rw [h5, hA]
  cases strip st <;> rfl

/-- **C80** (the analyses of a word): they are those of the first 99 readings, in order, with the base forms of the readings. -/
theorem C80_analyses (next : List Wc → List (List Wc)) (word : List Wc) (readings : List (List SItem))
    (hnext : next (setCase .allLower word) = readings.map render)
    (hr : ∀ its ∈ readings, WellFormed its ∧ Tidy its ∧ Regular its ∧ (content its).length = word.length ∧ (render its).length < 2 ^ 64)
    (hword : word.length ≤ 255) :
    ∃ ls, finnishAnalyze next word true = some ls.flatten
      ∧ List.Forall₂ (fun its l => (isValidAnalysis (render its) = some true ∧ l ≠ [] ∧ ∀ a ∈ l, ∃ st,
          analysisValue a (lit "STRUCTURE") = some st ∧ ∀ b, analysisValue a (lit "BASEFORM") = some b ↔ BaseOf its st b)
        ∨ (isValidAnalysis (render its) = some false ∧ l = [])) (readings.take 99) ls := by
  rw [finnishAnalyze, if_neg (by omega), hnext, ← List.map_take]
  have hr' := fun its (h : its ∈ readings.take 99) => hr its (List.mem_of_mem_take h)
  generalize readings.take 99 = R at hr'
  induction R with
  | nil => exact ⟨[], rfl, List.Forall₂.nil⟩
  | cons its R ih =>
    obtain ⟨ls, h1, h2⟩ := ih fun x hx => hr' x (List.mem_cons_of_mem _ hx)
    obtain ⟨hw, ht, hg, hc, hlen⟩ := hr' its List.mem_cons_self
    obtain ⟨v, hv⟩ := C60_validity (render its)
    rw [List.map_cons, analyzeOutputs, h1]
    cases v with
    | false =>
      refine ⟨[] :: ls, ?_, List.Forall₂.cons (Or.inr ⟨hv, rfl⟩) h2⟩
      have : analyzeOutput word.length true (render its) = some [] := by rw [analyzeOutput_eq]; exact bind_invalid _ _ _ hv
      rw [this]; rfl
    | true =>
      obtain ⟨l, h3, h4⟩ := C80_baseform its hw ht hg hlen hv
      rw [hc] at h3
      exact ⟨l :: ls, by rw [h3]; rfl, List.Forall₂.cons (Or.inl ⟨hv, h4⟩) h2⟩

/-- A noun with its base form and the tags of its case and number. -/
def nounBaseItems (b w : List Wc) (c n : String) : List SItem :=
  .cls 0x6E :: .sect 0x70 b :: (w.map .chr ++ [.tag (0x53 :: lit c), .tag (0x4E :: lit n)])

theorem nounBase_mem {b w : List Wc} {c n : String} {x : SItem} (hx : x ∈ nounBaseItems b w c n) :
    x = .cls 0x6E ∨ x = .sect 0x70 b ∨ (∃ d ∈ w, x = .chr d) ∨ x = .tag (0x53 :: lit c) ∨ x = .tag (0x4E :: lit n) := by
  simp only [nounBaseItems, List.mem_cons, List.mem_append, List.mem_map, List.not_mem_nil, or_false] at hx
  rcases hx with h | h | ⟨d, h, rfl⟩ | h | h
  · exact Or.inl h
  · exact Or.inr (Or.inl h)
  · exact Or.inr (Or.inr (Or.inl ⟨d, h, rfl⟩))
  · exact Or.inr (Or.inr (Or.inr (Or.inl h)))
  · exact Or.inr (Or.inr (Or.inr (Or.inr h)))

/-- **C80** (nouns): in every case and number BASEFORM is the base form that the dictionary gives, without its marks. -/
theorem C80_noun (b w : List Wc) (hne : w ≠ []) (h1 : 0x5B ∉ w) (h2 : 0x5D ∉ w) (hb : 0x5B ∉ b) (hs : strip b ≠ [])
    (hh : hyphens w ≤ hyphens b) (e f : String × String) (he : e ∈ cases) (hf : f ∈ numbers)
    (hlen : (render (nounBaseItems b w e.1 f.1)).length < 2 ^ 64)
    (hv : isValidAnalysis (render (nounBaseItems b w e.1 f.1)) = some true) :
    ∃ l, analyzeOutput w.length true (render (nounBaseItems b w e.1 f.1)) = some l ∧ l ≠ []
      ∧ ∀ a ∈ l, analysisValue a (lit "BASEFORM") = some (strip b) := by
  have te := tables_tidy.1 e he
  have tf := tables_tidy.2 f hf
  have hM : content (w.map .chr ++ [.tag (0x53 :: lit e.1), .tag (0x4E :: lit f.1)]) = w := by
    rw [content_chars]; exact List.append_nil _
  have hc : content (nounBaseItems b w e.1 f.1) = w := hM
  have hw : WellFormed (nounBaseItems b w e.1 f.1) := by
    refine ⟨?_, trivial, by rw [hc]; exact hne⟩
    unfold nounBaseItems
    rw [WfItems, WfItems]
    refine ⟨by decide, by decide, hb, wf_chars w _ _ h1 fun p => ?_⟩
    simp only [WfItems]
    refine ⟨⟨_, _, rfl, Or.inl (by decide)⟩, ?_, ⟨_, _, rfl, Or.inl (by decide)⟩, ?_, trivial⟩
    · simp only [List.mem_cons, not_or]; exact ⟨by decide, te.2⟩
    · simp only [List.mem_cons, not_or]; exact ⟨by decide, tf.2⟩
  have ht : Tidy (nounBaseItems b w e.1 f.1) := by
    intro x hx
    rcases nounBase_mem hx with rfl | rfl | ⟨c, hc, rfl⟩ | rfl | rfl
    · exact ⟨by decide, by decide⟩
    · exact ⟨by decide, hb⟩
    · exact ⟨fun e => h1 (e ▸ hc), fun e => h2 (e ▸ hc)⟩
    · refine ⟨by simp, ?_, ?_⟩
      · simp only [List.mem_cons, not_or]; exact ⟨by decide, te.1⟩
      · simp only [List.mem_cons, not_or]; exact ⟨by decide, te.2⟩
    · refine ⟨by simp, ?_, ?_⟩
      · simp only [List.mem_cons, not_or]; exact ⟨by decide, tf.1⟩
      · simp only [List.mem_cons, not_or]; exact ⟨by decide, tf.2⟩
  have hnum : ∀ Q R, ¬ FirstNumeral (nounBaseItems b w e.1 f.1) Q R := by
    rintro Q R ⟨eq, -⟩
    have hx : SItem.cls 0x75 ∈ nounBaseItems b w e.1 f.1 := by rw [eq]; simp
    rcases nounBase_mem hx with h | h | ⟨c, hc, h⟩ | h | h <;> cases h
  have hr : Regular (nounBaseItems b w e.1 f.1) := by
    refine ⟨fun c d hx => ?_, fun Q R hf => absurd hf (hnum Q R)⟩
    rcases nounBase_mem hx with h | h | ⟨c, hc, h⟩ | h | h <;> cases h
    exact Or.inl rfl
  have hl : LastBase (nounBaseItems b w e.1 f.1) [.cls 0x6E] b (w.map .chr ++ [.tag (0x53 :: lit e.1), .tag (0x4E :: lit f.1)]) := by
    refine ⟨_, rfl, Or.inl rfl, fun x hx d hd => ?_⟩
    simp only [List.mem_cons, List.mem_append, List.mem_map, List.not_mem_nil, or_false] at hx
    rcases hd with rfl | rfl <;> rcases hx with ⟨c, -, h⟩ | h | h <;> cases h
  have hno : .tag (lit "De") ∉ nounBaseItems b w e.1 f.1 := by
    intro hx
    rcases nounBase_mem hx with h | h | ⟨c, hc, h⟩ | h | h
    · cases h
    · cases h
    · cases h
    · exact absurd (List.cons.inj (SItem.tag.inj h)).1 (by decide)
    · exact absurd (List.cons.inj (SItem.tag.inj h)).1 (by decide)
  have := C80_simple _ _ _ b hw ht hr hlen hv hno (fun Q R hf => absurd hf (hnum Q R)) hl rfl (by rw [hM]; exact hh) hs
  rwa [hc] at this

example : isValidAnalysis (render (nounBaseItems (lit "koira") (lit "koiralla") "ade" "y")) = some true
    ∧ ("ade", "ulkoolento") ∈ cases ∧ ("y", "singular") ∈ numbers
    ∧ (analyzeOutput 8 true (render (nounBaseItems (lit "koira") (lit "koiralla") "ade" "y"))).map (·.map fun a => analysisValue a (lit "BASEFORM"))
      = some [some (lit "koira")] := by decide +kernel

/-- A compound: only the last word is in its base form. -/
def compoundBase : List SItem :=
  [.cls 0x6E, .pat (lit "ipppp"), .sect 0x70 (lit "Matti")] ++ (lit "matin").map .chr ++ [.tag (lit "Sg"), .tag (lit "Ny"), .bound 0x63, .cls 0x6E,
    .sect 0x70 (lit "piha")] ++ (lit "pihalla").map .chr ++ [.tag (lit "Sade"), .tag (lit "Ny")]

example : WellFormed compoundBase ∧ Tidy compoundBase ∧ Regular compoundBase ∧ isValidAnalysis (render compoundBase) = some true
    ∧ (∃ A M, LastBase compoundBase A (lit "piha") M ∧ content A = lit "matin" ∧ hyphens (content M) ≤ hyphens (lit "piha"))
    ∧ (analyzeOutput 12 true (render compoundBase)).map (·.map fun a => analysisValue a (lit "BASEFORM")) = some [some (lit "Matinpiha")] := by
  refine ⟨⟨?_, ?_, by decide⟩, ?_, ⟨?_, ?_⟩, by decide +kernel, ?_, by decide +kernel⟩
  · simp [compoundBase, lit, WfItems, strip, hasDouble, content, render, SItem.render]
  · simp [compoundBase, FirstOk, lit]
  · intro x hx
    simp [compoundBase, lit] at hx
    rcases hx with rfl | rfl | rfl | rfl | rfl | rfl | rfl | rfl | rfl | rfl | rfl | rfl | rfl | rfl | rfl | rfl | rfl | rfl | rfl | rfl | rfl | rfl <;> simp [TidyItem, lit]
  · intro c b h
    simp [compoundBase, lit] at h
    rcases h with ⟨rfl, -⟩ | ⟨rfl, -⟩ <;> simp
  · rintro Q R ⟨e, -⟩
    have : SItem.cls 0x75 ∈ compoundBase := by rw [e]; simp
    simp [compoundBase, lit] at this
  · refine ⟨compoundBase.take 12, compoundBase.drop 13, ⟨.sect 0x70 (lit "piha"), by decide, Or.inl rfl, ?_⟩, by decide, by decide⟩
    intro x hx b hb
    simp [compoundBase, lit] at hx
    rcases hb with rfl | rfl <;> simp at hx

/-- A numeral: every part is in its base form. -/
def numeralItems : List SItem :=
  [.cls 0x75, .sect 0x70 (lit "kaksi")] ++ (lit "kahden").map .chr ++ [.tag (lit "Sg"), .tag (lit "Ny"), .bound 0x63, .cls 0x75,
    .sect 0x70 (lit "kymmentä")] ++ (lit "kymmenen").map .chr ++ [.tag (lit "Sg"), .tag (lit "Ny")]

example : BaseOf numeralItems (lit "=pppppp=pppppppp") (lit "kaksikymmentä")
    ∧ (analyzeOutput 14 true (render numeralItems)).map (·.map fun a => analysisValue a (lit "BASEFORM")) = some [some (lit "kaksikymmentä")] := by
  refine ⟨Or.inl ⟨[], numeralItems.tail, [], ⟨rfl, by simp, by decide⟩, ?_, .nil, by decide⟩, by decide +kernel⟩
  rintro ⟨A, x, B, e, hx, -⟩
  have : x ∈ numeralItems.tail := by rw [e]; simp
  rcases hx with rfl | rfl | rfl <;> simp [numeralItems, lit] at this

/-- A compound place name: its first part is in its base form too. -/
def placeItems : List SItem :=
  [.cls 0x6C, .tag (lit "De"), .sect 0x70 (lit "iso")] ++ (lit "isolla").map .chr ++ [.tag (lit "Sade"), .tag (lit "Ny"), .chr 0x2D, .bound 0x63,
    .cls2 0x65 0x70, .sect 0x70 (lit "Britannia")] ++ (lit "britannialla").map .chr ++ [.tag (lit "Sade")]

example : WellFormed placeItems ∧ isValidAnalysis (render placeItems) = some true
    ∧ BaseForm placeItems (lit "=ippppp-=ipppppppppp") (lit "Iso-Britannia")
    ∧ (analyzeOutput 19 true (render placeItems)).map (·.map fun a => analysisValue a (lit "BASEFORM")) = some [some (lit "Iso-Britannia")] := by
  refine ⟨⟨?_, ?_, by decide⟩, by decide +kernel, ?_, by decide +kernel⟩
  · simp [placeItems, lit, WfItems, strip, hasDouble, content, render, SItem.render]
  · simp [placeItems, FirstOk, lit]
  · refine Or.inl ⟨placeItems.take 14, lit "Britannia", placeItems.drop 15, lit "Iso-", ⟨.sect 0x70 (lit "Britannia"), by decide, Or.inl rfl, ?_⟩,
      by decide, ?_, by decide⟩
    · intro x hx b hb
      simp [placeItems, lit] at hx
      rcases hb with rfl | rfl <;> simp at hx
    · have h0 : Written placeItems (lit "=ippppp-=ipppppppppp") [.cls 0x6C, .tag (lit "De")] [] :=
        .mark (P := [.cls 0x6C]) (.mark (P := []) .nil (by simp)) (by simp)
      have h1 : Written placeItems (lit "=ippppp-=ipppppppppp") (placeItems.take 11 ++ [.chr 0x2D]) (lit "Iso-") := by
        refine .name (A := [.cls 0x6C, .tag (lit "De")]) (body := lit "iso") h0 ⟨⟨(placeItems.take 11).drop 3, ⟨.sect 0x70 (lit "iso"), by decide,
          Or.inl rfl, ?_⟩, by decide⟩, ⟨[.cls 0x6C], (placeItems.take 11).drop 2, by decide, ?_, ?_⟩, by decide, placeItems.drop 12, by decide, ?_⟩
        · intro x hx b hb
          simp [placeItems, lit] at hx
          rcases hb with rfl | rfl <;> simp at hx
        · intro x hx
          simp [placeItems, lit] at hx
          refine ⟨?_, ?_⟩
          · rintro (⟨c, rfl⟩ | ⟨c, d, rfl⟩) <;> simp at hx
          · rintro rfl; simp at hx
        · intro Q x R e hx hR
          match Q, e with
          | [], e => cases e; exact Or.inl rfl
          | [_], e => simp at e
          | _ :: _ :: _, e => simp at e
        · simp [placeItems, lit]
      exact .mark (P := placeItems.take 13) (.mark (P := placeItems.take 12) h1 (by simp)) (by simp)

/-- **C80**: the text of a section that is not known becomes part of the base form, with the tag itself. -/
theorem C80_violation_section : (analyzeOutput 1 true (lit "[Ln][Xx]abc[X]d[Sn]")).map (·.map fun a => analysisValue a (lit "BASEFORM"))
    = some [some (lit "Xx]abcd")] := by decide +kernel

/-- **C80**: the marks in the base form of a numeral are kept; those of other words are not. -/
theorem C80_violation_numeral_mark :
    (analyzeOutput 5 true (lit "[Lu][Xp]kak=si[X]kaksi[Sn]")).map (·.map fun a => analysisValue a (lit "BASEFORM")) = some [some (lit "kak=si")]
    ∧ (analyzeOutput 5 true (lit "[Ln][Xp]kak=si[X]kaksi[Sn]")).map (·.map fun a => analysisValue a (lit "BASEFORM")) = some [some (lit "kaksi")] := by
  decide +kernel

/-- **C80**: the identifier of the dictionary (`[Xs]`) becomes part of the base form of a numeral. -/
theorem C80_violation_numeral_id :
    (analyzeOutput 5 true (lit "[Lu][Xs]123[X][Xp]kaksi[X]kaksi[Sn]")).map (·.map fun a => analysisValue a (lit "BASEFORM")) = some [some (lit "123kaksi")]
    ∧ (analyzeOutput 5 true (lit "[Ln][Xs]123[X][Xp]kaksi[X]kaksi[Sn]")).map (·.map fun a => analysisValue a (lit "BASEFORM")) = some [some (lit "kaksi")] := by
  decide +kernel

/-- **C80**: without the full morphology the added analysis of a name of an organisation has a BASEFORM, the other one has none. -/
theorem C80_violation_short :
    (analyzeOutput 9 false (render orgItems)).map (·.map fun a => analysisValue a (lit "BASEFORM")) = some [none, some (lit "Kalaseura")] := by
  decide +kernel

end Verif.Props
