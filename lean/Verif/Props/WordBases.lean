import Verif.Lemmas.WordBasesValue
import Verif.Props.FinnishBase
/-!
# C90: the parts of a word in WORDBASES and WORDIDS

`Verif.Spec.WordBases` says what the parts of a reading are and how they are written.
-/

set_option linter.unusedSimpArgs false
set_option linter.unusedVariables false

namespace Verif.Props
open Verif Verif.Baseform Verif.Attrs Verif.WordBases

theorem analyses_told (its : List SItem) (full : Bool) (hw : WellFormed its) (ht : Tidy its) (hu : Usual its) (hlen : (render its).length < 2 ^ 64)
    (hv : isValidAnalysis (render its) = some true) :
    ∃ a r, analyzeOutput (content its).length full (render its) = some (a :: r) ∧ (∀ b ∈ r, ∃ s, Lacks s b)
      ∧ (full = true → Told its a) ∧ (full = false → ∃ s, Lacks s a) := by
  obtain ⟨st, hst, hd, -⟩ := C59_structure_partial its hw
  have hne : render its ≠ [] := by
    intro e
    refine hw.2.2 ?_
    cases its with
    | nil => rfl
    | cons a t =>
      rw [render] at e
      have e1 := (List.append_eq_nil_iff.1 e).1
      cases a <;> simp [SItem.render] at e1
  have h2 : (render its).head? ≠ some 0x2D → 2 ≤ st.length := by
    intro hh
    have h0 : st.head? = some 0x3D := head_mark hd hh
    have h1 : 0 < (strip st).length := by rw [hd.count]; exact List.length_pos_iff.2 hw.2.2
    match st, h0, h1 with
    | [c], h0, h1 => cases h0; simp [strip] at h1
    | a :: b :: s, _, _ => simp
  obtain ⟨l, hl, a, r, rfl, h⟩ := rest_told full (usual_ditems hw ht hu) hu.letters hne hlen h2
  exact ⟨a, r, by rw [analyzeOutput_eq]; exact (bind_valid _ _ _ hv hst).trans hl, h⟩

/-- **C90** (one reading): WORDBASES of the analysis of a valid reading gives the parts of the word in order, each with its base form, and
WORDIDS, which is there if the reading has an identifier, each with its identifier. A second analysis, as the name of an organisation, has
neither of them. -/
theorem C90_wordbases_partial (its : List SItem) (hw : WellFormed its) (ht : Tidy its) (hu : Usual its) (hlen : (render its).length < 2 ^ 64)
    (hv : isValidAnalysis (render its) = some true) :
    ∃ a r, analyzeOutput (content its).length true (render its) = some (a :: r)
      ∧ analysisValue a (lit "WORDBASES") = some (describe baseNote (parts {} its))
      ∧ (HasId its → analysisValue a (lit "WORDIDS") = some (describe idNote (parts {} its)))
      ∧ (¬ HasId its → analysisValue a (lit "WORDIDS") = none)
      ∧ ∀ b ∈ r, analysisValue b (lit "WORDBASES") = none ∧ analysisValue b (lit "WORDIDS") = none := by
  obtain ⟨a, r, h1, h2, h3, -⟩ := analyses_told its true hw ht hu hlen hv
  obtain ⟨g1, g2, g3⟩ := h3 rfl
  refine ⟨a, r, h1, g1, g2, g3, fun b hb => ?_⟩
  obtain ⟨s, hs⟩ := h2 b hb
  exact ⟨hs.bases, hs.ids⟩

/-- **C90** (without the full morphology): there is no WORDBASES and no WORDIDS. -/
theorem C90_short (its : List SItem) (hw : WellFormed its) (ht : Tidy its) (hu : Usual its) (hlen : (render its).length < 2 ^ 64)
    (hv : isValidAnalysis (render its) = some true) :
    ∃ l, analyzeOutput (content its).length false (render its) = some l ∧ l ≠ []
      ∧ ∀ b ∈ l, analysisValue b (lit "WORDBASES") = none ∧ analysisValue b (lit "WORDIDS") = none := by
  obtain ⟨a, r, h1, h2, -, h4⟩ := analyses_told its false hw ht hu hlen hv
  refine ⟨_, h1, by simp, fun b hb => ?_⟩
  obtain ⟨s, hs⟩ : ∃ s, Lacks s b := by
    rcases List.mem_cons.1 hb with rfl | hb
    · exact h4 rfl
    · exact h2 b hb
  exact ⟨hs.bases, hs.ids⟩

/-- **C90** (the analyses of a word): of each of the first 99 readings that is valid the first analysis has these values and the others have none. -/
theorem C90_analyses (next : List Wc → List (List Wc)) (word : List Wc) (readings : List (List SItem))
    (hnext : next (setCase .allLower word) = readings.map render)
    (hr : ∀ its ∈ readings, WellFormed its ∧ Tidy its ∧ Usual its ∧ (content its).length = word.length ∧ (render its).length < 2 ^ 64)
    (hword : word.length ≤ 255) :
    ∃ ls, finnishAnalyze next word true = some ls.flatten
      ∧ List.Forall₂ (fun its l => (isValidAnalysis (render its) = some true ∧ ∃ a r, l = a :: r
          ∧ analysisValue a (lit "WORDBASES") = some (describe baseNote (parts {} its))
          ∧ (HasId its → analysisValue a (lit "WORDIDS") = some (describe idNote (parts {} its)))
          ∧ (¬ HasId its → analysisValue a (lit "WORDIDS") = none)
          ∧ ∀ b ∈ r, analysisValue b (lit "WORDBASES") = none ∧ analysisValue b (lit "WORDIDS") = none)
        ∨ (isValidAnalysis (render its) = some false ∧ l = [])) (readings.take 99) ls := by
  rw [finnishAnalyze, if_neg (by omega), hnext, ← List.map_take]
  have hr' := fun its (h : its ∈ readings.take 99) => hr its (List.mem_of_mem_take h)
  generalize readings.take 99 = R at hr'
  induction R with
  | nil => exact ⟨[], rfl, List.Forall₂.nil⟩
  | cons its R ih =>
    obtain ⟨ls, h1, h2⟩ := ih fun x hx => hr' x (List.mem_cons_of_mem _ hx)
    obtain ⟨hw, ht, hg, hc, hlen⟩ := hr' its List.mem_cons_self
    obtain ⟨v, hv⟩ := C60_validity (render its)
    rw [List.map_cons, analyzeOutputs, h1]
    cases v with
    | false =>
      refine ⟨[] :: ls, ?_, List.Forall₂.cons (Or.inr ⟨hv, rfl⟩) h2⟩
      have : analyzeOutput word.length true (render its) = some [] := by rw [analyzeOutput_eq]; exact bind_invalid _ _ _ hv
      rw [this]; rfl
    | true =>
      obtain ⟨a, r, h3, h4⟩ := C90_wordbases_partial its hw ht hg hlen hv
      rw [hc] at h3
      exact ⟨(a :: r) :: ls, by rw [h3]; rfl, List.Forall₂.cons (Or.inl ⟨hv, a, r, rfl, h4⟩) h2⟩

/-- **C90** (reading the values): what stands in parentheses in WORDBASES are the base forms that the reading gives, in order, and in WORDIDS the
identifiers with a `w` before them. -/
theorem C90_notes (its : List SItem) (hq : Quiet its) :
    notes none (describe baseNote (parts {} its)) = ((parts {} its).map (·.base)).filter (· ≠ [])
    ∧ notes none (describe idNote (parts {} its)) = (((parts {} its).map (·.id)).filter (· ≠ [])).map (0x77 :: ·) := by
  obtain ⟨qs, q, e⟩ := parts_snoc its {}
  have hf := fine_parts its {} hq ⟨by simp, by simp, by simp⟩
  rw [e] at hf ⊢
  have clean : ∀ {w : List Wc}, (∀ c ∈ w, c ≠ 0x28 ∧ c ≠ 0x29) → Clean w := fun h => ⟨fun e => (h _ e).1 rfl, fun e => (h _ e).2 rfl⟩
  have ct : ∀ {p : Part}, Fine p → Clean p.text ∧ 0x2B ∉ p.text ∧ Clean p.base := fun h =>
    ⟨clean fun c hc => ⟨(h.text c hc).1, (h.text c hc).2.1⟩, fun e => (h.text _ e).2.2 rfl, clean h.base⟩
  constructor
  · exact (read_describe (word := (·.base)) qs q fun p hp => ⟨noted_base p, (ct (hf p hp)).2.2, ct (hf p hp)⟩).1
  · rw [(read_describe (word := fun p => if p.id = [] then [] else 0x77 :: p.id) qs q fun p hp => ⟨noted_id p, ?_, ct (hf p hp)⟩).1]
    · generalize qs ++ [q] = l
      induction l with
      | nil => rfl
      | cons p l ih =>
        rw [List.map_cons, List.map_cons]
        by_cases h : p.id = []
        · simpa [h] using ih
        · simpa [h] using ih
    · by_cases h : p.id = []
      · simp [h, Clean]
      · rw [if_neg h]
        exact clean fun c hc => by
          rcases List.mem_cons.1 hc with rfl | hc
          · decide
          · exact (hf p hp).id c hc

/-- **C90** (the letters): the parts of a reading make up the whole word. -/
theorem C90_letters (its : List SItem) : (parts {} its).flatMap said = content its := by
  rw [parts_said]
  rfl

/-- **C90** (WORDBASES and BASEFORM): without the notes in parentheses and the `+` signs WORDBASES is the word with its last part in its base form;
this is BASEFORM, except for the capital letters that BASEFORM has. -/
theorem C90_baseform (its A M : List SItem) (x : SItem) (body : List Wc) (hw : WellFormed its) (ht : Tidy its) (hu : Usual its) (hr : Regular its)
    (hq : Quiet its) (hlen : (render its).length < 2 ^ 64) (hv : isValidAnalysis (render its) = some true) (hno : .tag (lit "De") ∉ its)
    (hnum : ∀ Q R, FirstNumeral its Q R → GoesOn R) (e : its = A ++ x :: M) (hx : BaseSect x body) (ho : Opens A x) (hM : NoBorder M) (hN : NoBase M)
    (hh : hyphens (content M) ≤ hyphens body) (hb : strip body ≠ []) :
    ∃ a r st v, analyzeOutput (content its).length true (render its) = some (a :: r)
      ∧ analysisValue a (lit "WORDBASES") = some v ∧ bare false v = content A ++ strip body
      ∧ analysisValue a (lit "STRUCTURE") = some st ∧ analysisValue a (lit "BASEFORM") = some (spell (strip st) (content A) ++ strip body) := by
  obtain ⟨a, r, h1, h2, -⟩ := C90_wordbases_partial its hw ht hu hlen hv
  obtain ⟨l, h3, -, h4⟩ := C80_last_word its A M body hw ht hr hlen hv hno hnum ⟨x, e, hx, hN⟩ hh hb
  rw [h1] at h3
  cases h3
  obtain ⟨st, h5, h6⟩ := h4 a List.mem_cons_self
  refine ⟨a, r, st, _, h1, h2, ?_, h5, h6⟩
  have hbody : body ≠ [] := fun e => hb (by rw [e]; rfl)
  obtain ⟨qs, q, f1, f2, f3⟩ := parts_last hx ho hbody hM hN
  rw [← e] at f1
  have hf := fine_parts its {} hq ⟨by simp, by simp, by simp⟩
  rw [f1] at hf ⊢
  have clean : ∀ {w : List Wc}, (∀ c ∈ w, c ≠ 0x28 ∧ c ≠ 0x29) → Clean w := fun h => ⟨fun e => (h _ e).1 rfl, fun e => (h _ e).2 rfl⟩
  have ct : ∀ {p : Part}, Fine p → Clean p.text ∧ 0x2B ∉ p.text ∧ Clean p.base := fun h =>
    ⟨clean fun c hc => ⟨(h.text c hc).1, (h.text c hc).2.1⟩, fun e => (h.text _ e).2.2 rfl, clean h.base⟩
  rw [(read_describe (word := (·.base)) qs q fun p hp => ⟨noted_base p, (ct (hf p hp)).2.2, ct (hf p hp)⟩).2]
  have hqb : ∀ c ∈ body, c ≠ 0x28 ∧ c ≠ 0x29 ∧ c ≠ 0x2B := by
    intro c hc
    have hmem : x ∈ its := by rw [e]; simp
    rcases hx with rfl | rfl
    · exact hq.2 _ _ hmem c hc
    · exact hq.2 _ _ hmem c hc
  have hnb : 0x2B ∉ strip body := fun e => (hqb _ (List.mem_filter.1 e).1).2.2 rfl
  have hbase : q.base ≠ [] ∧ (strip q.base).filter (· ≠ 0x2B) = strip body := by
    rcases f3 with g | g <;> rw [g]
    · exact ⟨hbody, filter_self hnb⟩
    · refine ⟨by simp, ?_⟩
      have : strip (0x2B :: body) = 0x2B :: strip body := by simp [strip]
      rw [this, List.filter_cons_of_neg (by simp), filter_self hnb]
  rw [saidLast, if_neg hbase.1, hbase.2, ← List.append_assoc, f2]

/-- A noun: the letters and the base form. -/
def wordItems (w : List Wc × List Wc) : List SItem := .cls 0x6E :: .sect 0x70 w.2 :: w.1.map .chr

theorem parts_chars {R : List SItem} : ∀ (t : List Wc) (p : Part), 0x2D ∉ t → parts p (t.map .chr ++ R) = parts { p with text := p.text ++ t } R := by
  intro t
  induction t with
  | nil => intro p _; simp
  | cons c t ih =>
    intro p h
    have hc : c ≠ 0x2D := fun e => h (by simp [e])
    rw [List.map_cons, List.cons_append, parts, if_neg (fun e => hc e.1), ih _ fun e => h (List.mem_cons_of_mem _ e)]
    simp

theorem parts_word {w : List Wc × List Wc} {R : List SItem} (p : Part) (h : 0x2D ∉ w.1) :
    parts p (wordItems w ++ R) = p :: parts { text := w.1, base := w.2 } R := by
  rw [wordItems, List.cons_append, parts, List.cons_append, parts, if_pos rfl, parts_chars _ _ h]
  simp

/-- **C90** (compounds): in a compound of any number of nouns every noun is given as it is written, with its base form after it; the last one is
given in its base form. -/
theorem C90_compound (ws : List (List Wc × List Wc)) (w : List Wc × List Wc)
    (h : ∀ x ∈ ws ++ [w], x.1 ≠ [] ∧ 0x2D ∉ x.1 ∧ x.2 ≠ []) (hp : w.2.head? ≠ some 0x2B) :
    describe baseNote (parts {} (ws.flatMap (fun x => wordItems x ++ [.bound 0x63]) ++ wordItems w))
      = ws.flatMap (fun x => lit "+" ++ x.1 ++ lit "(" ++ x.2 ++ lit ")") ++ lit "+" ++ strip w.2 ++ lit "(" ++ w.2 ++ lit ")" := by
  have key : ∀ p : Part, parts p (ws.flatMap (fun x => wordItems x ++ [.bound 0x63]) ++ wordItems w)
      = (p :: ws.map fun x => { text := x.1, base := x.2 }) ++ [{ text := w.1, base := w.2 }] := by
    induction ws with
    | nil =>
      intro p
      have := parts_word (w := w) (R := []) p (h w (by simp)).2.1
      rw [List.append_nil] at this
      simpa [parts] using this
    | cons x ws ih =>
      intro p
      rw [List.flatMap_cons, List.append_assoc, List.append_assoc, parts_word p (h x (by simp)).2.1, List.singleton_append, parts,
        ih (fun y hy => h y (by simp at hy ⊢; exact Or.inr hy))]
      · simp
      all_goals simp
  rw [key, describe_snoc]
  have hw := h w (by simp)
  have hf : final baseNote { text := w.1, base := w.2 } = lit "+" ++ strip w.2 ++ lit "(" ++ w.2 ++ lit ")" := by
    simp [final, hw.2.2, hp, baseNote]
  have hi : sofar baseNote (({} : Part) :: ws.map fun x => { text := x.1, base := x.2 })
      = ws.flatMap (fun x => lit "+" ++ x.1 ++ lit "(" ++ x.2 ++ lit ")") := by
    have h0 : ∀ l : List (List Wc × List Wc), (∀ x ∈ l, x.1 ≠ [] ∧ x.2 ≠ []) →
        sofar baseNote (l.map fun x => { text := x.1, base := x.2 }) = l.flatMap (fun x => lit "+" ++ x.1 ++ lit "(" ++ x.2 ++ lit ")") := by
      intro l hl
      induction l with
      | nil => rfl
      | cons x l ih =>
        have hx := hl x (by simp)
        have e := ih fun y hy => hl y (by simp [hy])
        simp only [sofar, List.map_cons, List.flatten_cons, List.flatMap_cons] at e ⊢
        rw [e]
        simp [inner, lead, baseNote, hx.1, hx.2]
    have h1 := h0 ws fun x hx => ⟨(h x (by simp [hx])).1, (h x (by simp [hx])).2.2⟩
    rw [← h1]
    simp [sofar, inner, lead, baseNote]
  rw [hf, hi]
  simp

example : ∀ x ∈ [(lit "köyden", lit "köysi")] ++ [(lit "vetoa", lit "veto")], x.1 ≠ [] ∧ 0x2D ∉ x.1 ∧ x.2 ≠ [] := by decide

/-- A compound of two words with a hyphen, and with the names of the words in the database. -/
def hyphenBases : List SItem :=
  [.cls 0x6E, .sect 0x70 (lit "Alkio"), .sect 0x73 (lit "518215")] ++ (lit "alkio").map .chr ++ [.tag (lit "Sn"), .tag (lit "Ny"), .chr 0x2D, .tag (lit "Bh"),
    .bound 0x63, .cls 0x6E, .sect 0x70 (lit "opisto"), .sect 0x73 (lit "510148")] ++ (lit "opistossa").map .chr ++ [.tag (lit "Sine"), .tag (lit "Ny")]

/-- A derived word: the suffix has its own base form. -/
def derivedBases : List SItem :=
  [.cls 0x6E, .sect 0x70 (lit "kansa")] ++ (lit "kansa").map .chr ++ [.cls 0x6C, .sect 0x6A (lit "llinen")] ++ (lit "llis").map .chr
    ++ [.bound 0x63, .cls 0x6E, .sect 0x70 (lit "ee=pos")] ++ (lit "eepoksen").map .chr ++ [.tag (lit "Sg"), .tag (lit "Ny")]

theorem hyphenBases_usual : WellFormed hyphenBases ∧ Tidy hyphenBases ∧ Usual hyphenBases ∧ Quiet hyphenBases ∧ HasId hyphenBases := by
  refine ⟨⟨?_, ?_, by decide⟩, ?_, ⟨?_, ?_, by decide +kernel, ?_⟩, ⟨by decide +kernel, ?_⟩, ⟨lit "518215", by decide +kernel⟩⟩
  · simp [hyphenBases, lit, WfItems, strip, hasDouble, content, render, SItem.render]
  · simp [hyphenBases, FirstOk, lit]
  · intro x hx
    have : ∀ x ∈ hyphenBases, (match x with | .cls c => c ≠ 0x5B ∧ c ≠ 0x5D | .cls2 c d => c ≠ 0x5B ∧ c ≠ 0x5D ∧ d ≠ 0x5B ∧ d ≠ 0x5D | .tag n => n ≠ [] ∧ 0x5B ∉ n ∧ 0x5D ∉ n | .bound c => c ≠ 0x5B ∧ c ≠ 0x5D | .sect c b => c ≠ 0x5B ∧ 0x5B ∉ b | .pat p => 0x5B ∉ p | .chr c => c ≠ 0x5B ∧ c ≠ 0x5D : Prop) := by
      simp [hyphenBases, lit]
    have h := this x hx
    cases x <;> exact h
  · intro c b h
    simp [hyphenBases, lit] at h
    rcases h with ⟨rfl, -⟩ | ⟨rfl, -⟩ | ⟨rfl, -⟩ | ⟨rfl, -⟩ <;> simp
  · intro c b h
    simp [hyphenBases, lit] at h
    rcases h with ⟨-, rfl⟩ | ⟨-, rfl⟩ | ⟨-, rfl⟩ | ⟨-, rfl⟩ <;> decide
  · intro p hp _
    have e : (parts {} hyphenBases).getLast? = some { text := lit "opistossa", base := lit "opisto", id := lit "510148" } := by decide +kernel
    rw [e] at hp
    cases hp
    exact Or.inl (by decide)
  · intro c b h
    simp [hyphenBases, lit] at h
    rcases h with ⟨-, rfl⟩ | ⟨-, rfl⟩ | ⟨-, rfl⟩ | ⟨-, rfl⟩ <;> decide

example : isValidAnalysis (render hyphenBases) = some true
    ∧ (analyzeOutput 15 true (render hyphenBases)).map (·.map fun a => (analysisValue a (lit "WORDBASES"), analysisValue a (lit "WORDIDS")))
      = some [(some (lit "+alkio(Alkio)+-+opisto(opisto)"), some (lit "+alkio(w518215)+-+opisto(w510148)"))]
    ∧ notes none (lit "+alkio(Alkio)+-+opisto(opisto)") = [lit "Alkio", lit "opisto"]
    ∧ bare false (lit "+alkio(Alkio)+-+opisto(opisto)") = lit "alkio-opisto" := by decide +kernel

example : isValidAnalysis (render derivedBases) = some true
    ∧ (analyzeOutput 17 true (render derivedBases)).map (·.map fun a => (analysisValue a (lit "WORDBASES"), analysisValue a (lit "WORDIDS")))
      = some [(some (lit "+kansa(kansa)+llis(+llinen)+eepos(ee=pos)"), none)] := by decide +kernel

/-- The last word of `hyphenBases`, for `C90_baseform`. -/
example : hyphenBases = hyphenBases.take 14 ++ .sect 0x70 (lit "opisto") :: hyphenBases.drop 15
    ∧ Opens (hyphenBases.take 14) (.sect 0x70 (lit "opisto")) ∧ NoBorder (hyphenBases.drop 15) ∧ NoBase (hyphenBases.drop 15)
    ∧ hyphens (content (hyphenBases.drop 15)) ≤ hyphens (lit "opisto") ∧ strip (lit "opisto") ≠ [] ∧ .tag (lit "De") ∉ hyphenBases
    ∧ content (hyphenBases.take 14) = lit "alkio-" := by
  refine ⟨by decide +kernel, Or.inr ⟨hyphenBases.take 13, .cls 0x6E, [], by decide +kernel, Or.inl ⟨_, rfl⟩, rfl⟩, ?_, ?_, by decide +kernel, by decide +kernel,
    by decide +kernel, by decide +kernel⟩
  · intro x hx
    simp [hyphenBases, lit] at hx
    rcases hx with rfl | rfl | rfl | rfl | rfl | rfl | rfl | rfl | rfl | rfl | rfl | rfl <;>
      exact ⟨(by rintro (⟨c, h⟩ | ⟨c, d, h⟩) <;> exact SItem.noConfusion h), rfl⟩
  · intro x hx b hb
    simp [hyphenBases, lit] at hx
    rcases hb with rfl | rfl <;> simp at hx

/-- A suffix without the tag of a class before it, in the first part of a compound. -/
def joinedBases : List SItem :=
  [.cls 0x74, .sect 0x70 (lit "tuntea")] ++ (lit "tunt").map .chr ++ [.sect 0x6A (lit "ua")] ++ (lit "u").map .chr
    ++ [.bound 0x63, .cls 0x6E, .sect 0x70 (lit "sarvi")] ++ (lit "sarvi").map .chr ++ [.tag (lit "Sn"), .tag (lit "Ny")]

/-- **C90** (violation): the parts are not always separated by `+`. The suffix of the first part of this compound has no `+` before it. -/
theorem C90_violation_suffix : (analyzeOutput 10 true (render joinedBases)).map (·.map fun a => analysisValue a (lit "WORDBASES"))
    = some [some (lit "+tunt(tuntea)u(+ua)+sarvi(sarvi)")] := by decide +kernel

/-- **C90** (violation): if the last part has a base form but no letters, what the previous part was is lost. -/
theorem C90_violation_no_letters :
    (analyzeOutput 5 true (render ([.cls 0x6E, .sect 0x70 (lit "kissa")] ++ (lit "kissa").map .chr ++ [.cls 0x6E, .sect 0x70 (lit "koira"),
      .tag (lit "Sn"), .tag (lit "Ny")]))).map (·.map fun a => analysisValue a (lit "WORDBASES")) = some [some (lit "+koira(koira)")] := by decide +kernel

end Verif.Props
