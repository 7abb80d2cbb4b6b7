import Verif.Lemmas.FinnishReadings
import Verif.Props.FinnishValidity
/-!
# C79: the grammatical attributes of the analyses of Finnish words

`Verif.Spec.Grammatical` says what the tags of a reading tell.
-/

set_option linter.unusedSimpArgs false
set_option linter.unusedVariables false

namespace Verif.Props
open Verif Verif.Attrs

theorem items_ne {its : List SItem} (hw : WellFormed its) : its ≠ [] := fun e => by subst e; exact hw.2.2 rfl

/-- **C79** (one reading): a valid reading gives one analysis with exactly the attributes that its tags tell, and a second one if it may
be the name of an organisation. -/
theorem C79_reading (its : List SItem) (full : Bool) (hw : WellFormed its) (ht : Tidy its) (hlen : (render its).length < 2 ^ 64)
    (hv : isValidAnalysis (render its) = some true) :
    ∃ l, analyzeOutput (content its).length full (render its) = some l ∧ FromOutput its l := by
  obtain ⟨st, hst, _⟩ := C59_structure_partial its hw
  obtain ⟨l, h1, h2⟩ := restOfAnalysis_reads full hw ht (items_ne hw) hlen st
  exact ⟨l, by rw [analyzeOutput_eq]; exact (bind_valid _ _ _ hv hst).trans h1, h2⟩

/-- **C79** (the analyses of a word): they are those of the first 99 readings, in order; readings that are not valid give none. -/
theorem C79_analyses (next : List Wc → List (List Wc)) (word : List Wc) (full : Bool) (readings : List (List SItem))
    (hnext : next (setCase .allLower word) = readings.map render)
    (hr : ∀ its ∈ readings, WellFormed its ∧ Tidy its ∧ (content its).length = word.length ∧ (render its).length < 2 ^ 64)
    (hword : word.length ≤ 255) :
    ∃ ls, finnishAnalyze next word full = some ls.flatten
      ∧ List.Forall₂ (fun its l => (isValidAnalysis (render its) = some true ∧ FromOutput its l)
        ∨ (isValidAnalysis (render its) = some false ∧ l = [])) (readings.take 99) ls := by
  rw [finnishAnalyze, if_neg (by omega), hnext, ← List.map_take]
  have hr' : ∀ its ∈ readings.take 99, WellFormed its ∧ Tidy its ∧ (content its).length = word.length ∧ (render its).length < 2 ^ 64 :=
    fun its h => hr its (List.mem_of_mem_take h)
  generalize readings.take 99 = R at hr'
  induction R with
  | nil => exact ⟨[], rfl, List.Forall₂.nil⟩
  | cons its R ih =>
    obtain ⟨ls, h1, h2⟩ := ih fun x hx => hr' x (List.mem_cons_of_mem _ hx)
    obtain ⟨hw, ht, hc, hlen⟩ := hr' its List.mem_cons_self
    obtain ⟨v, hv⟩ := C60_validity (render its)
    rw [List.map_cons, analyzeOutputs, h1]
    cases v with
    | false =>
      refine ⟨[] :: ls, ?_, List.Forall₂.cons (Or.inr ⟨hv, rfl⟩) h2⟩
      have : analyzeOutput word.length full (render its) = some [] := by rw [analyzeOutput_eq]; exact bind_invalid _ _ _ hv
      rw [this]; rfl
    | true =>
      obtain ⟨l, h3, h4⟩ := C79_reading its full hw ht hlen hv
      rw [hc] at h3
      exact ⟨l :: ls, by rw [h3]; rfl, List.Forall₂.cons (Or.inl ⟨hv, h4⟩) h2⟩

/-- **C79** together with C77: for plain readings the valid ones are those with the right hyphens. -/
theorem C79_plain (next : List Wc → List (List Wc)) (word : List Wc) (full : Bool) (readings : List (List SItem))
    (hnext : next (setCase .allLower word) = readings.map render)
    (hr : ∀ its ∈ readings, WellFormed its ∧ Tidy its ∧ (content its).length = word.length ∧ (render its).length < 2 ^ 64
      ∧ Validity.Plain its) (hword : word.length ≤ 255) :
    ∃ ls, finnishAnalyze next word full = some ls.flatten
      ∧ List.Forall₂ (fun its l => (Validity.Valid (Validity.events its) ∧ FromOutput its l)
        ∨ (¬ Validity.Valid (Validity.events its) ∧ l = [])) (readings.take 99) ls := by
  obtain ⟨ls, h1, h2⟩ := C79_analyses next word full readings hnext (fun its h => ⟨(hr its h).1, (hr its h).2.1, (hr its h).2.2.1,
    (hr its h).2.2.2.1⟩) hword
  refine ⟨ls, h1, ?_⟩
  have hr' : ∀ its ∈ readings.take 99, Validity.Plain its := fun its h => (hr its (List.mem_of_mem_take h)).2.2.2.2
  generalize readings.take 99 = R at hr' h2
  clear h1
  induction h2 with
  | nil => exact List.Forall₂.nil
  | cons h _ ih =>
    refine List.Forall₂.cons ?_ (ih fun x hx => hr' x (List.mem_cons_of_mem _ hx))
    obtain ⟨b, hb, hv⟩ := C77_valid _ (hr' _ List.mem_cons_self)
    rcases h with ⟨h, hl⟩ | ⟨h, hl⟩
    · rw [hb] at h; cases h; exact Or.inl ⟨hv.1 rfl, hl⟩
    · rw [hb] at h; cases h; exact Or.inr ⟨(fun x => by have := hv.2 x; cases this), hl⟩

/-! ### What follows for the user -/

/-- **C79** (consistency): an adjective always has a degree of comparison and a noun never; an adverb ending in "-sti" has no number. -/
theorem C79_consistent (its : List SItem) (full : Bool) (hw : WellFormed its) (ht : Tidy its) (hlen : (render its).length < 2 ^ 64)
    (hv : isValidAnalysis (render its) = some true) :
    ∃ a r, analyzeOutput (content its).length full (render its) = some (a :: r)
      ∧ (analysisValue a (lit "CLASS") = some (lit "laatusana") → ∃ v, analysisValue a (lit "COMPARISON") = some v)
      ∧ (analysisValue a (lit "CLASS") = some (lit "nimisana") → analysisValue a (lit "COMPARISON") = none)
      ∧ (analysisValue a (lit "SIJAMUOTO") = some (lit "kerrontosti") → analysisValue a (lit "NUMBER") = none) := by
  obtain ⟨l, h1, a, ha, h2⟩ := C79_reading its full hw ht hlen hv
  have hc : ∀ v, analysisValue a (lit "CLASS") = some v ↔ FinalClass (render its) (tags its) v := fun v => ha .cls (by decide) v
  have hk : ∀ v, analysisValue a (lit "COMPARISON") = some v ↔ Attribute its .comparison v := fun v => ha .comparison (by decide) v
  have hs : ∀ v, analysisValue a (lit "SIJAMUOTO") = some v ↔ Attribute its .sijamuoto v := fun v => ha .sijamuoto (by decide) v
  have hn : ∀ v, analysisValue a (lit "NUMBER") = some v ↔ Attribute its .number v := fun v => ha .number (by decide) v
  have main : ∃ r, l = a :: r := by
    rcases h2 with ⟨_, e⟩ | ⟨_, b, _, e⟩
    · exact ⟨[], e⟩
    · exact ⟨[b], e⟩
  obtain ⟨r, rfl⟩ := main
  have hfun : ∀ v w, FinalClass (render its) (tags its) v → FinalClass (render its) (tags its) w → v = w := by
    intro v w h1 h2
    have := (hc v).2 h1
    rw [(hc w).2 h2] at this
    exact (Option.some.inj this).symm
  refine ⟨a, r, h1, fun h => ?_, fun h => ?_, fun h => ?_⟩
  · have hf := (hc _).1 h
    by_cases ht : ∃ x, Told (render its) (tags its) .comparison x
    · obtain ⟨x, hx⟩ := ht
      exact ⟨x, (hk x).2 (Or.inl ⟨hx, fun e => absurd (hfun _ _ hf e) (by decide)⟩)⟩
    · exact ⟨_, (hk _).2 (Or.inr ⟨fun x hx => ht ⟨x, hx⟩, rfl, Or.inl hf⟩)⟩
  · have hf := (hc _).1 h
    cases hg : analysisValue a (lit "COMPARISON") with
    | none => rfl
    | some v =>
      exfalso
      rcases (hk v).1 hg with ⟨_, e⟩ | ⟨_, _, e | e⟩
      · exact e hf
      · exact absurd (hfun _ _ hf e) (by decide)
      · exact absurd (hfun _ _ hf e) (by decide)
  · cases hg : analysisValue a (lit "NUMBER") with
    | none => rfl
    | some v => exact absurd ((hs _).1 h) ((hn v).1 hg).2

/-! ### A noun in any form -/

/-- A noun with the tags of its case and number. -/
def nounItems (w : List Wc) (c n : String) : List SItem :=
  .cls 0x6E :: (w.map .chr ++ [.tag (0x53 :: lit c), .tag (0x4E :: lit n)])

theorem tags_chars (w : List Wc) : ∀ (pre : List Wc) (r : List SItem), tagsFrom pre (w.map .chr ++ r) = tagsFrom (pre ++ w) r := by
  induction w with
  | nil => intro pre r; simp
  | cons c w ih =>
    intro pre r
    rw [List.map_cons, List.cons_append, tagsFrom]
    show tagsFrom (pre ++ [c]) (w.map .chr ++ r) = _
    rw [ih]
    simp

theorem tags_noun (w : List Wc) (c n : String) : ∃ b1 b2, tags (nounItems w c n) = [⟨[], lit "Ln"⟩, ⟨b1, 0x53 :: lit c⟩, ⟨b2, 0x4E :: lit n⟩] := by
  refine ⟨[] ++ (SItem.cls 0x6E).render ++ w, [] ++ (SItem.cls 0x6E).render ++ w ++ (SItem.tag (0x53 :: lit c)).render, ?_⟩
  unfold tags nounItems
  rw [tagsFrom, tags_chars]
  rfl

/-- What the tags of a noun tell. -/
def nounValue (c n : String) : AKey → Option (List Wc)
  | .cls => some (lit "nimisana")
  | .sijamuoto => some (lit c)
  | .number => if c = "kerrontosti" then none else some (lit n)
  | _ => none

theorem noun_state (out b1 b2 : List Wc) (c n : List Wc) : stateOf out [⟨[], lit "Ln"⟩, ⟨b1, 0x53 :: c⟩, ⟨b2, 0x4E :: n⟩] =
    stateOf [] [⟨[], lit "Ln"⟩, ⟨[], 0x53 :: c⟩, ⟨[], 0x4E :: n⟩] := by
  have hN : ∀ o w b o' w' b' s, mkStep o w ⟨b, 0x4E :: n⟩ s = mkStep o' w' ⟨b', 0x4E :: n⟩ s := fun _ _ _ _ _ _ _ => rfl
  have hS : ∀ o w b o' w' b' s, mkStep o w ⟨b, 0x53 :: c⟩ s = mkStep o' w' ⟨b', 0x53 :: c⟩ s := fun _ _ _ _ _ _ _ => rfl
  have hL : ∀ o w b o' w' b' s, mkStep o w ⟨b, lit "Ln"⟩ s = mkStep o' w' ⟨b', lit "Ln"⟩ s := by
    intro o w b o' w' b' s
    show stClass o (lit "n") s = stClass o' (lit "n") s
    have hp : ¬ (lit "nl").isPrefixOf (lit "n") = true := by decide
    unfold stClass
    rw [if_neg hp, if_neg hp]
  simp only [stateOf]
  rw [hN out [] b2 [] [] [], hS out _ b1 [] [⟨[], 0x4E :: n⟩] [], hL out _ [] [] [⟨[], 0x53 :: c⟩, ⟨[], 0x4E :: n⟩] []]

theorem noun_values (out b1 b2 : List Wc) : ∀ e ∈ cases, ∀ f ∈ numbers, ∀ k ∈ grammatical,
    adjusted (stateOf out [⟨[], lit "Ln"⟩, ⟨b1, 0x53 :: lit e.1⟩, ⟨b2, 0x4E :: lit f.1⟩]).a.getValue k = nounValue e.2 f.2 k := by
  have h : ∀ e ∈ cases, ∀ f ∈ numbers, ∀ k ∈ grammatical,
      adjusted (stateOf [] [⟨[], lit "Ln"⟩, ⟨[], 0x53 :: lit e.1⟩, ⟨[], 0x4E :: lit f.1⟩]).a.getValue k = nounValue e.2 f.2 k := by
    decide +kernel
  intro e he f hf k hk
  rw [noun_state]
  exact h e he f hf k hk

theorem wf_chars : ∀ (w : List Wc) (pend : Bool) (r : List SItem), 0x5B ∉ w → (∀ p, WfItems [] p r) → WfItems [] pend (w.map .chr ++ r) := by
  intro w
  induction w with
  | nil => intro pend r _ h; exact h pend
  | cons c w ih =>
    intro pend r hw h
    rw [List.map_cons, List.cons_append, WfItems]
    exact ⟨fun e => hw (by rw [e]; exact List.mem_cons_self), ih _ r (fun e => hw (List.mem_cons_of_mem _ e)) h⟩

theorem tables_tidy : (∀ e ∈ cases, 0x5B ∉ lit e.1 ∧ 0x5D ∉ lit e.1) ∧ ∀ e ∈ numbers, 0x5B ∉ lit e.1 ∧ 0x5D ∉ lit e.1 := by decide

theorem noun_tidy {w : List Wc} (h1 : 0x5B ∉ w) (h2 : 0x5D ∉ w) {e f : String × String} (he : e ∈ cases) (hf : f ∈ numbers) :
    Tidy (nounItems w e.1 f.1) := by
  intro x hx
  have te := tables_tidy.1 e he
  have tf := tables_tidy.2 f hf
  simp only [nounItems, List.mem_cons, List.mem_append, List.mem_map, List.not_mem_nil, or_false] at hx
  rcases hx with rfl | ⟨c, hc, rfl⟩ | rfl | rfl
  · exact ⟨by decide, by decide⟩
  · exact ⟨fun e => h1 (e ▸ hc), fun e => h2 (e ▸ hc)⟩
  · refine ⟨by simp, ?_, ?_⟩
    · simp only [List.mem_cons, not_or]; exact ⟨by decide, te.1⟩
    · simp only [List.mem_cons, not_or]; exact ⟨by decide, te.2⟩
  · refine ⟨by simp, ?_, ?_⟩
    · simp only [List.mem_cons, not_or]; exact ⟨by decide, tf.1⟩
    · simp only [List.mem_cons, not_or]; exact ⟨by decide, tf.2⟩

theorem content_chars (w : List Wc) : ∀ r, content (w.map .chr ++ r) = w ++ content r := by
  induction w with
  | nil => intro r; rfl
  | cons c w ih => intro r; rw [List.map_cons, List.cons_append, content, ih]; rfl

theorem noun_content (w : List Wc) (c n : String) : content (nounItems w c n) = w := by
  unfold nounItems
  show content (w.map .chr ++ _) = w
  rw [content_chars]
  show w ++ [] = w
  rw [List.append_nil]

theorem noun_wf {w : List Wc} (hne : w ≠ []) (h1 : 0x5B ∉ w) {e f : String × String} (he : e ∈ cases) (hf : f ∈ numbers) :
    WellFormed (nounItems w e.1 f.1) := by
  have te := tables_tidy.1 e he
  have tf := tables_tidy.2 f hf
  refine ⟨?_, trivial, by rw [noun_content]; exact hne⟩
  unfold nounItems
  rw [WfItems]
  refine ⟨by decide, wf_chars w _ _ h1 fun p => ?_⟩
  simp only [WfItems]
  refine ⟨⟨_, _, rfl, Or.inl (by decide)⟩, ?_, ⟨_, _, rfl, Or.inl (by decide)⟩, ?_, trivial⟩
  · simp only [List.mem_cons, not_or]; exact ⟨by decide, te.2⟩
  · simp only [List.mem_cons, not_or]; exact ⟨by decide, tf.2⟩

/-- **C79** (nouns): the reading of any noun in any case and number gives one analysis, which says that it is a noun, and its case and
number (no number for an adverb ending in "-sti"), and nothing else about the grammar of the word. -/
theorem C79_noun (w : List Wc) (full : Bool) (hne : w ≠ []) (h1 : 0x5B ∉ w) (h2 : 0x5D ∉ w) (e f : String × String) (he : e ∈ cases)
    (hf : f ∈ numbers) (hlen : w.length < 2 ^ 63) (hv : isValidAnalysis (render (nounItems w e.1 f.1)) = some true) :
    ∃ a, analyzeOutput w.length full (render (nounItems w e.1 f.1)) = some [a]
      ∧ ∀ k ∈ grammatical, analysisValue a (attributeName k) = nounValue e.2 f.2 k := by
  have ht := noun_tidy h1 h2 he hf
  have hw := noun_wf hne h1 he hf
  have hl : (render (nounItems w e.1 f.1)).length < 2 ^ 64 := by
    have hr : ∀ w : List Wc, (render (w.map SItem.chr)).length = w.length := by
      intro w
      induction w with
      | nil => rfl
      | cons c w ih => rw [List.map_cons, render, List.length_append, ih]; simp [SItem.render]; omega
    have le : (lit e.1).length ≤ 3 := (show ∀ e ∈ cases, (lit e.1).length ≤ 3 by decide) e he
    have lf : (lit f.1).length ≤ 3 := (show ∀ e ∈ numbers, (lit e.1).length ≤ 3 by decide) f hf
    unfold nounItems
    rw [render, render_app, List.length_append, List.length_append, hr]
    simp only [render, SItem.render, List.length_append, List.length_cons, List.length_nil]
    omega
  obtain ⟨l, h3, a, ha, h4⟩ := C79_reading _ full hw ht hl hv
  rw [noun_content] at h3
  obtain ⟨b1, b2, htags⟩ := tags_noun w e.1 f.1
  have hno : ¬ Organisation (nounItems w e.1 f.1) := by
    rintro ⟨_, _, _, _, u, m, t, hm, hn, _⟩
    have hmem : m ∈ tags (nounItems w e.1 f.1) := by rw [hm]; simp
    rw [htags] at hmem
    simp only [List.mem_cons, List.not_mem_nil, or_false] at hmem
    rcases hmem with rfl | rfl | rfl
    · exact absurd hn (by decide)
    · exact absurd (List.cons.inj hn).1 (by decide)
    · exact absurd (List.cons.inj hn).1 (by decide)
  rcases h4 with ⟨_, rfl⟩ | ⟨ho, _⟩
  · refine ⟨a, h3, fun k hk => ?_⟩
    have hm := means_state (render (nounItems w e.1 f.1)) (tags (nounItems w e.1 f.1)) (by rw [htags]; simp [lit])
    have hadj := fun v => adjusted_attribute (its := nounItems w e.1 f.1) (fun k _ v => hm.told k v) k hk v
    have hval := noun_values (render (nounItems w e.1 f.1)) b1 b2 e he f hf k hk
    rw [← hval]
    apply Option.ext
    intro v
    rw [ha k hk v, ← hadj v, htags]
  · exact absurd ho hno

/-- A noun that meets the hypotheses. -/
example : isValidAnalysis (render (nounItems (lit "koirassa") "ine" "y")) = some true
    ∧ render (nounItems (lit "koirassa") "ine" "y") = lit "[Ln]koirassa[Sine][Ny]" ∧ ("ine", "sisaolento") ∈ cases ∧ ("y", "singular") ∈ numbers := by
  refine ⟨by decide +kernel, by decide, by decide, by decide⟩

/-- The reading of a compound that may be the name of an organisation. -/
def orgItems : List SItem :=
  [.cls 0x6E] ++ (lit "kala").map .chr ++ [.bound 0x63, .cls 0x6E, .tag (lit "Ion")] ++ (lit "seura").map .chr ++ [.tag (lit "Sn"), .tag (lit "Ny")]

/-- A reading that meets the hypotheses of `C79_reading`, and its two analyses. -/
example : WellFormed orgItems ∧ Tidy orgItems ∧ render orgItems = lit "[Ln]kala[Bc][Ln][Ion]seura[Sn][Ny]"
    ∧ isValidAnalysis (render orgItems) = some true ∧ (analyzeOutput 9 false (render orgItems)).map (·.map fun a =>
      (analysisValue a (lit "CLASS"), analysisValue a (lit "SIJAMUOTO"), analysisValue a (lit "NUMBER")))
      = some [(some (lit "nimisana"), some (lit "nimento"), some (lit "singular")), (some (lit "nimi"), some (lit "nimento"), some (lit "singular"))] := by
  refine ⟨⟨?_, trivial, by decide⟩, ?_, by decide, by decide +kernel, by decide +kernel⟩
  · simp [orgItems, lit, WfItems, content, render, SItem.render]
  · intro x hx
    simp only [orgItems, lit, List.mem_append, List.mem_cons, List.not_mem_nil, or_false, List.mem_map] at hx
    rcases hx with ((((rfl | ⟨c, hc, rfl⟩) | rfl | rfl | rfl) | ⟨c, hc, rfl⟩) | rfl | rfl)
    · exact ⟨by decide, by decide⟩
    · exact ⟨by rintro rfl; revert hc; decide, by rintro rfl; revert hc; decide⟩
    · exact ⟨by decide, by decide⟩
    · exact ⟨by decide, by decide⟩
    · exact ⟨by decide, by decide, by decide⟩
    · exact ⟨by rintro rfl; revert hc; decide, by rintro rfl; revert hc; decide⟩
    · exact ⟨by decide, by decide, by decide⟩
    · exact ⟨by decide, by decide, by decide⟩

/-- **C79**: a tag with an unknown class hides the class of the word. -/
theorem C79_violation_unknown_class : isValidAnalysis (lit "[Ln]a[Lx]b[Sn]") = some true
    ∧ (analyzeOutput 2 false (lit "[Ln]a[Lx]b[Sn]")).map (·.map fun a => analysisValue a (lit "CLASS")) = some [none] := by decide +kernel

end Verif.Props
