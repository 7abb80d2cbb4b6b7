import Verif.Lemmas.SuggestSearch
import Verif.Props.SuggestCase
/-!
# C81: which suggestions are found, and how they are ranked

`Verif.Spec.SuggestSearch` says what is tried for a word and in which order, what each finding is worth, and when the search ends. The
theorems here say that the strategies of the library run exactly this search, that its outcome is determined, and what it means for users.
-/
set_option linter.unusedSimpArgs false
set_option linter.unusedVariables false

namespace Verif.Props
open Verif Verif.Spec Verif.Search

/-- C81: the strategy for typing errors gives what the search finds, valued by rank and order. -/
theorem C81_typing (an : Analyzer) (h : AnalyzerOk an) (junk : Nat → Wc) (w : List Wc) (h0 : 0 ∉ w) (h2 : 2 ≤ w.length)
    (hv : vowelCount w ≤ 32) (n : Nat) (hn : n ≤ 30) :
    ∃ s found, typingStrategy an junk { word := w, maxSug := n } = some s ∧ Finds an w n 800 (typingFirst w) (typingOthers w) found
      ∧ s.sugg = valued found := typing_finds an h junk w h0 h2 hv n hn

/-- C81: the strategy for texts that were read by a machine. -/
theorem C81_ocr (an : Analyzer) (h : AnalyzerOk an) (junk : Nat → Wc) (w : List Wc) (h0 : 0 ∉ w) (n : Nat) (hn : n ≤ 30) :
    ∃ s found, ocrStrategy an junk { word := w, maxSug := n } = some s ∧ Finds an w n 2000 [.word w] (ocrOthers w) found
      ∧ s.sugg = valued found := ocr_finds an h junk w h0 n hn

/-! ### The outcome is determined -/

theorem recased_unique {s c x y : List Wc} (h : Recased s c x) (h' : Recased s c y) : x = y := by
  apply List.ext_getElem?
  intro i
  by_cases hi : i < c.length
  · have hc : c[i]? = some c[i] := List.getElem?_eq_getElem hi
    rw [h.2 i _ hc, h'.2 i _ hc]
  · rw [List.getElem?_eq_none (by rw [h.1]; omega), List.getElem?_eq_none (by rw [h'.1]; omega)]

theorem offered_unique {an : Analyzer} {c : List Wc} {r : SpellRes} {x y : List Wc} (h : Offered an c r x) (h' : Offered an c r y) : x = y := by
  rcases h with ⟨rfl, rfl⟩ | ⟨rfl, rfl⟩ | ⟨rfl, a, l, s, h1, h2, h3⟩ <;>
    rcases h' with ⟨e, rfl⟩ | ⟨e, rfl⟩ | ⟨e, a', l', s', h1', h2', h3'⟩ <;> first | rfl | (cases e; done) | skip
  rw [h1] at h1'
  cases h1'
  rw [h2] at h2'
  cases h2'
  exact recased_unique h3 h3'

theorem part_unique {an : Analyzer} {x : List Wc} {r r' : SpellRes} {p p' : Nat} (h : Part an x r p) (h' : Part an x r' p') : r = r' ∧ p = p' :=
  ranked_unique h.1 h'.1

theorem first_unique {an : Analyzer} {a : List Wc} {o o' : Option Nat} {b b' : Bool} {k k' : Nat} (h : First an a o b k) (h' : First an a o' b' k') :
    o = o' ∧ b = b' ∧ k = k' := by
  cases h with
  | plain h1 =>
    cases h' with
    | plain g1 => obtain ⟨rfl, rfl⟩ := part_unique h1 g1; exact ⟨rfl, rfl, rfl⟩
    | stop g1 => exact absurd h1 (g1 _ _)
    | neither g1 => exact absurd h1 (g1 _ _)
    | none g1 => exact absurd h1 (g1 _ _)
  | stop h1 h2 h3 =>
    cases h' with
    | plain g1 => exact absurd g1 (h1 _ _)
    | stop _ _ g3 => obtain ⟨rfl, rfl⟩ := part_unique h3 g3; exact ⟨rfl, rfl, rfl⟩
    | neither _ _ g3 => exact absurd h3 (g3 _ _)
    | none _ g2 => exact absurd h2 g2
  | neither h1 h2 h3 =>
    cases h' with
    | plain g1 => exact absurd g1 (h1 _ _)
    | stop _ _ g3 => exact absurd g3 (h3 _ _)
    | neither => exact ⟨rfl, rfl, rfl⟩
    | none _ g2 => exact absurd h2 g2
  | none h1 h2 =>
    cases h' with
    | plain g1 => exact absurd g1 (h1 _ _)
    | stop _ g2 _ => exact absurd g2 h2
    | neither _ g2 _ => exact absurd g2 h2
    | none => exact ⟨rfl, rfl, rfl⟩

theorem ranked_known {an : Analyzer} {c : List Wc} {r : SpellRes} {p : Nat} (h : Ranked an c r p) : an c ≠ [] := by
  obtain ⟨⟨a, ha, _⟩, _⟩ := h
  exact List.ne_nil_of_mem ha

theorem step_unique {an : Analyzer} {w : List Wc} {t : Try} {st s1 s2 : State} (h : Step an w t st s1) (h' : Step an w t st s2) : s1 = s2 := by
  cases h with
  | unknown h1 =>
    cases h' with
    | unknown => rfl
    | known g1 => exact absurd h1 (ranked_known g1)
  | known h1 h2 =>
    cases h' with
    | unknown g1 => exact absurd g1 (ranked_known h1)
    | known g1 g2 =>
      obtain ⟨rfl, rfl⟩ := ranked_unique h1 g1
      rw [offered_unique h2 g2]
  | first h1 =>
    cases h' with
    | first g1 => obtain ⟨-, rfl, rfl⟩ := first_unique h1 g1; rfl
    | second g1 => cases (first_unique h1 g1).1
    | both g1 => cases (first_unique h1 g1).1
  | second h1 h2 =>
    cases h' with
    | first g1 => cases (first_unique h1 g1).1
    | second g1 => obtain ⟨-, rfl, rfl⟩ := first_unique h1 g1; rfl
    | both g1 g2 => exact absurd g2 (h2 _ _)
  | both h1 h2 =>
    cases h' with
    | first g1 => cases (first_unique h1 g1).1
    | second g1 g2 => exact absurd h2 (g2 _ _)
    | both g1 g2 =>
      obtain ⟨e, rfl, rfl⟩ := first_unique h1 g1
      cases e
      obtain ⟨rfl, rfl⟩ := part_unique h2 g2
      rfl

theorem runs_unique {an : Analyzer} {w : List Wc} {n budget : Nat} {ts : List Try} {st s1 s2 : State} (h : Runs an w n budget ts st s1)
    (h' : Runs an w n budget ts st s2) : s1 = s2 := by
  induction h with
  | done => cases h' <;> rfl
  | ends he => exact (runs_ends he h').symm
  | step hn hs _ ih =>
    cases h' with
    | ends he => exact absurd he hn
    | step _ hs' hr => rw [← step_unique hs hs'] at hr; exact ih hr

/-- C81: the search finds one list of suggestions. -/
theorem C81_unique {an : Analyzer} {w : List Wc} {n budget : Nat} {first others : List Try} {f g : List (List Wc × Nat)}
    (h : Finds an w n budget first others f) (h' : Finds an w n budget first others g) : f = g := by
  obtain ⟨s1, r1, h⟩ := h
  obtain ⟨s2, r2, h'⟩ := h'
  have := runs_unique r1 r2
  subst this
  rcases h with ⟨e1, rfl⟩ | ⟨e1, t1, q1, rfl⟩ <;> rcases h' with ⟨e2, rfl⟩ | ⟨e2, t2, q2, rfl⟩
  · rfl
  · exact absurd e2 e1
  · exact absurd e1 e2
  · rw [runs_unique q1 q2]

/-! ### What users get -/

theorem bestFive_nil {l : List (List Wc × Nat)} {best : List (List Wc)} (h : BestFive l best) : best = [] ↔ l = [] := by
  obtain ⟨s, hp, _, _, rfl⟩ := h
  constructor
  · intro e
    cases s with
    | nil => exact List.nil_perm.1 hp
    | cons => simp at e
  · rintro rfl
    rw [List.perm_nil.1 hp]; rfl

theorem valued_nil (l : List (List Wc × Nat)) : valued l = [] ↔ l = [] := by
  rw [← List.length_eq_zero_iff, valued_length, List.length_eq_zero_iff]

theorem api_finds (gen : Gen) (budget : Nat) (F : List Wc → List (List Wc × Nat) → Prop) (ignoreDot aup : Bool) (word : List Wc) (hw : WordOk word)
    (out : List (List Wc)) (h : suggestUcs4 gen ignoreDot aup word = some out)
    (hg : ∀ n dot s, SearchWord ignoreDot (normSpec word) n dot → ¬ (ignoreDot = true ∧ (normSpec word).length = 2) →
      gen { word := n, maxSug := 15 } = some s → ∃ found, F n found ∧ s.sugg = valued found) :
    (out = [] ∧ (word.length ≤ 1 ∨ 255 < word.length ∨ (ignoreDot = true ∧ (normSpec word).length = 2))) ∨
    ∃ n dot found best, SearchWord ignoreDot (normSpec word) n dot ∧ F n found ∧ BestFive (valued found) best ∧
      List.Forall₂ (Presents word n dot aup) best out ∧ (out = [] ↔ found = []) := by
  by_cases hd : ignoreDot = true ∧ (normSpec word).length = 2
  · rcases presentation_cases gen ignoreDot aup word hw out h with h1 | _
    · exact Or.inl h1
    · refine Or.inl ⟨?_, Or.inr (Or.inr hd)⟩
      unfold suggestUcs4 at h
      split at h
      · simpa using h.symm
      · rw [normalise_eq] at h
        have h0 : 0 ∉ normSpec word := zero_notMem (wordOk_normSpec hw)
        simp only [Option.bind_eq_bind, Option.bind_some, Option.bind_eq_some_iff] at h
        obtain ⟨cut, hcut, h⟩ := h
        rw [cstr_eq _ h0] at hcut
        unfold cutSuggestDot at hcut
        rw [if_pos hd.1, if_pos hd.2] at hcut
        cases hcut
        simpa using h.symm
  · rcases presentation_cases gen ignoreDot aup word hw out h with h1 | ⟨n, dot, s, best, e1, e2, e3, e4⟩
    · exact Or.inl h1
    · obtain ⟨found, f1, f2⟩ := hg n dot s e1 hd e2
      refine Or.inr ⟨n, dot, found, best, e1, f1, f2 ▸ e3, e4, ?_⟩
      rw [f2] at e3
      rw [← valued_nil found, ← bestFive_nil e3]
      constructor
      · rintro rfl; cases e4; rfl
      · rintro rfl; cases e4; rfl

/-- C81: the suggestions for a word are the presentation of the five best of what the search finds for the normalised word; there are none
exactly if it finds nothing, or if the word is too short or too long. -/
theorem C81_suggestions (an : Analyzer) (h : AnalyzerOk an) (he : an [] = []) (junk : Nat → Wc) (ignoreDot aup : Bool)
    (word : List Wc) (hw : WordOk word) (h2 : 2 ≤ (normSpec word).length) (hlen : (normSpec word).length ≤ word.length)
    (hv : vowelCount (normSpec word) ≤ 32) :
    ∃ out, suggestUcs4 (typingStrategy an junk) ignoreDot aup word = some out ∧
      ((out = [] ∧ (255 < word.length ∨ (ignoreDot = true ∧ (normSpec word).length = 2))) ∨
      ∃ n dot found best, SearchWord ignoreDot (normSpec word) n dot ∧ Finds an n 15 800 (typingFirst n) (typingOthers n) found ∧
        BestFive (valued found) best ∧ List.Forall₂ (Presents word n dot aup) best out ∧ (out = [] ↔ found = [])) := by
  obtain ⟨out, h1, _⟩ := C33_typing_partial an h he junk ignoreDot aup word hw h2 hlen hv
  refine ⟨out, h1, ?_⟩
  have h0 : 0 ∉ normSpec word := zero_notMem (wordOk_normSpec hw)
  have := api_finds (typingStrategy an junk) 800 (fun n found => Finds an n 15 800 (typingFirst n) (typingOthers n) found) ignoreDot aup word hw out h1
    (by
      intro n dot s hs hd hgen
      have hn : 0 ∉ n ∧ 2 ≤ n.length ∧ vowelCount n ≤ 32 := by
        rcases hs with ⟨e1, _, e3⟩ | ⟨_, e2, _⟩
        · have hne : (normSpec word).length ≠ 2 := fun e => hd ⟨e1, e⟩
          have hdl : n = (normSpec word).dropLast := by rw [e3]; simp
          refine ⟨fun hm => h0 (by rw [e3]; simp [hm]), ?_, ?_⟩
          · rw [hdl, List.length_dropLast]; omega
          · rw [hdl]; have := vowelCount_dropLast (normSpec word); omega
        · rw [e2]; exact ⟨h0, h2, hv⟩
      obtain ⟨s', found, k1, k2, k3⟩ := typing_finds an h junk n hn.1 hn.2.1 hn.2.2 15 (by omega)
      rw [hgen] at k1
      cases k1
      exact ⟨found, k2, k3⟩)
  rcases this with ⟨e, h' | h'⟩ | h'
  · omega
  · exact Or.inl ⟨e, h'⟩
  · exact Or.inr h'

/-- C81: the same for texts that were read by a machine. -/
theorem C81_suggestions_ocr (an : Analyzer) (h : AnalyzerOk an) (he : an [] = []) (junk : Nat → Wc) (ignoreDot aup : Bool)
    (word : List Wc) (hw : WordOk word) (hlen : (normSpec word).length ≤ word.length) :
    ∃ out, suggestUcs4 (ocrStrategy an junk) ignoreDot aup word = some out ∧
      ((out = [] ∧ (word.length ≤ 1 ∨ 255 < word.length ∨ (ignoreDot = true ∧ (normSpec word).length = 2))) ∨
      ∃ n dot found best, SearchWord ignoreDot (normSpec word) n dot ∧ Finds an n 15 2000 [.word n] (ocrOthers n) found ∧
        BestFive (valued found) best ∧ List.Forall₂ (Presents word n dot aup) best out ∧ (out = [] ↔ found = [])) := by
  obtain ⟨out, h1, _⟩ := C33_ocr_partial an h he junk ignoreDot aup word hw hlen
  refine ⟨out, h1, ?_⟩
  have h0 : 0 ∉ normSpec word := zero_notMem (wordOk_normSpec hw)
  exact api_finds (ocrStrategy an junk) 2000 (fun n found => Finds an n 15 2000 [.word n] (ocrOthers n) found) ignoreDot aup word hw out h1
    (by
      intro n dot s hs hd hgen
      have hn : 0 ∉ n := by
        rcases hs with ⟨e1, _, e3⟩ | ⟨_, e2, _⟩
        · exact fun hm => h0 (by rw [e3]; simp [hm])
        · rw [e2]; exact h0
      obtain ⟨s', found, k1, k2, k3⟩ := ocr_finds an h junk n hn 15 (by omega)
      rw [hgen] at k1
      cases k1
      exact ⟨found, k2, k3⟩)

/-! ### Consequences -/

/-- C81: a word that is recognised but for its capital letters is corrected in this way only. -/
theorem C81_case_only {an : Analyzer} {w : List Wc} {n budget : Nat} {others : List Try} {found : List (List Wc × Nat)} (hn : 0 < n)
    (hb : 0 < budget) (hk : an w ≠ []) (hs : 0xAD ∉ w) (h : Finds an w n budget (typingFirst w) others found) :
    ∃ x r p, Ranked an w r p ∧ Offered an w r x ∧ found = [(x, p)] := by
  have hfirst : typingFirst w = [.word w] := by simp [typingFirst, softHyphenRemoval, hs]
  rw [hfirst] at h
  obtain ⟨st, h1, h2⟩ := h
  have hne : ¬ Ends n budget {} := by rintro (e | ⟨e, _⟩) <;> simp at e <;> omega
  cases h1 with
  | ends he => exact absurd he hne
  | step _ hst hr =>
    have hst' : ∃ x r p, Ranked an w r p ∧ Offered an w r x ∧ st.found = [(x, p)] := by
      cases hst with
      | unknown e => exact absurd e hk
      | known g1 g2 => cases hr <;> exact ⟨_, _, _, g1, g2, rfl⟩
    obtain ⟨x, r, p, g1, g2, g3⟩ := hst'
    rcases h2 with ⟨_, rfl⟩ | ⟨e, _⟩
    · exact ⟨x, r, p, g1, g2, g3⟩
    · rw [g3] at e; cases e

theorem step_found {an : Analyzer} {w : List Wc} {t : Try} {st st' : State} (h : Step an w t st st') :
    st.found <+: st'.found ∧ st'.cost ≤ st.cost + 3 := by
  have two : ∀ {a : List Wc} {o : Option Nat} {b : Bool} {k : Nat}, First an a o b k → k ≤ 2 := by intro a o b k h; cases h <;> omega
  cases h with
  | unknown => exact ⟨List.prefix_refl _, by simp⟩
  | known => exact ⟨List.prefix_append _ _, by simp only; split <;> omega⟩
  | first h1 => exact ⟨List.prefix_refl _, by have := two h1; simp only; omega⟩
  | second h1 => exact ⟨List.prefix_refl _, by have := two h1; simp only; omega⟩
  | both h1 => exact ⟨List.prefix_append _ _, by have := two h1; simp only; omega⟩

theorem runs_found {an : Analyzer} {w : List Wc} {n budget : Nat} {ts : List Try} {st st' : State} (h : Runs an w n budget ts st st') :
    st.found <+: st'.found ∧ st'.cost ≤ st.cost + 3 * ts.length := by
  induction h with
  | done => exact ⟨List.prefix_refl _, by omega⟩
  | ends => exact ⟨List.prefix_refl _, by omega⟩
  | step _ hs _ ih =>
    obtain ⟨h1, h2⟩ := step_found hs
    exact ⟨h1.trans ih.1, by rw [List.length_cons]; omega⟩

theorem runs_length {an : Analyzer} {w : List Wc} {n budget : Nat} {ts : List Try} {st st' : State} (h : Runs an w n budget ts st st')
    (hl : st.found.length ≤ n) : st'.found.length ≤ n := by
  induction h with
  | done => exact hl
  | ends => exact hl
  | @step t ts st st' st'' hne hs _ ih =>
    refine ih ?_
    have h1 : st.found.length ≠ n := fun e => hne (Or.inl e)
    cases hs <;> simp <;> omega

/-- Something that is tried early enough, and is a word, is found unless there is enough already. -/
theorem runs_tried {an : Analyzer} {w : List Wc} {n budget : Nat} {A B : List Try} {c : List Wc} {st st' : State} (hk : an c ≠ [])
    (hb : st.cost + 3 * A.length < budget) (h : Runs an w n budget (A ++ .word c :: B) st st') (hl : st'.found.length ≠ n) :
    ∃ x r p, Ranked an c r p ∧ Offered an c r x ∧ (x, p) ∈ st'.found := by
  induction A generalizing st with
  | nil =>
    cases h with
    | ends he =>
      rcases he with e | ⟨e, _⟩
      · exact absurd e hl
      · simp only [List.length_nil] at hb; omega
    | step _ hs hr =>
      cases hs with
      | unknown e => exact absurd e hk
      | known g1 g2 => exact ⟨_, _, _, g1, g2, (runs_found hr).1.subset (by simp)⟩
  | cons t A ih =>
    rw [List.length_cons] at hb
    cases h with
    | ends he =>
      rcases he with e | ⟨e, _⟩
      · exact absurd e hl
      · omega
    | step _ hs hr =>
      have := (step_found hs).2
      exact ih (by omega) hr

/-- C81: of the candidates, everything that comes early is tried: if nothing is found by changing capital letters and soft hyphens, every
word among the first 260 candidates is found, unless fifteen suggestions are found first. -/
theorem C81_tried {an : Analyzer} {w : List Wc} {n : Nat} {A B : List Try} {c : List Wc} {found : List (List Wc × Nat)}
    (h : Finds an w n 800 (typingFirst w) (typingOthers w) found) (hf : ∀ c, .word c ∈ typingFirst w → an c = [])
    (ho : typingOthers w = A ++ .word c :: B) (hA : A.length < 260) (hk : an c ≠ []) (hl : found.length < n) :
    ∃ x r p, Ranked an c r p ∧ Offered an c r x ∧ (x, p) ∈ found := by
  obtain ⟨st, h1, h2⟩ := h
  have hlen : (typingFirst w).length ≤ 2 := by
    unfold typingFirst softHyphenRemoval; split <;> simp
  have none : ∀ (ts : List Try) (s s' : State), Runs an w n 800 ts s s' → (∀ t ∈ ts, ∃ c, t = .word c ∧ an c = []) → s.found = [] → s'.found = [] := by
    intro ts s s' hr
    induction hr with
    | done => exact fun _ e => e
    | ends => exact fun _ e => e
    | step _ hs _ ih =>
      intro hall e
      refine ih (fun t ht => hall t (by simp [ht])) ?_
      obtain ⟨c', rfl, hc'⟩ := hall _ (List.mem_cons_self)
      cases hs with
      | unknown => exact e
      | known g1 => exact absurd hc' (ranked_known g1)
  have hnil := none _ _ _ h1 (fun t ht => by
    obtain ⟨c', hc', rfl⟩ := List.mem_map.1 ht
    exact ⟨c', rfl, hf c' ht⟩) rfl
  rcases h2 with ⟨e, _⟩ | ⟨_, st', hr, rfl⟩
  · exact absurd hnil e
  · rw [ho] at hr
    have hc := (runs_found h1).2
    simp only [Nat.zero_add] at hc
    exact runs_tried hk (by omega) hr (by omega)

/-- The suggestion `x` of rank `p` comes from something in `ts`: it is what is offered for a candidate, or the two parts of the word. -/
def ComesFrom (an : Analyzer) (w : List Wc) (ts : List Try) (x : List Wc) (p : Nat) : Prop :=
  (∃ c r, .word c ∈ ts ∧ Ranked an c r p ∧ Offered an c r x) ∨
  ∃ i k q r o b b', .split i ∈ ts ∧ First an (before w i) (some q) b k ∧ Part an (after w i) r o ∧
    x = capIf b' (before w i) ++ 0x20 :: capIf (headUpper (after w i) || r == .capFirst) (after w i) ∧
    p = (q + o) * (if w[i]? = some 0x2D then 6 else 1)

theorem comesFrom_mono {an : Analyzer} {w : List Wc} {ts us : List Try} {x : List Wc} {p : Nat} (hs : ∀ t ∈ ts, t ∈ us)
    (h : ComesFrom an w ts x p) : ComesFrom an w us x p := by
  rcases h with ⟨c, r, h1, h2⟩ | ⟨i, k, q, r, o, b, b', h1, h2⟩
  · exact Or.inl ⟨c, r, hs _ h1, h2⟩
  · exact Or.inr ⟨i, k, q, r, o, b, b', hs _ h1, h2⟩

theorem runs_from {an : Analyzer} {w : List Wc} {n budget : Nat} {ts : List Try} {s s' : State} (hr : Runs an w n budget ts s s') {x : List Wc}
    {p : Nat} (hm : (x, p) ∈ s'.found) : (x, p) ∈ s.found ∨ ComesFrom an w ts x p := by
  induction hr with
  | done => exact Or.inl hm
  | ends => exact Or.inl hm
  | step _ hs _ ih =>
    rcases ih hm with h1 | h1
    · cases hs with
      | unknown => exact Or.inl h1
      | known g1 g2 =>
        rcases List.mem_append.1 h1 with h1 | h1
        · exact Or.inl h1
        · cases List.mem_singleton.1 h1
          exact Or.inr (Or.inl ⟨_, _, by simp, g1, g2⟩)
      | first => exact Or.inl h1
      | second => exact Or.inl h1
      | both g1 g2 =>
        rcases List.mem_append.1 h1 with h1 | h1
        · exact Or.inl h1
        · cases List.mem_singleton.1 h1
          exact Or.inr (Or.inr ⟨_, _, _, _, _, _, _, by simp, g1, g2, rfl, rfl⟩)
    · exact Or.inr (comesFrom_mono (fun t ht => by simp [ht]) h1)

/-- C81: everything that is found, is found for something that was tried, with its rank. -/
theorem C81_found_tried {an : Analyzer} {w : List Wc} {n budget : Nat} {first others : List Try} {found : List (List Wc × Nat)}
    (h : Finds an w n budget first others found) {x : List Wc} {p : Nat} (hx : (x, p) ∈ found) : ComesFrom an w (first ++ others) x p := by
  obtain ⟨st, h1, h2⟩ := h
  rcases h2 with ⟨_, rfl⟩ | ⟨e, st', hr, rfl⟩
  · rcases runs_from h1 hx with h | h
    · simp at h
    · exact comesFrom_mono (fun t ht => by simp [ht]) h
  · rcases runs_from hr hx with h | h
    · rw [e] at h; simp at h
    · exact comesFrom_mono (fun t ht => by simp [ht]) h

theorem counts_pos {word : List Wc} {a : MorAn} {r : SpellRes} {p : Nat} (h : Counts word a r p) : 0 < p := by
  obtain ⟨s, n, _, hv, hf, rfl⟩ := h
  have h1 : 0 < n := by
    rcases hf with ⟨e, he, _, rfl⟩ | ⟨_, rfl⟩
    · exact (show ∀ e ∈ caseWeights, 0 < e.2 by decide) e he
    · omega
  have h2 : 0 < partsWeight s := Nat.pow_pos (by omega)
  have h3 : 0 < verdictWeight r := by cases r <;> decide
  exact Nat.mul_pos (Nat.mul_pos h1 h2) h3

theorem ranked_pos {an : Analyzer} {c : List Wc} {r : SpellRes} {p : Nat} (h : Ranked an c r p) : 0 < p := by
  obtain ⟨⟨a, _, hc⟩, _⟩ := h
  exact counts_pos hc

/-- C81: of two suggestions, the one found first has the lower value and comes before the other one, unless its rank is higher. -/
theorem C81_earlier {an : Analyzer} {w : List Wc} {n budget : Nat} {first others : List Try} {found : List (List Wc × Nat)}
    (h : Finds an w n budget first others found) {i j : Nat} {x y : List Wc × Nat} (hi : found[i]? = some x) (hj : found[j]? = some y)
    (hij : i < j) (hp : x.2 ≤ y.2) :
    ∃ a b, (valued found)[i]? = some (x.1, a) ∧ (valued found)[j]? = some (y.1, b) ∧ a < b := by
  refine ⟨x.2 * (i + 5), y.2 * (j + 5), by simp [valued, hi], by simp [valued, hj], ?_⟩
  have hy : 0 < y.2 := by
    have hm : (y.1, y.2) ∈ found := List.mem_of_getElem? hj
    rcases C81_found_tried h hm with ⟨c, r, _, hr, _⟩ | ⟨_, _, q, r, o, b, b', _, _, hr, _, e⟩
    · exact ranked_pos hr
    · have := ranked_pos hr.1
      rw [e]
      exact Nat.mul_pos (by omega) (by split <;> omega)
  calc x.2 * (i + 5) ≤ y.2 * (i + 5) := Nat.mul_le_mul_right _ hp
    _ < y.2 * (j + 5) := Nat.mul_lt_mul_of_pos_left (by omega) hy

/-- C81: one more part of a compound (up to five) counts as much as eight times the weight of the form. -/
theorem C81_parts (s t : List Wc) (hs : 0 ∉ s) (ht : 0 ∉ t) (h1 : 1 ≤ s.count 0x3D) (h5 : t.count 0x3D ≤ 5)
    (h : t.count 0x3D = s.count 0x3D + 1) : partsWeight t = 8 * partsWeight s := by
  have e : ∀ l : List Wc, 0 ∉ l → l.takeWhile (· ≠ 0) = l := fun l hl => takeWhile_nz l hl
  unfold partsWeight
  rw [e s hs, e t ht, h, show min (s.count 0x3D + 1) 5 - 1 = (min (s.count 0x3D) 5 - 1) + 1 by omega, Nat.pow_succ, Nat.mul_comm]

/-! ### Examples -/

/-- Two readings of "talo", one of "tali", and a compound. -/
def talo : Analyzer := fun y =>
  if y = lit "talo" then [{ cls := some (lit "nimisana"), sijamuoto := some (lit "vajanto"), struct := some (lit "=pppp") },
      { cls := some (lit "nimisana"), sijamuoto := some (lit "osanto"), struct := some (lit "=pppp") }]
  else if y = lit "tali" then [{ cls := some (lit "nimisana"), sijamuoto := some (lit "nimento"), struct := some (lit "=pppp") }]
  else if y = lit "tal-o" then [{ struct := some (lit "=ppp=-p") }] else []

theorem talo_ok : AnalyzerOk talo := by
  intro w a ha
  unfold talo at ha
  split at ha
  · simp only [List.mem_cons, List.not_mem_nil, or_false] at ha
    rcases ha with rfl | rfl <;> exact ⟨_, rfl⟩
  · split at ha
    · simp only [List.mem_singleton] at ha; subst ha; exact ⟨_, rfl⟩
    · split at ha
      · simp only [List.mem_singleton] at ha; subst ha; exact ⟨_, rfl⟩
      · simp at ha

/-- Non-vacuity: "talp" gives "talo" (found first, rank 5) and "tali" (found later, rank 2); "tali" comes first. -/
example : (typingStrategy talo (fun _ => 7) { word := lit "talp", maxSug := 15 }).map (·.sugg) = some [(lit "talo", 25), (lit "tali", 12)] ∧
    suggestUcs4 (typingStrategy talo fun _ => 7) false true (lit "talp") = some [lit "tali", lit "talo"] := by decide +kernel

example : Ranked talo (lit "talo") .ok 5 := by
  obtain ⟨r, p, h1, _, _, h4⟩ := swp_ranked talo talo_ok (lit "talo")
  have : spellWithPriority talo (lit "talo") = some (.ok, 5) := by decide +kernel
  rw [this] at h1
  cases h1
  exact h4 (by decide)

example : partsWeight (lit "=ppp=pp") = 8 * partsWeight (lit "=ppppp") := by
  refine C81_parts _ _ ?_ ?_ ?_ ?_ ?_ <;> decide

end Verif.Props
