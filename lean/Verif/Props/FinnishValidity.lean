import Verif.Lemmas.FinnishValidity
import Verif.Props.FinnishStructure
/-!
# C77: which readings of a compound are analyses of it

`Verif.Spec.Validity` says which sequences of letters and marks are valid.
-/

set_option linter.unusedSimpArgs false
set_option linter.unusedVariables false

namespace Verif.Props
open Verif Verif.Validity

theorem letters_tagEv (n : List Wc) : letters (tagEv n) = [] := by
  unfold tagEv
  repeat' split
  all_goals rfl

theorem letters_events : ∀ (n : Nat) (its : List SItem), its.length ≤ n → ∀ a ∈ letters (events its), .chr a ∈ its := by
  intro n
  induction n with
  | zero =>
    intro its hl a ha
    have : its = [] := List.length_eq_zero_iff.1 (by omega)
    subst this
    cases ha
  | succ n ih =>
    intro its hl a ha
    cases its with
    | nil => cases ha
    | cons x r =>
      have hr : r.length ≤ n := by simp at hl; omega
      have go : ∀ n : List Wc, events (x :: r) = tagEv n ++ events r → .chr a ∈ x :: r := by
        intro n h
        rw [h, letters_append, letters_tagEv] at ha
        exact List.mem_cons_of_mem _ (ih r hr a ha)
      cases x with
      | cls c => exact go _ rfl
      | cls2 c d => exact go _ rfl
      | tag n => exact go _ rfl
      | bound c => exact List.mem_cons_of_mem _ (ih r hr a ha)
      | sect c b => exact List.mem_cons_of_mem _ (ih r hr a ha)
      | pat p => exact List.mem_cons_of_mem _ (ih r hr a ha)
      | chr c =>
        have step : a ∈ letters ((if c = 0x2D then Ev.hyphen else .letter c) :: events r) → .chr a ∈ SItem.chr c :: r := by
          intro h
          by_cases hc : c = 0x2D
          · rw [if_pos hc] at h
            exact List.mem_cons_of_mem _ (ih r hr a h)
          · rw [if_neg hc] at h
            rcases List.mem_cons.1 h with rfl | h
            · exact List.mem_cons_self
            · exact List.mem_cons_of_mem _ (ih r hr a h)
        cases r with
        | nil => exact step ha
        | cons y r' =>
          cases y with
          | tag n =>
            rw [events] at ha
            split at ha
            · exact List.mem_cons_of_mem _ (List.mem_cons_of_mem _ (ih r' (by simp at hr; omega) a ha))
            · exact step ha
          | _ => exact step ha

/-- **C77** (validity of a reading): the check accepts exactly the readings in which hyphens are used where they are needed and only
where they may be used, the hyphens that must be used are used, and no proper noun is joined to a noun. -/
theorem C77_valid (its : List SItem) (h : Plain its) :
    ∃ b, isValidAnalysis (render its) = some b ∧ (b = true ↔ Valid (events its)) := by
  have hrun := vaLoop_events its.length its [] {} ((render its).length + 1) (Nat.le_refl _) h.1 h.2 (by omega)
  refine ⟨_, hrun, ?_⟩
  have := run_valid (events its) [] {} means_nil (fun a ha => by
    have := h.1 _ (letters_events _ its (Nat.le_refl _) a ha)
    exact ⟨this.2.1, this.2.2⟩)
  simpa using this

/-- **C77** (analyses): if the outputs of the transducer are well-formed then a word of at most 255 characters has an analysis exactly if
one of the first 99 outputs for it is valid. -/
theorem C77_analyses (next : List Wc → List (List Wc)) (word : List Wc) (full : Bool)
    (hnext : ∀ o ∈ next (setCase .allLower word), o.length < 2 ^ 64
      ∧ ∃ its, o = render its ∧ WellFormed its ∧ (content its).length = word.length ∧ Plain its) :
    ∃ l, finnishAnalyze next word full = some l ∧
      (l ≠ [] ↔ word.length ≤ 255 ∧ ∃ its, render its ∈ (next (setCase .allLower word)).take 99 ∧ Plain its ∧ Valid (events its)) := by
  obtain ⟨l, h1, _, h3⟩ := analyses_describe Plain next word full hnext
  refine ⟨l, h1, ?_⟩
  rw [ne_eq, h3]
  constructor
  · intro h
    rw [not_or] at h
    refine ⟨by omega, ?_⟩
    have h2 := h.2
    apply Classical.byContradiction
    intro hn
    apply h2
    intro o ho
    obtain ⟨_, its, rfl, _, _, hp⟩ := hnext o (List.mem_of_mem_take ho)
    obtain ⟨b, hb, hv⟩ := C77_valid its hp
    cases b with
    | false => exact hb
    | true => exact absurd ⟨its, ho, hp, hv.1 rfl⟩ hn
  · rintro ⟨h, its, ho, hp, hv⟩
    rintro (hl | hall)
    · omega
    · obtain ⟨b, hb, hv'⟩ := C77_valid its hp
      rw [hv'.2 hv, hall _ ho] at hb
      cases hb

/-! ### What this means for two words -/

theorem events_chars : ∀ (a : List Wc) (r : List SItem), 0x2D ∉ a → events (a.map .chr ++ r) = a.map .letter ++ events r := by
  intro a
  induction a with
  | nil => intro r _; rfl
  | cons c a ih =>
    intro r h
    have hc : c ≠ 0x2D := fun e => h (by simp [e])
    have ih' := ih r (fun e => h (by simp [e]))
    have key : ∀ s : List SItem, events (.chr c :: s) = .letter c :: events s := by
      intro s
      cases s with
      | nil => simp [events, hc]
      | cons y s =>
        cases y with
        | tag n => rw [events, if_neg (fun e => hc e.1), if_neg hc]
        | _ => simp [events, hc]
    show events (.chr c :: (a.map .chr ++ r)) = .letter c :: (a.map .letter ++ events r)
    rw [key, ih']

theorem letters_chars (a : List Wc) : letters (a.map Ev.letter) = a := by
  induction a with
  | nil => rfl
  | cons c a ih => simp [letters, ih]

theorem no_since {on off : Ev → Prop} {w : List Ev} (h : ∀ e ∈ w, ¬ on e) : ¬ Since on off w := by
  rintro ⟨u, e, t, rfl, ho, _⟩
  exact h e (by simp) ho

/-- Two words, joined with or without a hyphen. -/
theorem valid_two (a b : List Wc) (y : Wc) (h : Bool) :
    Valid (a.map .letter ++ .gap h :: (y :: b).map .letter) ↔ (h = true ∧ (a = [] ∨ ∃ p, a = p ++ lit "is")) ∨ (h = true ↔ Needs a y) := by
  have hno : ∀ e : Ev, (∀ c, e ≠ .letter c) → (∀ g, e ≠ .gap g) → e ∉ a.map Ev.letter ++ .gap h :: (y :: b).map .letter := by
    intro e h1 h2 hm
    simp only [List.mem_append, List.mem_map, List.mem_cons, List.map_cons] at hm
    rcases hm with ⟨c, _, hc⟩ | hc | hc | ⟨c, _, hc⟩
    · exact h1 c hc.symm
    · exact h2 _ hc
    · exact h1 _ hc
    · exact h1 c hc.symm
  have hfree : ¬ Free (a.map Ev.letter ++ [.gap h]) := by
    have : ∀ e : Ev, (∀ c, e ≠ .letter c) → (∀ g, e ≠ .gap g) → e ∉ a.map Ev.letter ++ [.gap h] := by
      intro e h1 h2 hm
      apply hno e h1 h2
      rcases List.mem_append.1 hm with hm | hm
      · exact List.mem_append_left _ hm
      · simp at hm; exact absurd hm (h2 _)
    rintro (⟨u, t, hw, _⟩ | ⟨u, t, hw, _⟩)
    · exact this .free (by simp) (by simp) (by rw [hw]; simp)
    · exact this .must (by simp) (by simp) (by rw [hw]; simp)
  have hlet : letters (a.map Ev.letter ++ [.gap h]) = a := by rw [letters_append, letters_chars]; simp [letters]
  have hpend : ∀ g, Pending (a.map Ev.letter ++ [.gap h]) g ↔ h = g := fun g => pending_gap
  have hR : ∀ g, Pending (a.map Ev.letter ++ [.gap h]) g → (RightHyphen (a.map Ev.letter ++ [.gap h]) y g ↔
      (h = true ∧ (a = [] ∨ ∃ p, a = p ++ lit "is")) ∨ (h = true ↔ Needs a y)) := by
    intro g hg
    rw [← (hpend g).1 hg]
    unfold RightHyphen
    rw [hlet]
    simp only [hfree, false_or]
  have hsplit : a.map Ev.letter ++ .gap h :: (y :: b).map .letter = (a.map Ev.letter ++ [.gap h]) ++ .letter y :: b.map .letter := by simp
  constructor
  · intro hv
    rw [hsplit] at hv
    exact (hR h ((hpend h).2 rfl)).1 (hv.1 _ _ _ rfl h ((hpend h).2 rfl))
  · intro hr
    refine ⟨?_, ?_, ?_⟩
    · -- only the first letter after the boundary is a crossing
      have base : HyphensRight (a.map Ev.letter ++ [.gap h]) := by
        rw [right_snoc]
        refine ⟨fun x c t hw g hp => ?_, fun c _ e => by cases e⟩
        exfalso
        obtain ⟨u, e, t', hx, he, _⟩ := hp
        have : Ev.gap g ∈ a.map Ev.letter := by rw [hw, hx, he]; simp
        simp at this
      have step : HyphensRight ((a.map Ev.letter ++ [.gap h]) ++ [.letter y]) := by
        rw [right_snoc]
        refine ⟨base, fun c g e hp => ?_⟩
        cases e
        exact (hR g hp).2 hr
      have rest : ∀ (l : List Wc) (w : List Ev) (z : Wc), HyphensRight (w ++ [.letter z]) → HyphensRight (w ++ .letter z :: l.map Ev.letter) := by
        intro l
        induction l with
        | nil => intro w z hw; exact hw
        | cons d l ih =>
          intro w z hw
          have h2 : HyphensRight ((w ++ [.letter z]) ++ [.letter d]) := by
            rw [right_snoc]
            exact ⟨hw, fun c g _ hp => absurd hp pending_letter⟩
          have := ih (w ++ [.letter z]) d h2
          simpa using this
      rw [hsplit]
      exact rest b _ y step
    · rintro x z hw ⟨u, t, hx, _⟩
      exact absurd (by rw [hw, hx]; simp) (hno .must (by simp) (by simp))
    · rintro ⟨hp, _⟩
      refine no_since ?_ hp
      rintro e he rfl
      exact hno .proper (by simp) (by simp) he

/-- The letters of a word: small, and none of them a hyphen or a bracket. -/
def WordLetters (a : List Wc) : Prop := ∀ c ∈ a, c ≠ 0x5B ∧ c ≠ 0x2D ∧ c ≠ 0 ∧ lower c = c

theorem plain_two {a b : List Wc} {y : Wc} (ha : WordLetters a) (hb : WordLetters (y :: b)) (m : List SItem) (hm : ∀ x ∈ m, PlainItem x) :
    Plain (a.map .chr ++ (m ++ (y :: b).map .chr)) := by
  refine ⟨fun x hx => ?_, fun pre h => ?_⟩
  · simp only [List.mem_append, List.mem_map] at hx
    rcases hx with ⟨c, hc, rfl⟩ | hx | ⟨c, hc, rfl⟩
    · exact ⟨(ha c hc).1, (ha c hc).2.2⟩
    · exact hm x hx
    · exact ⟨(hb c hc).1, (hb c hc).2.2⟩
  · have h1 := congrArg List.getLast? h
    have h2 : (pre ++ [SItem.chr 0x2D, .tag (lit "Bh")]).getLast? = some (.tag (lit "Bh")) := by
      have : pre ++ [SItem.chr 0x2D, .tag (lit "Bh")] = (pre ++ [.chr 0x2D]) ++ [.tag (lit "Bh")] := by simp
      rw [this, List.getLast?_concat]
    rw [h2] at h1
    have h3 : SItem.tag (lit "Bh") ∈ (y :: b).map SItem.chr := by
      rw [List.getLast?_append, List.getLast?_append] at h1
      have : ((y :: b).map SItem.chr).getLast? = some (((y :: b).map SItem.chr).getLast (by simp)) := List.getLast?_eq_some_getLast (by simp)
      rw [this] at h1
      simp only [Option.some_or, Option.some.injEq] at h1
      rw [← h1]
      exact List.getLast_mem _
    simp at h3

/-- **C77** (two words without a hyphen): the reading is valid exactly if no hyphen is needed between them. -/
theorem C77_joined (a b : List Wc) (y : Wc) (ha : WordLetters a) (hb : WordLetters (y :: b)) :
    isValidAnalysis (a ++ lit "[Bh]" ++ y :: b) = some true ↔ ¬ Needs a y := by
  have hr : ∀ l : List Wc, render (l.map SItem.chr) = l := by
    intro l; induction l with | nil => rfl | cons c l ih => simp [render, SItem.render, ih]
  have ra : ∀ (l m : List SItem), render (l ++ m) = render l ++ render m := by
    intro l m; induction l with | nil => rfl | cons c l ih => simp [render, ih]
  obtain ⟨v, hv, h⟩ := C77_valid _ (plain_two ha hb [.tag (lit "Bh")] (by
    intro x hx; simp at hx; subst hx; exact ⟨by decide, by decide, by decide, fun _ => rfl⟩))
  have he : events (a.map .chr ++ ([.tag (lit "Bh")] ++ (y :: b).map .chr)) = a.map .letter ++ .gap false :: (y :: b).map .letter := by
    rw [events_chars a _ (fun hm => (ha _ hm).2.1 rfl)]
    congr 1
    have h2 := events_chars (y :: b) [] (fun hm => (hb _ hm).2.1 rfl)
    rw [List.append_nil] at h2
    show tagEv (lit "Bh") ++ events ((y :: b).map .chr) = _
    rw [h2]
    simp [events, show tagEv (lit "Bh") = [.gap false] by decide]
  rw [he, valid_two] at h
  have e : render (a.map .chr ++ ([.tag (lit "Bh")] ++ (y :: b).map .chr)) = a ++ lit "[Bh]" ++ y :: b := by
    rw [ra, ra, hr, hr]; simp [render, SItem.render, lit]
  rw [e] at hv
  rw [hv]
  simp only [Option.some.injEq, h]
  simp

/-- **C77** (two words with a hyphen): the reading is valid exactly if a hyphen is needed between them, or the first one ends in "is" or
is empty. -/
theorem C77_hyphenated (a b : List Wc) (y : Wc) (ha : WordLetters a) (hb : WordLetters (y :: b)) :
    isValidAnalysis (a ++ lit "-[Bh]" ++ y :: b) = some true ↔ Needs a y ∨ a = [] ∨ ∃ p, a = p ++ lit "is" := by
  have hr : ∀ l : List Wc, render (l.map SItem.chr) = l := by
    intro l; induction l with | nil => rfl | cons c l ih => simp [render, SItem.render, ih]
  have ra : ∀ (l m : List SItem), render (l ++ m) = render l ++ render m := by
    intro l m; induction l with | nil => rfl | cons c l ih => simp [render, ih]
  obtain ⟨v, hv, h⟩ := C77_valid _ (plain_two ha hb [.chr 0x2D, .tag (lit "Bh")] (by
    intro x hx; simp at hx; rcases hx with rfl | rfl
    · exact ⟨by decide, by decide, by decide⟩
    · exact ⟨by decide, by decide, by decide, fun _ => rfl⟩))
  have he : events (a.map .chr ++ ([.chr 0x2D, .tag (lit "Bh")] ++ (y :: b).map .chr)) = a.map .letter ++ .gap true :: (y :: b).map .letter := by
    rw [events_chars a _ (fun hm => (ha _ hm).2.1 rfl)]
    congr 1
    have h2 := events_chars (y :: b) [] (fun hm => (hb _ hm).2.1 rfl)
    rw [List.append_nil] at h2
    show events (.chr 0x2D :: .tag (lit "Bh") :: (y :: b).map .chr) = _
    rw [events, if_pos ⟨rfl, rfl⟩, h2]
    simp [events]
  rw [he, valid_two] at h
  have e : render (a.map .chr ++ ([.chr 0x2D, .tag (lit "Bh")] ++ (y :: b).map .chr)) = a ++ lit "-[Bh]" ++ y :: b := by
    rw [ra, ra, hr, hr]; simp [render, SItem.render, lit]
  rw [e] at hv
  rw [hv]
  simp only [Option.some.injEq, h]
  constructor
  · rintro (h | h)
    · exact .inr h.2
    · exact .inl (h.1 (by trivial))
  · rintro (h | h)
    · exact .inr ⟨fun _ => h, fun _ => by trivial⟩
    · exact .inl ⟨by trivial, h⟩

example : WordLetters (lit "linja") ∧ WordLetters (lit "auto") ∧ Needs (lit "linja") 0x61 ∧ ¬ Needs (lit "linja") 0x6B := by
  refine ⟨by unfold WordLetters; decide, by unfold WordLetters; decide, ⟨0x61, by decide, .inl ⟨rfl, by decide⟩⟩, ?_⟩
  rintro ⟨a, h, h2⟩
  have : a = 0x61 := by
    have h3 : (lit "linja").getLast? = some 0x61 := by decide
    rw [h3] at h
    exact (Option.some.inj h).symm
  subst this
  rcases h2 with h2 | h2
  · exact absurd h2.1 (by decide)
  · exact absurd h2 (by decide)

example : isValidAnalysis (lit "linja-[Bh]auto") = some true ∧ isValidAnalysis (lit "linja[Bh]auto") = some false
    ∧ isValidAnalysis (lit "linja-[Bh]kuva") = some false ∧ isValidAnalysis (lit "[Isf]linja-[Bh]kuva") = some true
    ∧ isValidAnalysis (lit "[Icu]linja[Bh]kuva") = some false ∧ isValidAnalysis (lit "[Icu]linja[Bh]kuva[Ica]") = some true
    ∧ isValidAnalysis (lit "[Le]linja[Bh][Ln]kuva") = some false ∧ isValidAnalysis (lit "[Le]linja[Bh][Ln]kuva[Dg]") = some true := by
  decide +kernel

/-- A reading that meets the hypotheses: a proper noun, a hyphen that must be used, and a noun. -/
example : Plain ([.cls2 0x65 0x70, .tag (lit "Icu")] ++ (lit "oslo").map .chr ++ [.chr 0x2D, .tag (lit "Bh"), .cls 0x6E] ++ (lit "kuva").map .chr) := by
  refine ⟨?_, fun pre h => ?_⟩
  · intro x hx
    simp [lit] at hx
    rcases hx with rfl | rfl | rfl | rfl | rfl | rfl | rfl | rfl | rfl | rfl | rfl | rfl | rfl <;> simp [PlainItem, lit, List.isPrefixOf] <;> decide
  · have h1 := congrArg List.getLast? h
    have h2 : (pre ++ [SItem.chr 0x2D, .tag (lit "Bh")]).getLast? = some (.tag (lit "Bh")) := by
      have : pre ++ [SItem.chr 0x2D, .tag (lit "Bh")] = (pre ++ [.chr 0x2D]) ++ [.tag (lit "Bh")] := by simp
      rw [this, List.getLast?_concat]
    rw [h2] at h1
    revert h1
    decide

/-- What `Plain` leaves out: after a hyphen at the end of the output, words meet without a hyphen. -/
theorem C77_violation_end : isValidAnalysis (lit "[Icu]a-[Bh]") = some false ∧ isValidAnalysis (lit "[Icu]a-[Bh]b") = some true := by
  decide +kernel

end Verif.Props
