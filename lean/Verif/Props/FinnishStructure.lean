import Verif.Lemmas.FinnishAnalyze
import Verif.Lemmas.FinnishChars
import Verif.Props.FinnishAttributes
/-!
# C59: the STRUCTURE of an analysis matches the word

`Verif.Spec.Structure` says what a well-formed output is, which characters of it belong to the word (`content`) and where
the borders are (`Border`).
-/

namespace Verif.Props

open Verif

/-- What a structure string has to be for an output: one pattern character per character of the word besides the `=`
marks, at most as long as the buffer of `2 * wlen + 1` characters allows, `=` marks exactly at the borders, no two of them
together and none at the end. -/
structure Describes (its : List SItem) (st : List Wc) : Prop where
  /-- one pattern character per character of the word -/
  count : (strip st).length = (content its).length
  /-- room for the terminator in the buffer -/
  fits : st.length + 1 ≤ 2 * (content its).length + 1
  /-- marks at the borders only -/
  borders : ∀ j, j ∈ marks 0 st ↔ Border its j
  /-- no `==` -/
  single : hasDouble st = false
  /-- no `=` at the end -/
  noTrailing : st.getLast? ≠ some 0x3D
  /-- hyphens after the first character are where the word has them -/
  hyphens : ∀ k, 0 < k → ((strip st)[k]? = some 0x2D ↔ (content its)[k]? = some 0x2D)
  /-- and a hyphen at the start is one of the word -/
  first : (strip st)[0]? = some 0x2D → (content its)[0]? = some 0x2D
  /-- no terminator inside the string -/
  nul : 0 ∉ render its → 0 ∉ st

theorem hy_getElem {a b : List Wc} (h : hy a = hy b) (k : Nat) : a[k]? = some 0x2D ↔ b[k]? = some 0x2D := by
  have h2 : (hy a)[k]? = (hy b)[k]? := by rw [h]
  rw [hy, hy, List.getElem?_map, List.getElem?_map] at h2
  constructor
  · intro e
    rw [e] at h2
    cases hb : b[k]? with
    | none => rw [hb] at h2; cases h2
    | some c =>
      rw [hb] at h2
      have := Option.some.inj h2
      simp only [beq_self_eq_true] at this
      rw [eq_of_beq this.symm]
  · intro e
    rw [e] at h2
    cases hb : a[k]? with
    | none => rw [hb] at h2; cases h2
    | some c =>
      rw [hb] at h2
      have := Option.some.inj h2
      simp only [beq_self_eq_true] at this
      rw [eq_of_beq this]

theorem last_of_lastEq {st : List Wc} (h : lastEq st = false) : st.getLast? ≠ some 0x3D := by
  intro e
  rw [lastEq, e] at h
  simp at h

/-- **C59** (the string itself): for every well-formed output the structure is parsed without leaving the buffer, and the
result describes the output; the hyphens are where the word has them. "Well-formed" (`WellFormed`) leaves out, among malformed
outputs, patterns with a colon, a colon after letters that no pattern describes, and a boundary before the last
character of the output: see the `C59_..._violation` theorems. -/
theorem C59_structure_partial (its : List SItem) (hw : WellFormed its) :
    ∃ st, parseStructure (render its) (content its).length = some st ∧ Describes its st
      ∧ ∀ k : Nat, (strip st)[k]? = some 0x2D ↔ (content its)[k]? = some 0x2D := by
  obtain ⟨st, h1, h2, h3, h4, h5⟩ := parseStructure_ok hw
  have hl : (strip st).length = (content its).length := by
    have := congrArg List.length h2
    simpa [hy] using this
  exact ⟨st, h1, ⟨hl, by have := h5.len' h4; omega, h3, h5.dbl, last_of_lastEq h4, fun k _ => hy_getElem h2 k,
    (hy_getElem h2 0).1, fun h0 => parseStructure_nul h0 h1⟩,
    fun k => hy_getElem h2 k⟩

/-- Two structure strings that differ only in characters that are neither `=` nor `-`, `first` meaning that hyphens of the
first may be other characters in the second. -/
theorem marks_shape : ∀ {s t : List Wc}, SameShape s t → ∀ k, marks k t = marks k s ∧ hy (strip t) = hy (strip s)
    ∧ hasDouble t = hasDouble s ∧ (t.getLast? = some 0x3D ↔ s.getLast? = some 0x3D) ∧ (t.head? = some 0x3D ↔ s.head? = some 0x3D) := by
  intro s
  induction s with
  | nil =>
    intro t h k
    have : t = [] := List.eq_nil_of_length_eq_zero h.1
    subst this
    simp
  | cons x s ih =>
    intro t h k
    cases t with
    | nil => have := h.1; simp at this
    | cons y t =>
      have hxy := h.2 0 x y rfl rfl
      have ht : SameShape s t := ⟨by have := h.1; simpa using this, fun k a b ha hb => h.2 (k + 1) a b (by simpa using ha) (by simpa using hb)⟩
      have e1 : (y = 0x3D ↔ x = 0x3D) := by
        rcases hxy with e | ⟨e1, e2⟩
        · rw [e]
        · constructor <;> intro e <;> omega
      have e2 : (y == 0x2D) = (x == 0x2D) := by
        rcases hxy with e | ⟨e1, e2⟩
        · rw [e]
        · rw [beq_false_of_ne (by omega), beq_false_of_ne (by omega)]
      obtain ⟨i1, i2, i3, i4, i5⟩ := ih ht (k + 1)
      obtain ⟨j1, -⟩ := ih ht k
      refine ⟨?_, ?_, ?_, ?_, ?_⟩
      · rw [marks, marks, i1, j1]
        by_cases hx : x = 0x3D
        · rw [if_pos hx, if_pos (e1.2 hx)]
        · rw [if_neg hx, if_neg (fun e => hx (e1.1 e))]
      · by_cases hx : x = 0x3D
        · simp only [strip, List.filter_cons, hx, e1.2 hx] at i2 ⊢
          simpa using i2
        · have hy' : y ≠ 0x3D := fun e => hx (e1.1 e)
          have a1 : strip (y :: t) = y :: strip t := by simp [strip, hy']
          have a2 : strip (x :: s) = x :: strip s := by simp [strip, hx]
          rw [a1, a2]
          simp only [hy, List.map_cons, e2]
          simp only [hy] at i2
          rw [i2]
      · cases s with
        | nil =>
          have : t = [] := List.eq_nil_of_length_eq_zero ht.1
          subst this; rfl
        | cons u s =>
          cases t with
          | nil => have := ht.1; simp at this
          | cons v t =>
            rw [hasDouble, hasDouble, i3]
            have hv : (v == 0x3D) = (u == 0x3D) := by
              simp only [List.head?_cons, Option.some.injEq] at i5
              rw [Bool.eq_iff_iff, beq_iff_eq, beq_iff_eq]; exact i5
            have hyx : (y == 0x3D) = (x == 0x3D) := by rw [Bool.eq_iff_iff, beq_iff_eq, beq_iff_eq]; exact e1
            rw [hv, hyx]
      · cases s with
        | nil =>
          have : t = [] := List.eq_nil_of_length_eq_zero ht.1
          subst this
          simpa using e1
        | cons u s =>
          cases t with
          | nil => have := ht.1; simp at this
          | cons v t =>
            simpa using i4
      · simpa using e1

theorem nul_shape {s t : List Wc} (h : SameShape s t) (hs : 0 ∉ s) : 0 ∉ t := by
  intro ht
  obtain ⟨k, hk⟩ := List.mem_iff_getElem?.1 ht
  have hlt : k < s.length := by rw [← h.1]; exact (List.getElem?_eq_some_iff.1 hk).1
  rcases h.2 k _ _ (List.getElem?_eq_getElem hlt) hk with e | ⟨_, e⟩
  · exact hs (e ▸ List.getElem_mem hlt)
  · omega

theorem describes_shape {its : List SItem} {s t : List Wc} (h : Describes its s) (hst : SameShape s t) : Describes its t := by
  obtain ⟨h1, h2, h3, h4, h5⟩ := marks_shape hst 0
  have hl : (strip t).length = (strip s).length := by
    have := congrArg List.length h2
    simpa [hy] using this
  exact ⟨hl.trans h.count, by rw [hst.1]; exact h.fits, fun j => by rw [h1]; exact h.borders j, by rw [h3]; exact h.single,
    fun e => h.noTrailing (h4.1 e), fun k hk => (hy_getElem h2 k).trans (h.hyphens k hk),
    fun e => h.first ((hy_getElem h2 0).1 e), fun h0 => nul_shape hst (h.nul h0)⟩

theorem head_mark {its : List SItem} {s : List Wc} (h : Describes its s) (hh : (render its).head? ≠ some 0x2D) :
    s.head? = some 0x3D := by
  have h0 : 0 ∈ marks 0 s := (h.borders 0).2 (Or.inl ⟨rfl, fun e => hh (by
    cases its with
    | nil => cases e
    | cons x r => cases e; rfl)⟩)
  cases s with
  | nil => cases h0
  | cons a s =>
    rw [marks] at h0
    split at h0
    · rename_i e; rw [e]; rfl
    · exfalso
      have key : ∀ (l : List Wc) (k : Nat), 0 < k → 0 ∉ marks k l := by
        intro l
        induction l with
        | nil => intro k _ h; cases h
        | cons c l ih =>
          intro k hk
          rw [marks]
          split
          · rw [List.mem_cons, not_or]; exact ⟨by omega, ih k hk⟩
          · exact ih _ (by omega)
      exact key s 1 (by decide) h0

theorem describes_org {its : List SItem} {s : List Wc} (h : Describes its s) (hh : (render its).head? ≠ some 0x2D) :
    Describes its (s.set 1 0x69) := by
  have h0 := head_mark h hh
  cases s with
  | nil => exact h
  | cons a s =>
    have ha : a = 0x3D := by simpa using h0
    cases s with
    | nil => exact h
    | cons b s =>
      have hb : b ≠ 0x3D := by
        intro e
        have := h.single
        rw [ha, e, hasDouble] at this
        simp at this
      have e1 : (a :: b :: s).set 1 0x69 = a :: 0x69 :: s := rfl
      rw [e1]
      subst ha
      have s1 : strip (0x3D :: b :: s) = b :: strip s := by simp [strip, hb]
      have s2 : strip (0x3D :: 0x69 :: s) = 0x69 :: strip s := by simp [strip]
      refine ⟨?_, ?_, ?_, ?_, ?_, ?_, by rw [s2]; simp, fun h0 => ?_⟩
      · have := h.count; rw [s1] at this; rw [s2]; simpa using this
      · have := h.fits; simpa using this
      · intro j
        rw [← h.borders j]
        simp only [marks, if_neg hb]
        rfl
      · have := h.single
        cases s with
        | nil => rfl
        | cons c s =>
          rw [hasDouble, hasDouble] at this ⊢
          simp only [beq_false_of_ne hb, Bool.and_false, Bool.false_and, Bool.false_or, Bool.or_false] at this
          rw [this]; rfl
      · have := h.noTrailing
        cases s with
        | nil => simp
        | cons c s => simpa using this
      · intro k hk
        have := h.hyphens k hk
        rw [s1] at this
        rw [s2]
        cases k with
        | zero => omega
        | succ k => simpa using this
      · have := h.nul h0
        simp only [List.mem_cons, not_or] at this ⊢
        exact ⟨this.1, by decide, this.2.2⟩

theorem restOfAnalysis_ne {full : Bool} {out st : List Wc} {l : List Ana} (h : restOfAnalysis full out st = some l) : l ≠ [] := by
  simp only [restOfAnalysis, Option.bind_eq_bind, Option.bind_eq_some_iff, Option.pure_def] at h
  obtain ⟨_, _, _, _, _, _, _, _, _, _, h⟩ := h
  cases h
  simp

/-- The analyses of a word, for outputs with an additional property `Q`. -/
theorem analyses_describe (Q : List SItem → Prop) (next : List Wc → List (List Wc)) (word : List Wc) (full : Bool)
    (hnext : ∀ o ∈ next (setCase .allLower word), o.length < 2 ^ 64
      ∧ ∃ its, o = render its ∧ WellFormed its ∧ (content its).length = word.length ∧ Q its) :
    ∃ l, finnishAnalyze next word full = some l
      ∧ (∀ a ∈ l, ∃ its st, render its ∈ (next (setCase .allLower word)).take 99 ∧ isValidAnalysis (render its) = some true
        ∧ (content its).length = word.length ∧ Q its ∧ analysisValue a (lit "STRUCTURE") = some st ∧ Describes its st)
      ∧ (l = [] ↔ 255 < word.length ∨ ∀ o ∈ (next (setCase .allLower word)).take 99, isValidAnalysis o = some false) := by
  rw [finnishAnalyze]
  split
  · rename_i hlong
    exact ⟨[], rfl, fun a ha => (by cases ha), ⟨fun _ => Or.inl hlong, fun _ => rfl⟩⟩
  · rename_i hlong
    generalize next (setCase .allLower word) = N at hnext ⊢
    have hn : ∀ o ∈ N.take 99, o ∈ N := fun o ho => List.mem_of_mem_take ho
    generalize N.take 99 = outs at hn
    have hlong' : ¬ 255 < word.length := hlong
    simp only [hlong', false_or]
    suffices h : ∀ O, (∀ o ∈ outs, o ∈ O) → ∃ l, analyzeOutputs word.length full outs = some l
      ∧ (∀ a ∈ l, ∃ its st, render its ∈ O ∧ isValidAnalysis (render its) = some true
        ∧ (content its).length = word.length ∧ Q its ∧ analysisValue a (lit "STRUCTURE") = some st ∧ Describes its st)
      ∧ (l = [] ↔ ∀ o ∈ outs, isValidAnalysis o = some false) from h outs fun _ h => h
    intro O hO
    induction outs with
    | nil => exact ⟨[], rfl, fun a ha => (by cases ha), by simp⟩
    | cons o r ih =>
      obtain ⟨y, hy, hy2, hy3⟩ := ih (fun o ho => hn o (List.mem_cons_of_mem _ ho)) fun o ho => hO o (List.mem_cons_of_mem _ ho)
      have hoN := hn o (List.mem_cons_self ..)
      have hoO := hO o (List.mem_cons_self ..)
      obtain ⟨hlen, its, rfl, hw, hc, hq⟩ := hnext o hoN
      obtain ⟨v, hv⟩ := C60_validity (render its)
      have hx : ∃ x, analyzeOutput word.length full (render its) = some x ∧ (∀ a ∈ x, ∃ its st, render its ∈ O
          ∧ isValidAnalysis (render its) = some true
          ∧ (content its).length = word.length ∧ Q its ∧ analysisValue a (lit "STRUCTURE") = some st ∧ Describes its st)
          ∧ (x = [] ↔ isValidAnalysis (render its) = some false) := by
        rw [analyzeOutput_eq]
        cases v with
        | false => exact ⟨[], bind_invalid _ _ _ hv, fun a ha => (by cases ha), by simp [hv]⟩
        | true =>
          obtain ⟨st, hst, hd, -⟩ := C59_structure_partial its hw
          rw [hc] at hst
          have hne : render its ≠ [] := by
            intro e
            refine hw.2.2 ?_
            clear hnext hoN hn hlen hw hc hv hst hd hq hO hoO
            induction its with
            | nil => rfl
            | cons a t ih =>
              rw [render] at e
              have e1 := (List.append_eq_nil_iff.1 e).1
              cases a <;> simp [SItem.render] at e1
          have h2 : (render its).head? ≠ some 0x2D → 2 ≤ st.length := by
            intro hh
            have h0 : st.head? = some 0x3D := head_mark hd hh
            have h1 : 0 < (strip st).length := by rw [hd.count]; exact List.length_pos_iff.2 hw.2.2
            match st, h0, h1 with
            | [c], h0, h1 => cases h0; simp [strip] at h1
            | a :: b :: s, _, _ => simp
          obtain ⟨l, hl, st', hs, hl2⟩ := restOfAnalysis_keep full hne hlen h2
          refine ⟨l, (bind_valid _ _ _ hv hst).trans hl, fun a ha => ?_, by simp [hv, restOfAnalysis_ne hl]⟩
          have hd' := describes_shape hd hs
          rcases hl2 a ha with hk | ⟨hk, hh⟩
          · exact ⟨its, st', hoO, hv, hc, hq, hk.str, hd'⟩
          · exact ⟨its, _, hoO, hv, hc, hq, hk.str, describes_org hd' hh⟩
      obtain ⟨x, hx, hx2, hx3⟩ := hx
      refine ⟨x ++ y, by rw [analyzeOutputs, hx, hy]; rfl, fun a ha => ?_, ?_⟩
      · rcases List.mem_append.1 ha with ha | ha
        · exact hx2 a ha
        · exact hy2 a ha
      · rw [List.append_eq_nil_iff, hx3, hy3, List.forall_mem_cons]

/-- **C59** (the analyses): if every output of the transducer for a word is well-formed and spells a word of that length
then the analysis ends without undefined behaviour, the STRUCTURE of every analysis describes one of the valid outputs that
are read, and there are analyses if one of these is valid (and the word has at most 255 characters).
See `C59_structure_partial` for what "well-formed" leaves out. -/
theorem C59_analysis_partial (next : List Wc → List (List Wc)) (word : List Wc) (full : Bool)
    (hnext : ∀ o ∈ next (setCase .allLower word), o.length < 2 ^ 64
      ∧ ∃ its, o = render its ∧ WellFormed its ∧ (content its).length = word.length) :
    ∃ l, finnishAnalyze next word full = some l
      ∧ (∀ a ∈ l, ∃ its st, render its ∈ (next (setCase .allLower word)).take 99 ∧ isValidAnalysis (render its) = some true
        ∧ (content its).length = word.length ∧ analysisValue a (lit "STRUCTURE") = some st ∧ Describes its st)
      ∧ (l = [] ↔ 255 < word.length ∨ ∀ o ∈ (next (setCase .allLower word)).take 99, isValidAnalysis o = some false) := by
  obtain ⟨l, h1, h2, h3⟩ := analyses_describe (fun _ => True) next word full fun o ho => by
    obtain ⟨a, its, b, c, d⟩ := hnext o ho
    exact ⟨a, its, b, c, d, trivial⟩
  refine ⟨l, h1, fun a ha => ?_, h3⟩
  obtain ⟨its, st, e1, e2, e3, _, e4, e5⟩ := h2 a ha
  exact ⟨its, st, e1, e2, e3, e4, e5⟩

/-- A compound with a pattern for its first part, a hyphen and a boundary, and what its structure is. -/
def exampleItems : List SItem :=
  [.cls2 0x65 0x70, .pat (lit "ipp-i=p")] ++ (lit "abc-de").map .chr ++ [.bound 0x63, .cls 0x6E] ++ (lit "fg").map .chr
    ++ [.tag (lit "Sn")]

example : WellFormed exampleItems ∧ render exampleItems = lit "[Lep][Xr]ipp-i=p[X]abc-de[Bc][Ln]fg[Sn]"
    ∧ parseStructure (render exampleItems) 8 = some (lit "=ipp-i=p=pp") := by
  refine ⟨⟨?_, ?_, by decide⟩, by decide, by decide +kernel⟩
  · simp [exampleItems, lit, WfItems, strip, hasDouble, content, render, SItem.render]
  · simp [exampleItems, FirstOk, lit]

/-- **C59** fails for a pattern with a colon: five characters for a word of three. -/
theorem C59_pattern_colon_violation : parseStructure (lit "[Lem][Xr]i:i[X]a:b") 3 = some (lit "=i:i:")
    ∧ (strip (lit "=i:i:")).length = 4 := by decide +kernel

/-- **C59**: a colon inside of a word comes out before the letters that precede it. -/
theorem C59_colon_order_violation : parseStructure (lit "[Ln]a:b") 3 = some (lit "=:pp") := by decide +kernel

/-- **C59**: a boundary between the last two characters of the output is lost. -/
theorem C59_lost_border_violation : parseStructure (lit "[Ln]ab[Bc]c") 3 = some (lit "=ppp")
    ∧ parseStructure (lit "[Ln]ab[Bc]c[Sn]") 3 = some (lit "=pp=p") := by decide +kernel

/-- **C59**: a boundary after a single initial character comes out before that character, and `=` is doubled. -/
theorem C59_initial_border_violation : parseStructure (lit "a[Bc]bc[Sn]") 3 = some (lit "==ppp") := by decide +kernel

/-- **C59**: outputs whose structure does not fit in the buffer: a boundary with nothing behind it, and an output for an
empty word. -/
theorem C59_overflow_violation : isValidAnalysis (lit "[Ln]a[Bc][Sn]") = some true ∧ parseStructure (lit "[Ln]a[Bc][Sn]") 1 = none
    ∧ parseStructure (lit "[Ln]") 0 = none := by decide +kernel

end Verif.Props
