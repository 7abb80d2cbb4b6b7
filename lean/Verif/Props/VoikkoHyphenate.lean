import Verif.Model.VoikkoHyphenate
import Verif.Props.HyphMarks
/-! C87: what the hyphenation program prints. -/

namespace Verif.Props
open Verif

/-- What is printed for one character of a word. -/
def printedPiece (sep p c : Wc) : List Wc :=
  if p = 0x20 then [c] else if p = 0x3D ∧ sep = 0x2D then [sep] else [sep, c]

theorem toolLoop_spec (cap : Nat) (sep : Wc) : ∀ (w pat : List Wc) (r1 r2 buf : List Wc), pat.length = w.length → buf.length + 2 * w.length < cap →
    hyphenateWordLoop cap sep w.length (pat ++ r1) (w ++ r2) buf = some (buf ++ (List.zipWith (printedPiece sep) pat w).flatten) := by
  intro w
  induction w with
  | nil => intro pat r1 r2 buf h _; cases pat with
    | nil => simp [hyphenateWordLoop]
    | cons => simp at h
  | cons c w ih =>
    intro pat r1 r2 buf h hl
    cases pat with
    | nil => simp at h
    | cons p pat =>
      simp only [List.length_cons] at h hl
      have step : ∀ b' : List Wc, b'.length + 2 * w.length < cap →
          hyphenateWordLoop cap sep w.length (pat ++ r1) (w ++ r2) b' = some (b' ++ (List.zipWith (printedPiece sep) pat w).flatten) :=
        fun b' hb => ih pat r1 r2 b' (by omega) hb
      have e0 : ∀ (x : Wc) (b' : List Wc), b'.length < cap → pushChar cap b' x = some (b' ++ [x]) := fun x b' hb => by unfold pushChar; rw [if_pos hb]
      rw [List.length_cons, hyphenateWordLoop]
      by_cases h1 : p = 0x20
      · simp [rd, h1, e0 c buf (by omega), step (buf ++ [c]) (by simp; omega), printedPiece]
      · by_cases h2 : p = 0x3D ∧ sep = 0x2D
        · obtain ⟨rfl, rfl⟩ := h2
          simp [rd, e0 0x2D buf (by omega), step (buf ++ [0x2D]) (by simp; omega), printedPiece]
        · have h3 : p ≠ 0x3D ∨ sep ≠ 0x2D := by
            by_cases h4 : p = 0x3D
            · exact Or.inr fun h5 => h2 ⟨h4, h5⟩
            · exact Or.inl h4
          simp only [rd, List.cons_append, List.getElem?_cons_zero, Option.bind_eq_bind, Option.bind_some, List.drop_succ_cons, List.drop_zero]
          rw [if_pos h1, e0 sep buf (by omega), Option.bind_some, if_pos h3, e0 c _ (by simp; omega), Option.bind_some, step _ (by simp; omega)]
          simp [printedPiece, h1, h2]

theorem mem_printedPiece {sep p c x : Wc} (h : x ∈ printedPiece sep p c) : x = sep ∨ x = c := by
  unfold printedPiece at h
  split at h
  · exact Or.inr (List.mem_singleton.1 h)
  · split at h
    · exact Or.inl (List.mem_singleton.1 h)
    · simpa using h

theorem mem_printed {sep x : Wc} : ∀ {pat w : List Wc}, x ∈ (List.zipWith (printedPiece sep) pat w).flatten → x = sep ∨ x ∈ w
  | [], w, h => by simp at h
  | p :: pat, [], h => by simp at h
  | p :: pat, c :: w, h => by
    rw [List.zipWith_cons_cons, List.flatten_cons, List.mem_append] at h
    rcases h with h | h
    · exact (mem_printedPiece h).imp id (fun e => by simp [e])
    · exact (mem_printed h).imp id (fun e => List.mem_cons_of_mem _ e)

/-- The line for a word. -/
theorem tool_line (o : HyphOpts) (an : Analyzer) (sep : Wc) (hs : sep ≠ 0) (w pat : List Wc) (h0 : 0 ∉ w) (h : hyphenateUcs4 o an w = some (some pat)) :
    hyphenateWordTool o an sep w = some ((List.zipWith (printedPiece sep) pat w).flatten ++ nl) := by
  obtain ⟨hl, _⟩ := C35_pattern o an w pat h0 h
  have hb := toolLoop_spec (w.length * 2 + 1) sep w pat [0] [0] [] hl (by simp; omega)
  have hlen : ∀ (w pat : List Wc), (List.zipWith (printedPiece sep) pat w).flatten.length ≤ 2 * w.length := by
    intro w
    induction w with
    | nil => simp
    | cons c w ih =>
      intro pat
      cases pat with
      | nil => simp
      | cons p pat =>
        have : (printedPiece sep p c).length ≤ 2 := by unfold printedPiece; split <;> (try split) <;> simp
        have := ih pat
        simp only [List.zipWith_cons_cons, List.flatten_cons, List.length_append, List.length_cons]
        omega
  have h0' : 0 ∉ (List.zipWith (printedPiece sep) pat w).flatten := fun hm => (mem_printed hm).elim (fun e => hs e.symm) h0
  unfold hyphenateWordTool
  rw [h]
  simp only [Option.bind_eq_bind, Option.bind_some]
  rw [hb, Option.bind_some]
  unfold pushChar
  rw [if_pos (by have := hlen w pat; rw [List.nil_append]; omega), List.nil_append, Option.bind_some]
  have : cstr ((List.zipWith (printedPiece sep) pat w).flatten ++ [0]) = (List.zipWith (printedPiece sep) pat w).flatten := by
    unfold cstr
    rw [List.takeWhile_append_of_pos (by intro x hx; simp; rintro rfl; exact h0' hx)]
    simp
  rw [this]
  rfl

/-- C87: with usable structures the program has no undefined behaviour, whatever the separator is, and prints a line for every word of valid
characters. Missing for the full claim: other structures (C36). -/
theorem C87_total_partial (o : HyphOpts) (an : Analyzer) (ha : StructuresOk an) (sep : Wc) (hs : sep ≠ 0) (w : List Wc) (h0 : 0 ∉ w) :
    ∃ out, hyphenateWordTool o an sep w = some out ∧ ((∀ c ∈ w, ValidCp c) → ∃ l, out = l ++ nl) := by
  obtain ⟨p, h3, hp⟩ := C36_partial o an ha w h0
  cases p with
  | some pat => exact ⟨_, tool_line o an sep hs w pat h0 h3, fun _ => ⟨_, rfl⟩⟩
  | none =>
    refine ⟨[], ?_, fun hv => absurd hv (hp.1 rfl).2⟩
    unfold hyphenateWordTool
    rw [h3]
    rfl

/-- C87: with a separator other than the hyphen, the characters of the word are printed, and a separator before those where the pattern of
`voikkoHyphenateUcs4` is not blank. -/
theorem C87_separator (o : HyphOpts) (an : Analyzer) (sep : Wc) (hs : sep ≠ 0) (hd : sep ≠ 0x2D) (w pat : List Wc) (h0 : 0 ∉ w)
    (h : hyphenateUcs4 o an w = some (some pat)) :
    ∃ pieces : List (List Wc), hyphenateWordTool o an sep w = some (pieces.flatten ++ [0x0A]) ∧ pieces.length = w.length ∧
      ∀ (i : Nat) (c p : Wc), w[i]? = some c → pat[i]? = some p → pieces[i]? = some (if p = 0x20 then [c] else [sep, c]) := by
  obtain ⟨hl, _⟩ := C35_pattern o an w pat h0 h
  refine ⟨_, tool_line o an sep hs w pat h0 h, by simp [hl], ?_⟩
  intro i c p hc hp
  rw [List.getElem?_zipWith, hp, hc]
  simp [printedPiece, hd]

/-- C87: deleting the separators gives the word back, if the word does not contain the separator. -/
theorem C87_reversible (o : HyphOpts) (an : Analyzer) (sep : Wc) (hs : sep ≠ 0) (hd : sep ≠ 0x2D) (hn : sep ≠ 0x0A) (w pat : List Wc) (h0 : 0 ∉ w) (hw : sep ∉ w)
    (h : hyphenateUcs4 o an w = some (some pat)) :
    ∃ out, hyphenateWordTool o an sep w = some out ∧ out.filter (· ≠ sep) = w ++ [0x0A] := by
  obtain ⟨hl, _⟩ := C35_pattern o an w pat h0 h
  refine ⟨_, tool_line o an sep hs w pat h0 h, ?_⟩
  have key : ∀ (w pat : List Wc), pat.length = w.length → sep ∉ w → (List.zipWith (printedPiece sep) pat w).flatten.filter (· ≠ sep) = w := by
    intro w
    induction w with
    | nil => simp
    | cons c w ih =>
      intro pat hl hw
      cases pat with
      | nil => simp at hl
      | cons p pat =>
        simp only [List.mem_cons, not_or] at hw
        have hcs : c ≠ sep := fun e => hw.1 e.symm
        have := ih pat (by simpa using hl) hw.2
        rw [List.zipWith_cons_cons, List.flatten_cons, List.filter_append, this]
        unfold printedPiece
        by_cases h1 : p = 0x20 <;> simp [h1, hd, hcs]
  rw [List.filter_append, key w pat hl hw]
  have : (0x0A : Nat) ≠ sep := fun e => hn e.symm
  simp [nl, this]

/-- C87: with the hyphen as separator the program prints what `voikkoInsertHyphensCstr` returns for the hyphen with context changes. -/
theorem C87_insert (o : HyphOpts) (an : Analyzer) (word out : List Nat) (hb : ∀ b ∈ word, b < 256) (h0b : 0 ∉ word)
    (h : insertHyphensCstr o an word [0x2D] true = some (some out)) :
    ∃ w line, ucs4FromUtf8 word = some (some w) ∧ hyphenateWordTool o an 0x2D w = some (line ++ [0x0A]) ∧ encodeStr line = out := by
  obtain ⟨w', pat, pieces, e1, e2, e3, e4, e5⟩ := C40_context o an word [0x2D] out hb h0b (by decide) (by decide) h
  obtain ⟨_, _, h0⟩ := decoded word w' hb h0b e1
  have hpat : hyphenateUcs4 o an w' = some (some pat) := by
    unfold hyphenateCstr at e2
    split at e2
    · cases e2
    · rw [e1] at e2
      have e2' : hyphenateUcs4 o an (cstr w') = some (some pat) := e2
      rw [cstr_eq w' h0] at e2'
      exact e2'
  obtain ⟨hl, hpc⟩ := C35_pattern o an w' pat h0 hpat
  refine ⟨w', _, e1, tool_line o an 0x2D (by decide) w' pat h0 hpat, ?_⟩
  rw [encodeStr_flatten, e4]
  congr 1
  refine List.ext_getElem? fun i => ?_
  rw [List.getElem?_map, List.getElem?_zipWith]
  by_cases hi : i < w'.length
  · obtain ⟨g1, g2, g3⟩ := e5 i _ (List.getElem?_eq_getElem hi)
    have hp : pat[i]? = some (pat[i]'(by omega)) := List.getElem?_eq_getElem _
    rw [List.getElem?_eq_getElem hi]
    rcases hpc _ (List.getElem_mem (by omega : i < pat.length)) with h' | h' | h'
    · rw [h'] at hp; rw [hp, g1 hp]; simp [printedPiece, encodeStr]
    · rw [h'] at hp; rw [hp, g2 hp]; simp [printedPiece, encodeStr]; rfl
    · rw [h'] at hp; rw [hp, g3 hp]
      by_cases hc : w'[i] = 0x2D
      · rw [if_pos hc, hc]; decide
      · rw [if_neg hc]; simp [printedPiece, encodeStr]; decide
  · rw [List.getElem?_eq_none (by omega : w'.length ≤ i), List.getElem?_eq_none (by omega : pat.length ≤ i), List.getElem?_eq_none (by omega : pieces.length ≤ i)]
    rfl

/-- C87: with the hyphen as separator nothing is lost but apostrophes before a vowel. -/
theorem C87_hyphen (o : HyphOpts) (an : Analyzer) (w pat : List Wc) (h0 : 0 ∉ w) (hfit : ∀ a ∈ usedAnalyses o an w, StructureFits (w.take (usedLen o an w)) a)
    (h : hyphenateUcs4 o an w = some (some pat)) :
    ∃ pieces : List (List Wc), hyphenateWordTool o an 0x2D w = some (pieces.flatten ++ [0x0A]) ∧ pieces.length = w.length ∧
      ∀ (i : Nat) (c : Wc), w[i]? = some c → pieces[i]? = some [c] ∨ pieces[i]? = some [0x2D, c] ∨ (pieces[i]? = some [0x2D] ∧ c = 0x27 ∧ Removable w i) := by
  obtain ⟨hl, hpc⟩ := C35_pattern o an w pat h0 h
  refine ⟨_, tool_line o an 0x2D (by decide) w pat h0 h, by simp [hl], ?_⟩
  intro i c hc
  have hi : i < w.length := (List.getElem?_eq_some_iff.1 hc).1
  have hp : pat[i]? = some (pat[i]'(by omega)) := List.getElem?_eq_getElem _
  rw [List.getElem?_zipWith, hc]
  rcases hpc _ (List.getElem_mem (by omega : i < pat.length)) with h' | h' | h'
  · rw [h'] at hp; rw [hp]; left; simp [printedPiece]
  · rw [h'] at hp; rw [hp]; right; left; simp [printedPiece]
  · rw [h'] at hp
    have hR := C69_marks o an w pat h0 hfit h i hp
    rw [hp]
    rcases hR.2.2 with k | ⟨k, _⟩
    · rw [hc] at k; cases k; left; simp [printedPiece]
    · rw [hc] at k; cases k; right; right; exact ⟨by simp [printedPiece], rfl, hR⟩

/-- C87: the lines come in the order of the words. -/
theorem C87_lines (o : HyphOpts) (an : Analyzer) (sep : Wc) : ∀ (ws ls : List (List Wc)), ws.mapM (hyphenateWordTool o an sep) = some ls →
    hyphenateTool o an sep ws = some ls.flatten
  | [], ls, h => by simp at h; subst h; rfl
  | w :: r, ls, h => by
    rw [List.mapM_cons] at h
    cases h1 : hyphenateWordTool o an sep w with
    | none => rw [h1] at h; simp at h
    | some l =>
      cases h2 : r.mapM (hyphenateWordTool o an sep) with
      | none => rw [h1, h2] at h; simp at h
      | some ls' =>
        rw [h1, h2] at h
        simp at h
        subst h
        simp [hyphenateTool, h1, C87_lines o an sep r ls' h2]

/-- Words with a hyphen and an apostrophe, printed with different separators. -/
example : hyphenateTool {} (fun _ => []) 0x2D [lit "aa-raa'an", lit "kissa"] = some (lit "aa-raa-an\nkis-sa\n") ∧
    hyphenateTool {} (fun _ => []) 0x2B [lit "aa-raa'an", lit "kissa"] = some (lit "aa+-raa+'an\nkis+sa\n") := by decide +kernel

end Verif.Props
