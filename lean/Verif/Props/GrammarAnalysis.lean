import Verif.Lemmas.GrammarCache
/-! C54 and C56: the analysed paragraph and the capitalisation check. -/

namespace Verif.Props
open Verif
set_option linter.unusedSimpArgs false
set_option linter.unusedVariables false

/-- C54: the text is cut into sentences; if one of the first 200 has more than 500 tokens there is no result, otherwise
the result consists of the first 200 sentences: they follow each other from position 0, the tokens of each are those of
the tokenizer, and they follow each other. -/
theorem C54_analysis (an : List Wc → List GramAn) (hs : HasStructure an) (spellOk : List Wc → Bool) (dot : Bool)
    (text : List Wc) :
    ∃ xs, splitProbable spellOk (text.length + 1) text = some xs ∧ xs.flatten = text ∧
      (((∃ x ∈ xs.take 200, TooLong x) ∧ analyseParagraph an spellOk dot text = some none) ∨
       ((∀ x ∈ xs.take 200, ¬ TooLong x) ∧ ∃ p, analyseParagraph an spellOk dot text = some (some p) ∧
          ParaOk 0 (xs.take 200) p)) := by
  obtain ⟨xs, h1, h2⟩ := paraLoop_spec an hs spellOk dot maxSentences text 0
  obtain ⟨s, ss, g1, g2⟩ := splitProbable_some spellOk text
  rw [h1, Option.some.injEq] at g1
  subst g1
  exact ⟨_, h1, g2, h2⟩

theorem consec_at (pre post : List Wc) (toks : List GTok) : ∀ (off : Nat) (mid : List Wc), mid.length = off →
    Consec off toks → ∀ t ∈ toks,
      ((mid ++ (toks.map fun t => t.str).flatten ++ post).drop t.pos).take t.str.length = t.str := by
  induction toks with
  | nil => intro off mid _ _ t ht; simp at ht
  | cons x toks ih =>
    intro off mid hm h t ht
    rcases List.mem_cons.1 ht with rfl | ht
    · rw [h.1, ← hm]
      simp
    · have := ih (off + x.str.length) (mid ++ x.str) (by simp [hm]) h.2 t ht
      simpa using this

theorem paraOk_at (xs : List (List Wc)) : ∀ (p : List GSent) (off : Nat) (pre post : List Wc), pre.length = off →
    ParaOk off xs p → ∀ s ∈ p, ∀ t ∈ s.tokens,
      ((pre ++ xs.flatten ++ post).drop t.pos).take t.str.length = t.str := by
  induction xs with
  | nil =>
    intro p off pre post _ h s hs
    cases p with
    | nil => simp at hs
    | cons => simp [ParaOk] at h
  | cons x xs ih =>
    intro p off pre post hp h s hs t ht
    cases p with
    | nil => simp at hs
    | cons q p =>
      obtain ⟨h1, h2, h3, h4⟩ := h
      rcases List.mem_cons.1 hs with rfl | hs
      · obtain ⟨tks, g1, hcat, _⟩ := C01_tiling x false
        rw [h2, Option.some.injEq] at g1
        subst g1
        have hstr : (s.tokens.map fun t => t.str).flatten = x := by
          rw [List.map_map] at hcat
          exact hcat
        have := consec_at [] (xs.flatten ++ post) s.tokens off pre hp h3 t ht
        rw [hstr] at this
        simpa using this
      · have := ih p _ (pre ++ x) post (by simp [hp]) h4 s hs t ht
        simpa using this

/-- C54: every token of the result is the text at its position. -/
theorem C54_token_text (an : List Wc → List GramAn) (hs : HasStructure an) (spellOk : List Wc → Bool) (dot : Bool)
    (text : List Wc) (p : List GSent) (h : analyseParagraph an spellOk dot text = some (some p)) :
    ∀ s ∈ p, ∀ t ∈ s.tokens, t.str ≠ [] ∧ (text.drop t.pos).take t.str.length = t.str := by
  obtain ⟨xs, h1, h2, h3⟩ := C54_analysis an hs spellOk dot text
  rcases h3 with ⟨_, h3⟩ | ⟨_, q, h3, h4⟩
  · rw [h] at h3
    simp at h3
  · rw [h, Option.some.injEq, Option.some.injEq] at h3
    subst h3
    intro s hs' t ht
    refine ⟨?_, ?_⟩
    · have key : ∀ (xs : List (List Wc)) (p : List GSent) (off : Nat), ParaOk off xs p → ∀ s ∈ p, ∀ t ∈ s.tokens, t.str ≠ [] := by
        intro xs
        induction xs with
        | nil =>
          intro p off h s hs
          cases p with
          | nil => simp at hs
          | cons => simp [ParaOk] at h
        | cons x xs ih =>
          intro p off h s hs t ht
          cases p with
          | nil => simp at hs
          | cons q p =>
            obtain ⟨g1, g2, g3, g4⟩ := h
            rcases List.mem_cons.1 hs with rfl | hs
            · obtain ⟨tks, k1, _, hne⟩ := C01_tiling x false
              rw [g2, Option.some.injEq] at k1
              subst k1
              exact hne _ (List.mem_map_of_mem (f := fun t : GTok => (t.type, t.str)) ht)
            · exact ih p _ g4 s hs t ht
      exact key _ p 0 h4 s hs' t ht
    · have := paraOk_at (xs.take 200) p 0 [] (xs.drop 200).flatten rfl h4 s hs' t ht
      rw [List.nil_append, ← List.flatten_append, List.take_append_drop, h2] at this
      exact this

/-- "Ok. Joo, ab." with an analyser that knows no words: two sentences. -/
example : ((analyseParagraph (fun _ => []) (fun _ => false) false (lit "Ok. Joo, ab.")).map fun r => r.map fun p =>
      p.map fun s => (s.pos, s.tokens.map fun t => (t.pos, t.str))) =
    some (some [(0, [(0, lit "Ok"), (2, lit "."), (3, lit " ")]),
      (4, [(4, lit "Joo"), (7, lit ","), (8, lit " "), (9, lit "ab"), (11, lit ".")])]) := by decide +kernel

/-- Without a STRUCTURE the analysis has undefined behaviour (a null pointer is read). -/
theorem C54_violation_null_structure :
    analyseParagraph (fun _ => [{}]) (fun _ => false) false (lit "Ok.") = none := by decide +kernel

/-- C56: for every paragraph with non-empty tokens, however the tokens and sentences are arranged, the capitalisation
check ends after at most as many steps as there are tokens and never uses a null token: the result is defined, and more
steps do not change it. -/
theorem C56_capitalisation (o : GramOpts) (p : List GSent) (h : ∀ s ∈ p, ∀ t ∈ s.tokens, t.str ≠ []) :
    ∃ es, capCheck o p = some es ∧
      ∀ fuel, (p.map fun s => s.tokens.length).sum ≤ fuel → (capLoop o p fuel .initial {}).map (·.errs) = some es := by
  obtain ⟨N, hN⟩ : ∃ N, AllIn N p := by
    refine ⟨(p.map fun s => (s.tokens.map fun t => t.pos + t.str.length).sum).sum, fun s hs t ht => ⟨h s hs t ht, ?_⟩⟩
    have key : ∀ {α : Type} (f : α → Nat) (l : List α) (x : α), x ∈ l → f x ≤ (l.map f).sum := by
      intro α f l
      induction l with
      | nil => intro x hx; simp at hx
      | cons y l ih =>
        intro x hx
        simp only [List.map_cons, List.sum_cons]
        rcases List.mem_cons.1 hx with rfl | hx
        · omega
        · have := ih x hx; omega
    have h1 := key (fun t : GTok => t.pos + t.str.length) s.tokens t ht
    have h2 := key (fun s : GSent => (s.tokens.map fun t => t.pos + t.str.length).sum) p s hs
    omega
  have hinv : CapInv p N {} := ⟨⟨Nat.zero_le _, Or.inl rfl⟩, by simp, by simp⟩
  obtain ⟨c, h1, h2⟩ := capLoop_spec o p N hN (tokenTotal p) .initial {} hinv (by simp [rem, tokenTotal]) (Or.inl rfl)
  refine ⟨c.errs, by unfold capCheck; rw [h1]; rfl, fun fuel hf => ?_⟩
  have := capLoop_fuel o p (tokenTotal p) (fuel - tokenTotal p) .initial {} c h1
  rw [show tokenTotal p + (fuel - tokenTotal p) = fuel by unfold tokenTotal; omega] at this
  rw [this]
  rfl

/-- A token for the examples. -/
def capTok (ty : TokenType) (s : String) (pos : Nat) : GTok := { type := ty, str := lit s, pos := pos }

/-- A paragraph that visits several states: an upper case word that could be written in lower case, in the middle of a
sentence. -/
example : capCheck {} [⟨0, [capTok .word "Se" 0, capTok .whitespace " " 2,
      { capTok .word "Koira" 3 with isValidWord := true, firstLetterLcase := true },
      capTok .whitespace " " 8, capTok .word "on" 9, capTok .punctuation "." 11], .none⟩] =
    some [⟨6, 3, 5, [lit "koira"]⟩] := by decide +kernel

end Verif.Props
