import Verif.Spec.Grammar
/-! Lemmas about the analysis of a paragraph. -/

namespace Verif.Props
open Verif
set_option linter.unusedSimpArgs false
set_option linter.unusedVariables false

/-! ### Tokens -/

/-- Type, text and position are kept. -/
def SameTok (t u : GTok) : Prop := u.type = t.type ∧ u.str = t.str ∧ u.pos = t.pos

theorem SameTok.rfl' (t : GTok) : SameTok t t := ⟨rfl, rfl, rfl⟩

theorem SameTok.trans {a b c : GTok} (h : SameTok a b) (g : SameTok b c) : SameTok a c :=
  ⟨g.1.trans h.1, g.2.1.trans h.2.1, g.2.2.trans h.2.2⟩

theorem anaConj_same (a : GramAn) (l : Wc) (t : GTok) : SameTok t (anaConj a l t) := by
  unfold anaConj; split <;> exact ⟨rfl, rfl, rfl⟩

theorem anaVerb_same (a : GramAn) (t : GTok) : SameTok t (anaVerb a t) := by
  unfold anaVerb; repeat' split
  all_goals exact ⟨rfl, rfl, rfl⟩

theorem anaRequire_same (a : GramAn) (f : Bool) (t : GTok) : SameTok t (anaRequire a f t) := by
  unfold anaRequire; extract_lets; repeat' split
  all_goals exact ⟨rfl, rfl, rfl⟩

theorem anaFollower_same (a : GramAn) (f : Bool) (t : GTok) : SameTok t (anaFollower a f t).1 := by
  unfold anaFollower; extract_lets; repeat' split
  all_goals exact ⟨rfl, rfl, rfl⟩

theorem anaCase_some (a : GramAn) (t : GTok) (h : a.struct ≠ none) : ∃ u, anaCase a t = some u ∧ SameTok t u := by
  unfold anaCase
  cases e : a.struct with
  | none => exact absurd e h
  | some st =>
    simp only
    split
    · exact ⟨_, rfl, rfl, rfl, rfl⟩
    · exact ⟨_, rfl, rfl, rfl, rfl⟩

theorem anaLoop_some (l : Wc) (as : List GramAn) (h : ∀ a ∈ as, a.struct ≠ none) (first set : Bool) (t : GTok) :
    ∃ u, anaLoop l first set t as = some u ∧ SameTok t u := by
  induction as generalizing first set t with
  | nil => exact ⟨t, rfl, SameTok.rfl' t⟩
  | cons a as ih =>
    obtain ⟨u, h1, h2⟩ := anaCase_some a { t with isValidWord := true } (h a (by simp))
    obtain ⟨v, g1, g2⟩ := ih (fun b hb => h b (by simp [hb])) false
      (anaFollower a set (anaRequire a first
        { anaVerb a (anaConj a l u) with
          possibleGeo := (anaVerb a (anaConj a l u)).possibleGeo || isLit a.possibleGeo "true" })).2
      (anaFollower a set (anaRequire a first
        { anaVerb a (anaConj a l u) with
          possibleGeo := (anaVerb a (anaConj a l u)).possibleGeo || isLit a.possibleGeo "true" })).1
    refine ⟨v, ?_, ?_⟩
    · rw [anaLoop, h1]
      exact g1
    · refine SameTok.trans ?_ g2
      refine SameTok.trans ?_ (anaFollower_same a set _)
      refine SameTok.trans ?_ (anaRequire_same a first _)
      have h3 : SameTok t u := h2
      have h4 := h3.trans ((anaConj_same a l u).trans (anaVerb_same a _))
      exact h4

theorem analyseToken_some (an : List Wc → List GramAn) (hs : HasStructure an) (ty : TokenType) (str : List Wc) (pos : Nat)
    (h : str ≠ []) : ∃ t, analyseToken an ty str pos = some t ∧ t.type = ty ∧ t.str = str ∧ t.pos = pos := by
  unfold analyseToken
  split
  · exact ⟨_, rfl, rfl, rfl, rfl⟩
  · have hl : str.length - 1 < str.length := by
      have := List.length_pos_iff.2 h; omega
    rw [rd_eq_some hl]
    obtain ⟨u, h1, h2, h3, h4⟩ := anaLoop_some str[str.length - 1] (an (stripShy str)) (hs _) true false
      { type := ty, str := str, pos := pos, firstLetterLcase := true }
    simp only [Option.bind_eq_bind, Option.bind_some, h1]
    split
    · exact ⟨_, rfl, h2, h3, h4⟩
    · exact ⟨_, rfl, h2, h3, h4⟩

/-! ### Sentences -/

theorem tokenStream_nil (fuel : Nat) : tokenStream false (fuel + 1) [] = some [] := by
  rw [tokenStream, C01_empty]

theorem sentTokens_spec (an : List Wc → List GramAn) (hs : HasStructure an) (n : Nat) :
    ∀ (start : Bool) (rest : List Wc) (off fuel : Nat), rest.length < fuel → rest ≠ [] ∨ 0 < n →
      ∃ toks, tokenStream false fuel rest = some toks ∧
        ((n < toks.length ∧ sentTokens an n start rest off = some none) ∨
         (toks.length ≤ n ∧ ∃ gt, sentTokens an n start rest off = some (some gt) ∧
            gt.map (fun t => (t.type, t.str)) = toks ∧ Consec off gt)) := by
  induction n with
  | zero =>
    intro start rest off fuel hf hr
    have hne : rest ≠ [] := by rcases hr with h | h; exact h; omega
    obtain ⟨F, rfl⟩ : ∃ F, fuel = F + 1 := ⟨fuel - 1, by omega⟩
    obtain ⟨t, m, h1, h2, h3, h4⟩ := C01_progress rest false hne
    obtain ⟨toks, g1, _⟩ := (C01_tiling (rest.drop m) false)
    have : ∃ toks, tokenStream false F (rest.drop m) = some toks := by
      -- any sufficient fuel gives a result
      have key : ∀ (F : Nat) (x : List Wc), x.length < F → ∃ toks, tokenStream false F x = some toks := by
        intro F
        induction F with
        | zero => intro x h; omega
        | succ F ih =>
          intro x hx
          by_cases hx0 : x = []
          · subst hx0; exact ⟨[], tokenStream_nil F⟩
          · obtain ⟨t, m, h1, h2, h3, h4⟩ := C01_progress x false hx0
            obtain ⟨ts, hts⟩ := ih (x.drop m) (by rw [List.length_drop]; omega)
            refine ⟨(t, x.take m) :: ts, ?_⟩
            rw [tokenStream, h1]
            cases t <;> first | exact absurd rfl h2 | simp [hts]
      exact key F _ (by rw [List.length_drop]; omega)
    obtain ⟨ts, hts⟩ := this
    refine ⟨(t, rest.take m) :: ts, ?_, Or.inl ⟨by simp, rfl⟩⟩
    rw [tokenStream, h1]
    cases t <;> first | exact absurd rfl h2 | simp [hts]
  | succ n ih =>
    intro start rest off fuel hf hr
    obtain ⟨F, rfl⟩ : ∃ F, fuel = F + 1 := ⟨fuel - 1, by omega⟩
    by_cases hne : rest = []
    · subst hne
      refine ⟨[], tokenStream_nil F, Or.inr ⟨by simp, [], ?_, rfl, trivial⟩⟩
      rw [sentTokens, C01_empty]
      rfl
    · obtain ⟨tt, m, h1, h2, h3, h4⟩ := C01_progress rest false hne
      have htake : rest.take m ≠ [] := by
        intro h
        have := congrArg List.length h
        simp only [List.length_take, List.length_nil] at this
        omega
      obtain ⟨t, a1, a2, a3, a4⟩ := analyseToken_some an hs tt (rest.take m) off htake
      have hTs : ∀ ts, tokenStream false F (rest.drop m) = some ts →
          tokenStream false (F + 1) rest = some ((tt, rest.take m) :: ts) := by
        intro ts hts
        rw [tokenStream, h1]
        cases tt <;> first | exact absurd rfl h2 | simp [hts]
      by_cases hend : rest.length = m
      · have hd : rest.drop m = [] := by rw [← hend]; simp
        have hF : ∃ F', F = F' + 1 := ⟨F - 1, by omega⟩
        obtain ⟨F', rfl⟩ := hF
        refine ⟨[(tt, rest.take m)], hTs [] (by rw [hd]; exact tokenStream_nil F'),
          Or.inr ⟨by simp, [if (start && tt == .word) = true then { t with possibleSentenceStart := true } else t], ?_,
            ?_, ?_⟩⟩
        · rw [sentTokens, h1]
          simp only [Option.bind_eq_bind, Option.bind_some]
          rw [if_neg h2, if_neg (by omega), a1]
          simp only [Option.bind_some]
          rw [if_pos hend]
          rfl
        · split <;> simp [a2, a3]
        · refine ⟨?_, trivial⟩
          split
          · exact a4
          · exact a4
      · have hdl : (rest.drop m).length < F := by rw [List.length_drop]; omega
        have hdn : rest.drop m ≠ [] := by
          intro h
          have := congrArg List.length h
          simp only [List.length_drop, List.length_nil] at this
          omega
        obtain ⟨ts, g1, g2⟩ := ih (if (start && tt == .word) = true then false else start || maySeparate tt (rest.take m))
          (rest.drop m) (off + m) F hdl (Or.inl hdn)
        have hstep : ∀ r, sentTokens an n
            (if (start && tt == .word) = true then false else start || maySeparate tt (rest.take m))
            (rest.drop m) (off + m) = some r →
            sentTokens an (n + 1) start rest off = some (r.map
              ((if (start && tt == .word) = true then { t with possibleSentenceStart := true } else t) :: ·)) := by
          intro r hr
          rw [sentTokens, h1]
          simp only [Option.bind_eq_bind, Option.bind_some]
          rw [if_neg h2, if_neg (by omega), a1]
          simp only [Option.bind_some]
          rw [if_neg hend, hr]
          rfl
        refine ⟨(tt, rest.take m) :: ts, hTs ts g1, ?_⟩
        rcases g2 with ⟨g2, g3⟩ | ⟨g2, gt, g3, g4, g5⟩
        · exact Or.inl ⟨by simp; omega, hstep _ g3⟩
        · refine Or.inr ⟨by simp; omega, _, hstep _ g3, ?_, ?_⟩
          · rw [List.map_cons, g4]
            congr 1
            split <;> simp [a2, a3]
          · refine ⟨?_, ?_⟩
            · split
              · exact a4
              · exact a4
            · have : (if (start && tt == .word) = true then { t with possibleSentenceStart := true } else t).str.length
                  = m := by
                split <;> simp [a3] <;> omega
              rw [this]
              exact g5

/-! ### Paragraphs -/

theorem splitProbable_fuel (spellOk : List Wc → Bool) (F : Nat) :
    ∀ (text : List Wc), text.length < F → ∃ s ss, splitProbable spellOk F text = some (s :: ss) ∧
      (s :: ss).flatten = text ∧ ∀ G, text.length < G → splitProbable spellOk G text = some (s :: ss) := by
  induction F with
  | zero => intro text h; omega
  | succ F ih =>
    intro text h
    obtain ⟨ty, n, d, h1, h2⟩ := C06_usable_length spellOk text false
    rcases h2 with ⟨rfl, rfl⟩ | ⟨h2, h3, h4⟩
    · refine ⟨text.take text.length, [], ?_, by simp, ?_⟩
      · rw [splitProbable, h1]
      · intro G hG
        obtain ⟨G, rfl⟩ : ∃ G', G = G' + 1 := ⟨G - 1, by omega⟩
        rw [splitProbable, h1]
    · obtain ⟨s, ss, g1, g2, g3⟩ := ih (text.drop n) (by rw [List.length_drop]; omega)
      rcases h2 with rfl | rfl
      · refine ⟨text.take n, s :: ss, ?_, ?_, ?_⟩
        · rw [splitProbable, h1]
          simp only [g1, Option.map_some]
        · rw [List.flatten_cons, g2, List.take_append_drop]
        · intro G hG
          obtain ⟨G, rfl⟩ : ∃ G', G = G' + 1 := ⟨G - 1, by omega⟩
          rw [splitProbable, h1]
          simp only [g3 G (by rw [List.length_drop]; omega), Option.map_some]
      · refine ⟨text.take n ++ s, ss, ?_, ?_, ?_⟩
        · rw [splitProbable, h1]
          simp only [g1]
        · rw [List.flatten_cons, List.append_assoc, ← List.flatten_cons, g2, List.take_append_drop]
        · intro G hG
          obtain ⟨G, rfl⟩ : ∃ G', G = G' + 1 := ⟨G - 1, by omega⟩
          rw [splitProbable, h1]
          simp only [g3 G (by rw [List.length_drop]; omega)]

/-- The sentences of a text (with sufficient fuel). -/
theorem splitProbable_some (spellOk : List Wc → Bool) (text : List Wc) :
    ∃ s ss, splitProbable spellOk (text.length + 1) text = some (s :: ss) ∧ (s :: ss).flatten = text := by
  obtain ⟨s, ss, h1, h2, _⟩ := splitProbable_fuel spellOk (text.length + 1) text (by omega)
  exact ⟨s, ss, h1, h2⟩

theorem splitProbable_mono (spellOk : List Wc → Bool) (text : List Wc) (G : Nat) (hG : text.length < G) :
    splitProbable spellOk G text = splitProbable spellOk (text.length + 1) text := by
  obtain ⟨s, ss, h1, _, h3⟩ := splitProbable_fuel spellOk (text.length + 1) text (by omega)
  rw [h1, h3 G hG]

theorem joinSentences_spec (spellOk : List Wc → Bool) (dot : Bool) (fuel : Nat) :
    ∀ (rest : List Wc) (acc : Nat), rest.length < fuel →
      ∃ st n, joinSentences spellOk dot fuel rest acc = some (st, acc + n) ∧
        ((st = .none ∧ n = rest.length ∧ splitProbable spellOk (rest.length + 1) rest = some [rest]) ∨
         (st = .probable ∧ 0 < n ∧ n < rest.length ∧ splitProbable spellOk (rest.length + 1) rest =
           (splitProbable spellOk ((rest.drop n).length + 1) (rest.drop n)).map (rest.take n :: ·))) := by
  induction fuel with
  | zero => intro rest acc h; omega
  | succ fuel ih =>
    intro rest acc h
    obtain ⟨ty0, n0, hc⟩ := C08_ignore_dot spellOk rest
    obtain ⟨ty, n, d, h1, h2⟩ := C06_usable_length spellOk rest false
    have e := h1
    rw [hc false] at e
    simp only [Option.some.injEq, Prod.mk.injEq] at e
    obtain ⟨rfl, rfl, _⟩ := e
    rcases h2 with ⟨rfl, rfl⟩ | ⟨rfl | rfl, h3, h4⟩
    · refine ⟨.none, rest.length, ?_, Or.inl ⟨rfl, rfl, ?_⟩⟩
      · rw [joinSentences, hc dot]
        rfl
      · rw [splitProbable, hc false]
        simp
    · refine ⟨.probable, n0, ?_, Or.inr ⟨rfl, h3, h4, ?_⟩⟩
      · rw [joinSentences, hc dot]
        rfl
      · rw [splitProbable, hc false]
        simp only
        rw [splitProbable_mono spellOk (rest.drop n0) rest.length (by rw [List.length_drop]; omega)]
    · obtain ⟨st, n, g1, g2⟩ := ih (rest.drop n0) (acc + n0) (by rw [List.length_drop]; omega)
      have hj : joinSentences spellOk dot (fuel + 1) rest acc = some (st, acc + (n0 + n)) := by
        rw [joinSentences, hc dot]
        simp only [Option.bind_eq_bind, Option.bind_some, if_true]
        rw [g1, Nat.add_assoc]
      have hsp : ∀ s ss, splitProbable spellOk ((rest.drop n0).length + 1) (rest.drop n0) = some (s :: ss) →
          splitProbable spellOk (rest.length + 1) rest = some ((rest.take n0 ++ s) :: ss) := by
        intro s ss hss
        rw [splitProbable, hc false]
        simp only
        rw [splitProbable_mono spellOk (rest.drop n0) rest.length (by rw [List.length_drop]; omega), hss]
      refine ⟨st, n0 + n, hj, ?_⟩
      rcases g2 with ⟨rfl, g2, g3⟩ | ⟨rfl, g2, g3, g4⟩
      · refine Or.inl ⟨rfl, by rw [g2, List.length_drop]; omega, ?_⟩
        rw [hsp _ _ g3, List.take_append_drop]
      · rw [List.length_drop] at g3
        refine Or.inr ⟨rfl, by omega, by omega, ?_⟩
        obtain ⟨s, ss, k1, _⟩ := splitProbable_some spellOk ((rest.drop n0).drop n)
        rw [k1, Option.map_some] at g4
        rw [hsp _ _ g4, ← List.drop_drop, k1, Option.map_some, List.take_add]

theorem paraLoop_spec (an : List Wc → List GramAn) (hs : HasStructure an) (spellOk : List Wc → Bool) (dot : Bool)
    (n : Nat) : ∀ (rest : List Wc) (off : Nat),
      ∃ xs, splitProbable spellOk (rest.length + 1) rest = some xs ∧
        (((∃ x ∈ xs.take n, TooLong x) ∧ paraLoop an spellOk dot n rest off = some none) ∨
         ((∀ x ∈ xs.take n, ¬ TooLong x) ∧ ∃ p, paraLoop an spellOk dot n rest off = some (some p) ∧
            ParaOk off (xs.take n) p)) := by
  induction n with
  | zero =>
    intro rest off
    obtain ⟨s, ss, h1, _⟩ := splitProbable_some spellOk rest
    exact ⟨_, h1, Or.inr ⟨by simp, [], rfl, trivial⟩⟩
  | succ n ih =>
    intro rest off
    obtain ⟨st, m, h1, h2⟩ := joinSentences_spec spellOk dot (rest.length + 1) rest 0 (by omega)
    rw [Nat.zero_add] at h1
    have hm : m ≤ rest.length := by rcases h2 with ⟨_, h, _⟩ | ⟨_, _, h, _⟩ <;> omega
    obtain ⟨toks, t1, t2⟩ := sentTokens_spec an hs maxTokens false (rest.take m) off ((rest.take m).length + 1) (by omega)
      (Or.inr (by decide))
    rcases h2 with ⟨rfl, h3, h4⟩ | ⟨rfl, h3, h5, h4⟩
    · have htk : rest.take m = rest := by rw [h3]; simp
      refine ⟨_, h4, ?_⟩
      rcases t2 with ⟨t2, t3⟩ | ⟨t2, gt, t3, t4, t5⟩
      · refine Or.inl ⟨⟨rest, by simp, toks, by rw [← htk]; exact t1, t2⟩, ?_⟩
        rw [paraLoop, h1]
        simp only [Option.bind_eq_bind, Option.bind_some]
        rw [if_neg (by omega), analyseSentence, t3]
        rfl
      · refine Or.inr ⟨?_, [⟨off, gt, .none⟩], ?_, ?_⟩
        · intro x hx
          simp only [List.take_succ_cons, List.take_nil, List.mem_singleton] at hx
          subst hx
          rintro ⟨toks', k1, k2⟩
          rw [htk] at t1
          rw [k1, Option.some.injEq] at t1
          subst t1
          exact absurd t2 (by simp only [maxTokens]; omega)
        · rw [paraLoop, h1]
          simp only [Option.bind_eq_bind, Option.bind_some]
          rw [if_neg (by omega), analyseSentence, t3]
          simp
        · simp only [List.take_succ_cons, List.take_nil]
          exact ⟨rfl, by rw [t4, ← htk]; exact t1, t5, trivial⟩
    · obtain ⟨xs, k1, k2⟩ := ih (rest.drop m) (off + m)
      rw [k1, Option.map_some] at h4
      refine ⟨_, h4, ?_⟩
      have hlen : (rest.take m).length = m := by rw [List.length_take]; omega
      rcases t2 with ⟨t2, t3⟩ | ⟨t2, gt, t3, t4, t5⟩
      · refine Or.inl ⟨⟨rest.take m, by simp, toks, t1, t2⟩, ?_⟩
        rw [paraLoop, h1]
        simp only [Option.bind_eq_bind, Option.bind_some]
        rw [if_neg (by omega), analyseSentence, t3]
        rfl
      · have hstep : ∀ r, paraLoop an spellOk dot n (rest.drop m) (off + m) = some r →
            paraLoop an spellOk dot (n + 1) rest off = some (r.map (⟨off, gt, .probable⟩ :: ·)) := by
          intro r hr
          rw [paraLoop, h1]
          simp only [Option.bind_eq_bind, Option.bind_some]
          rw [if_neg (by omega), analyseSentence, t3]
          simp only [Option.bind_some]
          rw [if_neg (by simp), hr]
          rfl
        have hnl : ¬ TooLong (rest.take m) := by
          rintro ⟨toks', j1, j2⟩
          rw [j1, Option.some.injEq] at t1
          subst t1
          exact absurd t2 (by simp only [maxTokens]; omega)
        rcases k2 with ⟨⟨x, k3, k4⟩, k5⟩ | ⟨k3, p, k4, k5⟩
        · exact Or.inl ⟨⟨x, by simp [k3], k4⟩, hstep _ k5⟩
        · refine Or.inr ⟨?_, _, hstep _ k4, ?_⟩
          · intro x hx
            simp only [List.take_succ_cons, List.mem_cons] at hx
            rcases hx with rfl | hx
            · exact hnl
            · exact k3 x hx
          · simp only [List.take_succ_cons]
            refine ⟨rfl, by rw [t4]; exact t1, t5, ?_⟩
            rw [hlen]
            exact k5

end Verif.Props
