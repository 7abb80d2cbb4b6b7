import Verif.Spec.GcOutput
import Verif.Props.SpellOutput
import Verif.Props.Sentence
import Verif.Props.GrammarCache
import Verif.Props.GrammarError
import Mathlib.Data.List.Forall2
/-! C89: what the grammar checking program prints. -/

set_option linter.unusedSimpArgs false
set_option synthInstance.maxSize 1000

namespace Verif.Props
open Verif Verif.SpellOutput

/-! ### Tokens -/

/-- The letters of the types of tokens in the manual. -/
def tokenLetter : TokenType → Wc
  | .word => 0x57
  | .punctuation => 0x50
  | .whitespace => 0x53
  | .unknown => 0x55
  | .none => 0x45

theorem tokenLabel_eq {t : TokenType} (h : t ≠ .none) : tokenLabel t = [tokenLetter t, 0x3A, 0x20, 0x22] := by
  cases t <;> first | rfl | exact absurd rfl h

theorem printTokens_spec (dot : Bool) : ∀ (fuel : Nat) (line : List Wc), line.length < fuel →
    ∃ toks, tokenStream dot fuel line = some toks ∧ (toks.map (·.2)).flatten = line ∧
      printTokens dot fuel line = some (textOf (toks.map fun t => [tokenLetter t.1, 0x3A, 0x20, 0x22] ++ t.2 ++ [0x22])) := by
  intro fuel
  induction fuel with
  | zero => intro line h; omega
  | succ fuel ih =>
    intro line h
    by_cases h0 : line = []
    · subst h0
      refine ⟨[], ?_, rfl, ?_⟩
      · rw [tokenStream, C01_empty]
      · rw [printTokens, if_pos rfl]; rfl
    · obtain ⟨t, n, e1, e2, e3, e4⟩ := C01_progress line dot h0
      obtain ⟨toks, i1, i2, i3⟩ := ih (line.drop n) (by rw [List.length_drop]; omega)
      refine ⟨(t, line.take n) :: toks, ?_, ?_, ?_⟩
      · rw [tokenStream, e1]
        cases t with
        | none => exact absurd rfl e2
        | _ => simp [i1]
      · simp [i2]
      · rw [printTokens, if_neg h0, e1]
        simp only [Option.bind_eq_bind, Option.bind_some]
        rw [if_neg e2, if_neg (by omega), i3, Option.bind_some, tokenLabel_eq e2]
        simp [textOf, lit]

/-- C89: `voikkogc --tokenize` prints the tokens of a line, each with the letter of its type; together they are the line. -/
theorem C89_tokens (dot : Bool) (line : List Wc) (hn : 0x0A ∉ line) :
    ∃ toks out, tokenStream dot (line.length + 1) line = some toks ∧ printTokens dot (line.length + 1) line = some out ∧
      (linesOf out).map readToken = toks.map (fun t => some (tokenLetter t.1, t.2)) ∧ (toks.map (·.2)).flatten = line := by
  obtain ⟨toks, h1, h2, h3⟩ := printTokens_spec dot (line.length + 1) line (by omega)
  refine ⟨toks, _, h1, h3, ?_, h2⟩
  rw [linesOf_text, List.map_map]
  · refine List.map_congr_left fun t _ => ?_
    simp [readToken]
  · intro l hl
    obtain ⟨t, ht, rfl⟩ := List.mem_map.1 hl
    have h4 : 0x0A ∉ t.2 := fun hm => hn (by rw [← h2]; exact List.mem_flatten.2 ⟨t.2, List.mem_map.2 ⟨t, ht, rfl⟩, hm⟩)
    have h5 : tokenLetter t.1 ≠ 0x0A := by cases t.1 <;> decide
    simp [h4, h5.symm]

/-! ### Sentences -/

/-- The sentences of a text as `voikkoNextSentenceStartUcs4` reports them: the type of the boundary after each one. -/
def typedSentences (spellOk : List Wc → Bool) : Nat → Bool → List Wc → Option (List (SentenceType × List Wc))
  | 0, _, _ => none
  | fuel + 1, dot, text =>
    match sentenceNext spellOk text dot with
    | none => none
    | some (.none, n, _) => some [(.none, text.take n)]
    | some (t, n, d) => (typedSentences spellOk fuel d (text.drop n)).map ((t, text.take n) :: ·)

/-- The letters in the manual. -/
def sentenceLetter : SentenceType → Wc
  | .none => 0x45
  | .probable => 0x42
  | .possible => 0x50
  | .noStart => 0

theorem splitSentences_spec (spellOk : List Wc → Bool) : ∀ (fuel : Nat) (dot : Bool) (line : List Wc), line.length < fuel → line ≠ [] → 0 ∉ line →
    ∃ (ss : List (SentenceType × List Wc)) (last : List Wc), typedSentences spellOk fuel dot line = some (ss ++ [(.none, last)]) ∧ (∀ s ∈ ss, s.1 = .probable ∨ s.1 = .possible) ∧
      ((ss ++ [(SentenceType.none, last)]).map (·.2)).flatten = line ∧
      splitSentences spellOk fuel dot line = some (textOf ((ss ++ [(SentenceType.none, last)]).map fun s => [sentenceLetter s.1, 0x3A, 0x20] ++ s.2)) := by
  intro fuel
  induction fuel with
  | zero => intro dot line h; omega
  | succ fuel ih =>
    intro dot line h h0 hz
    obtain ⟨t, n, d, e1, e2⟩ := C06_usable_length spellOk line dot
    rcases e2 with ⟨rfl, rfl⟩ | ⟨ht, hn1, hn2⟩
    · refine ⟨[], line, ?_, by simp, by simp, ?_⟩
      · rw [typedSentences, e1]; simp
      · rw [splitSentences, if_neg h0, e1]
        simp only [Option.bind_eq_bind, Option.bind_some, if_true]
        have : cstr (line ++ [0]) = line := by
          unfold cstr
          rw [List.takeWhile_append_of_pos (by intro x hx; simp; rintro rfl; exact hz hx)]
          simp
        rw [this]
        simp [textOf, sentenceLabel, sentenceLetter, lit]
    · have hne : line.drop n ≠ [] := by
        intro e
        have := congrArg List.length e
        rw [List.length_drop, List.length_nil] at this
        omega
      obtain ⟨ss, last, i1, i2, i3, i4⟩ := ih d (line.drop n) (by rw [List.length_drop]; omega) hne (fun hm => hz (List.mem_of_mem_drop hm))
      have ht0 : t ≠ .none := by rcases ht with rfl | rfl <;> decide
      refine ⟨(t, line.take n) :: ss, last, ?_, ?_, ?_, ?_⟩
      · rw [typedSentences, e1]
        rcases ht with rfl | rfl <;> simp [i1]
      · intro s hs
        rcases List.mem_cons.1 hs with rfl | hs
        · exact ht
        · exact i2 s hs
      · rw [List.cons_append, List.map_cons, List.flatten_cons, i3]
        simp
      · rw [splitSentences, if_neg h0, e1]
        simp only [Option.bind_eq_bind, Option.bind_some]
        rw [if_neg ht0, if_neg (by omega), i4, Option.bind_some]
        rcases ht with rfl | rfl <;> simp [textOf, sentenceLabel, sentenceLetter, lit]

/-- C89: `voikkogc --split-sentences` prints the sentences of a line: `B` or `P` before a sentence with a probable or a possible boundary after it,
and `E` before the last one only. Together they are the line. -/
theorem C89_sentences (spellOk : List Wc → Bool) (dot : Bool) (line : List Wc) (h0 : line ≠ []) (hz : 0 ∉ line) (hn : 0x0A ∉ line) :
    ∃ (ss : List (SentenceType × List Wc)) (last out : List Wc), typedSentences spellOk (line.length + 1) dot line = some (ss ++ [(.none, last)]) ∧
      splitSentences spellOk (line.length + 1) dot line = some out ∧
      (linesOf out).map readSentence = ss.map (fun s => some (if s.1 = .probable then 0x42 else 0x50, s.2)) ++ [some (0x45, last)] ∧
      (ss.map (·.2)).flatten ++ last = line := by
  obtain ⟨ss, last, h1, h2, h3, h4⟩ := splitSentences_spec spellOk (line.length + 1) dot line (by omega) h0 hz
  refine ⟨ss, last, _, h1, h4, ?_, by simpa using h3⟩
  rw [linesOf_text, List.map_map, List.map_append]
  · congr 1
    refine List.map_congr_left fun s hs => ?_
    rcases h2 s hs with h | h <;> simp [readSentence, h, sentenceLetter]
  · intro l hl
    obtain ⟨t, ht, rfl⟩ := List.mem_map.1 hl
    have h4 : 0x0A ∉ t.2 := fun hm => hn (by rw [← h3]; exact List.mem_flatten.2 ⟨t.2, List.mem_map.2 ⟨t, ht, rfl⟩, hm⟩)
    have h5 : sentenceLetter t.1 ≠ 0x0A := by cases t.1 <;> decide
    simp [h4, h5.symm]

/-! ### Errors -/

theorem upTo_stop {a b : List Wc} {c : Wc} (h : c ∉ a) : upTo c (a ++ c :: b) = some (a, b) := by
  obtain ⟨h1, h2⟩ := takeWhile_stop (b := b) h
  unfold upTo
  rw [h1, h2]

theorem numberAfter_stop (p : List Wc) (n : Nat) (r : List Wc) : numberAfter p (p ++ (decimal n ++ 0x2C :: r)) = some (n, 0x2C :: r) := by
  have hd : (0x2C : Nat) ∉ decimal n := fun hm => by have := decimal_digit n _ hm; omega
  unfold numberAfter
  rw [after_append]
  simp only
  rw [upTo_stop hd]
  simp only [number_decimal]

theorem readSuggestions_end (t : List Wc) : readSuggestions (fields 0x22 (0x7D :: t)) = [] := by
  rw [fields, if_neg (by decide)]
  split
  · rfl
  · rename_i l ls _
    cases ls with
    | nil => rfl
    | cons a ls => simp [readSuggestions]

theorem readSuggestions_quoted (t : List Wc) : ∀ (r : List (List Wc)) (s pre : List Wc), 0x22 ∉ pre → pre.head? ≠ some 0x7D → (∀ x ∈ s :: r, 0x22 ∉ x) →
    readSuggestions (fields 0x22 (pre ++ (quotedSuggestions (s :: r) ++ 0x7D :: t))) = s :: r
  | [], s, pre, h1, h2, h3 => by
    have e : pre ++ (quotedSuggestions [s] ++ 0x7D :: t) = pre ++ 0x22 :: (s ++ 0x22 :: (0x7D :: t)) := by simp [quotedSuggestions, lit]
    rw [e, fields_line _ h1, fields_line _ (h3 s List.mem_cons_self), readSuggestions, if_neg h2, readSuggestions_end]
  | s' :: r, s, pre, h1, h2, h3 => by
    have e : pre ++ (quotedSuggestions (s :: s' :: r) ++ 0x7D :: t) = pre ++ 0x22 :: (s ++ 0x22 :: ([0x2C] ++ (quotedSuggestions (s' :: r) ++ 0x7D :: t))) := by
      simp [quotedSuggestions, lit]
    rw [e, fields_line _ h1, fields_line _ (h3 s List.mem_cons_self), readSuggestions, if_neg h2,
      readSuggestions_quoted t r s' [0x2C] (by decide) (by decide) fun x hx => h3 x (List.mem_cons_of_mem _ hx)]

/-- The line of an error without its newline. -/
def errorText (e : GErr) (expl : List Wc) : List Wc :=
  lit "[code=" ++ decimal e.code ++ lit ", level=0, descr=\"\", stpos=" ++ decimal e.start ++ lit ", len=" ++ decimal e.len ++
    lit ", suggs={" ++ quotedSuggestions e.sugg ++ lit "}]" ++ expl

/-- What is printed about an error is understood, if no suggestion contains a quotation mark. -/
theorem readError_text (e : GErr) (expl : List Wc) (h : ∀ s ∈ e.sugg, 0x22 ∉ s) : readError (errorText e expl) = some (e.code, e.start, e.len, e.sugg) := by
  have e1 : errorText e expl = lit "[code=" ++ (decimal e.code ++ 0x2C :: (lit " level=0, descr=\"\", stpos=" ++ (decimal e.start ++ 0x2C ::
      (lit " len=" ++ (decimal e.len ++ 0x2C :: (lit " suggs={" ++ (quotedSuggestions e.sugg ++ 0x7D :: (0x5D :: expl)))))))) := by
    simp [errorText, lit]
  have e2 : ∀ r, 0x2C :: (lit " level=0, descr=\"\", stpos=" ++ r) = lit ", level=0, descr=\"\", stpos=" ++ r := fun r => rfl
  have e3 : ∀ r, 0x2C :: (lit " len=" ++ r) = lit ", len=" ++ r := fun r => rfl
  have e4 : ∀ r, 0x2C :: (lit " suggs={" ++ r) = lit ", suggs={" ++ r := fun r => rfl
  unfold readError
  rw [e1, numberAfter_stop]
  simp only
  rw [e2, numberAfter_stop]
  simp only
  rw [e3, numberAfter_stop]
  simp only
  rw [e4, after_append]
  simp only
  cases hs : e.sugg with
  | nil => rw [quotedSuggestions, List.nil_append, readSuggestions_end]
  | cons s r =>
    have := readSuggestions_quoted (0x5D :: expl) r s [] (by simp) (by simp) (by rw [← hs]; exact h)
    rw [List.nil_append] at this
    rw [this]

/-- The explanation of an error. -/
def explanation (language : Option (List Nat)) (e : GErr) : List Wc :=
  match language with
  | none => []
  | some l => lit " (" ++ (if l.take 2 = lit "fi" then messageFi e.code else messageEn e.code) ++ lit ")"

theorem errorMessage_total (code : Int) (l : List Nat) : errorMessage code (some l) = some (if l.take 2 = lit "fi" then messageFi code else messageEn code) := by
  have hfi : Fi l ↔ l.take 2 = lit "fi" := by
    have hlit : lit "fi" = [0x66, 0x69] := by decide
    rw [hlit]
    constructor
    · rintro ⟨r, rfl⟩; rfl
    · intro h
      exact ⟨l.drop 2, by rw [← List.take_append_drop 2 l, h]; simp⟩
  by_cases h : l.take 2 = lit "fi"
  · rw [if_pos h, (message_eq code l).1 (hfi.2 h)]
  · rw [if_neg h, (message_eq code l).2 (fun hf => h (hfi.1 hf))]

theorem errorLine_eq (language : Option (List Nat)) (e : GErr) : errorLine language e = some (errorText e (explanation language e) ++ nl) := by
  unfold errorLine errorText explanation
  cases language with
  | none => simp
  | some l => simp [errorMessage_total]

/-- The number before each line. -/
def numberText (o : GcOpts) : List Wc := if o.printNumbers then decimal o.lineNumber ++ lit " " else []

theorem checkGrammar_spec {σ : Type} (env : GramEnv σ) (he : EnvOk env) (o : GcOpts) (text : List Wc) (h0 : text ≠ []) (hz : 0 ∉ text) (found : List GErr)
    (fuel : Nat) : ∀ (k : Nat) (h : Handle GErr) (c : σ), GInv env h → Finds env h text found → k ≤ found.length → found.length < fuel + k →
      ∃ g c', checkGrammar env o text fuel (k : Int) h c =
          some (textOf (((found.foldl appendError []).drop k).map (fun e => numberText o ++ errorText e (explanation o.language e)) ++ [numberText o ++ [0x2D]]),
            { h with gcCache := g }, c') ∧ GInv env { h with gcCache := g } := by
  have hlen : (found.foldl appendError []).length = found.length := (C51_text_order found).perm.length_eq
  induction fuel with
  | zero => intro k h c _ _ h1 h2; omega
  | succ fuel ih =>
    intro k h c hi hf h1 h2
    obtain ⟨g, c', k1, k2⟩ := check_spec env he h hi c text [] h0 hz 0 k found hf
    rw [checkGrammar, k1]
    simp only [Option.bind_eq_bind, Option.bind_some]
    rw [answer_zero]
    by_cases hk : k < found.length
    · have hk' : k < (found.foldl appendError []).length := by omega
      rw [List.getElem?_eq_getElem hk']
      simp only
      obtain ⟨g', c'', i1, i2⟩ := ih (k + 1) { h with gcCache := g } c' k2 hf (by omega) (by omega)
      rw [show ((k : Int) + 1) = ((k + 1 : Nat) : Int) by omega, errorLine_eq, Option.bind_some, i1, Option.bind_some]
      refine ⟨g', c'', ?_, i2⟩
      rw [List.drop_eq_getElem_cons hk', List.map_cons]
      simp [textOf, numberText, -List.map_drop]
    · rw [List.getElem?_eq_none (by omega), List.drop_of_length_le (by omega)]
      refine ⟨g, c', ?_, k2⟩
      simp [textOf, numberText, lit]

/-- The errors of a text in the order in which they are printed. -/
def ErrorsOf {σ : Type} (env : GramEnv σ) (h : Handle GErr) (text : List Wc) (es : List GErr) : Prop :=
  ∃ found, Finds env h text found ∧ TextOrder found es ∧ es = found.foldl appendError []

theorem errorsOf_unique {σ : Type} {env : GramEnv σ} {h : Handle GErr} {text : List Wc} {es es' : List GErr} (c : σ) (h1 : ErrorsOf env h text es)
    (h2 : ErrorsOf env h text es') : es = es' := by
  obtain ⟨f, a1, -, rfl⟩ := h1
  obtain ⟨f', b1, -, rfl⟩ := h2
  rw [finds_unique c a1 b1]

theorem errorsOf_exists {σ : Type} (env : GramEnv σ) (he : EnvOk env) (h : Handle GErr) (c : σ) (text : List Wc) (h0 : text ≠ []) (hz : 0 ∉ text) :
    ∃ es, ErrorsOf env h text es ∧ ∀ e ∈ es, GoodErr text.length e := by
  obtain ⟨found, h1, h2⟩ := finds_exists env he h c text h0 hz
  exact ⟨_, ⟨found, h1, C51_text_order found, rfl⟩, fun e hm => h2 e ((C51_text_order found).perm.mem_iff.1 hm)⟩

/-- What the program prints for the paragraphs: the lines. -/
def gcLines (o : GcOpts) (errs : List (List GErr)) : List (List Wc) :=
  errs.flatMap fun es => es.map (fun e => numberText o ++ errorText e (explanation o.language e)) ++ [numberText o ++ [0x2D]]

/-- What happens to one paragraph. -/
structure GcChecked {σ : Type} (env : GramEnv σ) (h : Handle GErr) (text : List Wc) (es : List GErr) : Prop where
  errors : ErrorsOf env h text es
  good : ∀ e ∈ es, GoodErr text.length e

theorem gcTool_spec {σ : Type} (env : GramEnv σ) (he : EnvOk env) (o : GcOpts) : ∀ (ps : List (List Wc)), (∀ p ∈ ps, p ≠ [] ∧ 0 ∉ p) →
    ∀ (h0 : Handle GErr) (c : σ) (h : Handle GErr), GInv env h → (∀ text es, ErrorsOf env h text es ↔ ErrorsOf env h0 text es) →
      ∃ errs, List.Forall₂ (GcChecked env h0) ps errs ∧ ∀ fuel, (∀ es ∈ errs, es.length < fuel) → gcTool env o fuel ps h c = some (textOf (gcLines o errs)) := by
  intro ps
  induction ps with
  | nil => intro _ h0 c h _ _; exact ⟨[], .nil, fun _ _ => rfl⟩
  | cons p r ih =>
    intro hp h0 c h hi hs
    obtain ⟨p0, pz⟩ := hp p List.mem_cons_self
    obtain ⟨es, ⟨found, f1, f2, rfl⟩, f3⟩ := errorsOf_exists env he h c p p0 pz
    have hlen : (found.foldl appendError []).length = found.length := f2.perm.length_eq
    obtain ⟨g, c', k1, k2⟩ := checkGrammar_spec env he o p p0 pz found (found.length + 1) 0 h c hi f1 (by omega) (by omega)
    -- the state after the paragraph does not depend on the fuel
    have k3 : ∀ fuel, found.length < fuel → ∃ g c', checkGrammar env o p fuel 0 h c =
        some (textOf (gcLines o [found.foldl appendError []]), { h with gcCache := g }, c') ∧ GInv env { h with gcCache := g } := by
      intro fuel hf
      obtain ⟨g, c', k1, k2⟩ := checkGrammar_spec env he o p p0 pz found fuel 0 h c hi f1 (by omega) (by omega)
      exact ⟨g, c', by simpa [gcLines] using k1, k2⟩
    have hs' : ∀ g text es, ErrorsOf env { h with gcCache := g } text es ↔ ErrorsOf env h0 text es := fun g text es => hs text es
    obtain ⟨errs, i1, -⟩ := ih (fun q hq => hp q (List.mem_cons_of_mem _ hq)) h0 c' _ k2 (hs' g)
    refine ⟨found.foldl appendError [] :: errs, .cons ⟨(hs _ _).1 ⟨found, f1, f2, rfl⟩, f3⟩ i1, fun fuel hf => ?_⟩
    obtain ⟨g2, c2, m1, m2⟩ := k3 fuel (by have := hf _ List.mem_cons_self; omega)
    obtain ⟨errs2, j1, j2⟩ := ih (fun q hq => hp q (List.mem_cons_of_mem _ hq)) h0 c2 _ m2 (hs' g2)
    have heq : errs2 = errs := by
      clear ih j2 hf
      have : ∀ {ps : List (List Wc)} {a b : List (List GErr)}, List.Forall₂ (GcChecked env h0) ps a → List.Forall₂ (GcChecked env h0) ps b → a = b := by
        intro ps a b ha
        induction ha generalizing b with
        | nil => intro hb; cases hb; rfl
        | cons x _ ihx =>
          intro hb
          cases hb with
          | cons y hb => rw [errorsOf_unique c x.errors y.errors, ihx hb]
      exact this j1 i1
    subst heq
    rw [gcTool, m1]
    simp only [Option.bind_eq_bind, Option.bind_some]
    rw [j2 fuel fun es hes => hf es (List.mem_cons_of_mem _ hes), Option.bind_some]
    simp [gcLines, textOf]

theorem messages_line : ∀ code ∈ errorCodes, 0x0A ∉ messageFi (code : Int) ∧ 0x0A ∉ messageEn (code : Int) := by decide +kernel

theorem explanation_line (language : Option (List Nat)) {n : Nat} {e : GErr} (h : GoodErr n e) : 0x0A ∉ explanation language e := by
  unfold explanation
  cases language with
  | none => simp
  | some l =>
    obtain ⟨h1, h2⟩ := messages_line e.code (int_cases h.2.2.1 h.2.2.2)
    simp only
    split <;> simp [h1, h2, lit]

theorem quoted_line : ∀ {l : List (List Wc)}, (∀ s ∈ l, 0x0A ∉ s) → 0x0A ∉ quotedSuggestions l
  | [], _ => by simp [quotedSuggestions]
  | [s], h => by have := h s List.mem_cons_self; simp [quotedSuggestions, lit, this]
  | s :: s' :: r, h => by
    have h1 := h s List.mem_cons_self
    have h2 := quoted_line fun x hx => h x (List.mem_cons_of_mem s hx)
    simp [quotedSuggestions, lit, h1, h2]

theorem decimal_line (n : Nat) : 0x0A ∉ decimal n := fun hm => by have := decimal_digit n _ hm; omega

theorem errorText_line {e : GErr} {expl : List Wc} (h1 : ∀ s ∈ e.sugg, 0x0A ∉ s) (h2 : 0x0A ∉ expl) : 0x0A ∉ errorText e expl := by
  have d1 := decimal_line e.code
  have d2 := decimal_line e.start
  have d3 := decimal_line e.len
  have q := quoted_line h1
  simp [errorText, lit, d1, d2, d3, q, h2]

/-- Suggestions that can be read: no quotation mark and no newline. -/
def Plain (es : List GErr) : Prop := ∀ e ∈ es, ∀ s ∈ e.sugg, 0x22 ∉ s ∧ 0x0A ∉ s

theorem errorText_ne (e : GErr) (expl : List Wc) : errorText e expl ≠ lit "-" := by
  have h : errorText e expl = 0x5B :: (lit "code=" ++ decimal e.code ++ lit ", level=0, descr=\"\", stpos=" ++ decimal e.start ++ lit ", len=" ++
      decimal e.len ++ lit ", suggs={" ++ quotedSuggestions e.sugg ++ lit "}]" ++ expl) := by simp [errorText, lit]
  rw [h]
  intro hx
  have := congrArg List.head? hx
  simp [lit] at this

theorem reports_paragraph (language : Option (List Nat)) (rest : List (List Wc)) : ∀ es : List GErr, Plain es →
    reports ((es.map fun e => errorText e (explanation language e)) ++ lit "-" :: rest) =
      (es.map fun e => some (e.code, e.start, e.len, e.sugg)) :: reports rest
  | [], _ => by simp [reports]
  | e :: es, h => by
    rw [List.map_cons, List.cons_append, reports, if_neg (errorText_ne _ _),
      reports_paragraph language rest es fun x hx => h x (List.mem_cons_of_mem _ hx), readError_text _ _ fun s hs => (h e List.mem_cons_self s hs).1]
    simp

theorem reports_gcLines (language : Option (List Nat)) : ∀ errs : List (List GErr), (∀ es ∈ errs, Plain es) →
    reports (gcLines { language := language } errs) = errs.map fun es => es.map fun e => some (e.code, e.start, e.len, e.sugg)
  | [], _ => rfl
  | es :: errs, h => by
    have e1 : gcLines { language := language } (es :: errs) =
        (es.map fun e => errorText e (explanation language e)) ++ lit "-" :: gcLines { language := language } errs := by
      simp [gcLines, numberText, lit]
    rw [e1, reports_paragraph _ _ _ (h es List.mem_cons_self), reports_gcLines language errs fun x hx => h x (List.mem_cons_of_mem _ hx), List.map_cons]

theorem forall₂_right {α β : Type} {R : α → β → Prop} {l : List α} {m : List β} (h : List.Forall₂ R l m) : ∀ b ∈ m, ∃ a, R a b := by
  induction h with
  | nil => simp
  | cons x _ ih =>
    intro b hb
    rcases List.mem_cons.1 hb with rfl | hb
    · exact ⟨_, x⟩
    · exact ih b hb

theorem gcLines_line {σ : Type} {env : GramEnv σ} {h : Handle GErr} (o : GcOpts) {ps : List (List Wc)} {errs : List (List GErr)}
    (hc : List.Forall₂ (GcChecked env h) ps errs) (hp : ∀ es ∈ errs, Plain es) : ∀ l ∈ gcLines o errs, 0x0A ∉ l := by
  intro l hl
  obtain ⟨es, h1, h2⟩ := List.mem_flatMap.1 hl
  obtain ⟨p, hch⟩ := forall₂_right hc es h1
  have hnum : 0x0A ∉ numberText o := by
    unfold numberText
    have := decimal_line o.lineNumber
    split <;> simp [lit, this]
  rcases List.mem_append.1 h2 with h2 | h2
  · obtain ⟨e, he, rfl⟩ := List.mem_map.1 h2
    have := errorText_line (e := e) (expl := explanation o.language e) (fun s hs => (hp es h1 e he s hs).2) (explanation_line _ (hch.good e he))
    simp [hnum, this]
  · simp only [List.mem_singleton] at h2
    subst h2
    simp [hnum]

/-- C89: the grammar checking program says for each paragraph which errors the library finds in it, in the order of the text: code, position,
length and suggestions can be read back from what it prints, whatever the handle was used for before and whether or not errors are explained. The
suggestions must not contain quotation marks (`C89_violation_quotation_mark`). -/
theorem C89_grammar_partial {σ : Type} (env : GramEnv σ) (he : EnvOk env) (dict : Bool → List Wc → SpellRes) (h : Handle GErr) (c : σ)
    (hr : GReach env dict h c) (language : Option (List Nat)) (ps : List (List Wc)) (hp : ∀ p ∈ ps, p ≠ [] ∧ 0 ∉ p) :
    ∃ errs, List.Forall₂ (fun p es => ∃ found, Finds env h p found ∧ TextOrder found es) ps errs ∧ ∀ fuel, (∀ es ∈ errs, es.length < fuel) →
      ∃ out, gcTool env { language := language } fuel ps h c = some out ∧
        ((∀ es ∈ errs, Plain es) → reports (linesOf out) = errs.map fun es => es.map fun e => some (e.code, e.start, e.len, e.sugg)) := by
  obtain ⟨errs, h1, h2⟩ := gcTool_spec env he { language := language } ps hp h c h (reach_inv he hr) (fun _ _ => Iff.rfl)
  refine ⟨errs, h1.imp fun p es hch => ?_, fun fuel hf => ⟨_, h2 fuel hf, fun hpl => ?_⟩⟩
  · obtain ⟨found, a, b, -⟩ := hch.errors
    exact ⟨found, a, b⟩
  · rw [linesOf_text (gcLines_line _ h1 hpl), reports_gcLines _ _ hpl]

/-- C89 fails for suggestions with quotation marks: for `"On x.", on.` the library suggests `",` instead of `.",`, but the program prints
`suggs={"","}`, which begins with an empty suggestion. -/
theorem C89_violation_quotation_mark :
    (nextGrammarError dotEnv {} () (lit "\"On x.\", on." ++ [0]) 12 0 0).map (·.1) = some (some ⟨10, 5, 3, [[0x22, 0x2C]]⟩) ∧
    (gcTool dotEnv {} 10 [lit "\"On x.\", on."] {} ()).map (fun out => reports (linesOf out)) = some [[some (10, 5, 3, [[], lit "}]"])]] := by
  refine ⟨by decide +kernel, by decide +kernel⟩

/-- C89: with the option `-n`, which is to print "line number of input data" before each message, the number is 0 on every line, for every input. -/
theorem C89_violation_line_numbers {σ : Type} (env : GramEnv σ) (he : EnvOk env) (dict : Bool → List Wc → SpellRes) (h : Handle GErr) (c : σ)
    (hr : GReach env dict h c) (ps : List (List Wc)) (hp : ∀ p ∈ ps, p ≠ [] ∧ 0 ∉ p) :
    ∃ errs, List.Forall₂ (fun p es => ∃ found, Finds env h p found ∧ TextOrder found es) ps errs ∧ ∀ fuel, (∀ es ∈ errs, es.length < fuel) →
      ∃ out, gcTool env { printNumbers := true } fuel ps h c = some out ∧
        ((∀ es ∈ errs, Plain es) → (∀ l ∈ linesOf out, ∃ r, numberedLine l = some (0, r)) ∧
          ∃ ls, (linesOf out).map numberedLine = ls.map (fun l => some (0, l)) ∧
            reports ls = errs.map fun es => es.map fun e => some (e.code, e.start, e.len, e.sugg)) := by
  obtain ⟨errs, h1, h2⟩ := gcTool_spec env he { printNumbers := true } ps hp h c h (reach_inv he hr) (fun _ _ => Iff.rfl)
  refine ⟨errs, h1.imp fun p es hch => ?_, fun fuel hf => ⟨_, h2 fuel hf, fun hpl => ?_⟩⟩
  · obtain ⟨found, a, b, -⟩ := hch.errors
    exact ⟨found, a, b⟩
  · have e0 : numberText { printNumbers := true } = [0x30, 0x20] := by decide
    have e1 : gcLines { printNumbers := true } errs = (gcLines {} errs).map ([0x30, 0x20] ++ ·) := by
      have : numberText {} = [] := by decide
      simp [gcLines, e0, this, List.map_flatMap, Function.comp_def]
    have e2 : ∀ l, numberedLine ([0x30, 0x20] ++ l) = some (0, l) := fun l => by
      unfold numberedLine
      rw [show [0x30, 0x20] ++ l = [0x30] ++ 0x20 :: l from rfl, upTo_stop (by decide)]
      rfl
    have e3 : (linesOf (textOf (gcLines { printNumbers := true } errs))).map numberedLine = (gcLines {} errs).map (fun l => some (0, l)) := by
      rw [linesOf_text (gcLines_line _ h1 hpl), e1, List.map_map]
      exact List.map_congr_left fun l _ => e2 l
    refine ⟨fun l hl => ?_, _, e3, reports_gcLines none errs hpl⟩
    have : numberedLine l ∈ (linesOf (textOf (gcLines { printNumbers := true } errs))).map numberedLine := List.mem_map.2 ⟨l, hl, rfl⟩
    rw [e3] at this
    obtain ⟨r, -, hr⟩ := List.mem_map.1 this
    exact ⟨r, hr.symm⟩

/-- Two paragraphs, the first of which has two errors. -/
example : (gcTool dotEnv {} 10 [lit "Ab  cd.", lit "On x."] {} ()).map (fun out => reports (linesOf out)) =
    some [[some (17, 0, 7, []), some (2, 2, 2, [[0x20]])], [some (17, 0, 5, [])]] := by decide +kernel

/-- With `-n` the second paragraph has the number 0 too. -/
example : (gcTool dotEnv { printNumbers := true } 10 [lit "Ab  cd.", lit "On x."] {} ()).map (fun out => (linesOf out).getLast?) =
    some (some (lit "0 -")) := by decide +kernel

/-- Two sentences, and their tokens. -/
example : (splitSentences (fun _ => false) 20 false (lit "Ab cd. Ef.")).map (fun out => (linesOf out).map readSentence) =
      some [some (0x42, lit "Ab cd. "), some (0x45, lit "Ef.")] ∧
    (printTokens false 20 (lit "Ab, 1")).map (fun out => (linesOf out).map readToken) =
      some [some (0x57, lit "Ab"), some (0x50, lit ","), some (0x53, lit " "), some (0x57, lit "1")] := by
  refine ⟨by decide +kernel, by decide +kernel⟩

end Verif.Props
