import Verif.Model.HfstAnalyzer
import Verif.Props.HfstSpell
import Verif.Props.VfstAnalyzer
import Verif.Lemmas.FstTextCompile
/-!
# C113: analysis and hyphenation with an HFST dictionary
-/

set_option linter.unusedSimpArgs false
set_option linter.unusedVariables false

namespace Verif.Hfst
open Verif Verif.Props

/-! ## Specification -/

/-- The analysis `a` shows the output `s` of the transducer: the base form is what precedes the first "+", and the output for the user is the rest from there on. -/
structure ShowsOutput (a : Ana) (s : List Wc) : Prop where
  parts : ∃ base tags, s = base ++ 0x2B :: tags ∧ 0x2B ∉ base ∧ analysisValue a (lit "BASEFORM") = some base ∧ analysisValue a (lit "FSTOUTPUT") = some (0x2B :: tags)
  keys : analysisKeys a = some [lit "BASEFORM", lit "FSTOUTPUT"]
  others : ∀ name, name ≠ lit "BASEFORM" → name ≠ lit "FSTOUTPUT" → analysisValue a name = none
  free : a.destroy = some ()

/-- The outputs have a base form and tags. -/
def Tagged (s : List Wc) : Prop := Encodable s ∧ 0x2B ∈ s ∧ s.head? ≠ some 0x2B

/-! ## Lemmas -/

theorem contains_iff (pattern : List Nat) : ∀ s : List Nat, stdContains pattern s = true ↔ pattern <:+: s
  | [] => by
    rw [stdContains, List.isPrefixOf_iff_prefix]
    constructor
    · exact List.IsPrefix.isInfix
    · intro h; rw [List.eq_nil_of_infix_nil h]; exact List.nil_prefix
  | c :: s => by
    rw [stdContains, Bool.or_eq_true, List.isPrefixOf_iff_prefix, contains_iff pattern s, List.infix_cons_iff]

theorem plus_split {s : List Wc} (h : 0x2B ∈ s) : ∃ base tags, s = base ++ 0x2B :: tags ∧ 0x2B ∉ base := by
  induction s with
  | nil => cases h
  | cons c s ih =>
    by_cases hc : c = 0x2B
    · exact ⟨[], s, by rw [hc]; rfl, by simp⟩
    · obtain ⟨base, tags, e, hb⟩ := ih (by rcases List.mem_cons.1 h with h | h; exact absurd h.symm hc; exact h)
      exact ⟨c :: base, tags, by rw [e]; rfl, by simp only [List.mem_cons, not_or]; exact ⟨fun h => hc h.symm, hb⟩⟩

theorem plus_found {a : List Nat} (h : 0x2B ∉ a) (b : List Nat) : hfstPlus (a ++ 0x2B :: b) = some a.length := by
  unfold hfstPlus
  rw [List.findIdx?_append]
  have : a.findIdx? (· == 0x2B) = none := by
    rw [List.findIdx?_eq_none_iff]
    intro x hx
    simp only [beq_eq_false_iff_ne, ne_eq]
    rintro rfl
    exact h hx
  rw [this]
  simp [List.findIdx?_cons]

theorem plus_none {s : List Nat} (h : 0x2B ∉ s) : hfstPlus s = none := by
  unfold hfstPlus
  rw [List.findIdx?_eq_none_iff]
  intro x hx
  simp only [beq_eq_false_iff_ne, ne_eq]
  rintro rfl
  exact h hx

theorem text_encoded {w : List Wc} (h : Encodable w) : hfstText (encodeStr w) = some w := by
  unfold hfstText
  rw [decode_eq h]
  rfl

theorem encode_plus (a b : List Wc) : encodeStr (a ++ 0x2B :: b) = encodeStr a ++ 0x2B :: encodeStr b := by
  unfold encodeStr
  rw [List.flatMap_append, List.flatMap_cons]
  rfl

/-- What the analyser makes of a base form and tags. -/
def made (base tags : List Wc) : Ana := (({} : Ana).add .baseform base).add .fstoutput tags

theorem analysis_eq {base tags : List Wc} (hb : 0x2B ∉ base) (h0 : base ≠ []) (he : Encodable (base ++ 0x2B :: tags)) :
    hfstAnalysis true (encodeStr (base ++ 0x2B :: tags)) = some (made base (0x2B :: tags)) := by
  have e1 : Encodable base := fun c hc => he c (List.mem_append_left _ hc)
  have e2 : Encodable (0x2B :: tags) := fun c hc => he c (List.mem_append_right _ hc)
  have hlen : 0 < (encodeStr base).length := by
    rcases Nat.eq_zero_or_pos (encodeStr base).length with h | h
    · exact absurd (List.length_eq_zero_iff.1 h) (encodeStr_ne_nil h0)
    · exact h
  have hp : encodeStr (0x2B :: tags) = 0x2B :: encodeStr tags := encode_plus [] tags
  unfold hfstAnalysis
  rw [encode_plus, plus_found (Att.encode_notMem (by decide) hb)]
  have s1 : stdSubstr (encodeStr base ++ 0x2B :: encodeStr tags) (encodeStr base).length ((encodeStr base ++ 0x2B :: encodeStr tags).length - 1) =
      some (encodeStr (0x2B :: tags)) := by
    unfold stdSubstr
    rw [if_neg (by simp), List.drop_left, List.take_of_length_le (by simp only [List.length_append, List.length_cons]; omega), hp]
  have s2 : stdSubstr (encodeStr base ++ 0x2B :: encodeStr tags) 0 (encodeStr base).length = some (encodeStr base) := by
    unfold stdSubstr
    rw [if_neg (by simp), List.drop_zero, List.take_left]
  simp only [s1, s2, text_encoded e1, text_encoded e2, Option.bind_eq_bind, Option.bind_some, if_true, Option.pure_def, made]

theorem made_shows {base tags : List Wc} (hb : 0x2B ∉ base) : ∃ b, (made base (0x2B :: tags)).seal = some b ∧ ShowsOutput b (base ++ 0x2B :: tags) := by
  obtain ⟨a, b, h1, h2, h3, h4, h5, h6, h7⟩ := C57_analysis [.add .baseform base, .add .fstoutput (0x2B :: tags)]
  have ha : a = made base (0x2B :: tags) := (Option.some.inj h1).symm
  subst ha
  refine ⟨b, h2, ⟨base, tags, rfl, hb, h5 (.baseform, "BASEFORM") (by decide), h5 (.fstoutput, "FSTOUTPUT") (by decide)⟩, by rw [h4]; rfl, ?_, h7⟩
  intro name n1 n2
  by_cases hx : ∃ x ∈ attributeNames, name = lit x.2
  · obtain ⟨x, hx, rfl⟩ := hx
    rw [h5 x hx]
    have : x.1 ≠ .baseform ∧ x.1 ≠ .fstoutput := by
      revert n1 n2
      clear h3 h4 h5 h6
      revert x
      decide
    simp only [histValue, if_neg this.1, if_neg this.2]
  · exact h6 name fun x hx' e => hx ⟨x, hx', e⟩

theorem analyses_shown : ∀ outs : List (List Wc), (∀ s ∈ outs, Tagged s) →
    ∃ l m, hfstAnalyses true (outs.map encodeStr) = some l ∧ sealEach l = some m ∧ List.Forall₂ ShowsOutput m outs
  | [], _ => ⟨[], [], rfl, rfl, .nil⟩
  | s :: outs, h => by
    obtain ⟨l, m, h1, h2, h3⟩ := analyses_shown outs fun s hs => h s (List.mem_cons_of_mem _ hs)
    obtain ⟨e1, e2, e3⟩ := h s List.mem_cons_self
    obtain ⟨base, tags, rfl, hb⟩ := plus_split e2
    have h0 : base ≠ [] := by rintro rfl; exact e3 rfl
    obtain ⟨b, g1, g2⟩ := made_shows (tags := tags) hb
    refine ⟨made base (0x2B :: tags) :: l, b :: m, ?_, ?_, .cons g2 h3⟩
    · rw [List.map_cons, hfstAnalyses, analysis_eq hb h0 e1, ub_bind, h1, ub_bind]
      rfl
    · rw [sealEach, g1, ub_bind, h2, ub_bind]
      rfl

/-- The call of the analyser for a word. -/
theorem analyze_word {t : Option (List Nat → List (List Nat))} {w : List Wc} (hw : Encodable w) (hl : (encodeStr w).length ≤ 255) :
    hfstAnalyze t () (w ++ [0]) w.length true = (t.bind fun tr => hfstAnalyses true (tr (encodeStr w))).map fun l => (l, ()) := by
  have hc := Att.length_encode w
  have hm : maxWordChars = 255 := rfl
  unfold hfstAnalyze
  rw [if_neg (by omega), if_neg (by simp), take_term, (utf8FromUcs4_eq _).1 fun c hc => (hw c hc).1]
  simp only [Option.bind_eq_bind, Option.bind_some, encode_no_nul hw]
  unfold hfstAnalyzeBytes
  rw [if_neg (by omega)]
  cases t with
  | none => rfl
  | some tr => simp only [Option.bind_eq_bind, Option.bind_some]; cases hfstAnalyses true (tr (encodeStr w)) <;> rfl

theorem transducer_some {path : List Nat} (h : ¬ lit ".zhfst" <:+: path) (tr : List Nat → List (List Nat)) : hfstTransducer path tr = some tr := by
  unfold hfstTransducer
  rw [if_neg fun hc => h ((contains_iff _ _).1 hc)]

/-! ## C113 -/

/-- **C113**: the analyses of a word of at most 255 bytes are those that the transducer has for it, in this order, each with its base form and its tags; they can be freed. -/
theorem C113_analyses_partial {path : List Nat} (hpath : ¬ lit ".zhfst" <:+: path) (tr : List Nat → List (List Nat)) {w : List Wc} (hw : Encodable w)
    (hl : (encodeStr w).length ≤ 255) {outs : List (List Wc)} (ho : tr (encodeStr w) = outs.map encodeStr) (ht : ∀ s ∈ outs, Tagged s) :
    ∃ l, analyzeWordUcs4 (hfstAnalyze (hfstTransducer path tr)) () w = some (l, ()) ∧ List.Forall₂ ShowsOutput l outs := by
  obtain ⟨l, m, h1, h2, h3⟩ := analyses_shown outs ht
  refine ⟨m, ?_, h3⟩
  unfold analyzeWordUcs4
  rw [analyze_word hw hl, transducer_some hpath]
  simp only [Option.bind_some, ho, h1, Option.map_some, Option.bind_eq_bind, h2, Option.pure_def]

/-- The function for UTF-8 strings gives the same analyses. -/
theorem C113_utf8_partial {path : List Nat} (hpath : ¬ lit ".zhfst" <:+: path) (tr : List Nat → List (List Nat)) {w : List Wc} (hw : Encodable w) (h0 : w ≠ [])
    (hl : (encodeStr w).length ≤ 255) {outs : List (List Wc)} (ho : tr (encodeStr w) = outs.map encodeStr) (ht : ∀ s ∈ outs, Tagged s) :
    ∃ l, analyzeWordCstr (hfstAnalyze (hfstTransducer path tr)) () (some (encodeStr w)) = some (some l, ()) ∧ List.Forall₂ ShowsOutput l outs := by
  obtain ⟨l, h1, h2⟩ := C113_analyses_partial hpath tr hw hl ho ht
  refine ⟨l, ?_, h2⟩
  rw [C92_utf8_partial _ _ hw h0 hl, h1]
  rfl

/-- The claim fails for words of at most 255 characters and more than 255 bytes: they have no analyses, whatever the transducer has for them. -/
theorem C113_violation_bytes (t : Option (List Nat → List (List Nat))) {w : List Wc} (hw : Encodable w) (hl : 255 < (encodeStr w).length) :
    analyzeWordUcs4 (hfstAnalyze t) () w = some ([], ()) := by
  have hm : maxWordChars = 255 := rfl
  have : hfstAnalyze t () (w ++ [0]) w.length true = some ([], ()) := by
    unfold hfstAnalyze
    by_cases hc : w.length > maxWordChars
    · rw [if_pos hc]; rfl
    · rw [if_neg hc, if_neg (by simp), take_term, (utf8FromUcs4_eq _).1 fun c hc => (hw c hc).1]
      simp only [Option.bind_eq_bind, Option.bind_some, encode_no_nul hw]
      unfold hfstAnalyzeBytes
      rw [if_pos (by omega)]
      rfl
  unfold analyzeWordUcs4
  rw [this, ub_bind]
  rfl

/-- The claim fails if one of the outputs has no "+": an exception leaves the library. -/
theorem C113_violation_plus (tr : List Nat → List (List Nat)) {w : List Wc} (hw : Encodable w) (hl : (encodeStr w).length ≤ 255) {s : List Nat}
    (hs : s ∈ tr (encodeStr w)) (hp : 0x2B ∉ s) : analyzeWordUcs4 (hfstAnalyze (some tr)) () w = none := by
  have key : ∀ l : List (List Nat), s ∈ l → hfstAnalyses true l = none := by
    intro l
    induction l with
    | nil => intro h; cases h
    | cons x l ih =>
      intro h
      rw [hfstAnalyses]
      rcases List.mem_cons.1 h with rfl | h
      · have : hfstAnalysis true s = none := by unfold hfstAnalysis; rw [plus_none hp]; rfl
        rw [this]
        rfl
      · rw [ih h]
        cases hfstAnalysis true x <;> rfl
  unfold analyzeWordUcs4
  rw [analyze_word hw hl, Option.bind_some, key _ hs]
  rfl

/-- The claim fails for outputs that begin with "+": their last character is lost. -/
theorem C113_violation_first {tags : List Wc} {c : Wc} (hc : c < 128) (he : Encodable (0x2B :: (tags ++ [c]))) (tr : List Nat → List (List Nat)) {w : List Wc}
    (hw : Encodable w) (hl : (encodeStr w).length ≤ 255) (ho : tr (encodeStr w) = [encodeStr (0x2B :: (tags ++ [c]))]) :
    ∃ a, analyzeWordUcs4 (hfstAnalyze (some tr)) () w = some ([a], ()) ∧ analysisValue a (lit "FSTOUTPUT") = some (0x2B :: tags) := by
  have e2 : Encodable (0x2B :: tags) := fun x hx => he x (by rcases List.mem_cons.1 hx with rfl | h <;> simp_all)
  have p1 : encodeStr (0x2B :: (tags ++ [c])) = [] ++ 0x2B :: (encodeStr tags ++ [c]) := by
    have : encodeStr [c] = [c] := by
      show enc c ++ [] = [c]
      rw [List.append_nil]
      unfold enc
      rw [if_pos (by omega)]
    rw [show (0x2B : Wc) :: (tags ++ [c]) = [] ++ 0x2B :: (tags ++ [c]) from rfl, encode_plus, show encodeStr (tags ++ [c]) = encodeStr tags ++ encodeStr [c] by
      unfold encodeStr; rw [List.flatMap_append], this]
    rfl
  have p2 : encodeStr (0x2B :: tags) = 0x2B :: encodeStr tags := encode_plus [] tags
  have ha : hfstAnalysis true (encodeStr (0x2B :: (tags ++ [c]))) = some (made [] (0x2B :: tags)) := by
    unfold hfstAnalysis
    rw [p1, plus_found (by simp)]
    have s1 : stdSubstr ([] ++ 0x2B :: (encodeStr tags ++ [c])) ([] : List Nat).length (([] ++ 0x2B :: (encodeStr tags ++ [c])).length - 1) = some (encodeStr (0x2B :: tags)) := by
      unfold stdSubstr
      rw [if_neg (by simp), p2]
      simp
    have s2 : stdSubstr ([] ++ 0x2B :: (encodeStr tags ++ [c])) 0 ([] : List Nat).length = some (encodeStr []) := by
      unfold stdSubstr
      rw [if_neg (by simp)]
      rfl
    simp only [s1, s2, text_encoded e2, text_encoded (w := []) (by intro c hc; cases hc), Option.bind_eq_bind, Option.bind_some, if_true, Option.pure_def, made]
  obtain ⟨b, g1, g2⟩ := made_shows (base := []) (tags := tags) (by simp)
  refine ⟨b, ?_, ?_⟩
  · unfold analyzeWordUcs4
    rw [analyze_word hw hl, Option.bind_some, ho]
    simp only [hfstAnalyses, ha, ub_bind, Option.pure_def, Option.bind_eq_bind, Option.bind_some, Option.map_some, sealEach, g1]
  · obtain ⟨base, t, e, hb, h1, h2⟩ := g2.parts
    cases base with
    | nil => cases e; exact h2
    | cons x base => cases e; exact absurd List.mem_cons_self hb

/-- The claim fails for words that cannot be encoded: a null pointer is followed. -/
theorem C113_violation_word (t : Option (List Nat → List (List Nat))) {w : List Wc} (hl : w.length ≤ 255) (h : ∃ c ∈ w, ¬ ValidCp c) :
    analyzeWordUcs4 (hfstAnalyze t) () w = none := by
  have hm : maxWordChars = 255 := rfl
  unfold analyzeWordUcs4 hfstAnalyze
  rw [if_neg (by omega), if_neg (by simp), take_term, (utf8FromUcs4_eq w).2 h]
  rfl

/-- The claim fails with a dictionary in a file with the extension of ZHFST: the analyser of such a dictionary is not initialised. -/
theorem C113_violation_zhfst {path : List Nat} (hpath : lit ".zhfst" <:+: path) (tr : List Nat → List (List Nat)) {w : List Wc} (hw : Encodable w)
    (hl : (encodeStr w).length ≤ 255) : analyzeWordUcs4 (hfstAnalyze (hfstTransducer path tr)) () w = none := by
  unfold analyzeWordUcs4 hfstTransducer
  rw [if_pos ((contains_iff _ _).2 hpath), analyze_word hw hl]
  rfl

/-- Hyphenation with this backend gives no pattern: the result is whatever was in the memory, for example without any terminator. -/
theorem C113_violation_hyphenation {w : List Wc} (hw : Encodable w) (hl : (encodeStr w).length ≤ 255) {memory : List Nat} (hm : memory.length = (encodeStr w).length + 1) :
    ∃ junk : Nat → List Nat, (∀ n, (junk n).length = n) ∧ hfstHyphenate junk w = some (some memory) := by
  have hc := Att.length_encode w
  have h255 : maxWordChars = 255 := rfl
  refine ⟨fun n => if n = memory.length then memory else List.replicate n 0, fun n => ?_, ?_⟩
  · dsimp only
    split
    · rename_i h; exact h.symm
    · exact List.length_replicate
  · unfold hfstHyphenate
    rw [if_neg (by omega), (utf8FromUcs4_eq _).1 fun c hc => (hw c hc).1]
    simp only [Option.bind_eq_bind, Option.bind_some, encode_no_nul hw]
    rw [if_neg (by omega), if_pos hm.symm]
    rfl

/-! ## A transducer to which this applies -/

/-- The transducer has two outputs for "koirat" and none for other words. -/
def dogs (word : List Nat) : List (List Nat) := if word = encodeStr (lit "koirat") then [lit "koira+N+Pl", lit "koirat+N+Sg"].map encodeStr else []

example : ∃ a b, analyzeWordUcs4 (hfstAnalyze (hfstTransducer (lit "/usr/share/mor.hfstol") dogs)) () (lit "koirat") = some ([a, b], ()) ∧
    ShowsOutput a (lit "koira+N+Pl") ∧ ShowsOutput b (lit "koirat+N+Sg") := by
  have enc : ∀ s ∈ [lit "koirat", lit "koira+N+Pl", lit "koirat+N+Sg"], Encodable s := by unfold Encodable ValidCp; decide
  obtain ⟨l, h1, h2⟩ := C113_analyses_partial (path := lit "/usr/share/mor.hfstol") (by rw [← contains_iff]; decide) dogs (w := lit "koirat") (enc _ (by decide)) (by decide +kernel)
    (outs := [lit "koira+N+Pl", lit "koirat+N+Sg"]) (by decide +kernel) (by
      intro s hs
      refine ⟨enc s (List.mem_cons_of_mem _ hs), ?_⟩
      revert s
      decide)
  cases h2 with
  | cons a1 h2 => cases h2 with
    | cons a2 h2 => cases h2; exact ⟨_, _, h1, a1, a2⟩

/-- The output "+N" is published as "+". -/
example : ∃ a, analyzeWordUcs4 (hfstAnalyze (some fun _ => [encodeStr (lit "+N")])) () (lit "a") = some ([a], ()) ∧ analysisValue a (lit "FSTOUTPUT") = some (lit "+") :=
  C113_violation_first (tags := []) (c := 0x4E) (by decide) (by unfold Encodable ValidCp; decide) _ (by unfold Encodable ValidCp; decide) (by decide) rfl

/-- A word of 128 letters that has no analyses because it takes 256 bytes. -/
example : analyzeWordUcs4 (hfstAnalyze (some fun _ => [encodeStr (lit "a+N")])) () (List.replicate 128 0xE4) = some ([], ()) :=
  C113_violation_bytes _ (by intro c hc; rw [List.eq_of_mem_replicate hc]; unfold ValidCp; decide) (by decide +kernel)

/-- A pattern without a terminator. -/
example : ∃ junk : Nat → List Nat, (∀ n, (junk n).length = n) ∧ hfstHyphenate junk (lit "ab") = some (some [7, 7, 7]) :=
  C113_violation_hyphenation (by unfold Encodable ValidCp; decide) (by decide) (by decide)

end Verif.Hfst
