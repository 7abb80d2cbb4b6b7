import Verif.Lemmas.FinnishBaseform
/-!
# C58 and C60: attribute values of the analyses, and safety of the parsing of transducer output
-/

namespace Verif.Props

open Verif

/-- The values an attribute may have: those listed by `voikkoGetAttributeValues`, and `positive` for `COMPARISON`. An
attribute for which nothing is listed may have any value. -/
def Listed (k : AKey) (v : List Wc) : Prop :=
  match attributeValues ((keyToString[k.num]?).getD []) with
  | none => True
  | some vals => v ∈ vals ∨ (k = .comparison ∧ v = lit "positive")

instance (k : AKey) (v : List Wc) : Decidable (Listed k v) := by
  unfold Listed
  generalize attributeValues ((keyToString[k.num]?).getD []) = o
  cases o <;> infer_instance

theorem free_listed {k : AKey} (h : attributeValues ((keyToString[k.num]?).getD []) = none) (s : List Wc) : Listed k s := by
  rw [Listed, h]; trivial

theorem listed_ok : AllowedOk Listed where
  cls := by decide +kernel
  number := by decide +kernel
  person := by decide +kernel
  sijamuoto := by decide +kernel
  mood := by decide +kernel
  tense := by decide +kernel
  focus := by decide +kernel
  possessive := by decide +kernel
  comparison := by decide +kernel
  positive := by decide +kernel
  negative := by decide +kernel
  participle := by decide +kernel
  question := by decide +kernel
  free := by decide +kernel
  geo := by decide +kernel
  verbA := by decide +kernel
  verbMA := by decide +kernel
  str := free_listed (by decide +kernel)
  fst := free_listed (by decide +kernel)
  base := free_listed (by decide +kernel)
  bases := free_listed (by decide +kernel)
  ids := free_listed (by decide +kernel)

theorem parseBasicAttributes_nil : parseBasicAttributes {} [] = none := by decide +kernel

theorem restOfAnalysis_nil (full : Bool) (st : List Wc) : restOfAnalysis full [] st = none := by
  rw [restOfAnalysis, parseBasicAttributes_nil]; rfl

theorem analyzeOutput_good {A : AKey → List Wc → Prop} (hA : AllowedOk A) {wlen : Nat} {full : Bool} {out : List Wc}
    (hlen : out.length < 2 ^ 64) {l : List Ana} (h : analyzeOutput wlen full out = some l) : ∀ a ∈ l, Good A a := by
  rw [analyzeOutput_eq, Option.bind_eq_bind, Option.bind_eq_some_iff] at h
  obtain ⟨v, _, h⟩ := h
  cases v with
  | false => cases h; intro a ha; cases ha
  | true =>
    simp only [Bool.not_true, Bool.false_eq_true, if_false] at h
    rw [Option.bind_eq_bind, Option.bind_eq_some_iff] at h
    obtain ⟨st, _, h⟩ := h
    cases out with
    | nil => rw [restOfAnalysis_nil] at h; cases h
    | cons c r =>
      obtain ⟨l', hl', hg⟩ := restOfAnalysis_ok hA full (List.cons_ne_nil c r) hlen st
      rw [hl'] at h
      cases h
      exact hg

theorem analyzeOutputs_good {A : AKey → List Wc → Prop} (hA : AllowedOk A) {wlen : Nat} {full : Bool} :
    ∀ (outs : List (List Wc)) (l : List Ana), (∀ o ∈ outs, o.length < 2 ^ 64) →
    analyzeOutputs wlen full outs = some l → ∀ a ∈ l, Good A a := by
  intro outs
  induction outs with
  | nil => intro l _ h; cases h; intro a ha; cases ha
  | cons o r ih =>
    intro l hlen h
    rw [analyzeOutputs, Option.bind_eq_bind, Option.bind_eq_some_iff] at h
    obtain ⟨x, hx, h⟩ := h
    rw [Option.bind_eq_some_iff] at h
    obtain ⟨y, hy, h⟩ := h
    cases h
    intro a ha
    rcases List.mem_append.1 ha with ha | ha
    · exact analyzeOutput_good hA (hlen o (List.mem_cons_self ..)) hx a ha
    · exact ih y (fun o ho => hlen o (List.mem_cons_of_mem _ ho)) hy a ha

theorem finnishAnalyze_good {A : AKey → List Wc → Prop} (hA : AllowedOk A) {next : List Wc → List (List Wc)} {word : List Wc}
    {full : Bool} (hnext : ∀ o ∈ next (setCase .allLower word), o.length < 2 ^ 64) {l : List Ana}
    (h : finnishAnalyze next word full = some l) : ∀ a ∈ l, Good A a := by
  rw [finnishAnalyze] at h
  split at h
  · cases h; intro a ha; cases ha
  · exact analyzeOutputs_good hA _ _ (fun o ho => hnext o (List.mem_of_mem_take ho)) h

/-- **C58** (what holds): whatever the transducer says about a word, every value of every analysis for an attribute that
`voikkoGetAttributeValues` knows is one of the listed values, with one exception: `COMPARISON` may also be `positive`.
What is missing from the full claim is the listing of `positive` (see `C58_violation`). -/
theorem C58_listed_partial (next : List Wc → List (List Wc)) (word : List Wc) (full : Bool)
    (hnext : ∀ o ∈ next (setCase .allLower word), o.length < 2 ^ 64) (l : List Ana)
    (h : finnishAnalyze next word full = some l) (a : Ana) (ha : a ∈ l) (name v : List Wc) (vals : List (List Wc))
    (hv : analysisValue a name = some v) (hvals : attributeValues name = some vals) :
    v ∈ vals ∨ (name = lit "COMPARISON" ∧ v = lit "positive") := by
  have hg := finnishAnalyze_good listed_ok hnext h a ha
  rw [analysisValue, Ana.getValueS] at hv
  split at hv
  · cases hv
  · rename_i k hk
    have hl := hg.vals _ _ hv
    have hn : (keyToString[k.num]?).getD [] = name ∧ (k = .comparison → name = lit "COMPARISON") := by
      obtain ⟨x, hx, hx2⟩ : ∃ x ∈ stringToKey, x.1 = name ∧ x.2 = k := by
        clear hl hv hg
        revert hk
        generalize stringToKey = m
        intro hk
        induction m with
        | nil => cases hk
        | cons e m ih =>
          obtain ⟨a, b⟩ := e
          rw [List.lookup_cons] at hk
          split at hk
          · rename_i he
            cases hk
            exact ⟨_, List.mem_cons_self .., (eq_of_beq he).symm, rfl⟩
          · obtain ⟨x, h1, h2⟩ := ih hk
            exact ⟨x, List.mem_cons_of_mem _ h1, h2⟩
      have key : ∀ x ∈ stringToKey, (keyToString[x.2.num]?).getD [] = x.1 ∧ (x.2 = .comparison → x.1 = lit "COMPARISON") := by
        decide +kernel
      have := key x hx
      rw [hx2.1, hx2.2] at this
      exact this
    rw [Listed, hn.1, hvals] at hl
    rcases hl with hl | ⟨h1, h2⟩
    · exact Or.inl hl
    · exact Or.inr ⟨hn.2 h1, h2⟩

/-- The names of the attributes for which values are listed. -/
def enumerable : List String :=
  ["CLASS", "NUMBER", "COMPARISON", "FOCUS", "TENSE", "SIJAMUOTO", "MOOD", "PERSON", "PARTICIPLE", "NEGATIVE", "POSSESSIVE",
   "KYSYMYSLIITE", "MALAGA_VAPAA_JALKIOSA", "POSSIBLE_GEOGRAPHICAL_NAME", "REQUIRE_FOLLOWING_VERB"]

/-- **C58**: values are listed for exactly the enumerable attributes, and no list has a value twice or is empty. -/
theorem C58_no_duplicates (name : List Nat) :
    (attributeValues name ≠ none ↔ name ∈ enumerable.map lit)
    ∧ ∀ vals, attributeValues name = some vals → vals ≠ [] ∧ vals.Nodup := by
  have all : ∀ n ∈ enumerable.map lit, attributeValues n ≠ none ∧ ((attributeValues n).getD []).Nodup ∧ (attributeValues n).getD [] ≠ [] := by
    decide +kernel
  by_cases hn : name ∈ enumerable.map lit
  · obtain ⟨h1, h2, h3⟩ := all name hn
    refine ⟨⟨fun _ => hn, fun _ => h1⟩, fun vals hv => ?_⟩
    rw [hv] at h2 h3
    exact ⟨h3, h2⟩
  · have h0 : attributeValues name = none := by
      have hne : ∀ s ∈ enumerable, name ≠ lit s := fun s hs e => hn (List.mem_map.2 ⟨s, hs, e.symm⟩)
      rw [attributeValues, if_pos]
      have h1 : ¬(name = lit "KYSYMYSLIITE" ∨ name = lit "MALAGA_VAPAA_JALKIOSA" ∨ name = lit "POSSIBLE_GEOGRAPHICAL_NAME") := by
        rintro (h | h | h)
        · exact hne _ (by decide) h
        · exact hne _ (by decide) h
        · exact hne _ (by decide) h
      rw [getAttributeValues, if_neg (hne "CLASS" (by decide)), if_neg (hne "NUMBER" (by decide)),
        if_neg (hne "COMPARISON" (by decide)), if_neg (hne "FOCUS" (by decide)), if_neg (hne "TENSE" (by decide)),
        if_neg (hne "SIJAMUOTO" (by decide)), if_neg (hne "MOOD" (by decide)), if_neg (hne "PERSON" (by decide)),
        if_neg (hne "PARTICIPLE" (by decide)), if_neg (hne "NEGATIVE" (by decide)), if_neg (hne "POSSESSIVE" (by decide)),
        if_neg h1, if_neg (hne "REQUIRE_FOLLOWING_VERB" (by decide))]
    exact ⟨⟨fun h => absurd h0 h, fun h => absurd h hn⟩, fun vals hv => by rw [h0] at hv; cases hv⟩

/-- **C58** fails as stated: an adjective gets `COMPARISON` = `positive`, which is not listed. -/
theorem C58_violation :
    ∃ (next : List Wc → List (List Wc)) (word : List Wc) (l : List Ana) (a : Ana) (vals : List (List Wc)),
      finnishAnalyze next word false = some l ∧ a ∈ l ∧ analysisValue a (lit "COMPARISON") = some (lit "positive")
      ∧ attributeValues (lit "COMPARISON") = some vals ∧ lit "positive" ∉ vals := by
  refine ⟨fun _ => [lit "[Ll][Xp]iso[X]iso[Sn][Ny]"], lit "iso",
    (finnishAnalyze (fun _ => [lit "[Ll][Xp]iso[X]iso[Sn][Ny]"]) (lit "iso") false).getD [], ?_⟩
  refine ⟨((finnishAnalyze (fun _ => [lit "[Ll][Xp]iso[X]iso[Sn][Ny]"]) (lit "iso") false).getD []).headD {},
    (attributeValues (lit "COMPARISON")).getD [], ?_⟩
  decide +kernel

/-- An analysis with several enumerable attributes. -/
example : ∃ l a, finnishAnalyze (fun _ => [lit "[Ln][Xp]kala[X]kalo[Ssti][Ny]lla[O1y]"]) (lit "kalollani") true = some l ∧ a ∈ l
    ∧ analysisValue a (lit "CLASS") = some (lit "nimisana") ∧ analysisValue a (lit "POSSESSIVE") = some (lit "1s")
    ∧ analysisValue a (lit "BASEFORM") = some (lit "kala") := by
  refine ⟨(finnishAnalyze (fun _ => [lit "[Ln][Xp]kala[X]kalo[Ssti][Ny]lla[O1y]"]) (lit "kalollani") true).getD [],
    ((finnishAnalyze (fun _ => [lit "[Ln][Xp]kala[X]kalo[Ssti][Ny]lla[O1y]"]) (lit "kalollani") true).getD []).headD {}, ?_⟩
  decide +kernel

/-! ## C60 -/

/-- **C60** (validity check): `isValidAnalysis` gives an answer for every output, without reading outside of it. -/
theorem C60_validity (out : List Wc) : ∃ b, isValidAnalysis out = some b := by
  obtain ⟨b, h, _⟩ := isValidAnalysis_ok out
  exact ⟨b, h⟩

/-- **C60** (base form): the base form of every output is found for every structure string without reading or writing
outside of the buffers, and so are the corrected structure (which keeps its length) and the debugging attributes. -/
theorem C60_baseform (out st : List Wc) (a : Ana) (ha : AnaOk a) :
    (∃ b, parseBaseform out st = some b)
    ∧ (∃ st', fixStructure st out = some st' ∧ st'.length = st.length)
    ∧ (∃ b, parseDebugAttributes a out = some b ∧ AnaOk b) := by
  have hg : Good (fun _ _ => True) a := ⟨ha, fun _ _ _ => trivial⟩
  have hA : AllowedOk (fun _ _ => True) := ⟨by constructor <;> intros <;> trivial, by simp, by simp, by simp, by simp, by simp⟩
  obtain ⟨b, hb, _⟩ := parseBaseform_ok out st
  obtain ⟨s, hs, hs2⟩ := fixStructure_ok st out
  obtain ⟨d, hd, hd2⟩ := parseDebugAttributes_ok hA hg out
  exact ⟨⟨b, hb⟩, ⟨s, hs, hs2.1⟩, ⟨d, hd, hd2.ok⟩⟩

/-- **C60** (attributes): after the structure has been parsed, everything else is found for every output that is not
empty. What is missing from the full claim is the empty output, see `C60_empty_violation`, and the parsing of the structure,
see `C60_structure_violation` and C59. -/
theorem C60_attributes_partial (out st : List Wc) (full : Bool) (h : out ≠ []) (hlen : out.length < 2 ^ 64) :
    (∃ a, parseBasicAttributes {} out = some a ∧ AnaOk a)
    ∧ ∃ l, restOfAnalysis full out st = some l ∧ ∀ a ∈ l, AnaOk a := by
  have hA : AllowedOk (fun _ _ => True) := ⟨by constructor <;> intros <;> trivial, by simp, by simp, by simp, by simp, by simp⟩
  have h1 : Ok (parseBasicAttributes {} out) (Good fun _ _ => True) := parseBasicAttributes_ok hA.toAllowedBasic good_empty rfl h hlen
  have h2 := restOfAnalysis_ok hA full h hlen st
  revert h1 h2
  generalize parseBasicAttributes {} out = x
  generalize restOfAnalysis full out st = y
  rintro ⟨a, h1, h2⟩ ⟨l, h3, h4⟩
  exact ⟨⟨a, h1, h2.ok⟩, l, h3, fun a ha => (h4 a ha).ok⟩

theorem bind_valid (x : UB Bool) (p : UB (List Wc)) (g : List Wc → UB (List Ana)) {st : List Wc} (hx : x = some true)
    (hp : p = some st) : (do
      let v ← x
      if !v then return []
      else do
        let st ← p
        g st) = g st := by
  subst hx hp; rfl

theorem bind_invalid (x : UB Bool) (p : UB (List Wc)) (g : List Wc → UB (List Ana)) (hx : x = some false) : (do
      let v ← x
      if !v then return []
      else do
        let st ← p
        g st) = some [] := by
  subst hx; rfl

/-- **C60** (all of it): if the structure of every valid output can be parsed and no output is empty then the analysis of
a word ends without undefined behaviour. -/
theorem C60_analysis_partial (next : List Wc → List (List Wc)) (word : List Wc) (full : Bool)
    (hnext : ∀ o ∈ next (setCase .allLower word), o ≠ [] ∧ o.length < 2 ^ 64
      ∧ (isValidAnalysis o = some true → ∃ st, parseStructure o word.length = some st)) :
    ∃ l, finnishAnalyze next word full = some l ∧ ∀ a ∈ l, AnaOk a := by
  have hA : AllowedOk (fun _ _ => True) := ⟨by constructor <;> intros <;> trivial, by simp, by simp, by simp, by simp, by simp⟩
  rw [finnishAnalyze]
  split
  · exact ⟨[], rfl, fun a ha => by cases ha⟩
  · have hn : ∀ o ∈ (next (setCase .allLower word)).take 99, o ≠ [] ∧ o.length < 2 ^ 64
        ∧ (isValidAnalysis o = some true → ∃ st, parseStructure o word.length = some st) :=
      fun o ho => hnext o (List.mem_of_mem_take ho)
    generalize (next (setCase .allLower word)).take 99 = outs at hn
    induction outs with
    | nil => exact ⟨[], rfl, fun a ha => by cases ha⟩
    | cons o r ih =>
      obtain ⟨y, hy, hy2⟩ := ih fun o ho => hn o (List.mem_cons_of_mem _ ho)
      obtain ⟨h1, h2, h3⟩ := hn o (List.mem_cons_self ..)
      obtain ⟨v, hv⟩ := C60_validity o
      have hx : ∃ x, analyzeOutput word.length full o = some x ∧ ∀ a ∈ x, AnaOk a := by
        rw [analyzeOutput_eq]
        cases v with
        | false => exact ⟨[], bind_invalid _ _ _ hv, fun a ha => by cases ha⟩
        | true =>
          obtain ⟨st, hst⟩ := h3 hv
          obtain ⟨l, hl, hl2⟩ := restOfAnalysis_ok hA full h1 h2 st
          exact ⟨l, (bind_valid _ _ _ hv hst).trans hl, fun a ha => (hl2 a ha).ok⟩
      obtain ⟨x, hx, hx2⟩ := hx
      refine ⟨x ++ y, by rw [analyzeOutputs, hx, hy]; rfl, fun a ha => ?_⟩
      rcases List.mem_append.1 ha with ha | ha
      · exact hx2 a ha
      · exact hy2 a ha

/-- **C60** fails for an output without any characters: it is valid, but the attributes are read from behind it. -/
theorem C60_empty_violation : isValidAnalysis [] = some true ∧ parseBasicAttributes {} [] = none
    ∧ ∀ word, word.length ≤ 255 → finnishAnalyze (fun _ => [[]]) word false = none := by
  refine ⟨by decide +kernel, parseBasicAttributes_nil, fun word hw => ?_⟩
  rw [finnishAnalyze, if_neg (by omega)]
  show analyzeOutputs word.length false [[]] = none
  have h : analyzeOutput word.length false [] = none := by
    rw [analyzeOutput_eq, show isValidAnalysis [] = some true from by decide +kernel]
    simp only [restOfAnalysis_nil, Option.bind_eq_bind, Option.bind_some, Bool.not_true, Bool.false_eq_true, if_false]
    cases parseStructure [] word.length <;> rfl
  rw [analyzeOutputs, h]; rfl

/-- **C60** fails for a valid output with an unterminated `[X` section: the structure is read from behind it. -/
theorem C60_structure_violation : isValidAnalysis (lit "ab[Xs]") = some true ∧ parseStructure (lit "ab[Xs]") 2 = none := by
  decide +kernel

/-- The hypotheses of `C60_analysis_partial` for a noun. -/
example : isValidAnalysis (lit "[Ln][Xp]kala[X]kala[Sn][Ny]") = some true
    ∧ parseStructure (lit "[Ln][Xp]kala[X]kala[Sn][Ny]") 4 = some (lit "=pppp") := by
  decide +kernel

end Verif.Props
