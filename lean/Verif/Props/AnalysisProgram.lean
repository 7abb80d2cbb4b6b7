import Verif.Props.SpellProgram
import Verif.Props.WordBases
import Verif.Lemmas.ShownAnalyses
import Verif.Lemmas.ShownLines
/-!
# C106: what `voikkospell -m` prints follows from the text of its dictionary
-/

set_option linter.unusedSimpArgs false
set_option linter.unusedVariables false

namespace Verif.AnalysisProgram

open Verif Verif.Props Verif.Threads Verif.SpellOutput Verif.Args Verif.Att Verif.SpellProgram
open Verif.Attrs (Attribute attributeName grammatical Organisation)
open Verif.Baseform (BaseOf)
open Verif.WordBases (describe baseNote idNote parts HasId)

/-! ### Specification -/

/-- A good reading of the word `v` whose sections are as usual, written in one line. -/
structure FullReading (v : List Wc) (its : List SItem) : Prop extends GoodReading v its where
  regular : Baseform.Regular its
  usual : WordBases.Usual its
  line : 0x0A ∉ render its

/-- The text of a dictionary whose readings are full ones. -/
structure FullText (ls : List Line) : Prop extends FinnishText ls where
  full : ∀ (v : List Wc) (run : List Nat), v.length ≤ 255 → Att.Accepts ls v false run v.length → ∃ its, runOutput ls run = render its ∧ FullReading v its

/-- STRUCTURE describes the reading, with the capital letters `req`, and BASEFORM is the base form with the capital letters of STRUCTURE. -/
def TellsLetters (its : List SItem) (req : List Wc) (kv : List (List Wc × List Wc)) : Prop :=
  ∃ st, (∀ v, (lit "STRUCTURE", v) ∈ kv ↔ v = st) ∧ Describes its st ∧ strip st = req ∧ ∀ b, (lit "BASEFORM", b) ∈ kv ↔ BaseOf its st b

/-- The attributes of an analysis tell what the reading says. -/
structure Tells (its : List SItem) (kv : List (List Wc × List Wc)) : Prop where
  /-- each attribute once, in the order of the names -/
  order : List.Sublist (kv.map (·.1)) (attributeNames.map fun x => lit x.2)
  /-- the grammatical attributes -/
  grammar : ∀ k ∈ grammatical, ∀ v, (attributeName k, v) ∈ kv ↔ Attribute its k v
  letters : TellsLetters its (required its) kv
  output : ∀ v, (lit "FSTOUTPUT", v) ∈ kv ↔ v = render its
  bases : ∀ v, (lit "WORDBASES", v) ∈ kv ↔ v = describe baseNote (parts {} its)
  ids : ∀ v, (lit "WORDIDS", v) ∈ kv ↔ HasId its ∧ v = describe idNote (parts {} its)
  weight : ∀ v, (lit "WEIGHT", v) ∉ kv

/-- The attributes of the second analysis of the name of an organisation. -/
structure TellsName (its : List SItem) (kv : List (List Wc × List Wc)) : Prop where
  order : List.Sublist (kv.map (·.1)) (attributeNames.map fun x => lit x.2)
  grammar : ∀ k ∈ grammatical, ∀ v, (attributeName k, v) ∈ kv ↔ (k = .cls ∧ v = lit "nimi") ∨ (k ≠ .cls ∧ k ≠ .geographical ∧ Attribute its k v)
  letters : TellsLetters its (requiredName its) kv
  output : ∀ v, (lit "FSTOUTPUT", v) ∉ kv
  bases : ∀ v, (lit "WORDBASES", v) ∉ kv
  ids : ∀ v, (lit "WORDIDS", v) ∉ kv
  weight : ∀ v, (lit "WEIGHT", v) ∉ kv

/-- The analyses that a valid reading gives. -/
def Said (its : List SItem) (p : List (List (List Wc × List Wc))) : Prop :=
  ∃ kv, Tells its kv ∧ ((¬ Organisation its ∧ p = [kv]) ∨ (Organisation its ∧ ∃ kv', TellsName its kv' ∧ p = [kv, kv']))

/-- The analyses that a run for the word `v` gives. -/
structure SaidByRun (ls : List Line) (v : List Wc) (run : List Nat) (p : List (List (List Wc × List Wc))) : Prop where
  reading : ∃ its, runOutput ls run = render its ∧ FullReading v its
  said : ∀ its, runOutput ls run = render its → FullReading v its → (Validity.Valid (Validity.events its) → Said its p) ∧ (¬ Validity.Valid (Validity.events its) → p = [])

/-- The attributes can be written in one line each. -/
def Lines (kv : List (List Wc × List Wc)) : Prop := ∀ x ∈ kv, 0x0A ∉ x.1 ∧ 0x3D ∉ x.1 ∧ 0x0A ∉ x.2

/-! ### One reading -/

theorem mem_value (a : Ana) (x : AKey × String) (hx : x ∈ attributeNames) (v : List Wc) : (lit x.2, v) ∈ Shown.pairs a ↔ analysisValue a (lit x.2) = some v := by
  rw [Shown.mem_pairs a x hx, Shown.value_of_name a x hx]

theorem grammar_name : ∀ k ∈ grammatical, ∃ x ∈ attributeNames, attributeName k = lit x.2 := by decide

theorem mem_grammar (a : Ana) {k : AKey} (hk : k ∈ grammatical) (v : List Wc) : (attributeName k, v) ∈ Shown.pairs a ↔ analysisValue a (attributeName k) = some v := by
  obtain ⟨x, hx, e⟩ := grammar_name k hk
  rw [e]
  exact mem_value a x hx v

/-- What the analyser writes by itself is in one line, and no weight. -/
def Tame (k : AKey) (v : List Wc) : Prop := k ≠ .weight ∧ (k = .structure_ ∨ k = .fstoutput ∨ k = .baseform ∨ k = .wordbases ∨ k = .wordids ∨ 0x0A ∉ v)

instance (k : AKey) (v : List Wc) : Decidable (Tame k v) := by unfold Tame; infer_instance

theorem tame_ok : AllowedOk Tame where
  cls := by decide +kernel
  number := by decide +kernel
  person := by decide +kernel
  sijamuoto := by decide +kernel
  mood := by decide +kernel
  tense := by decide +kernel
  focus := by decide +kernel
  possessive := by decide +kernel
  comparison := by decide +kernel
  positive := by decide +kernel
  negative := by decide +kernel
  participle := by decide +kernel
  question := by decide +kernel
  free := by decide +kernel
  geo := by decide +kernel
  verbA := by decide +kernel
  verbMA := by decide +kernel
  str := fun s => ⟨by decide, by simp⟩
  fst := fun s => ⟨by decide, by simp⟩
  base := fun s => ⟨by decide, by simp⟩
  bases := fun s => ⟨by decide, by simp⟩
  ids := fun s => ⟨by decide, by simp⟩

theorem required_flat {its : List SItem} (h : ShownLines.Flat its) : 0x0A ∉ required its :=
  ShownLines.adjusted_flat _ _ _ _ (ShownLines.letters_flat its {} h (by simp))

theorem requiredName_flat {its : List SItem} (h : ShownLines.Flat its) : 0x0A ∉ requiredName its := by
  unfold requiredName
  rw [List.mem_cons, not_or]
  exact ⟨by decide, fun e => required_flat h (List.mem_of_mem_tail e)⟩

theorem lines_of {its : List SItem} (hf : ShownLines.Flat its) {a : Ana} (hg : Good Tame a) {req : List Wc} (hreq : 0x0A ∉ req)
    (hl : TellsLetters its req (Shown.pairs a)) (ho : ∀ v, (lit "FSTOUTPUT", v) ∈ Shown.pairs a → 0x0A ∉ v)
    (hb : ∀ v, (lit "WORDBASES", v) ∈ Shown.pairs a → 0x0A ∉ v) (hi : ∀ v, (lit "WORDIDS", v) ∈ Shown.pairs a → 0x0A ∉ v) : Lines (Shown.pairs a) := by
  have names : ∀ x ∈ attributeNames, 0x0A ∉ lit x.2 ∧ 0x3D ∉ lit x.2 := by decide +kernel
  intro x hx
  have hx' := hx
  unfold Shown.pairs at hx'
  obtain ⟨⟨k, s⟩, hy, e⟩ := List.mem_filterMap.1 hx'
  obtain ⟨v, hv, e⟩ := Option.map_eq_some_iff.1 e
  subst e
  refine ⟨(names _ hy).1, (names _ hy).2, ?_⟩
  obtain ⟨st, h1, -, h3, h4⟩ := hl
  have name : ∀ (k' : AKey) (s' : String), (k', s') ∈ attributeNames → k = k' → (lit s', v) ∈ Shown.pairs a := fun k' s' hm e =>
    (Shown.mem_pairs a (k', s') hm v).2 (by rw [← e]; exact hv)
  rcases (hg.vals k v hv).2 with e | e | e | e | e | e
  · have := (h1 v).1 (name _ "STRUCTURE" (by decide) e)
    show 0x0A ∉ v
    rw [this]
    exact ShownLines.of_strip (by rw [h3]; exact hreq)
  · exact ho v (name _ "FSTOUTPUT" (by decide) e)
  · exact ShownLines.base_flat hf ((h4 v).1 (name _ "BASEFORM" (by decide) e))
  · exact hb v (name _ "WORDBASES" (by decide) e)
  · exact hi v (name _ "WORDIDS" (by decide) e)
  · exact e

theorem rest_of_output {n : Nat} {full : Bool} {out : List Wc} {l : List Ana} (hv : isValidAnalysis out = some true) (h : analyzeOutput n full out = some l) :
    ∃ st, restOfAnalysis full out st = some l := by
  rw [analyzeOutput_eq, Option.bind_eq_bind, Option.bind_eq_some_iff] at h
  obtain ⟨v, h0, h⟩ := h
  rw [hv] at h0
  cases h0
  simp only [Bool.not_true, Bool.false_eq_true, if_false] at h
  rw [Option.bind_eq_bind, Option.bind_eq_some_iff] at h
  obtain ⟨st, _, h⟩ := h
  exact ⟨st, h⟩

/-- The letters of one analysis. -/
theorem letters_of {its : List SItem} {v : List Wc} (hr : FullReading v its) {a : Ana} (hm : Baseform.Made (render its) a) {req st : List Wc}
    (h1 : analysisValue a (lit "STRUCTURE") = some st) (h2 : Describes its st) (h3 : strip st = req) : TellsLetters its req (Shown.pairs a) := by
  obtain ⟨st', g1, g2⟩ := made_value hr.regulated.wf hr.regulated.tidy hr.regular hm
  rw [h1] at g1
  cases g1
  refine ⟨st, fun v => ?_, h2, h3, fun b => ?_⟩
  · rw [mem_value a (.structure_, "STRUCTURE") (by decide), h1]
    exact ⟨fun e => by cases e; rfl, fun e => by rw [e]⟩
  · rw [mem_value a (.baseform, "BASEFORM") (by decide)]
    exact g2 b

/-- **C106** (one reading): the analyses of a valid reading, as they are published, tell what the reading says; and each attribute is one line. -/
theorem C106_reading {v : List Wc} {its : List SItem} (hr : FullReading v its) (hlen : (render its).length < 2 ^ 64)
    (hv : isValidAnalysis (render its) = some true) :
    ∃ l, analyzeOutput (content its).length true (render its) = some l ∧ (∀ a ∈ l, AnaOk a) ∧ Said its (l.map Shown.pairs) ∧ ∀ kv ∈ l.map Shown.pairs, Lines kv := by
  have hf := ShownLines.flat_of hr.line
  have hwf := hr.regulated.wf
  have hne : render its ≠ [] := by rw [Ne, Verif.Letters.render_nil]; exact items_ne hwf
  obtain ⟨l, hl, x, hx, hcase⟩ := C79_reading its true hwf hr.regulated.tidy hlen hv
  have hgood := analyzeOutput_good tame_ok hlen hl
  refine ⟨l, hl, fun a ha => (hgood a ha).ok, ?_⟩
  obtain ⟨a, r, st, e1, b1, b2, b3, b4⟩ := C85_reading_partial its true hr.regulated hlen hv
  rw [hl] at e1
  cases e1
  obtain ⟨a', r', e2, c1, c2, -⟩ := analyses_made its true hwf hlen hv
  rw [hl] at e2
  cases e2
  obtain ⟨a', r', e3, d1, d2, d3, d4⟩ := C90_wordbases_partial its hwf hr.regulated.tidy hr.usual hlen hv
  rw [hl] at e3
  cases e3
  obtain ⟨st0, hrest⟩ := rest_of_output hv hl
  obtain ⟨l', e4, a', r', e5, f1, f2⟩ := Shown.rest_output hne hlen st0
  rw [hrest] at e4
  cases e4
  cases e5
  have weight : ∀ b ∈ a :: r, ∀ v, (lit "WEIGHT", v) ∉ Shown.pairs b := fun b hb v h =>
    ((hgood b hb).vals .weight v ((Shown.mem_pairs b (.weight, "WEIGHT") (by decide) v).1 h)).1 rfl
  have first : Tells its (Shown.pairs a) := by
    have ha : x = a := by rcases hcase with ⟨_, e⟩ | ⟨_, b, _, e⟩ <;> (cases e; rfl)
    subst ha
    refine ⟨Shown.pairs_order _, fun k hk v => ?_, letters_of hr (c2 rfl) b1 b2 b3, fun v => ?_, fun v => ?_, fun v => ?_, weight _ List.mem_cons_self⟩
    · rw [mem_grammar x hk]; exact hx k hk v
    · rw [Shown.mem_pairs x (.fstoutput, "FSTOUTPUT") (by decide), f1]
      exact ⟨fun e => by cases e; rfl, fun e => by rw [e]⟩
    · rw [mem_value x (.wordbases, "WORDBASES") (by decide), d1]
      exact ⟨fun e => by cases e; rfl, fun e => by rw [e]⟩
    · rw [mem_value x (.wordids, "WORDIDS") (by decide)]
      by_cases hi : HasId its
      · rw [d2 hi]
        exact ⟨fun e => by cases e; exact ⟨hi, rfl⟩, fun e => by rw [e.2]⟩
      · rw [d3 hi]
        exact ⟨fun e => (by cases e), fun e => absurd e.1 hi⟩
  have second : ∀ b ∈ r, Attrs.ReadsName its b → TellsName its (Shown.pairs b) := by
    intro b hb hn
    obtain ⟨st', g1, g2, g3⟩ := b4 b hb
    refine ⟨Shown.pairs_order _, fun k hk v => ?_, letters_of hr (c1 b hb) g1 g2 g3, fun v => ?_, fun v => ?_, fun v => ?_, weight _ (List.mem_cons_of_mem _ hb)⟩
    · rw [mem_grammar b hk]; exact hn k hk v
    · rw [Shown.mem_pairs b (.fstoutput, "FSTOUTPUT") (by decide), f2 b hb]; simp
    · rw [mem_value b (.wordbases, "WORDBASES") (by decide), (d4 b hb).1]; simp
    · rw [mem_value b (.wordids, "WORDIDS") (by decide), (d4 b hb).2]; simp
  have line1 : Lines (Shown.pairs a) := lines_of hf (hgood _ List.mem_cons_self) (required_flat hf) first.letters
    (fun v h => by rw [(first.output v).1 h]; exact hr.line) (fun v h => by rw [(first.bases v).1 h]; exact ShownLines.bases_flat hf)
    (fun v h => by rw [((first.ids v).1 h).2]; exact ShownLines.ids_flat hf)
  have line2 : ∀ b ∈ r, Attrs.ReadsName its b → Lines (Shown.pairs b) := fun b hb hn =>
    lines_of hf (hgood _ (List.mem_cons_of_mem _ hb)) (requiredName_flat hf) (second b hb hn).letters
      (fun v h => absurd h ((second b hb hn).output v)) (fun v h => absurd h ((second b hb hn).bases v)) (fun v h => absurd h ((second b hb hn).ids v))
  rcases hcase with ⟨ho, e⟩ | ⟨ho, b, hb, e⟩
  · cases e
    exact ⟨⟨_, first, .inl ⟨ho, rfl⟩⟩, fun kv h => by rw [List.mem_singleton.1 h]; exact line1⟩
  · cases e
    refine ⟨⟨_, first, .inr ⟨ho, _, second b List.mem_cons_self hb, rfl⟩⟩, fun kv h => ?_⟩
    simp only [List.map_cons, List.map_nil, List.mem_cons, List.not_mem_nil, or_false] at h
    rcases h with rfl | rfl
    · exact line1
    · exact line2 b List.mem_cons_self hb

/-! ### The analyses of a word -/

/-- The analyses that the program shows are those of the runs of the text, in order, whatever has been analysed before. -/
structure ShowsText (ls : List Line) (runsOf : List Wc → List (List Nat)) (f : Fst) (ana : List Wc → List (List (List Wc × List Wc))) : Prop where
  total : ∀ c, AnalysedBefore f (fun _ => True) c → ∀ w, ∃ c', toolAnalyses f c w = some (ana w, c') ∧ AnalysedBefore f (fun _ => True) c'
  long : ∀ w, 255 < w.length → ana w = []
  said : ∀ w : List Wc, w.length ≤ 255 → ∃ ps, ana w = ps.flatten ∧
    List.Forall₂ (SaidByRun ls (setCase .allLower w)) ((runsOf (setCase .allLower w)).take 99) ps
  lines : ∀ w, ∀ kv ∈ ana w, Lines kv

/-- The analyses of one run. -/
theorem run_said {ls : List Line} (hf : FullText ls) {v : List Wc} (hv : v.length ≤ 255) {run : List Nat} (hr : Att.Accepts ls v false run v.length) :
    ∃ l, analyzeOutput v.length true (runOutput ls run) = some l ∧ (∀ a ∈ l, AnaOk a) ∧ SaidByRun ls v run (l.map Shown.pairs) ∧
      ∀ kv ∈ l.map Shown.pairs, Lines kv := by
  have hsz := (hf.small v hv).out run _ hr
  have one : ∀ its, runOutput ls run = render its → FullReading v its → ∃ l, analyzeOutput v.length true (runOutput ls run) = some l ∧ (∀ a ∈ l, AnaOk a) ∧
      (Validity.Valid (Validity.events its) → Said its (l.map Shown.pairs)) ∧ (¬ Validity.Valid (Validity.events its) → l = []) ∧
      ∀ kv ∈ l.map Shown.pairs, Lines kv := by
    intro its e h
    obtain ⟨b, hb, hval⟩ := C77_valid its h.plain
    cases b with
    | true =>
      obtain ⟨l, h1, h2, h3, h4⟩ := C106_reading h (by rw [← e]; omega) hb
      exact ⟨l, by rw [e, ← h.length]; exact h1, h2, fun _ => h3, fun hn => absurd (hval.1 rfl) hn, h4⟩
    | false =>
      refine ⟨[], ?_, by simp, fun hn => absurd (hval.2 hn) (by simp), fun _ => rfl, by simp⟩
      rw [e, analyzeOutput_eq, hb]
      rfl
  obtain ⟨its, e, h⟩ := hf.full v run hv hr
  obtain ⟨l, h1, h2, h3, h4, h5⟩ := one its e h
  refine ⟨l, h1, h2, ⟨⟨its, e, h⟩, fun its' e' h' => ?_⟩, h5⟩
  obtain ⟨l', g1, -, g3, g4, -⟩ := one its' e' h'
  rw [h1] at g1
  cases g1
  exact ⟨g3, fun hn => by rw [g4 hn]; rfl⟩

theorem runs_said {ls : List Line} (hf : FullText ls) {v : List Wc} (hv : v.length ≤ 255) : ∀ L : List (List Nat), (∀ run ∈ L, Att.Accepts ls v false run v.length) →
    ∃ l ps, analyzeOutputs v.length true (L.map (runOutput ls)) = some l ∧ (∀ a ∈ l, AnaOk a) ∧ l.map Shown.pairs = ps.flatten ∧
      List.Forall₂ (SaidByRun ls v) L ps ∧ ∀ kv ∈ l.map Shown.pairs, Lines kv
  | [], _ => ⟨[], [], rfl, by simp, rfl, .nil, by simp⟩
  | run :: L, h => by
    obtain ⟨l, ps, h1, h2, h3, h4, h5⟩ := runs_said hf hv L fun r hr => h r (List.mem_cons_of_mem _ hr)
    obtain ⟨l0, g1, g2, g3, g4⟩ := run_said hf hv (h run List.mem_cons_self)
    refine ⟨l0 ++ l, l0.map Shown.pairs :: ps, ?_, ?_, ?_, .cons g3 h4, ?_⟩
    · rw [List.map_cons, analyzeOutputs, g1, h1]; rfl
    · intro a ha
      exact (List.mem_append.1 ha).elim (g2 a) (h2 a)
    · rw [List.map_append, h3, List.flatten_cons]
    · rw [List.map_append]
      intro kv hk
      exact (List.mem_append.1 hk).elim (g4 kv) (h5 kv)

/-- The analyses of a word, for an analyser whose outputs are those of the runs. -/
theorem shows_text {ls : List Line} (hf : FullText ls) {runsOf : List Wc → List (List Nat)} {f : Fst} {next : List Wc → List (List Wc)}
    (hruns : ∀ v : List Wc, v.length ≤ 255 → AllRuns ls v (runsOf v)) (hnext : ∀ v : List Wc, v.length ≤ 255 → next v = (runsOf v).map (runOutput ls))
    (han : ∀ c, AnalysedBefore f (fun _ => True) c → ∀ w full, (finnishAnalyzeFst f c w full).map (·.1) = finnishAnalyze next w full) :
    ∃ ana, ShowsText ls runsOf f ana := by
  have key : ∀ w : List Wc, ∃ l, finnishAnalyze next w true = some l ∧ (∀ a ∈ l, AnaOk a) ∧ (255 < w.length → l = []) ∧
      (w.length ≤ 255 → ∃ ps, l.map Shown.pairs = ps.flatten ∧ List.Forall₂ (SaidByRun ls (setCase .allLower w)) ((runsOf (setCase .allLower w)).take 99) ps) ∧
      ∀ kv ∈ l.map Shown.pairs, Lines kv := by
    intro w
    by_cases hw : w.length ≤ 255
    · have hl : (setCase .allLower w).length = w.length := lower_len w
      have hle : (setCase .allLower w).length ≤ 255 := by omega
      obtain ⟨l, ps, h1, h2, h3, h4, h5⟩ := runs_said hf hle ((runsOf (setCase .allLower w)).take 99) fun run hr =>
        ((hruns _ hle).mem run).1 (List.mem_of_mem_take hr)
      refine ⟨l, ?_, h2, fun h => by omega, fun _ => ⟨ps, h3, h4⟩, h5⟩
      rw [finnishAnalyze, if_neg (by omega), hnext _ hle, ← List.map_take, ← hl]
      exact h1
    · exact ⟨[], by rw [finnishAnalyze, if_pos (by omega)], by simp, fun _ => rfl, fun h => absurd h hw, by simp⟩
  refine ⟨fun w => (key w).choose.map Shown.pairs, ⟨fun c hc w => ?_, fun w hw => ?_, fun w hw => ?_, fun w => ?_⟩⟩
  · obtain ⟨h1, h2, -⟩ := (key w).choose_spec
    generalize (key w).choose = l at h1 h2
    have e := han c hc w true
    rw [h1] at e
    obtain ⟨⟨l', c'⟩, e1, e2⟩ := Option.map_eq_some_iff.1 e
    change l' = l at e2
    subst e2
    obtain ⟨m, g1, g2, g3⟩ := Shown.shown_published l' h2
    refine ⟨c', ?_, .analyse c c' w true l' hc trivial e1⟩
    simp only [toolAnalyses, analyzeWordUcs4, List.take_left, e1, g1, g2, g3, Option.bind_eq_bind, Option.bind_some, Option.pure_def]
  · have := (key w).choose_spec.2.2.1 hw
    simp only [this, List.map_nil]
  · exact (key w).choose_spec.2.2.2.1 hw
  · exact (key w).choose_spec.2.2.2.2

/-- **C106** (the analyses): the text of a dictionary compiles to a file that loads; the analyses that the library publishes for a word do not depend on what has been
analysed before, are those of its runs in the order of the text, and tell what the readings say. -/
theorem C106_analyses {text : List Nat} {ls : List Line} (hd : Att.Describes text ls) (hp : Proper ls) (hf : FullText ls)
    {srtS : List (Nat × List Nat) → List (Nat × List Nat)} {srtT : List CTrans → List CTrans}
    (hS : SortsBy (fun a b => attSymLt a.2 b.2) srtS) (hT : SortsBy fileOrderLt srtT) (sw : Bool) :
    ∃ file f, attCompile srtS srtT sw text = some (some file) ∧ loadFile file = some (some f) ∧
      ∃ (runsOf : List Wc → List (List Nat)) (ana : List Wc → List (List (List Wc × List Wc))),
        (∀ v : List Wc, v.length ≤ 255 → AllRuns ls v (runsOf v)) ∧ ShowsText ls runsOf f ana := by
  obtain ⟨file, f, h1, h2, runsOf, an, next, h3, -, -, h4, h5⟩ := dictionary_outputs hd hp hf.toFinnishText hS hT sw
  obtain ⟨ana, ha⟩ := shows_text hf h3 h4 h5
  exact ⟨file, f, h1, h2, runsOf, ana, h3, ha⟩

open Classical in
/-- **C106** (the program): `voikkospell` with the compiled dictionary and a command line of known options without `-l`, `-L`, `-x` and one of the modes prints, for words without
hyphens inside of them, for each word whether the text gives it or the options accept it, and with `-m` or `-M` after each correct word the numbered analyses that the text says. Each word is analysed in
whatever state the analyser has come to. Missing for the full claim is what is missing in `C104_program_partial`. -/
theorem C106_program_partial {text : List Nat} {ls : List Line} (hd : Att.Describes text ls) (hp : Proper ls) (hf : FullText ls)
    {srtS : List (Nat × List Nat) → List (Nat × List Nat)} {srtT : List CTrans → List CTrans}
    (hS : SortsBy (fun a b => attSymLt a.2 b.2) srtS) (hT : SortsBy fileOrderLt srtT) (sw : Bool) :
    ∃ file f, attCompile srtS srtT sw text = some (some file) ∧ loadFile file = some (some f) ∧
      ∃ (runsOf : List Wc → List (List Nat)) (an : Analyzer) (dict : Bool → List Wc → SpellRes) (ana : List Wc → List (List (List Wc × List Wc))),
        (∀ v : List Wc, v.length ≤ 255 → AllRuns ls v (runsOf v)) ∧
        (∀ c, AnalysedBefore f (fun _ => True) c → ∀ w, ∃ l c', finnishAnalyzeFst f c w false = some (l, c') ∧ an w = l.map asMorAn) ∧
        (∀ extra w, 0 ∉ w → finnishSpell extra an w = some (dict extra w)) ∧ ShowsText ls runsOf f ana ∧
        ∀ {G : Type} (init : Arg → Option Arg → Option (Handle G)) (args : List Arg) (items : List Item) (rest : Option Arg) (h : Reads spellKeys args items rest)
          (hr : rest ≠ some (lit "-j")) (hitems : ∀ x ∈ items, NumbersOk x ∧ stopOf (α := SpellTool G) x = none)
          (hl : .word (lit "-l") ∉ items) (hL : .word (lit "-L") ∉ items) (hk : ∀ w, .word w ∈ items → SpellKnown w) (hc : wantedCache items ≤ 18)
          (hinit : ∃ h0, initHandle G = some h0 ∧ init ((lastOf (valueOf "-d") items).getD (lit "fi")) (lastOf (valueOf "-p") items) = some h0)
          (hx : ¬ ∃ w, .word w ∈ items ∧ lit "-x" <+: w)
          (hmode : lastOf modeOf items = none)
          (words : List (List Wc)) (hw : ∀ w ∈ words, PlainWord w) (hb : (wantedThreads items).toNat ≤ blockCount words ∨ words = [])
          (suggest : List Wc → UB (Option (List (List Wc)))) (sugg : List Wc → List (List Wc)) (hs : ∀ w ∈ words, ∃ l, suggest w = some l ∧ l.getD [] = sugg w)
          (hlw : ∀ w ∈ words, 0x0A ∉ w) (hls : ∀ w ∈ words, ∀ s ∈ sugg w, 0x0A ∉ s)
          (analyze : List Wc → UB (List (List (List Wc × List Wc))))
          (ha : ∀ w ∈ words, ∃ c, AnalysedBefore f (fun _ => True) c ∧ analyze w = (toolAnalyses f c w).map (·.1)),
          ∃ t, spellToolArgs init args = some (.run t) ∧
            ∀ (n : Nat) (tool : Tool (Handle G)), ToolRun (checkWord (handleApi dict suggest analyze) t.opts) n (startTool t.handles words) tool →
              ¬ CanStep (checkWord (handleApi dict suggest analyze) t.opts) tool →
                tool.pc = .terminated ∧ entries tool.out = words.map fun w =>
                  { word := w, correct := decide (CorrectIn ls runsOf (handleAfter {} items : Handle G).spell w),
                    attributes := if (.word (lit "-m") ∈ items ∨ .word (lit "-M") ∈ items) ∧ CorrectIn ls runsOf (handleAfter {} items : Handle G).spell w then
                      (numbered 1 (ana w)).map some else [],
                    suggestions := if .word (lit "-s") ∈ items ∧ ¬ CorrectIn ls runsOf (handleAfter {} items : Handle G).spell w then sugg w else [] } := by
  obtain ⟨file, f, h1, h2, runsOf, an, next, h3, h4, h5, h6, h7⟩ := dictionary_outputs hd hp hf.toFinnishText hS hT sw
  obtain ⟨ana, hshow⟩ := shows_text hf h3 h6 h7
  have hdict : ∀ extra w, 0 ∉ w → finnishSpell extra an w = some ((fun extra w => (finnishSpell extra an w).getD .failed) extra w) := by
    intro extra w h0
    obtain ⟨r, e⟩ := h5.total extra w h0
    rw [e]
    simp only [e, Option.getD_some]
  generalize (fun extra w => (finnishSpell extra an w).getD .failed) = dict at hdict
  refine ⟨file, f, h1, h2, runsOf, an, dict, ana, h3, h4, hdict, hshow, ?_⟩
  intro G init args items rest h hr hitems hl hL hk hc hinit hx hmode words hw hb suggest sugg hs hlw hls analyze ha
  have ha' : ∀ w ∈ words, analyze w = some (ana w) := by
    intro w hm
    obtain ⟨c, hc, e⟩ := ha w hm
    obtain ⟨c', e', _⟩ := hshow.total c hc w
    rw [e, e']
    rfl
  obtain ⟨t, ht, hrun⟩ := program_output h5 hdict init args items rest h hr hitems hl hL hk hc hinit hx words hw hb suggest analyze sugg hs ana ha'
    ⟨hlw, hls, fun w hm a hma kv hkv => hshow.lines w a hma kv hkv⟩
  exact ⟨t, ht, fun n tool a b => (hrun n tool a b).2.2 hmode⟩

/-! ### A dictionary and a command line to which this applies -/

theorem haha_fullReading (m : Nat) : FullReading (97 :: List.replicate m 98) (hahaReading (97 :: List.replicate m 98)) := by
  have hm : ∀ c ∈ (97 :: List.replicate m 98 : List Wc), c = 97 ∨ c = 98 := by
    intro c hc
    rcases List.mem_cons.1 hc with h | h
    · exact .inl h
    · exact .inr (List.eq_of_mem_replicate h)
  have items : ∀ x ∈ hahaReading (97 :: List.replicate m 98), x = .cls 0x68 ∨ x = .chr 97 ∨ x = .chr 98 := by
    intro x hx
    simp only [hahaReading, List.append_nil, List.mem_cons, List.mem_map] at hx
    rcases hx with rfl | ⟨c, hc, rfl⟩
    · exact .inl rfl
    · rcases hm c (List.mem_cons.2 hc) with rfl | rfl
      · exact .inr (.inl rfl)
      · exact .inr (.inr rfl)
  have known : Baseform.KnownSections (hahaReading (97 :: List.replicate m 98)) := by
    intro c b hx
    rcases items _ hx with h | h | h <;> cases h
  refine ⟨haha_good, ⟨known, ?_⟩, ⟨known, ?_, ?_, ?_⟩, ?_⟩
  · rintro Q R ⟨e, -, -⟩
    have : SItem.cls 0x75 ∈ hahaReading (97 :: List.replicate m 98) := by rw [e]; simp
    rcases items _ this with h | h | h <;> cases h
  · intro c b hx
    rcases items _ hx with h | h | h <;> cases h
  · have e : content (hahaReading (97 :: List.replicate m 98)) = 97 :: List.replicate m 98 := by
      show content ((97 :: List.replicate m 98).map .chr ++ []) = _
      rw [content_chars]
      show _ ++ [] = _
      rw [List.append_nil]
    rw [e]
    intro h
    rcases hm _ h with h | h <;> cases h
  · have base : ∀ (its : List SItem) (p : WordBases.Part), (∀ x ∈ its, x = .cls 0x68 ∨ x = .chr 97 ∨ x = .chr 98) → p.base = [] → ∀ q ∈ parts p its, q.base = [] := by
      intro its
      induction its with
      | nil => intro p _ hp q hq; rw [List.mem_singleton.1 hq]; exact hp
      | cons x its ih =>
        intro p hx hp q hq
        have hr := fun y hy => hx y (List.mem_cons_of_mem _ hy)
        rcases hx x List.mem_cons_self with rfl | rfl | rfl
        · rcases List.mem_cons.1 hq with rfl | hq
          · exact hp
          · exact ih {} hr rfl q hq
        · rw [WordBases.parts, if_neg (by simp)] at hq
          exact ih { p with text := p.text ++ [97] } hr hp q hq
        · rw [WordBases.parts, if_neg (by simp)] at hq
          exact ih { p with text := p.text ++ [98] } hr hp q hq
    intro p hp h
    exact absurd (base _ {} items rfl p (List.mem_of_getLast? hp)) h
  · have flat : ∀ its : List SItem, (∀ x ∈ its, x = .cls 0x68 ∨ x = .chr 97 ∨ x = .chr 98) → 0x0A ∉ render its := by
      intro its
      induction its with
      | nil => intro _; simp [render]
      | cons x its ih =>
        intro hx
        rw [render, List.mem_append, not_or]
        refine ⟨?_, ih fun y hy => hx y (List.mem_cons_of_mem _ hy)⟩
        rcases hx x List.mem_cons_self with rfl | rfl | rfl <;> decide
    exact flat _ items

theorem haha_fullText : FullText hahaLines := by
  refine ⟨haha_finnish, fun v run _ h => ?_⟩
  obtain ⟨m, rfl, rfl⟩ := haha_runs h
  exact ⟨_, haha_output m, haha_fullReading m⟩

theorem haha_class : Attribute (hahaReading (97 :: List.replicate 1 98)) .cls (lit "huudahdussana") := by
  have h := haha_fullReading 1
  obtain ⟨l, hl, a, ha, hc⟩ := C79_reading _ false h.regulated.wf h.regulated.tidy (by decide) (by decide +kernel)
  have e : (analyzeOutput (content (hahaReading (97 :: List.replicate 1 98))).length false (render (hahaReading (97 :: List.replicate 1 98)))).map
      (fun l => l.head?.map fun a => analysisValue a (lit "CLASS")) = some (some (some (lit "huudahdussana"))) := by decide +kernel
  rw [hl] at e
  refine (ha .cls (by decide) _).1 ?_
  rcases hc with ⟨_, rfl⟩ | ⟨_, b, _, rfl⟩ <;>
  · injection e with e
    injection e with e

def showArgs : List Arg := [lit "-m"]
def showItems : List Item := [.word (lit "-m")]

/-- Non-vacuity: with the dictionary that knows the words `a`, `ab`, `abb`, ... the program prints for `ab` and `b` with `-m` that `ab` is correct, with one analysis, and that
`b` is not; and there are executions that cannot be continued (`C86_complete_execution`). The analysis tells the output of the transducer, the word class and the capital letters. -/
example (sw : Bool) (h0 : Handle Nat) (hh : initHandle Nat = some h0) : ∃ (dict : Bool → List Wc → SpellRes) (f : Fst) (t : SpellTool Nat) (kv : List (List Wc × List Wc)),
    spellToolArgs (fun _ _ => some h0) showArgs = some (.run t) ∧ (lit "FSTOUTPUT", lit "[Lh]ab") ∈ kv ∧ (lit "CLASS", lit "huudahdussana") ∈ kv ∧
    (lit "WORDBASES", lit "+ab") ∈ kv ∧
    (∃ st, (lit "STRUCTURE", st) ∈ kv ∧ strip st = lit "pp") ∧
    ∀ analyze, analyze = (fun w => (toolAnalyses f (finnishInit f) w).map (·.1)) →
    (∃ n tool, ToolRun (checkWord (handleApi dict (fun _ => some none) analyze) t.opts) n (startTool t.handles [lit "ab", lit "b"]) tool ∧
      ¬ CanStep (checkWord (handleApi dict (fun _ => some none) analyze) t.opts) tool) ∧
    ∀ n tool, ToolRun (checkWord (handleApi dict (fun _ => some none) analyze) t.opts) n (startTool t.handles [lit "ab", lit "b"]) tool →
      ¬ CanStep (checkWord (handleApi dict (fun _ => some none) analyze) t.opts) tool →
      entries tool.out = [{ word := lit "ab", correct := true, attributes := kv.map fun x => some (1, x), suggestions := [] },
        { word := lit "b", correct := false, attributes := [], suggestions := [] }] := by
  obtain ⟨file, f, _, _, runsOf, an, dict, ana, hr, _, _, hshow, main⟩ :=
    C106_program_partial haha_describes haha_proper haha_fullText sortSymbols_sorts sortTransitions_sorts sw
  have l4 : setCase .allLower (lit "ab") = lit "ab" := by decide +kernel
  obtain ⟨ps, e1, e2⟩ := hshow.said (lit "ab") (by decide)
  rw [l4, haha_one hr] at e2
  obtain ⟨kv, hana, htell⟩ : ∃ kv, ana (lit "ab") = [kv] ∧ Tells (hahaReading (97 :: List.replicate 1 98)) kv := by
    cases e2 with
    | cons h1 h2 =>
      cases h2
      obtain ⟨kv, k1, k2⟩ := (h1.said _ (haha_output 1) (haha_fullReading 1)).1 haha_valid
      rcases k2 with ⟨_, rfl⟩ | ⟨k2, _⟩
      · exact ⟨kv, e1, k1⟩
      · exact absurd k2.2.1 (by decide)
  obtain ⟨st, s1, -, s3, -⟩ := htell.letters
  have hit : ∀ x ∈ showItems, x = .word (lit "-m") := fun x hx => List.mem_singleton.1 hx
  have hwd : ∀ w, Item.word w ∈ showItems → w = lit "-m" := fun w hw => by injection hit _ hw
  have hpl : ∀ w ∈ [lit "ab", lit "b"], PlainWord w := by
    intro w hm
    simp only [List.mem_cons, List.not_mem_nil, or_false] at hm
    rcases hm with rfl | rfl <;> exact short_plain _ (by decide) (by decide +kernel)
  obtain ⟨t, ht, -⟩ := main (fun _ _ => some h0) showArgs showItems none
    ⟨rfl, by simp [showItems], fun w hw => by rw [hwd w hw]; decide +kernel, by simp⟩ (by simp)
    (fun x hx => by rw [hit x hx]; exact ⟨by unfold NumbersOk; decide +kernel, rfl⟩) (by decide +kernel) (by decide +kernel)
    (fun w hw => by rw [hwd w hw]; unfold SpellKnown; decide +kernel) (by decide +kernel) ⟨h0, hh, rfl⟩
    (by rintro ⟨w, hm, hx⟩; rw [hwd w hm] at hx; exact absurd hx (by decide +kernel)) (by decide +kernel)
    [lit "ab", lit "b"] hpl (.inl (by decide +kernel)) (fun _ => some none) (fun _ => []) (fun _ _ => ⟨none, rfl, rfl⟩) (by decide +kernel) (by simp)
    (fun w => (toolAnalyses f (finnishInit f) w).map (·.1)) (fun _ _ => ⟨_, .new, rfl⟩)
  refine ⟨dict, f, t, kv, ht, (htell.output _).2 (by decide +kernel), ?_, (htell.bases _).2 (by decide +kernel), ⟨st, (s1 st).2 rfl, s3.trans (by decide +kernel)⟩, ?_⟩
  · exact (htell.grammar .cls (by decide) _).2 haha_class
  intro analyze han
  obtain ⟨t', ht', hrun⟩ := main (fun _ _ => some h0) showArgs showItems none
    ⟨rfl, by simp [showItems], fun w hw => by rw [hwd w hw]; decide +kernel, by simp⟩ (by simp)
    (fun x hx => by rw [hit x hx]; exact ⟨by unfold NumbersOk; decide +kernel, rfl⟩) (by decide +kernel) (by decide +kernel)
    (fun w hw => by rw [hwd w hw]; unfold SpellKnown; decide +kernel) (by decide +kernel) ⟨h0, hh, rfl⟩
    (by rintro ⟨w, hm, hx⟩; rw [hwd w hm] at hx; exact absurd hx (by decide +kernel)) (by decide +kernel)
    [lit "ab", lit "b"] hpl (.inl (by decide +kernel)) (fun _ => some none) (fun _ => []) (fun _ _ => ⟨none, rfl, rfl⟩) (by decide +kernel) (by simp)
    analyze (fun _ _ => ⟨_, .new, by rw [han]⟩)
  rw [ht] at ht'
  cases ht'
  refine ⟨C86_complete_execution, fun n tool a b => ?_⟩
  rw [(hrun n tool a b).2]
  have hm : Item.word (lit "-m") ∈ showItems := by decide +kernel
  have hs : Item.word (lit "-s") ∉ showItems := by decide +kernel
  generalize (handleAfter ({} : Handle Nat) showItems).spell = o
  have c1 := haha_right hr o
  have c2 := haha_wrong hr o
  simp only [List.map_cons, List.map_nil, c1, c2, hm, hs, hana, SpellOutput.numbered, decide_true, decide_false, true_or, and_self, and_false, false_and, if_true, if_false,
    List.append_nil, List.map_map]
  rfl

end Verif.AnalysisProgram
