import Verif.Model.FinnishFst
import Verif.Lemmas.FstTextPlain
import Verif.Props.FstTextUse
import Verif.Props.FinnishValidity
/-!
# C98: the Finnish analyser with a dictionary that was compiled from a text

The outputs of the transducer, which C39, C56, C66-C70, C76-C78 and others take as given, are here those that the text describes. The
analyser keeps the configuration of its transducer from call to call.
-/

set_option linter.unusedSimpArgs false
set_option linter.unusedVariables false

namespace Verif.Props
open Verif Verif.Att

/-- The outputs among the results of the calls. -/
def foundOutputs : List NextRes → List (List Wc)
  | [] => []
  | .found out _ :: rs => out :: foundOutputs rs
  | _ :: rs => foundOutputs rs

theorem finnishLoop_eq {f : Fst} {wlen : Nat} {full : Bool} : ∀ (m count : Nat) (c c' : Conf) (rs : List NextRes), count + m = 99 →
    enumerate f false 2000 m c = some (rs, c') →
    finnishLoop f wlen full (m + 1) count c = (analyzeOutputs wlen full (foundOutputs rs)).map (·, c') := by
  intro m
  induction m with
  | zero =>
    intro count c c' rs hc h
    obtain ⟨rfl, rfl⟩ := Prod.mk.inj (Option.some.inj h)
    rw [finnishLoop, if_neg (by rw [finnishMaxAnalysisCount]; omega)]
    rfl
  | succ m ih =>
    intro count c c' rs hc h
    rw [enumerate] at h
    obtain ⟨⟨r, c1⟩, h1, h2⟩ := Option.bind_eq_some_iff.1 h
    rw [finnishLoop, if_pos (by rw [finnishMaxAnalysisCount]; omega), show finnishBufferSize = 2000 from rfl, next, h1, ub_bind]
    simp only at h2 ⊢
    cases r with
    | found out w =>
      obtain ⟨⟨rs1, c2⟩, h3, h4⟩ := Option.bind_eq_some_iff.1 h2
      obtain ⟨rfl, rfl⟩ := Prod.mk.inj (Option.some.inj h4)
      simp only [foundOutputs, analyzeOutputs]
      rw [ih (count + 1) _ _ _ (by omega) h3]
      cases analyzeOutput wlen full out with
      | none => rfl
      | some l =>
        simp only [Option.bind_eq_bind, Option.bind_some]
        cases analyzeOutputs wlen full (foundOutputs rs1) <;> rfl
    | _ =>
      obtain ⟨rfl, rfl⟩ := Prod.mk.inj (Option.some.inj h2)
      rfl

theorem foundOutputs_runs (g : List Nat → List Wc) (n : Nat) : ∀ (m : Nat) (runs : List (List Nat)),
    foundOutputs ((runs.map (fun r => NextRes.found (g r) n) ++ [NextRes.exhausted]).take m) = (runs.take m).map g
  | 0, _ => by simp [foundOutputs]
  | m + 1, [] => by simp [foundOutputs]
  | m + 1, r :: runs => by
    simp only [List.map_cons, List.cons_append, List.take_succ_cons, foundOutputs]
    rw [foundOutputs_runs g n m runs]

/-- A word that leaves no trace in the analyser: it is too long, or it has a letter that the dictionary does not use, or the search for it stays
within the limits and there are at most 98 runs that accept it. -/
def Traceless (ls : List Line) (word : List Wc) : Prop :=
  255 < word.length ∨ ¬ InAlphabet ls (setCase .allLower word) ∨
    (Small ls (setCase .allLower word) ∧ ∀ runs, AllRuns ls (setCase .allLower word) runs → runs.length ≤ 98)

/-- The configurations of the analyser after the analysis of words from `P`. -/
inductive AnalysedBefore (f : Fst) (P : List Wc → Prop) : Conf → Prop
  | new : AnalysedBefore f P (finnishInit f)
  | analyse (c c' : Conf) (word : List Wc) (full : Bool) (l : List Ana) : AnalysedBefore f P c → P word →
      finnishAnalyzeFst f c word full = some (l, c') → AnalysedBefore f P c'

/-- Nothing of the history of the configuration has an effect on later look-ups. -/
def NoTrace (f : Fst) (c : Conf) : Prop := ∀ word, prepare f c word = prepare f (Conf.new f.featureCount 2000) word

theorem prepare_prepare {f : Fst} {c c1 : Conf} {known : Bool} {word : List Wc} (h : prepare f c word = some (known, c1)) (w : List Wc) :
    prepare f c1 w = prepare f c w := by
  unfold prepare at h
  split at h
  · cases h
  · obtain ⟨_, rfl⟩ := Prod.mk.inj (Option.some.inj h)
    rfl

theorem lower_len (word : List Wc) : (setCase .allLower word).length = word.length := by
  unfold setCase
  cases word <;> simp

/-- The analysis of a word: what is found, and that nothing remains of it after a search that was brought to its end. -/
theorem analyse_step {ls : List Line} (hp : Proper ls) {f : Fst} (st : PlainStored ls f) {c : Conf} (hc : NoTrace f c) (word : List Wc) (full : Bool)
    (hl : word.length ≤ 255) {runs : List (List Nat)} (h1 : AllRuns ls (setCase .allLower word) runs)
    (h2 : ∀ known c1, prepare f (Conf.new f.featureCount 2000) (setCase .allLower word) = some (known, c1) → ∀ m, ∃ c2,
      enumerate f false 2000 m c1 = some ((runs.map (fun r => NextRes.found (runOutput ls r) (setCase .allLower word).length) ++ [NextRes.exhausted]).take m, c2)) :
    ∃ c', finnishAnalyzeFst f c word full = (analyzeOutputs word.length full ((runs.take 99).map (runOutput ls))).map (·, c') ∧
      (runs.length ≤ 98 → NoTrace f c') := by
  obtain ⟨S, wf⟩ := st.wf
  have hprep := prepare_new f 2000 (setCase .allLower word) (by rw [lower_len]; omega) (by decide)
  obtain ⟨c2, h3⟩ := h2 _ _ hprep 99
  cases hk : ((setCase .allLower word).all fun ch => (f.charToSym.lookup ch).isSome) with
  | true =>
    rw [hk] at hprep
    refine ⟨c2, ?_, fun hr => ?_⟩
    · rw [finnishAnalyzeFst, if_neg (by omega), hc, hprep, ub_bind]
      show finnishLoop f word.length full (99 + 1) 0 _ = _
      rw [finnishLoop_eq 99 0 _ _ _ (by omega) h3, foundOutputs_runs]
    · rw [List.take_of_length_le (by simp; omega)] at h3
      intro w
      exact C42_partial wf st.normal (by decide) (.lookup _ _ _ _ _ false 2000 99 _ .new hprep (by decide) h3) w
  | false =>
    rw [hk] at hprep
    have hno : ¬ InAlphabet ls (setCase .allLower word) := by
      rw [← st.known, hk]
      decide
    have : runs = [] := by
      cases runs with
      | nil => rfl
      | cons r _ => exact absurd ((h1.mem r).1 (by simp)) (unknown_word hp hno _ _)
    subst this
    refine ⟨_, ?_, fun _ w => (prepare_prepare hprep w)⟩
    rw [finnishAnalyzeFst, if_neg (by omega), hc, hprep, ub_bind]
    rfl

theorem traceless_noTrace {ls : List Line} (hp : Proper ls) {f : Fst} (st : PlainStored ls f) {c : Conf} (h : AnalysedBefore f (Traceless ls) c) :
    NoTrace f c := by
  induction h with
  | new => exact fun _ => rfl
  | analyse c c' word full l _ hP he ih =>
    rcases hP with hP | hP | ⟨hP, hfew⟩
    · rw [finnishAnalyzeFst, if_pos hP] at he
      obtain ⟨_, rfl⟩ := Prod.mk.inj (Option.some.inj he)
      exact ih
    · by_cases hl : 255 < word.length
      · rw [finnishAnalyzeFst, if_pos hl] at he
        obtain ⟨_, rfl⟩ := Prod.mk.inj (Option.some.inj he)
        exact ih
      · have hprep := prepare_new f 2000 (setCase .allLower word) (by rw [lower_len]; omega) (by decide)
        rw [← st.known, Bool.not_eq_true] at hP
        rw [finnishAnalyzeFst, if_neg hl, ih, hprep, ub_bind, hP] at he
        obtain ⟨_, rfl⟩ := Prod.mk.inj (Option.some.inj he)
        exact fun w => prepare_prepare hprep w
    · by_cases hl : 255 < word.length
      · rw [finnishAnalyzeFst, if_pos hl] at he
        obtain ⟨_, rfl⟩ := Prod.mk.inj (Option.some.inj he)
        exact ih
      · obtain ⟨runs, h1, h4⟩ := plain_runs st (by rw [lower_len]; omega) hP
        obtain ⟨c2, h2, h3⟩ := analyse_step hp st ih word full (by omega) h1 h4
        rw [h2] at he
        obtain ⟨x, _, hx⟩ := Option.map_eq_some_iff.1 he
        obtain ⟨_, rfl⟩ := Prod.mk.inj hx
        exact h3 (hfew runs h1)

theorem noFlags_noTrace {ls : List Line} {f : Fst} (st : PlainStored ls f) (hf : f.featureCount = 0) {P : List Wc → Prop} {c : Conf}
    (h : AnalysedBefore f P c) : NoTrace f c := by
  induction h with
  | new => exact fun _ => rfl
  | analyse c c' word full l _ hP he ih =>
    by_cases hl : 255 < word.length
    · rw [finnishAnalyzeFst, if_pos hl] at he
      obtain ⟨_, rfl⟩ := Prod.mk.inj (Option.some.inj he)
      exact ih
    · obtain ⟨known, c1, h1, runs, tail, c2, h2, _⟩ := st.lookUp (setCase .allLower word) (by rw [lower_len]; omega) 99
      have h4 : NoTrace f c1 := fun w => prepare_prepare h1 w
      rw [finnishAnalyzeFst, if_neg hl, ih, h1, ub_bind] at he
      cases known with
      | false =>
        obtain ⟨_, rfl⟩ := Prod.mk.inj (Option.some.inj he)
        exact h4
      | true =>
        have he' : finnishLoop f word.length full (99 + 1) 0 c1 = some (l, c') := he
        rw [finnishLoop_eq 99 0 _ _ _ (by omega) h2] at he'
        obtain ⟨x, _, hx⟩ := Option.map_eq_some_iff.1 he'
        obtain ⟨_, rfl⟩ := Prod.mk.inj hx
        exact fun w => (C42_no_flags hf _ _ _ _ _ _ h2 w).trans (h4 w)

/-! ## C98 -/

/-- The outputs that the text describes for a word, in the order of its lines. -/
def Outputs (ls : List Line) (word : List Wc) (outs : List (List Wc)) : Prop :=
  ∃ runs, AllRuns ls word runs ∧ outs = runs.map (runOutput ls)

theorem analyser_long {ls : List Line} (hp : Proper ls) {f : Fst} (st : PlainStored ls f) {P : List Wc → Prop}
    (hP : ∀ {c}, AnalysedBefore f P c → NoTrace f c) :
    ∃ next : List Wc → List (List Wc), (∀ v : List Wc, v.length ≤ 255 → Small ls v → Outputs ls v (next v)) ∧
        (∀ v : List Wc, 255 < v.length → next v = []) ∧
        ∀ c, AnalysedBefore f P c → ∀ (word : List Wc) (full : Bool),
          255 < word.length ∨ ¬ InAlphabet ls (setCase .allLower word) ∨ Small ls (setCase .allLower word) →
            (finnishAnalyzeFst f c word full).map (·.1) = finnishAnalyze next word full := by
  classical
  let next : List Wc → List (List Wc) := fun v => if h : v.length ≤ 255 ∧ Small ls v then
    ((plain_runs st (by omega : v.length ≤ 2000) h.2).choose.map (runOutput ls)) else []
  refine ⟨next, ?_, fun v h => dif_neg fun e => by omega, ?_⟩
  · intro v h1 h2
    have e : next v = ((plain_runs st (by omega : v.length ≤ 2000) h2).choose.map (runOutput ls)) := dif_pos ⟨h1, h2⟩
    rw [e]
    exact ⟨_, (plain_runs st (by omega : v.length ≤ 2000) h2).choose_spec.1, rfl⟩
  · intro c hc word full h
    by_cases hl : 255 < word.length
    · rw [finnishAnalyzeFst, finnishAnalyze, if_pos hl, if_pos hl]
      rfl
    · have hlen : (setCase .allLower word).length = word.length := lower_len word
      have hprep := prepare_new f 2000 (setCase .allLower word) (by omega) (by decide)
      by_cases hs : Small ls (setCase .allLower word)
      · have e : next (setCase .allLower word) = _ := dif_pos ⟨by omega, hs⟩
        have hsp := (plain_runs st (by omega : (setCase .allLower word).length ≤ 2000) hs).choose_spec
        generalize (plain_runs st (by omega : (setCase .allLower word).length ≤ 2000) hs).choose = runs at e hsp
        obtain ⟨h1, h2⟩ := hsp
        rw [finnishAnalyze, if_neg hl, e, ← List.map_take]
        obtain ⟨c', h3⟩ := analyse_step hp st (hP hc) word full (by omega) h1 h2
        rw [h3.1, Option.map_map]
        simp [Function.comp_def]
      · have hno : ¬ InAlphabet ls (setCase .allLower word) := by
          rcases h with h | h | h
          · exact absurd h hl
          · exact h
          · exact absurd h hs
        have e : next (setCase .allLower word) = [] := dif_neg fun x => hs x.2
        rw [← st.known, Bool.not_eq_true] at hno
        rw [finnishAnalyze, if_neg hl, e, finnishAnalyzeFst, if_neg hl, hP hc, hprep, ub_bind, hno]
        rfl

theorem analyser_of {ls : List Line} (hp : Proper ls) {f : Fst} (st : PlainStored ls f) {P : List Wc → Prop}
    (hP : ∀ {c}, AnalysedBefore f P c → NoTrace f c) :
    ∃ next : List Wc → List (List Wc), (∀ v : List Wc, v.length ≤ 255 → Small ls v → Outputs ls v (next v)) ∧
        ∀ c, AnalysedBefore f P c → ∀ (word : List Wc) (full : Bool),
          255 < word.length ∨ ¬ InAlphabet ls (setCase .allLower word) ∨ Small ls (setCase .allLower word) →
            (finnishAnalyzeFst f c word full).map (·.1) = finnishAnalyze next word full := by
  obtain ⟨next, h1, _, h2⟩ := analyser_long hp st hP
  exact ⟨next, h1, h2⟩

/-- **C98** (the analyses): a dictionary text compiles to a file that loads, and the analyser gives for a word the analyses that the outputs of the
runs accepting it stand for, in the order of the lines of the text; at most 99 of them are used. This holds after any number of words
that leave no trace. (Missing: words whose search exceeds the limits, and the words after them or after a word with 99 runs or more. For the latter
the claim is false, see `C98_violation`.) -/
theorem C98_analyses_partial {text : List Nat} {ls : List Line} (hd : Att.Describes text ls) (hp : Proper ls)
    {srtS : List (Nat × List Nat) → List (Nat × List Nat)} {srtT : List CTrans → List CTrans}
    (hS : SortsBy (fun a b => attSymLt a.2 b.2) srtS) (hT : SortsBy fileOrderLt srtT) (sw : Bool) :
    ∃ file f, attCompile srtS srtT sw text = some (some file) ∧ loadFile file = some (some f) ∧
      ∃ next : List Wc → List (List Wc), (∀ v : List Wc, v.length ≤ 255 → Small ls v → Outputs ls v (next v)) ∧
        ∀ c, AnalysedBefore f (Traceless ls) c → ∀ (word : List Wc) (full : Bool),
          255 < word.length ∨ ¬ InAlphabet ls (setCase .allLower word) ∨ Small ls (setCase .allLower word) →
            (finnishAnalyzeFst f c word full).map (·.1) = finnishAnalyze next word full := by
  obtain ⟨file, f, h1, h2, st⟩ := plain_of hd hp hS hT sw
  exact ⟨file, f, h1, h2, analyser_of hp st fun h => traceless_noTrace hp st h⟩

/-- **C98** (without flag diacritics): if the text has no flag diacritics then every history is harmless. -/
theorem C98_no_flags {text : List Nat} {ls : List Line} (hd : Att.Describes text ls) (hp : Proper ls)
    (hno : ∀ l ∈ ls, ∀ s ∈ l.symbols, s.head? ≠ some 64)
    {srtS : List (Nat × List Nat) → List (Nat × List Nat)} {srtT : List CTrans → List CTrans}
    (hS : SortsBy (fun a b => attSymLt a.2 b.2) srtS) (hT : SortsBy fileOrderLt srtT) (sw : Bool) :
    ∃ file f, attCompile srtS srtT sw text = some (some file) ∧ loadFile file = some (some f) ∧
      ∃ next : List Wc → List (List Wc), (∀ v : List Wc, v.length ≤ 255 → Small ls v → Outputs ls v (next v)) ∧
        ∀ c, AnalysedBefore f (fun _ => True) c → ∀ (word : List Wc) (full : Bool),
          255 < word.length ∨ ¬ InAlphabet ls (setCase .allLower word) ∨ Small ls (setCase .allLower word) →
            (finnishAnalyzeFst f c word full).map (·.1) = finnishAnalyze next word full := by
  obtain ⟨file, f, h1, h2, st⟩ := plain_of hd hp hS hT sw
  exact ⟨file, f, h1, h2, analyser_of hp st fun h => noFlags_noTrace st (st.noFlags hno) h⟩

/-- **C98** (known words): if the outputs that the text describes for the word are well-formed then the word has an analysis exactly if one of the first 99 of
them is valid: hyphens where they are needed and only where they may be used, and no proper noun joined to a noun. -/
theorem C98_known {text : List Nat} {ls : List Line} (hd : Att.Describes text ls) (hp : Proper ls)
    {srtS : List (Nat × List Nat) → List (Nat × List Nat)} {srtT : List CTrans → List CTrans}
    (hS : SortsBy (fun a b => attSymLt a.2 b.2) srtS) (hT : SortsBy fileOrderLt srtT) (sw : Bool) (word : List Wc) (full : Bool)
    (hl : word.length ≤ 255) (hs : Small ls (setCase .allLower word))
    (hout : ∀ r, Att.Accepts ls (setCase .allLower word) false r word.length →
      ∃ its, runOutput ls r = render its ∧ _root_.Verif.WellFormed its ∧ (content its).length = word.length ∧ Validity.Plain its) :
    ∃ file f, attCompile srtS srtT sw text = some (some file) ∧ loadFile file = some (some f) ∧
      ∀ c, AnalysedBefore f (Traceless ls) c → ∃ l c' runs, finnishAnalyzeFst f c word full = some (l, c') ∧
        AllRuns ls (setCase .allLower word) runs ∧
        (l ≠ [] ↔ ∃ r ∈ runs.take 99, ∃ its, runOutput ls r = render its ∧ Validity.Plain its ∧ Validity.Valid (Validity.events its)) := by
  obtain ⟨file, f, h1, h2, next, h3, h4⟩ := C98_analyses_partial hd hp hS hT sw
  refine ⟨file, f, h1, h2, fun c hc => ?_⟩
  have h5 := h4 c hc word full (.inr (.inr hs))
  obtain ⟨runs, h6, h7⟩ := h3 (setCase .allLower word) (by rw [lower_len]; exact hl) hs
  obtain ⟨l, h8, h9⟩ := C77_analyses next word full fun o ho => by
    rw [h7] at ho
    obtain ⟨r, hr, rfl⟩ := List.mem_map.1 ho
    have hacc := (h6.mem r).1 hr
    have hsz := hs.out r _ hacc
    rw [lower_len] at hacc
    exact ⟨by omega, hout r hacc⟩
  rw [h8] at h5
  obtain ⟨⟨l', c'⟩, h10, rfl⟩ := Option.map_eq_some_iff.1 h5
  refine ⟨l', c', runs, h10, h6, h9.trans ?_⟩
  rw [h7, ← List.map_take]
  constructor
  · rintro ⟨_, its, hm, hp, hv⟩
    obtain ⟨r, hr, e⟩ := List.mem_map.1 hm
    exact ⟨r, hr, its, e, hp, hv⟩
  · rintro ⟨r, hr, its, e, hp, hv⟩
    exact ⟨hl, its, List.mem_map.2 ⟨r, hr, e⟩, hp, hv⟩

/-! ### A dictionary -/

/-- An interjection: `a`, `ab`, `abb`, ... -/
def hahaText : List Nat := ascii "0\t1\ta\t[Lh]a\n1\t1\tb\tb\n1\n"

def hahaLines : List Line := [.arc ⟨0, 1, [97], lit "[Lh]a"⟩, .arc ⟨1, 1, [98], [98]⟩, .final 1]

theorem haha_describes : Att.Describes hahaText hahaLines := by
  have d : ∀ n < 10, Decimal [48 + n] n := by
    intro n hn
    refine ⟨by simp, by intro x hx; rw [List.mem_singleton.1 hx]; omega, by simp [decimalValue], by omega⟩
  have tab : Blank [9] := by intro b hb; rw [List.mem_singleton.1 hb]; exact .inl rfl
  have none' : Blank [] := by intro b hb; cases hb
  refine .line (b := [48, 9, 49, 9, 97, 9, 91, 76, 104, 93, 97]) (t := _) (.arc (sp := []) (ds := [48]) (sp1 := [9]) (dt := [49]) (sp2 := [9]) (ti := [97])
    (sp3 := [9]) («to» := [91, 76, 104, 93, 97]) (rest := []) none' (d 0 (by omega)) tab (by simp) (d 1 (by omega)) tab (by simp)
    (names_plain (by decide) (by decide) ⟨by simp, by decide⟩) tab (by simp) (names_plain (by decide) (by decide) ⟨by simp, by decide⟩) (.inl rfl) (by simp)) ?_
  refine .line (b := [49, 9, 49, 9, 98, 9, 98]) (t := _) (.arc (sp := []) (ds := [49]) (sp1 := [9]) (dt := [49]) (sp2 := [9]) (ti := [98])
    (sp3 := [9]) («to» := [98]) (rest := []) none' (d 1 (by omega)) tab (by simp) (d 1 (by omega)) tab (by simp)
    (names_plain (by decide) (by decide) ⟨by simp, by decide⟩) tab (by simp) (names_plain (by decide) (by decide) ⟨by simp, by decide⟩) (.inl rfl) (by simp)) ?_
  exact .line (b := [49]) (t := []) (.final (sp := []) (ds := [49]) none' (d 1 (by omega))) .nil

theorem haha_arcs {k : Nat} {a : Arc} (h : hahaLines[k]? = some (.arc a)) :
    (k = 0 ∧ a = ⟨0, 1, [97], lit "[Lh]a"⟩) ∨ (k = 1 ∧ a = ⟨1, 1, [98], [98]⟩) := by
  match k, h with
  | 0, h => cases h; exact .inl ⟨rfl, rfl⟩
  | 1, h => cases h; exact .inr ⟨rfl, rfl⟩
  | 2, h => cases h
  | k + 3, h => simp [hahaLines] at h

theorem haha_arc {a : Arc} (h : Line.arc a ∈ hahaLines) : a = ⟨0, 1, [97], lit "[Lh]a"⟩ ∨ a = ⟨1, 1, [98], [98]⟩ := by
  obtain ⟨k, hk⟩ := List.getElem?_of_mem h
  exact (haha_arcs hk).imp (·.2) (·.2)

theorem haha_proper : Proper hahaLines := by
  refine ⟨?_, ?_, ?_, ⟨.arc ⟨1, 1, [98], [98]⟩, by simp [hahaLines], 98, by simp, by simp, by simp [Line.symbols]⟩,
    ⟨hahaLines.flatMap Line.symbols, by decide, fun l hl s hs => List.mem_flatMap.2 ⟨l, hl, hs⟩⟩, by decide⟩
  · intro k l hk s hs
    match k, hk with
    | 0, hk => cases hk; cases hs
    | 1, hk => cases hk; exact ⟨0, _, by omega, rfl, by simp only [Line.src] at hs ⊢; omega⟩
    | 2, hk => cases hk; exact ⟨0, _, by omega, rfl, by simp only [Line.src] at hs ⊢; omega⟩
    | k + 3, hk => simp [hahaLines] at hk
  · intro a ha
    exact ⟨.final 1, by simp [hahaLines], by rcases haha_arc ha with rfl | rfl <;> rfl⟩
  · intro l hl s hs
    simp only [hahaLines, List.mem_cons, List.not_mem_nil, or_false] at hl
    rcases hl with rfl | rfl | rfl
    · simp only [Line.symbols, List.mem_cons, List.not_mem_nil, or_false] at hs
      rcases hs with rfl | rfl
      · exact letter_proper (by simp)
      · exact ⟨by unfold ValidCp; decide, .inr (.inr (.inl ⟨lit "Lh]a", by decide, by decide⟩))⟩
    · simp only [Line.symbols, List.mem_cons, List.not_mem_nil, or_false, or_self] at hs
      subst hs
      exact letter_proper (by simp)
    · simp only [Line.symbols, List.not_mem_nil] at hs

theorem haha_graph : WordGraph hahaLines := by
  refine ⟨?_, ?_, ?_, ?_⟩
  · intro a ha
    rcases haha_arc ha with rfl | rfl <;> exact ⟨_, rfl⟩
  · intro a ha
    rcases haha_arc ha with rfl | rfl <;> decide
  · intro k k' a b hk hk' h1 h2
    rcases haha_arcs hk with ⟨rfl, rfl⟩ | ⟨rfl, rfl⟩ <;> rcases haha_arcs hk' with ⟨rfl, rfl⟩ | ⟨rfl, rfl⟩ <;> first | rfl | exact absurd h1 (by decide)
  · intro k k' s hk hk'
    have : ∀ k s, hahaLines[k]? = some (.final s) → k = 2 := by
      intro k s h
      match k, h with
      | 0, h => cases h
      | 1, h => cases h
      | 2, h => rfl
      | k + 3, h => simp [hahaLines] at h
    rw [this _ _ hk, this _ _ hk']

theorem graph_traceless {ls : List Line} (hg : WordGraph ls) (word : List Wc) : Traceless ls word := by
  by_cases hl : 255 < word.length
  · exact .inl hl
  · refine .inr (.inr ⟨(graph_fits hg (by rw [lower_len]; omega)).toSmall, fun runs h => ?_⟩)
    match runs, h with
    | [], _ => simp
    | [r], _ => simp
    | r :: r' :: rest, h =>
      have h1 := (h.mem r).1 (by simp)
      have h2 := (h.mem r').1 (by simp)
      have h3 := h.nodup
      rw [graph_unique hg h1 h2] at h3
      simp at h3

/-- The hypotheses of C98 hold for this dictionary and every word, so the claim holds after every history. -/
example (sw : Bool) (word : List Wc) : Traceless hahaLines word := graph_traceless haha_graph word

example (sw : Bool) := C98_analyses_partial haha_describes haha_proper sortSymbols_sorts sortTransitions_sorts sw

example (sw : Bool) := C98_no_flags haha_describes haha_proper (by decide) sortSymbols_sorts sortTransitions_sorts sw

theorem haha_run : Att.Accepts hahaLines (lit "ab") false [0, 1, 2] 2 :=
  ⟨[0, 1], 2, _, rfl, .cons (.letter rfl rfl rfl rfl) (.cons (.letter rfl rfl rfl rfl) .nil), rfl, rfl, fun _ => rfl⟩

theorem haha_items : _root_.Verif.WellFormed [.cls 0x68, .chr 97, .chr 98] ∧ Validity.Plain [.cls 0x68, .chr 97, .chr 98] := by
  refine ⟨⟨by simp [WfItems], by simp [FirstOk], by decide⟩, ?_, ?_⟩
  · intro x hx
    simp only [List.mem_cons, List.not_mem_nil, or_false] at hx
    rcases hx with rfl | rfl | rfl <;> simp [Validity.PlainItem] <;> decide
  · intro pre e
    have := congrArg (·.getLast?) e
    simp at this

/-- The word `AB` is known: the only output is `[Lh]ab`, which is well-formed and valid. -/
example (sw : Bool) := C98_known haha_describes haha_proper sortSymbols_sorts sortTransitions_sorts sw (lit "AB") true (by decide)
  (graph_fits haha_graph (by decide)).toSmall fun r hr => by
    have : r = [0, 1, 2] := graph_unique haha_graph hr haha_run
    subst this
    exact ⟨[.cls 0x68, .chr 97, .chr 98], by decide, haha_items.1, by decide, haha_items.2⟩

/-! ### The history -/

/-- Compilation of a text and analysis of some words, one after another: the numbers of the analyses. -/
def compileAndAnalyse (text : List Nat) (words : List (List Wc)) : UB (Option (Option (List Nat))) := do
  match ← attCompile sortSymbols sortTransitions false text with
  | none => return none
  | some file =>
    match ← loadFile file with
    | none => return some none
    | some f =>
      let rec go : Conf → List (List Wc) → UB (List Nat)
        | _, [] => return []
        | c, w :: ws => do
          let (l, c) ← finnishAnalyzeFst f c w false
          let ns ← go c ws
          return l.length :: ns
      return some (some (← go (finnishInit f) words))

example : compileAndAnalyse hahaText [lit "AB", lit "c", lit "ba", lit "a"] = some (some (some [1, 0, 0, 1])) := by decide +kernel

/-- The word `aaaaaaa` with 128 runs after the flag diacritic `@P.F.X@`, and the word `c` after the flag diacritic `@D.F@`. -/
def manyRunsText : List Nat :=
  ascii "0\t1\t@P.F.X@\t@0@\n1\t2\ta\ta\n1\t2\ta\tb\n2\t3\ta\ta\n2\t3\ta\tb\n3\t4\ta\ta\n3\t4\ta\tb\n4\t5\ta\ta\n4\t5\ta\tb\n5\t6\ta\ta\n5\t6\ta\tb\n6\t7\ta\ta\n6\t7\ta\tb\n7\t8\ta\ta\n7\t8\ta\tb\n8\n0\t9\t@D.F@\t@0@\n9\t8\tc\tc\n"

/-- C98 fails for words with 99 runs or more: the analyser gives the search up after 99 runs, and the flag diacritic that was set remains set. After that the
word `c`, which has an analysis, has none. -/
theorem C98_violation : compileAndAnalyse manyRunsText [lit "c"] = some (some (some [1])) ∧
    compileAndAnalyse manyRunsText [lit "aaaaaaa", lit "c"] = some (some (some [99, 0])) := by
  constructor <;> decide +kernel

end Verif.Props
