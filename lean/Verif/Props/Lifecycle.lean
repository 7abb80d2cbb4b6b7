import Verif.Lemmas.Factory
import Verif.Props.DictIndex
/-!
# C72: creating, changing and releasing a handle

The specification: which component belongs to which name in the description of the dictionary (`AnalyzerIs`, ...), and what is
allocated after a handle has been released.
-/

set_option linter.unusedSimpArgs false
set_option linter.unusedVariables false

namespace Verif.Props

/-- No transducer file can be opened but not mapped. -/
def Mappable (files : Files) : Prop := ∀ p, files p ≠ .unmappable

/-- The analyser for a dictionary. -/
def AnalyzerIs (b : Build) (files : Files) (d : Dict) : AnalyzerKind → Prop
  | .null => d.mor.name = lit "null"
  | .vfst => b.expVfst = true ∧ d.mor.name = lit "vfst" ∧ files (d.mor.path ++ lit "/mor.vfst") = .valid true
  | .finnishVfst => b.vfst = true ∧ d.mor.name = lit "finnishVfst" ∧ files (d.mor.path ++ lit "/mor.vfst") = .valid false

/-- The speller for a dictionary. -/
def SpellerIs (b : Build) (files : Files) (d : Dict) : SpellerKind → Prop
  | .adapter => d.spell.name = lit "AnalyzerToSpellerAdapter(currentAnalyzer)"
  | .finnishTweaks => d.spell.name = lit "FinnishSpellerTweaksWrapper(AnalyzerToSpellerAdapter(currentAnalyzer),currentAnalyzer)"
  | .allOk => d.spell.name = lit "AllOk"
  | .allError => d.spell.name = lit "AllError"
  | .vfst => b.expVfst = true ∧ d.spell.name = lit "vfst" ∧ files (d.mor.path ++ lit "/spl.vfst") = .valid true

/-- The suggestion generator for a dictionary. -/
def SuggestionIs (b : Build) (files : Files) (d : Dict) (speller : SpellerKind) (ocr : Bool) : SuggestionKind → Prop
  | .typing => d.suggestion.name = lit "FinnishSuggestionStrategy(currentAnalyzer)" ∧ ocr = false
  | .ocr => d.suggestion.name = lit "FinnishSuggestionStrategy(currentAnalyzer)" ∧ ocr = true
  | .null => d.suggestion.name = lit "null"
  | .vfst => b.expVfst = true ∧ d.suggestion.name = lit "vfst" ∧ speller = .vfst ∧ files (d.mor.path ++ lit "/err.vfst") = .valid true

/-- The name of the only hyphenator. -/
def HyphenatorKnown (d : Dict) : Prop := d.hyphenator.name = lit "AnalyzerToFinnishHyphenatorAdapter(currentAnalyzer)"

/-- The grammar checker for a dictionary. -/
def GrammarIs (b : Build) (files : Files) (d : Dict) : GrammarKind → Prop
  | .null => d.grammar.name = lit "null"
  | .finnish => d.grammar.name = lit "finnish" ∨
      d.grammar.name = lit "finnishVfst" ∧ (b.vfst = true → files (d.grammar.path ++ lit "/autocorr.vfst") = .valid false)

/-! ## The factories -/

theorem runs_transducer {m0 m : Mem} {xs : List Nat} (h : Own m0 m xs) (w : Bool) (f : VfstFile) (hf : f ≠ .unmappable) :
    Runs (newTransducer w f) m (fun t m' => f = .valid w ∧ Own m0 m' (t ++ xs))
      (fun _ m' => f ≠ .valid w ∧ ∃ leak, Own m0 m' (leak ++ xs) ∧ (f = .missing → leak = [])) := by
  cases f with
  | missing => exact runs_throw ⟨by simp, [], h, fun _ => rfl⟩
  | unmappable => exact absurd rfl hf
  | unknown =>
    refine runs_bind (runs_alloc h) fun p m' o => runs_throw ⟨by simp, [p], o, by simp⟩
  | malformed v =>
    refine runs_bind (runs_alloc h) fun p m' o => ?_
    split
    · exact runs_throw ⟨by simp, [p], o, by simp⟩
    · exact runs_throw ⟨by simp, [p], o, by simp⟩
  | valid v =>
    refine runs_bind (runs_alloc h) fun p m' o => ?_
    split
    · next hv =>
      subst hv
      refine runs_bind (runs_alloc o) fun q m'' o' => runs_ret ⟨rfl, own_perm o' ?_⟩
      exact List.Perm.swap ..
    · next hv => exact runs_throw ⟨by simpa using hv, [p], o, by simp⟩

/-- The blocks of a component with a transducer, some more blocks and the object. -/
theorem runs_rest {K : Type} {m0 m : Mem} {t xs : List Nat} (h : Own m0 m (t ++ xs)) (n : Nat) (k : K)
    {P : Part K → Prop} (hP : ∀ obj inner, P { kind := k, obj := obj, inner := inner }) {err : String → Mem → Prop} :
    Runs (do
      let rest ← allocs n
      let obj ← alloc
      return ({ kind := k, obj := obj, inner := t ++ rest } : Part K)) m (fun a m' => P a ∧ Own m0 m' (a.blocks ++ xs)) err := by
  refine runs_bind (runs_allocs n h) fun ps m' o => ?_
  refine runs_bind (runs_alloc o.1) fun q m'' o' => runs_ret ⟨hP .., own_perm o' ?_⟩
  simp only [Part.blocks]
  refine List.Perm.trans ?_ (List.perm_append_comm (l₁ := [q]) (l₂ := t ++ ps) |>.append_right xs)
  refine List.Perm.cons _ ?_
  rw [← List.append_assoc]
  exact List.perm_append_comm.append_right xs

theorem runs_object {K : Type} {m0 m : Mem} {xs : List Nat} (h : Own m0 m xs) (k : K)
    {P : Part K → Prop} (hP : ∀ obj, P { kind := k, obj := obj }) {err : String → Mem → Prop} :
    Runs (do
      let obj ← alloc
      return ({ kind := k, obj := obj } : Part K)) m (fun a m' => P a ∧ Own m0 m' (a.blocks ++ xs)) err := by
  refine runs_bind (runs_alloc h) fun q m'' o' => runs_ret ⟨hP .., ?_⟩
  simpa [Part.blocks] using o'

theorem runs_inner {K : Type} {m0 m : Mem} {xs : List Nat} (h : Own m0 m xs) (n : Nat) (k : K)
    {P : Part K → Prop} (hP : ∀ obj inner, P { kind := k, obj := obj, inner := inner }) {err : String → Mem → Prop} :
    Runs (do
      let inner ← allocs n
      let obj ← alloc
      return ({ kind := k, obj := obj, inner := inner } : Part K)) m (fun a m' => P a ∧ Own m0 m' (a.blocks ++ xs)) err :=
  runs_rest (t := []) h n k hP

/-- The blocks that a failed attempt leaves behind. -/
abbrev Leaves (m0 : Mem) (xs : List Nat) (tidy : Prop) (m' : Mem) : Prop := ∃ leak, Own m0 m' (leak ++ xs) ∧ (tidy → leak = [])

/-- The file of the morphology is missing or of the right kind. -/
def MorTidy (files : Files) (d : Dict) : Prop :=
  files (d.mor.path ++ lit "/mor.vfst") = .missing ∨ files (d.mor.path ++ lit "/mor.vfst") = .valid (d.mor.name == lit "vfst")

theorem runs_analyzer {m0 m : Mem} {xs : List Nat} (h : Own m0 m xs) (b : Build) (files : Files) (hf : Mappable files) (d : Dict) :
    Runs (getAnalyzer b files d) m (fun a m' => AnalyzerIs b files d a.kind ∧ Own m0 m' (a.blocks ++ xs))
      (fun _ m' => (∀ k, ¬ AnalyzerIs b files d k) ∧ Leaves m0 xs (MorTidy files d) m') := by
  have n1 : lit "null" ≠ lit "vfst" := by decide
  have n2 : lit "null" ≠ lit "finnishVfst" := by decide
  have n3 : lit "vfst" ≠ lit "finnishVfst" := by decide
  unfold getAnalyzer
  split
  · next e => exact runs_object h _ fun _ => e
  next e1 =>
  split
  · next e =>
    refine runs_bind (runs_mono (runs_transducer h true _ (hf _)) (fun t m' o => o) ?_) ?_
    · rintro _ m' ⟨hn, leak, o, hl⟩
      refine ⟨?_, leak, o, fun ht => hl ?_⟩
      · intro k hk
        cases k with
        | null => exact e1 hk
        | vfst => exact hn hk.2.2
        | finnishVfst => exact n3 (e.2.symm.trans hk.2.1)
      · rcases ht with ht | ht
        · exact ht
        · rw [e.2] at ht; exact absurd ht hn
    · rintro t m' ⟨hv, o⟩
      exact runs_rest o 2 _ fun _ _ => ⟨e.1, e.2, hv⟩
  next e2 =>
  split
  · next e =>
    refine runs_bind (runs_mono (runs_transducer h false _ (hf _)) (fun t m' o => o) ?_) ?_
    · rintro _ m' ⟨hn, leak, o, hl⟩
      refine ⟨?_, leak, o, fun ht => hl ?_⟩
      · intro k hk
        cases k with
        | null => exact e1 hk
        | vfst => exact e2 ⟨hk.1, hk.2.1⟩
        | finnishVfst => exact hn hk.2.2
      · rcases ht with ht | ht
        · exact ht
        · rw [e.2] at ht; exact absurd ht hn
    · rintro t m' ⟨hv, o⟩
      exact runs_rest o 2 _ fun _ _ => ⟨e.1, e.2, hv⟩
  next e3 =>
  refine runs_throw ⟨?_, [], h, fun _ => rfl⟩
  intro k hk
  cases k with
  | null => exact e1 hk
  | vfst => exact e2 ⟨hk.1, hk.2.1⟩
  | finnishVfst => exact e3 ⟨hk.1, hk.2.1⟩

/-- A weighted transducer file is missing or of the right kind. -/
def WeightedTidy (files : Files) (p : List Nat) : Prop := files p = .missing ∨ files p = .valid true

theorem runs_speller {m0 m : Mem} {xs : List Nat} (h : Own m0 m xs) (b : Build) (files : Files) (hf : Mappable files) (d : Dict) :
    Runs (getSpeller b files d) m (fun a m' => SpellerIs b files d a.kind ∧ Own m0 m' (a.blocks ++ xs))
      (fun _ m' => (∀ k, ¬ SpellerIs b files d k) ∧ Leaves m0 xs (WeightedTidy files (d.mor.path ++ lit "/spl.vfst")) m') := by
  unfold getSpeller
  split
  · next e => exact runs_object h _ fun _ => e
  next e1 =>
  split
  · next e => exact runs_inner h 2 _ fun _ _ => e
  next e2 =>
  split
  · next e => exact runs_object h _ fun _ => e
  next e3 =>
  split
  · next e => exact runs_object h _ fun _ => e
  next e4 =>
  split
  · next e =>
    refine runs_bind (runs_mono (runs_transducer h true _ (hf _)) (fun t m' o => o) ?_) ?_
    · rintro _ m' ⟨hn, leak, o, hl⟩
      refine ⟨?_, leak, o, fun ht => hl (ht.resolve_right hn)⟩
      intro k hk
      cases k with
      | adapter => exact e1 hk
      | finnishTweaks => exact e2 hk
      | allOk => exact e3 hk
      | allError => exact e4 hk
      | vfst => exact hn hk.2.2
    · rintro t m' ⟨hv, o⟩
      exact runs_rest o 2 _ fun _ _ => ⟨e.1, e.2, hv⟩
  next e5 =>
  refine runs_throw ⟨?_, [], h, fun _ => rfl⟩
  intro k hk
  cases k with
  | adapter => exact e1 hk
  | finnishTweaks => exact e2 hk
  | allOk => exact e3 hk
  | allError => exact e4 hk
  | vfst => exact e5 ⟨hk.1, hk.2.1⟩

theorem runs_suggestion {m0 m : Mem} {xs : List Nat} (h : Own m0 m xs) (b : Build) (files : Files) (hf : Mappable files) (d : Dict)
    (sp : SpellerKind) (ocr : Bool) :
    Runs (getSuggestionGenerator b files d sp ocr) m
      (fun a m' => (SuggestionIs b files d sp ocr a.kind ∧ (a.kind ≠ .vfst → a.inner = [])) ∧ Own m0 m' (a.blocks ++ xs))
      (fun _ m' => (∀ k, ¬ SuggestionIs b files d sp ocr k) ∧ Leaves m0 xs (WeightedTidy files (d.mor.path ++ lit "/err.vfst")) m') := by
  unfold getSuggestionGenerator
  split
  · next e =>
    refine runs_object h _ fun _ => ⟨?_, fun _ => rfl⟩
    cases ocr
    · exact ⟨e, rfl⟩
    · exact ⟨e, rfl⟩
  next e1 =>
  split
  · next e => exact runs_object h _ fun _ => ⟨e, fun _ => rfl⟩
  next e2 =>
  split
  · next e =>
    split
    · next es =>
      refine runs_throw ⟨?_, [], h, fun _ => rfl⟩
      intro k hk
      cases k with
      | typing => exact e1 hk.1
      | ocr => exact e1 hk.1
      | null => exact e2 hk
      | vfst => exact es hk.2.2.1
    next es =>
    refine runs_bind (runs_mono (runs_transducer h true _ (hf _)) (fun t m' o => o) ?_) ?_
    · rintro _ m' ⟨hn, leak, o, hl⟩
      refine ⟨?_, leak, o, fun ht => hl (ht.resolve_right hn)⟩
      intro k hk
      cases k with
      | typing => exact e1 hk.1
      | ocr => exact e1 hk.1
      | null => exact e2 hk
      | vfst => exact hn hk.2.2.2
    · rintro t m' ⟨hv, o⟩
      exact runs_rest o 4 _ fun _ _ => ⟨⟨e.1, e.2, Decidable.not_not.1 es, hv⟩, fun hn => absurd rfl hn⟩
  next e3 =>
  refine runs_throw ⟨?_, [], h, fun _ => rfl⟩
  intro k hk
  cases k with
  | typing => exact e1 hk.1
  | ocr => exact e1 hk.1
  | null => exact e2 hk
  | vfst => exact e3 ⟨hk.1, hk.2.1⟩

theorem runs_hyphenator {m0 m : Mem} {xs : List Nat} (h : Own m0 m xs) (d : Dict) :
    Runs (getHyphenator d) m (fun a m' => HyphenatorKnown d ∧ Own m0 m' (a.blocks ++ xs))
      (fun _ m' => ¬ HyphenatorKnown d ∧ Own m0 m' xs) := by
  unfold getHyphenator
  split
  · next e => exact runs_object h _ fun _ => e
  · next e => exact runs_throw ⟨e, h⟩

/-- The autocorrection file is a transducer of the right kind, if it is read. -/
def GrammarTidy (b : Build) (files : Files) (d : Dict) : Prop :=
  b.vfst = true → d.grammar.name = lit "finnishVfst" → files (d.grammar.path ++ lit "/autocorr.vfst") = .valid false

theorem runs_grammar {m0 m : Mem} {xs : List Nat} (h : Own m0 m xs) (b : Build) (files : Files) (hf : Mappable files) (d : Dict) :
    Runs (getGrammarChecker b files d) m (fun a m' => GrammarIs b files d a.kind ∧ Own m0 m' (a.blocks ++ xs))
      (fun _ m' => (∀ k, ¬ GrammarIs b files d k) ∧ Leaves m0 xs (GrammarTidy b files d) m') := by
  unfold getGrammarChecker
  split
  · next e => exact runs_inner h 2 _ fun _ _ => e
  next e1 =>
  split
  · next e =>
    refine runs_bind (runs_allocs 5 h) fun cs m1 o1 => ?_
    split
    · next e' =>
      refine runs_bind (runs_mono (runs_transducer o1.1 false _ (hf _)) (fun t m' o => o) ?_) ?_
      · rintro _ m' ⟨hn, leak, o, hl⟩
        refine ⟨?_, leak ++ cs, by simpa using o, fun ht => absurd (ht e'.1 e'.2) hn⟩
        intro k hk
        cases k with
        | null => exact e1 hk
        | finnish =>
          rcases hk with hk | hk
          · rw [e'.2] at hk; revert hk; decide
          · exact hn (hk.2 e'.1)
      · rintro t m' ⟨hv, o⟩
        refine runs_bind (runs_allocs 4 o) fun as m2 o2 => ?_
        refine runs_bind (runs_allocs 2 o2.1) fun es m3 o3 => ?_
        refine runs_bind (runs_alloc o3.1) fun q m4 o4 => runs_ret ⟨.inr ⟨e'.2, fun _ => hv⟩, own_perm o4 ?_⟩
        simp only [Part.blocks, List.append_assoc]
        have p1 : (q :: (es ++ (as ++ (t ++ (cs ++ xs))))).Perm ((cs ++ (t ++ (as ++ es))) ++ ([q] ++ xs)) := by
          rw [List.perm_iff_count]
          intro a
          simp only [List.count_cons, List.count_append, List.count_nil]
          omega
        simpa using p1
    · next e' =>
      refine runs_rest o1.1 2 _ fun _ _ => ?_
      rcases e with e | e
      · exact .inl e
      · exact .inr ⟨e, fun hb => absurd ⟨hb, e⟩ e'⟩
  next e2 =>
  refine runs_throw ⟨?_, [], h, fun _ => rfl⟩
  intro k hk
  cases k with
  | null => exact e1 hk
  | finnish =>
    rcases hk with hk | hk
    · exact e2 (.inl hk)
    · exact e2 (.inr hk.1)

/-! ## `voikkoInit` -/

/-- All blocks of a component that may be missing. -/
def blocksOf {K : Type} : Option (Part K) → List Nat
  | none => []
  | some p => p.blocks

/-- The inner blocks of a component that may be missing. -/
def innerOf {K : Type} : Option (Part K) → List Nat
  | none => []
  | some p => p.inner

theorem runs_disposeIf {K : Type} {m0 m : Mem} (p : Option (Part K)) {xs : List Nat} (h : Own m0 m (blocksOf p ++ xs))
    {err : String → Mem → Prop} : Runs (disposeIf p) m (fun _ m' => Own m0 m' xs) err := by
  cases p with
  | none => exact runs_ret' h
  | some p => exact runs_dispose p h

theorem runs_deleteOnly {K : Type} {m0 m : Mem} (p : Option (Part K)) {xs : List Nat} (h : Own m0 m (blocksOf p ++ xs))
    {err : String → Mem → Prop} : Runs (deleteOnly p) m (fun _ m' => Own m0 m' (innerOf p ++ xs)) err := by
  cases p with
  | none => exact runs_ret' h
  | some p =>
    refine runs_free (own_perm h ?_)
    simp only [blocksOf, Part.blocks, innerOf, List.append_assoc, List.singleton_append]
    exact List.perm_middle

theorem own_initFailed {m0 m : Mem} {self : Nat} {an : Option (Part AnalyzerKind)} {sp : Option (Part SpellerKind)}
    {su : Option (Part SuggestionKind)} {hy : Option (Part Unit)} {xs : List Nat}
    (h : Own m0 m (xs ++ (blocksOf hy ++ (blocksOf su ++ (blocksOf sp ++ (blocksOf an ++ [self])))))) :
    ∃ m', initFailed self an sp su hy m = some (m', .ok ()) ∧ Own m0 m' (innerOf su ++ xs) := by
  have r : Runs (initFailed self an sp su hy) m (fun _ m' => Own m0 m' (innerOf su ++ xs)) (fun _ _ => False) := by
    unfold initFailed
    have h' : Own m0 m (blocksOf hy ++ (blocksOf su ++ (blocksOf sp ++ (blocksOf an ++ (self :: xs))))) := by
      refine own_perm h ?_
      rw [List.perm_iff_count]
      intro a
      simp only [List.count_cons, List.count_append, List.count_nil]
      omega
    refine runs_bind (runs_disposeIf hy h') fun _ m1 o1 => ?_
    refine runs_bind (runs_deleteOnly su o1) fun _ m2 o2 => ?_
    refine runs_bind (runs_disposeIf sp (xs := blocksOf an ++ (self :: (innerOf su ++ xs))) (own_perm o2 ?_)) fun _ m3 o3 => ?_
    · rw [List.perm_iff_count]
      intro a
      simp only [List.count_cons, List.count_append, List.count_nil]
      omega
    refine runs_bind (runs_disposeIf an o3) fun _ m4 o4 => ?_
    exact runs_free o4
  obtain ⟨m', ⟨a, e, o⟩ | ⟨_, _, o⟩⟩ := r
  · exact ⟨m', e, o⟩
  · exact o.elim

theorem speller_unique {b : Build} {files : Files} {d : Dict} {k k' : SpellerKind} (h : SpellerIs b files d k)
    (h' : SpellerIs b files d k') : k = k' := by
  have name : ∀ k, SpellerIs b files d k → d.spell.name = (match k with
      | .adapter => lit "AnalyzerToSpellerAdapter(currentAnalyzer)"
      | .finnishTweaks => lit "FinnishSpellerTweaksWrapper(AnalyzerToSpellerAdapter(currentAnalyzer),currentAnalyzer)"
      | .allOk => lit "AllOk"
      | .allError => lit "AllError"
      | .vfst => lit "vfst") := by
    intro k hk
    cases k <;> simp only [SpellerIs] at hk ⊢
    · exact hk
    · exact hk
    · exact hk
    · exact hk
    · exact hk.2.1
  have e := (name k h).symm.trans (name k' h')
  clear name h h'
  revert k k'
  intro k k'
  cases k <;> cases k' <;> decide

/-- All components of the dictionary can be created. -/
def Creatable (b : Build) (files : Files) (d : Dict) : Prop :=
  (∃ k, AnalyzerIs b files d k) ∧ (∃ k, SpellerIs b files d k ∧ ∃ g, SuggestionIs b files d k false g) ∧ HyphenatorKnown d ∧
    ∃ k, GrammarIs b files d k

/-- The files that are needed are missing or as they should be (the autocorrection file must not be missing), and the suggestions do not
come from a transducer. -/
def TidyDictionary (b : Build) (files : Files) (d : Dict) : Prop :=
  MorTidy files d ∧ WeightedTidy files (d.mor.path ++ lit "/spl.vfst") ∧ WeightedTidy files (d.mor.path ++ lit "/err.vfst") ∧
    GrammarTidy b files d ∧ ¬ (b.expVfst = true ∧ d.suggestion.name = lit "vfst")

/-- All blocks of a handle. -/
def Components.blocks (h : Components) : List Nat :=
  h.grammar.blocks ++ (h.hyphenator.blocks ++ (h.suggestion.blocks ++ (h.speller.blocks ++ (h.analyzer.blocks ++
    ((match h.cache with | some c => [c.1] | none => []) ++ [h.self])))))

/-- The components are those that the dictionary asks for. -/
def FitsDictionary (b : Build) (files : Files) (ocr : Bool) (h : Components) : Prop :=
  AnalyzerIs b files h.dict h.analyzer.kind ∧ SpellerIs b files h.dict h.speller.kind ∧
    SuggestionIs b files h.dict h.speller.kind ocr h.suggestion.kind ∧ HyphenatorKnown h.dict ∧ GrammarIs b files h.dict h.grammar.kind ∧
    (h.suggestion.kind ≠ .vfst → h.suggestion.inner = [])

theorem runs_init {m : Mem} (hm : m.Ok) (b : Build) (files : Files) (hf : Mappable files) (found : List Nat → List Dict)
    (ls : List (List Nat)) (env : Option (List Nat)) (lang : List Nat) (path : List Nat) :
    Runs (voikkoInit b files found ls env (some lang) path) m
      (fun h m' => loadDictionary found ls env lang path = some h.dict ∧ FitsDictionary b files false h ∧ Own m m' (Components.blocks h))
      (fun _ m' => (∀ d, loadDictionary found ls env lang path = some d → ¬ Creatable b files d) ∧
        ((∀ d, loadDictionary found ls env lang path = some d → TidyDictionary b files d) → m'.live = m.live)) := by
  unfold voikkoInit
  simp only
  refine runs_bind (runs_alloc (own_start hm)) fun self m1 o1 => ?_
  have rl : Runs (loadOrThrow found ls env lang path) m1
      (fun d m' => loadDictionary found ls env lang path = some d ∧ Own m m' [self])
      (fun _ m' => loadDictionary found ls env lang path = none ∧ Own m m' [self]) := by
    unfold loadOrThrow
    split
    · next e => exact runs_throw ⟨by simp [loadDictionary, e], o1⟩
    · split
      · next d e => exact runs_ret' ⟨e, o1⟩
      · next e => exact runs_throw ⟨e, o1⟩
  refine runs_bind (runs_orElse rl ?_) ?_
  · rintro e m' ⟨hn, o⟩
    obtain ⟨m'', e1, o'⟩ := own_initFailed (an := none) (sp := none) (su := none) (hy := none) (xs := []) o
    refine ⟨m'', e1, ?_, fun _ => own_nil o'⟩
    rw [hn]; simp
  rintro d m2 ⟨hd, o2⟩
  simp only [hd, Option.some.injEq, forall_eq']
  refine runs_bind (runs_orElse (runs_analyzer o2 b files hf d) ?_) ?_
  · rintro e m' ⟨hn, leak, o, hl⟩
    obtain ⟨m'', e1, o'⟩ := own_initFailed (an := none) (sp := none) (su := none) (hy := none) (xs := leak) o
    refine ⟨m'', e1, fun hc => ?_, fun ht => ?_⟩
    · obtain ⟨k, hk⟩ := hc.1; exact hn k hk
    · rw [hl ht.1] at o'; exact own_nil o'
  rintro an m3 ⟨ha, o3⟩
  refine runs_bind (runs_orElse (runs_speller o3 b files hf d) ?_) ?_
  · rintro e m' ⟨hn, leak, o, hl⟩
    obtain ⟨m'', e1, o'⟩ := own_initFailed (an := some an) (sp := none) (su := none) (hy := none) (xs := leak) o
    refine ⟨m'', e1, fun hc => ?_, fun ht => ?_⟩
    · obtain ⟨k, hk, _⟩ := hc.2.1; exact hn k hk
    · rw [hl ht.2.1] at o'; exact own_nil o'
  rintro sp m4 ⟨hsp, o4⟩
  refine runs_bind (runs_orElse (runs_suggestion o4 b files hf d sp.kind false) ?_) ?_
  · rintro e m' ⟨hn, leak, o, hl⟩
    obtain ⟨m'', e1, o'⟩ := own_initFailed (an := some an) (sp := some sp) (su := none) (hy := none) (xs := leak) o
    refine ⟨m'', e1, fun hc => ?_, fun ht => ?_⟩
    · obtain ⟨k, hk, g, hg⟩ := hc.2.1
      rw [speller_unique hk hsp] at hg
      exact hn g hg
    · rw [hl ht.2.2.1] at o'; exact own_nil o'
  rintro su m5 ⟨⟨hsu, hin⟩, o5⟩
  have inner : TidyDictionary b files d → su.inner = [] := by
    intro ht
    refine hin fun hk => ?_
    rw [hk] at hsu
    exact ht.2.2.2.2 ⟨hsu.1, hsu.2.1⟩
  refine runs_bind (runs_orElse (runs_hyphenator o5 d) ?_) ?_
  · rintro e m' ⟨hn, o⟩
    obtain ⟨m'', e1, o'⟩ := own_initFailed (an := some an) (sp := some sp) (su := some su) (hy := none) (xs := []) o
    refine ⟨m'', e1, fun hc => hn hc.2.2.1, fun ht => ?_⟩
    simp only [innerOf, inner ht] at o'
    exact own_nil o'
  rintro hy m6 ⟨hh, o6⟩
  refine runs_bind (runs_orElse (runs_grammar o6 b files hf d) ?_) ?_
  · rintro e m' ⟨hn, leak, o, hl⟩
    obtain ⟨m'', e1, o'⟩ := own_initFailed (an := some an) (sp := some sp) (su := some su) (hy := some hy) (xs := leak) o
    refine ⟨m'', e1, fun hc => ?_, fun ht => ?_⟩
    · obtain ⟨k, hk⟩ := hc.2.2.2; exact hn k hk
    · simp only [innerOf, inner ht, hl ht.2.2.2.1] at o'
      exact own_nil o'
  rintro gr m7 ⟨hg, o7⟩
  refine runs_bind (runs_alloc o7) fun c m8 o8 => runs_ret ⟨rfl, ⟨ha, hsp, hsu, hh, hg, hin⟩, own_perm o8 ?_⟩
  simp only [Components.blocks]
  rw [List.perm_iff_count]
  intro a
  simp only [List.count_cons, List.count_append, List.count_nil]
  omega

/-- C72 (creation): unless a transducer file can be opened but not mapped, `voikkoInit` either gives a handle or a message. It gives a
handle exactly if a dictionary is found and all its components can be created, and the components are those that the dictionary asks
for. -/
theorem C72_init {m : Mem} (hm : m.Ok) (b : Build) (files : Files) (hf : Mappable files) (found : List Nat → List Dict)
    (ls : List (List Nat)) (env : Option (List Nat)) (language : Option (List Nat)) (path : List Nat) :
    ∃ m' r, voikkoInit b files found ls env language path m = some (m', r) ∧
      ((∃ h, r = .ok h) ↔ ∃ lang d, language = some lang ∧ loadDictionary found ls env lang path = some d ∧ Creatable b files d) ∧
      ∀ h, r = .ok h → (∃ lang, language = some lang ∧ loadDictionary found ls env lang path = some h.dict) ∧
        FitsDictionary b files false h := by
  cases language with
  | none => exact ⟨m, _, rfl, by simp, by simp⟩
  | some lang =>
    obtain ⟨m', ⟨h, e, o⟩ | ⟨e, e', o⟩⟩ := runs_init hm b files hf found ls env lang path
    · refine ⟨m', _, e, ⟨fun _ => ⟨lang, h.dict, rfl, o.1, ?_⟩, fun _ => ⟨h, rfl⟩⟩, ?_⟩
      · obtain ⟨h1, h2, h3, h4, h5, _⟩ := o.2.1
        exact ⟨⟨_, h1⟩, ⟨_, h2, _, h3⟩, h4, _, h5⟩
      · intro h' he
        cases he
        exact ⟨⟨lang, rfl, o.1⟩, o.2.1⟩
    · refine ⟨m', _, e', ⟨fun hx => (by obtain ⟨h, hx⟩ := hx; cases hx), ?_⟩, fun h hx => (by cases hx)⟩
      rintro ⟨lang', d, hl, hd, hc⟩
      cases hl
      exact absurd hc (o.1 d hd)

/-- C72 (failure), the part that holds: if the handle cannot be created everything that was allocated is released. (Missing: files of
the wrong kind, a missing autocorrection file, and suggestions that come from a transducer; there blocks are left behind, see
`C72_failure_violation`.) -/
theorem C72_failure_partial {m : Mem} (hm : m.Ok) (b : Build) (files : Files) (hf : Mappable files) (found : List Nat → List Dict)
    (ls : List (List Nat)) (env : Option (List Nat)) (lang path : List Nat)
    (ht : ∀ d, loadDictionary found ls env lang path = some d → TidyDictionary b files d) {m' : Mem} {message : String}
    (hr : voikkoInit b files found ls env (some lang) path m = some (m', .error message)) : m'.live = m.live := by
  obtain ⟨m'', ⟨h, e, o⟩ | ⟨e, e', o⟩⟩ := runs_init hm b files hf found ls env lang path
  · rw [hr] at e; cases e
  · rw [hr] at e'
    cases e'
    exact o.2 ht

/-! ## Changes and the end of a handle -/

/-- The last value of the option `OCR_SUGGESTIONS`. -/
def ocrAfter (start : Bool) (cs : List Change) : Bool :=
  (cs.filterMap fun c => match c with | .ocr v => some v | .cacheSize _ => none).getLast?.getD start

theorem ocrAfter_cons (start : Bool) (c : Change) (cs : List Change) :
    ocrAfter start (c :: cs) = ocrAfter (match c with | .ocr v => v | .cacheSize _ => start) cs := by
  cases c with
  | ocr v =>
    simp only [ocrAfter, List.filterMap_cons]
    rw [List.getLast?_cons]
    rfl
  | cacheSize v => simp only [ocrAfter, List.filterMap_cons]

theorem runs_ocr {m0 m : Mem} {b : Build} {files : Files} (hf : Mappable files) {h : Components} {o v : Bool}
    (hfit : FitsDictionary b files o h) (hown : Own m0 m (Components.blocks h)) (hn : h.suggestion.kind ≠ .vfst) :
    Runs (setOcrSuggestions b files h v) m
      (fun h' m' => FitsDictionary b files v h' ∧ h'.dict = h.dict ∧ Own m0 m' (Components.blocks h'))
      (fun _ _ => False) := by
  obtain ⟨h1, h2, h3, h4, h5, h6⟩ := hfit
  have hin := h6 hn
  unfold setOcrSuggestions
  have hx : Own m0 m (h.suggestion.obj :: (h.grammar.blocks ++ (h.hyphenator.blocks ++ (h.speller.blocks ++ (h.analyzer.blocks ++
    ((match h.cache with | some c => [c.1] | none => []) ++ [h.self])))))) := by
    refine own_perm hown ?_
    simp only [Components.blocks]
    have : h.suggestion.blocks = [h.suggestion.obj] := by simp [Part.blocks, hin]
    rw [this, List.perm_iff_count]
    intro a
    simp only [List.count_cons, List.count_append, List.count_nil]
    omega
  refine runs_bind (runs_free hx) fun _ m1 o1 => ?_
  refine runs_bind (runs_mono (runs_suggestion o1 b files hf h.dict h.speller.kind v) (fun a m' ha => ha) ?_) ?_
  · rintro e m' ⟨hno, _⟩
    cases hk : h.suggestion.kind with
    | vfst => exact hn hk
    | null => rw [hk] at h3; exact hno .null h3
    | typing =>
      rw [hk] at h3
      cases v with
      | true => exact hno .ocr ⟨h3.1, rfl⟩
      | false => exact hno .typing ⟨h3.1, rfl⟩
    | ocr =>
      rw [hk] at h3
      cases v with
      | true => exact hno .ocr ⟨h3.1, rfl⟩
      | false => exact hno .typing ⟨h3.1, rfl⟩
  · rintro su m' ⟨⟨hs, hin'⟩, o2⟩
    refine runs_ret ⟨⟨h1, h2, hs, h4, h5, hin'⟩, rfl, own_perm o2 ?_⟩
    simp only [Components.blocks]
    rw [List.perm_iff_count]
    intro a
    simp only [List.count_cons, List.count_append, List.count_nil]
    omega

theorem runs_cacheSize {m0 m : Mem} {b : Build} {files : Files} {h : Components} {o : Bool} (v : Int)
    (hfit : FitsDictionary b files o h) (hown : Own m0 m (Components.blocks h)) :
    Runs (setCacheSize h v) m
      (fun h' m' => FitsDictionary b files o h' ∧ h'.dict = h.dict ∧ Own m0 m' (Components.blocks h') ∧ h'.suggestion = h.suggestion)
      (fun _ _ => False) := by
  have hx : ∀ c : List Nat, ∀ p, (h.grammar.blocks ++ (h.hyphenator.blocks ++ (h.suggestion.blocks ++ (h.speller.blocks ++ (h.analyzer.blocks ++
    (([p] ++ c) ++ [h.self])))))).Perm (p :: (h.grammar.blocks ++ (h.hyphenator.blocks ++ (h.suggestion.blocks ++ (h.speller.blocks ++ (h.analyzer.blocks ++
    (c ++ [h.self]))))))) := by
    intro c p
    rw [List.perm_iff_count]
    intro a
    simp only [List.count_cons, List.count_append, List.count_nil]
    omega
  unfold setCacheSize
  split
  · next p size hc =>
    split
    · have hp := hown
      simp only [Components.blocks, hc] at hp
      refine runs_bind (runs_free (p := p) (own_perm hp (hx [] p))) fun _ m1 o1 => ?_
      split
      · refine runs_bind (runs_alloc o1) fun q m2 o2 => runs_ret ⟨hfit, rfl, own_perm o2 ?_, rfl⟩
        simp only [Components.blocks]
        exact (hx [] q).symm
      · exact runs_ret ⟨hfit, rfl, o1, rfl⟩
    · exact runs_ret ⟨hfit, rfl, hown, rfl⟩
  · next hc =>
    split
    · refine runs_bind (runs_alloc hown) fun q m2 o2 => runs_ret ⟨hfit, rfl, own_perm o2 ?_, rfl⟩
      simp only [Components.blocks, hc]
      exact (hx [] q).symm
    · exact runs_ret ⟨hfit, rfl, hown, rfl⟩

theorem runs_changes {m0 : Mem} {b : Build} {files : Files} (hf : Mappable files) : ∀ (cs : List Change) {m : Mem} {h : Components} {o : Bool},
    FitsDictionary b files o h → Own m0 m (Components.blocks h) →
    (h.suggestion.kind = .vfst → ∀ v, Change.ocr v ∉ cs) →
    Runs (changes b files h cs) m
      (fun h' m' => FitsDictionary b files (ocrAfter o cs) h' ∧ h'.dict = h.dict ∧ Own m0 m' (Components.blocks h')) (fun _ _ => False)
  | [], m, h, o, hfit, hown, hn => by
    exact runs_ret' ⟨hfit, rfl, hown⟩
  | c :: cs, m, h, o, hfit, hown, hn => by
    simp only [changes]
    cases c with
    | ocr v =>
      have hk : h.suggestion.kind ≠ .vfst := fun hk => hn hk v (List.mem_cons_self ..)
      refine runs_bind (runs_ocr (v := v) hf hfit hown hk) ?_
      rintro h' m' ⟨f', d', o'⟩
      rw [ocrAfter_cons]
      refine runs_mono (runs_changes hf cs f' o' ?_) (fun a m'' ha => ⟨ha.1, ha.2.1.trans d', ha.2.2⟩) (fun _ _ x => x)
      intro hk'
      exfalso
      have s' := f'.2.2.1
      rw [hk'] at s'
      have s := hfit.2.2.1
      rw [d'] at s'
      have hname := s'.2.1
      cases hkk : h.suggestion.kind with
      | vfst => exact hk hkk
      | null => rw [hkk] at s; have := hname.symm.trans s; revert this; decide
      | typing => rw [hkk] at s; have := hname.symm.trans s.1; revert this; decide
      | ocr => rw [hkk] at s; have := hname.symm.trans s.1; revert this; decide
    | cacheSize v =>
      refine runs_bind (runs_cacheSize v hfit hown) ?_
      rintro h' m' ⟨f', d', o', hs⟩
      rw [ocrAfter_cons]
      refine runs_mono (runs_changes hf cs f' o' ?_) (fun a m'' ha => ⟨ha.1, ha.2.1.trans d', ha.2.2⟩) (fun _ _ x => x)
      intro hk'
      rw [hs] at hk'
      exact fun v' hm => hn hk' v' (List.mem_cons_of_mem _ hm)

theorem runs_terminate {m0 m : Mem} {h : Components} (hown : Own m0 m (Components.blocks h)) :
    Runs (voikkoTerminate h) m (fun _ m' => m'.live = m0.live) (fun _ _ => False) := by
  unfold voikkoTerminate
  refine runs_bind (runs_dispose _ hown) fun _ m1 o1 => ?_
  refine runs_bind (runs_dispose _ o1) fun _ m2 o2 => ?_
  refine runs_bind (runs_dispose _ o2) fun _ m3 o3 => ?_
  refine runs_bind (runs_dispose _ o3) fun _ m4 o4 => ?_
  refine runs_bind (runs_dispose _ o4) fun _ m5 o5 => ?_
  refine runs_bind (ok := fun _ m' => Own m0 m' [h.self]) ?_ fun _ m6 o6 => ?_
  · cases hc : h.cache with
    | none => rw [hc] at o5; exact runs_ret' o5
    | some c => rw [hc] at o5; exact runs_free o5
  · exact runs_mono (runs_free o6) (fun _ _ o => own_nil o) (fun _ _ x => x)

/-- C72 (release): a handle that has been created can be changed any number of times and then released. No change throws an exception,
nothing is released twice, the components still fit the dictionary and the options, and after the end of the handle exactly those
blocks are allocated that were allocated before its creation. If the suggestions come from a transducer this holds as long as
`OCR_SUGGESTIONS` is not set. -/
theorem C72_release {m : Mem} (hm : m.Ok) (b : Build) (files : Files) (hf : Mappable files) (found : List Nat → List Dict)
    (ls : List (List Nat)) (env : Option (List Nat)) (lang path : List Nat) {m1 : Mem} {h : Components}
    (hr : voikkoInit b files found ls env (some lang) path m = some (m1, .ok h)) (cs : List Change)
    (ho : (b.expVfst = true ∧ h.dict.suggestion.name = lit "vfst") → ∀ v, Change.ocr v ∉ cs) :
    ∃ m2 h', changes b files h cs m1 = some (m2, .ok h') ∧ h'.dict = h.dict ∧ FitsDictionary b files (ocrAfter false cs) h' ∧
      ∃ m3, voikkoTerminate h' m2 = some (m3, .ok ()) ∧ m3.live = m.live := by
  obtain ⟨m', ⟨h', e, o⟩ | ⟨e, e', o⟩⟩ := runs_init hm b files hf found ls env lang path
  · rw [hr] at e
    cases e
    obtain ⟨_, hfit, hown⟩ := o
    obtain ⟨m2, ⟨h', e2, o2⟩ | ⟨_, _, x⟩⟩ := runs_changes hf cs hfit hown (fun hk => ho (by
      have := hfit.2.2.1
      rw [hk] at this
      exact ⟨this.1, this.2.1⟩))
    · refine ⟨m2, h', e2, o2.2.1, o2.1, ?_⟩
      obtain ⟨m3, ⟨a, e3, o3⟩ | ⟨_, _, x⟩⟩ := runs_terminate o2.2.2
      · exact ⟨m3, e3, o3⟩
      · exact x.elim
    · exact x.elim
  · rw [hr] at e'; cases e'

/-! ## Where it fails -/

/-- One dictionary, described by the given lines, in the directory `/d`. -/
def oneDictionary (lines : List (List Nat)) : List Nat → List Dict :=
  fun _ => [dictionaryFromPath (lit "/d") (formatLine :: lines)]

/-- A directory with the given files. -/
def filesOf (l : List (List Nat × VfstFile)) : Files := fun p => (l.lookup p).getD .missing

/-- The number of blocks after `voikkoInit` without a result, and the message. -/
def failedInit (b : Build) (files : Files) (lines : List (List Nat)) : Option (Nat × String) :=
  match voikkoInit b files (oneDictionary lines) [] none (some (lit "fi")) (lit "/d") {} with
  | some (m, .error e) => some (m.live.length, e)
  | _ => none

/-- C72 (failure) fails: without the autocorrection file the five other checks of the grammar checker are not released; a weighted
`mor.vfst` stays mapped; and with suggestions that come from a transducer, six blocks of the generator are not released if the
hyphenator cannot be created. -/
theorem C72_failure_violation :
    failedInit {} (filesOf [(lit "/d/mor.vfst", .valid false)]) [] = some (5, "Unweighted transducer file could not be read") ∧
    failedInit {} (filesOf [(lit "/d/mor.vfst", .valid true)]) [] = some (1, "Expected unweighted but got weighted transducer") ∧
    failedInit { expVfst := true }
      (filesOf [(lit "/d/mor.vfst", .valid true), (lit "/d/spl.vfst", .valid true), (lit "/d/err.vfst", .valid true)])
      [lit "Morphology-Backend: vfst", lit "Speller-Backend: vfst", lit "Suggestion-Backend: vfst", lit "Hyphenator-Backend: none"] =
      some (6, "Could not create hyphenator due to unknown hyphenator backend") := by
  decide +kernel

/-- C72: `voikkoInit` is undefined if `mor.vfst` is an empty file. -/
theorem C72_unmappable_violation :
    voikkoInit {} (filesOf [(lit "/d/mor.vfst", .unmappable)]) (oneDictionary []) [] none (some (lit "fi")) (lit "/d") {} = none := by
  decide +kernel

/-- A dictionary whose files are all there. -/
def completeFiles : Files := filesOf [(lit "/d/mor.vfst", .valid false), (lit "/d/autocorr.vfst", .valid false)]

/-- A dictionary that can be loaded cannot be loaded any more if the default for the grammar is written into its index file (see
`C71_grammar_violation`). -/
theorem C72_grammar_line_violation :
    failedInit {} completeFiles [] = none ∧
    failedInit {} completeFiles [lit "Grammar-Backend: finnishVfst"] = some (5, "Unweighted transducer file could not be read") := by
  decide +kernel

/-- The number of blocks after creating a handle, changing it and releasing it. -/
def wholeLife (b : Build) (files : Files) (lines : List (List Nat)) (cs : List Change) : Option Nat :=
  match (do
    let h ← voikkoInit b files (oneDictionary lines) [] none (some (lit "fi")) (lit "/d")
    let h ← changes b files h cs
    voikkoTerminate h : Cpp Unit) {} with
  | some (m, .ok ()) => some m.live.length
  | _ => none

/-- C72 (release) fails if `OCR_SUGGESTIONS` is set and suggestions come from a transducer: each time six blocks are left behind. -/
theorem C72_ocr_violation :
    wholeLife { expVfst := true }
      (filesOf [(lit "/d/mor.vfst", .valid true), (lit "/d/spl.vfst", .valid true), (lit "/d/err.vfst", .valid true)])
      [lit "Morphology-Backend: vfst", lit "Speller-Backend: vfst", lit "Suggestion-Backend: vfst", lit "Grammar-Backend: null"]
      [.ocr true, .ocr false] = some 12 := by
  decide +kernel

/-- The default dictionary: a complete life of a handle. -/
example : wholeLife {} completeFiles [] [.ocr true, .cacheSize (-1), .cacheSize 2, .ocr false] = some 0 ∧
    failedInit {} (filesOf []) [] = some (0, "Unweighted transducer file could not be read") := by decide +kernel

/-- A dictionary without `mor.vfst` is tidy. -/
example : TidyDictionary {} (filesOf [(lit "/d/autocorr.vfst", .valid false)]) (dictionaryFromPath (lit "/d") [formatLine]) := by
  refine ⟨.inl (by decide), .inl (by decide), .inl (by decide), fun _ _ => by decide, by decide⟩

example : Mappable completeFiles := by
  intro p
  simp only [completeFiles, filesOf, List.lookup]
  split <;> simp
  split <;> simp

end Verif.Props
