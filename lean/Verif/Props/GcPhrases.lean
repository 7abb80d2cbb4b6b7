import Verif.Lemmas.GrammarSim
import Verif.Props.GcProgram
import Verif.Props.Autocorrect
/-!
# C109: fixed expressions from the text of their list
-/

set_option linter.unusedVariables false

namespace Verif.GcProgram
open Verif Verif.Att Verif.Args Verif.Props Verif.SpellOutput Verif.GrammarSim
open Verif.HyphProgram (Reads reads_exist asciiDecode)

/-! ## Specification -/

/-- The errors for fixed expressions (code 1) of a paragraph with clean sentences: the phrases that `first` finds. -/
def PhrasesIn (an : List Wc → List GramAn) (spellOk : List Wc → Bool) (first : List Wc → Option (List Wc × Nat)) (p : List Wc) (es : List GErr) : Prop :=
  ∀ ss, analyseParagraph an spellOk false p = some (some ss) → Checked ss →
    (∀ s ∈ ss, Autocorrect.Clean s.tokens ∧ Autocorrect.extent s.tokens < 20000) →
    ∀ e : GErr, e.code = 1 → (e ∈ es ↔ ∃ s ∈ ss, Autocorrect.Reported first s e)

/-! ## Proof -/

/-- A look-up without state. -/
def phraseLookup (first : List Wc → Option (List Wc × Nat)) : Lookup Unit where
  find _ w := if w.length ≤ 20000 then some ((), first w) else none

theorem phraseLookup_ok {first : List Wc → Option (List Wc × Nat)} (h : ∀ w, w.length ≤ 20000 → ∀ out n, first w = some (out, n) → 0 < n) :
    AutoOk (some (phraseLookup first)) := by
  intro m e
  cases e
  intro c w hw
  exact ⟨(), first w, by simp only [phraseLookup, if_pos hw], fun out n e => h w hw out n e⟩

theorem phraseLookup_stateless (first : List Wc → Option (List Wc × Nat)) : Stateless (some (phraseLookup first)) := by
  intro m e
  cases e
  intro w c1 c1' r h c2
  exact ⟨c1', h⟩

theorem phraseLookup_answers (first : List Wc → Option (List Wc × Nat)) : Autocorrect.Answers (phraseLookup first) (fun _ => True) first := by
  intro c w _ hw
  exact ⟨(), by simp only [phraseLookup, if_pos hw], trivial⟩

theorem phraseLookup_follows {σ : Type} {m : Lookup σ} {P : σ → Prop} {first : List Wc → Option (List Wc × Nat)}
    (h : Autocorrect.Answers m P first) : Follows (phraseLookup first) m fun _ c => P c := by
  intro c d w hP a e
  simp only [phraseLookup] at e
  split at e
  · rename_i hw
    cases e
    obtain ⟨c', h1, h2⟩ := h d w hP hw
    exact ⟨_, h1, h2, rfl⟩
  · cases e

/-- **C109** with fixed expressions: the corrections are compiled from a text of their own (without flag diacritics and without an entry for the empty string). The program,
started with the two files, reports for each paragraph the errors of the rules as in `C109_program_partial`, and in paragraphs of clean sentences those fixed expressions that the
automaton of the second text accepts. Missing, as there: sentences that are not clean. -/
theorem C109_phrases_partial {text : List Nat} {ls : List Att.Line} (hd : Att.Describes text ls) (hp : Proper ls) (hf : FinnishText ls)
    {ctext : List Nat} {cls : List Att.Line} (hcd : Att.Describes ctext cls) (hcp : Proper cls)
    (hno : ∀ l ∈ cls, ∀ s ∈ l.symbols, s.head? ≠ some 64) (hne : ∀ w run, ¬ Att.Accepts cls w true run 0)
    {srtS : List (Nat × List Nat) → List (Nat × List Nat)} {srtT : List CTrans → List CTrans}
    (hS : SortsBy (fun a b => attSymLt a.2 b.2) srtS) (hT : SortsBy fileOrderLt srtT) (sw : Bool) :
    ∃ file f cfile cf, attCompile srtS srtT sw text = some (some file) ∧ loadFile file = some (some f) ∧
      attCompile srtS srtT sw ctext = some (some cfile) ∧ loadFile cfile = some (some cf) ∧
      ∃ (runsOf : List Wc → List (List Nat)) (an : List Wc → List GramAn) (first : List Wc → Option (List Wc × Nat)),
        (∀ v : List Wc, v.length ≤ 255 → AllRuns ls v (runsOf v)) ∧
        (∀ c, AnalysedBefore f (fun _ => True) c → ∀ w, ∃ l c', finnishAnalyzeFst f c w false = some (l, c') ∧ an w = l.map asGramAn) ∧
        (∀ w, w.length ≤ 20000 → Autocorrect.Finds cls w (first w)) ∧
        (∃ read, Reads ls runsOf read) ∧ ∀ read, Reads ls runsOf read →
        ∀ (init : Arg → Option Arg → Option (Handle GErr)) (args : List Arg) (items : List Item) (rest : Option Arg) (h : Args.Reads commonKeys args items rest)
          (hstop : ∀ x ∈ items, stopOf (α := GcTool GErr) x = none) (hk : ∀ w, .word w ∈ items → GcKnown w)
          (hop : lastOf operationOf items = none) (hnum : .word (lit "-n") ∉ items)
          (hinit : ∃ h0, initHandle GErr = some h0 ∧ init ((lastOf (valueOf "-d") items).getD (lit "fi")) (lastOf (valueOf "-p") items) = some h0)
          (decode : List Nat → Option (List Wc)) (hdec : ∀ b w, b ≠ [] → decode b = some w → w ≠ [] ∧ 0 ∉ w) (input : List Nat) (hnul : 0 ∉ input),
          ∃ t, gcToolArgs init args = some (.run t) ∧ t.op = .checkGrammar ∧
            ∃ errs, List.Forall₂ (fun p es => Judged an (dictSpellOk an false) (wordViews runsOf read) (some (phraseLookup first)) (optionsOf items) p es ∧
                PhrasesIn an (dictSpellOk an false) first p es) (inputParagraphs decode input) errs ∧
              ∀ fuel, (∀ es ∈ errs, es.length < fuel) →
                ∃ out, gcTool (dictEnv an (some (fstLookup cf))) t.opts fuel (inputParagraphs decode input) t.handle (fstLookupInit cf) = some out ∧
                ((∀ es ∈ errs, Props.Plain es) → reports (linesOf out) = errs.map fun es => es.map fun e => some (e.code, e.start, e.len, e.sugg)) := by
  obtain ⟨file, f, h1, h2, runsOf, an, h3, h4, h5, h6, h7, main⟩ := C109_program_partial hd hp hf hS hT sw
  obtain ⟨cfile, cf, k1, k2, used, first, k3, k4, k5, k6⟩ := Autocorrect.C83_compiled_partial hcd hcp hno hS hT sw
  refine ⟨file, f, cfile, cf, h1, h2, k1, k2, runsOf, an, first, h3, h4, k5, h7, ?_⟩
  intro read hread init args items rest h hstop hk hop hnum hinit decode hdec input hnul
  have hpos : ∀ w, w.length ≤ 20000 → ∀ out n, first w = some (out, n) → 0 < n := by
    intro w hw out n e
    have := k5 w hw
    rw [e] at this
    obtain ⟨run, a, _⟩ := this
    rcases Nat.eq_zero_or_pos n with rfl | hn
    · exact absurd a (hne w run)
    · exact hn
  obtain ⟨t, t1, t2, errs, e1, e2⟩ := main read hread (some (phraseLookup first)) (phraseLookup_ok hpos) (phraseLookup_stateless first) ()
    init args items rest h hstop hk hop hnum hinit decode hdec input hnul
  refine ⟨t, t1, t2, errs, e1.imp ?_, fun fuel hfuel => ?_⟩
  · intro p es hj
    refine ⟨hj, ?_⟩
    intro ss hss hch hcl
    rcases hj with ⟨hj, _⟩ | ⟨ss', hj, _, hE⟩
    · rw [hss] at hj; cases hj
    · rw [hss] at hj
      injection hj with hj
      injection hj with hj
      subst hj
      exact hE.phrases hch hcl _ first rfl (phraseLookup_answers first)
  · obtain ⟨out, o1, o2⟩ := e2 fuel hfuel
    exact ⟨out, gcTool_rel (phraseLookup_follows k4) an (dictSpellOk an) t.opts fuel _ t.handle () _ k3 out o1, o2⟩

/-! ## A list of fixed expressions to which this applies -/

/-- "a" is to be corrected to "b". -/
def listText : List Nat := ascii "0\t1\ta\tb\n1\n"

def listLines : List Line := [.arc ⟨0, 1, [97], [98]⟩, .final 1]

theorem list_describes : Att.Describes listText listLines := by
  have d : ∀ n < 10, Decimal [48 + n] n := by
    intro n hn
    refine ⟨by simp, by intro x hx; rw [List.mem_singleton.1 hx]; omega, by simp [decimalValue], by omega⟩
  have tab : Blank [9] := by intro b hb; rw [List.mem_singleton.1 hb]; exact .inl rfl
  have none' : Blank [] := by intro b hb; cases hb
  refine .line (b := [48, 9, 49, 9, 97, 9, 98]) (t := _) (.arc (sp := []) (ds := [48]) (sp1 := [9]) (dt := [49]) (sp2 := [9]) (ti := [97])
    (sp3 := [9]) («to» := [98]) (rest := []) none' (d 0 (by omega)) tab (by simp) (d 1 (by omega)) tab (by simp)
    (names_plain (by decide) (by decide) ⟨by simp, by decide⟩) tab (by simp) (names_plain (by decide) (by decide) ⟨by simp, by decide⟩) (.inl rfl) (by simp)) ?_
  exact .line (b := [49]) (t := []) (.final (sp := []) (ds := [49]) none' (d 1 (by omega))) .nil

theorem list_arc {k : Nat} {a : Arc} (h : listLines[k]? = some (.arc a)) : a = ⟨0, 1, [97], [98]⟩ := by
  match k, h with
  | 0, h => cases h; rfl
  | 1, h => cases h
  | k + 2, h => simp [listLines] at h

theorem list_proper : Proper listLines := by
  refine ⟨?_, ?_, ?_, ⟨.arc ⟨0, 1, [97], [98]⟩, by simp [listLines], 98, by simp, by simp, by simp [Line.symbols]⟩,
    ⟨listLines.flatMap Line.symbols, by decide, fun l hl s hs => List.mem_flatMap.2 ⟨l, hl, hs⟩⟩, by decide⟩
  · intro k l hk s hs
    match k, hk with
    | 0, hk => cases hk; cases hs
    | 1, hk => cases hk; exact ⟨0, _, by omega, rfl, by simp only [Line.src] at hs ⊢; omega⟩
    | k + 2, hk => simp [listLines] at hk
  · intro a ha
    obtain ⟨k, hk⟩ := List.getElem?_of_mem ha
    exact ⟨.final 1, by simp [listLines], by rw [list_arc hk]; rfl⟩
  · intro l hl s hs
    simp only [listLines, List.mem_cons, List.not_mem_nil, or_false] at hl
    rcases hl with rfl | rfl
    · simp only [Line.symbols, List.mem_cons, List.not_mem_nil, or_false] at hs
      rcases hs with rfl | rfl <;> exact letter_proper (by simp)
    · simp only [Line.symbols, List.not_mem_nil] at hs

theorem list_no_empty (w : List Wc) (run : List Nat) : ¬ Att.Accepts listLines w true run 0 := by
  rintro ⟨ks, k, p, _, ht, hk, hpos, _⟩
  have grow : ∀ {p q : Place} {ks : List Nat}, TakesAll listLines w p ks q → p.pos ≤ q.pos ∧ (ks ≠ [] → p.pos < q.pos) := by
    intro p q ks h
    induction h with
    | nil => simp
    | cons h1 _ ih =>
      cases h1 with
      | letter _ _ _ _ => have := ih.1; simp only at this; exact ⟨by omega, fun _ => by omega⟩
      | epsilon e _ e2 => rw [list_arc e] at e2; cases e2
      | flag e _ e2 _ =>
        rw [list_arc e] at e2
        generalize hx : ([97] : List Wc) = x at e2
        cases e2 <;> simp at hx
  cases ks with
  | nil =>
    cases ht
    match k, hk with
    | 0, hk => cases hk
    | 1, hk => cases hk
    | k + 2, hk => simp [listLines] at hk
  | cons _ _ => have := (grow ht).2 (by simp); simp only at this; omega

/-- The hypotheses of `C109_phrases_partial` on the two texts are met. -/
example (sw : Bool) : ∃ (cf : Fst) (first : List Wc → Option (List Wc × Nat)), (∀ w, w.length ≤ 20000 → Autocorrect.Finds listLines w (first w)) := by
  obtain ⟨file, f, cfile, cf, _, _, _, _, runsOf, an, first, _, _, h, _⟩ := C109_phrases_partial haha_describes haha_proper haha_finnish list_describes
    list_proper (by decide) list_no_empty sortSymbols_sorts sortTransitions_sorts sw
  exact ⟨cf, first, h⟩

/-- All parts of the model together, with a list of fixed expressions. Of the errors the code, the position and the suggestions are given. -/
def compileBothAndCheck (text ctext : List Nat) (args : List Arg) (input : List Nat) : Option (List (List (Option (Nat × Nat × List Wc)))) := do
  let some file ← attCompile sortSymbols sortTransitions false text | none
  let some f ← loadFile file | none
  let some cfile ← attCompile sortSymbols sortTransitions false ctext | none
  let some cf ← loadFile cfile | none
  let .run t ← gcToolArgs (fun _ _ => initHandle GErr) args | none
  let an := fun w => ((finnishAnalyzeFst f (finnishInit f) w false).map (·.1.map asGramAn)).getD []
  let out ← gcTool (dictEnv an (some (fstLookup cf))) t.opts 10 (inputParagraphs asciiDecode input) t.handle (fstLookupInit cf)
  return (reports (linesOf out)).map fun es => es.map fun e => e.map fun x => (x.1, x.2.1, x.2.2.2.flatten)

/-- The word "a" is reported with its correction, after the missing verb. -/
example : compileBothAndCheck hahaText listText gcArgs (ascii "Abb, a abb.\nAbb\n") = some [[some (17, 0, []), some (1, 5, lit "b")], []] := by
  decide +kernel

end Verif.GcProgram
