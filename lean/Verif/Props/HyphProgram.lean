import Verif.Props.FinnishDivision
import Verif.Props.ToolArgsCommon
import Verif.Props.VoikkoHyphenate
/-!
# The hyphenation program from the text of a dictionary to its output (C105)

C99, C100, C67, C102 and C87 together: what `voikkohyphenate` prints for its input follows from the text from which its dictionary was compiled and from its
command line.
-/

set_option linter.unusedVariables false

namespace Verif.HyphProgram
open Verif Verif.Att Verif.Args Verif.Props

/-! ### Specification -/

/-- What is printed for the character `c` of a word: the separator comes before it if the word is divided there; if the separator is a hyphen, it may replace a
character that is not written at the end of a line. -/
inductive Piece (sep c : Wc) (removable divided : Prop) : List Wc → Prop
  | whole : ¬ divided → Piece sep c removable divided [c]
  | before : divided → Piece sep c removable divided [sep, c]
  | instead : divided → sep = 0x2D → removable → Piece sep c removable divided [sep]

/-- `line` is the word `w`, divided at the places of `D`. -/
def Line (sep : Wc) (w : List Wc) (D : Nat → Prop) (line : List Wc) : Prop :=
  ∃ pieces : List (List Wc), line = pieces.flatten ∧ pieces.length = w.length ∧
    ∀ (i : Nat) (c : Wc) (x : List Wc), w[i]? = some c → pieces[i]? = some x → Piece sep c (Removable w i) (D i) x

/-- `read` gives the readings of the runs of the text. -/
def Reads (ls : List Att.Line) (runsOf : List Wc → List (List Nat)) (read : List Wc → List Nat → List SItem) : Prop :=
  ∀ v : List Wc, v.length ≤ 255 → ∀ run ∈ runsOf v, runOutput ls run = render (read v run) ∧ GoodReading v (read v run)

/-- A valid reading of the word. -/
def ValidOf (runsOf : List Wc → List (List Nat)) (read : List Wc → List Nat → List SItem) (w : List Wc) (its : List SItem) : Prop :=
  ∃ run ∈ runsOf (setCase .allLower w), its = read (setCase .allLower w) run ∧ Validity.Valid (Validity.events its)

/-- The text allows dividing the word before its character `i`: each of the valid readings of the word does, or each of those without borders if there are such. A word
without valid readings is divided by the rules if unknown words are. -/
def DividedAt (runsOf : List Wc → List (List Nat)) (read : List Wc → List Nat → List SItem) (o : HyphOpts) (w : List Wc) (i : Nat) : Prop :=
  o.minLength ≤ w.length ∧
    (((∃ its, ValidOf runsOf read w its) ∧
        ∀ its, ValidOf runsOf read w its → ((∃ x, ValidOf runsOf read w x ∧ Undivided x) → Undivided its) → Divides o its w i) ∨
      ((¬ ∃ its, ValidOf runsOf read w its) ∧ o.hyphenateUnknown = true ∧ PartPoint o.ugly (w.map lower) i))

/-- Words for which the text decides this: with at most fifteen readings, whose parts are simple; or without valid readings and simple. -/
structure Suitable (runsOf : List Wc → List (List Nat)) (read : List Wc → List Nat → List SItem) (ugly : Bool) (w : List Wc) : Prop where
  few : (runsOf (setCase .allLower w)).length ≤ 15
  known : ∀ its, ValidOf runsOf read w its → Divisible ugly its w
  unknown : (¬ ∃ its, ValidOf runsOf read w its) → SimplePart ugly w

/-! ### Lemmas -/

theorem unknown_analyses {ls : List Att.Line} {runsOf : List Wc → List (List Nat)} {an : Analyzer} (hf : FollowsText ls runsOf an)
    {read : List Wc → List Nat → List SItem} (hread : Reads ls runsOf read) {w : List Wc} (hlen : w.length ≤ 255)
    (hfew : (runsOf (setCase .allLower w)).length ≤ 15) (hun : ¬ ∃ its, ValidOf runsOf read w its) : an w = [] := by
  obtain ⟨next, hg, ha, hn⟩ := hf.outputs
  have hll : (setCase .allLower w).length = w.length := lowered_length w
  have hn := hn (setCase .allLower w) (by omega)
  have hread := hread (setCase .allLower w) (by omega)
  have hnext : next (setCase .allLower w) = ((runsOf (setCase .allLower w)).map (read (setCase .allLower w))).map render := by
    rw [hn, List.map_map]
    exact List.map_congr_left fun run h => (hread run h).1
  obtain ⟨l, e1, e2⟩ := ha w
  have htake : ((runsOf (setCase .allLower w)).map (read (setCase .allLower w))).take 99 = (runsOf (setCase .allLower w)).map (read (setCase .allLower w)) :=
    List.take_of_length_le (by rw [List.length_map]; omega)
  rw [finnishAnalyze, if_neg (by omega), hnext, ← List.map_take, htake] at e1
  obtain ⟨k1, k2, k3⟩ := analyses_of w.length _
    (fun its h => by
      obtain ⟨run, hm, rfl⟩ := List.mem_map.1 h
      refine ⟨(hread run hm).2.regulated, (hread run hm).2.length.trans hll, (hg (setCase .allLower w) _ ?_).1⟩
      rw [hnext]
      exact List.mem_map.2 ⟨_, h, rfl⟩) l e1
  rw [← e2] at k2
  match h : an w with
  | [] => rfl
  | a :: t =>
    obtain ⟨its, hm, hv, _⟩ := k2 a (by rw [h]; exact List.mem_cons_self)
    obtain ⟨run, hm', rfl⟩ := List.mem_map.1 hm
    obtain ⟨b, hb, hb'⟩ := C77_valid _ (hread run hm').2.plain
    rw [hv] at hb
    cases hb
    exact (hun ⟨_, run, hm', rfl, hb'.1 rfl⟩).elim

theorem letters_no {w : List Wc} (h : FinnishWord w) {i : Nat} {c : Wc} (hc : w[i]? = some c) : c ≠ 0x2D ∧ c ≠ 0x2E := by
  have := h c (List.mem_of_getElem? hc)
  constructor <;>
  · rintro rfl
    revert this
    decide

/-- Where a suitable word is divided. -/
theorem divided_exact {ls : List Att.Line} {runsOf : List Wc → List (List Nat)} {an : Analyzer} (hf : FollowsText ls runsOf an)
    {read : List Wc → List Nat → List SItem} (hread : Reads ls runsOf read) (o : HyphOpts) (hmin : 2 ≤ o.minLength) {w r : List Wc} (h0 : 0 ∉ w)
    (hv : ∀ c ∈ w, ValidCp c) (hlen : w.length ≤ 255) (hs : Suitable runsOf read o.ugly w) (h : hyphenateUcs4 o an w = some (some r)) (i : Nat) (hi : i < w.length) :
    r[i]? ≠ some 0x20 ↔ DividedAt runsOf read o w i := by
  have hll : (setCase .allLower w).length = w.length := lowered_length w
  by_cases hm : o.minLength ≤ w.length
  · by_cases hk : ∃ its, ValidOf runsOf read w its
    · obtain ⟨r', e1, _, e3⟩ := C100_text hf o w h0 hv hlen hm hs.few (read (setCase .allLower w)) (hread _ (by omega))
        (fun run hr hx => hs.known _ ⟨run, hr, rfl, hx⟩) (by obtain ⟨its, run, hr, rfl, hx⟩ := hk; exact ⟨run, hr, hx⟩)
      rw [h] at e1
      cases e1
      rw [e3 i hi]
      have hex : (∃ x ∈ runsOf (setCase .allLower w), Validity.Valid (Validity.events (read (setCase .allLower w) x)) ∧ Undivided (read (setCase .allLower w) x)) ↔
          ∃ x, ValidOf runsOf read w x ∧ Undivided x := by
        constructor
        · rintro ⟨x, a, b, c⟩; exact ⟨_, ⟨x, a, rfl, b⟩, c⟩
        · rintro ⟨_, ⟨x, a, rfl, b⟩, c⟩; exact ⟨x, a, b, c⟩
      rw [hex]
      constructor
      · intro hd
        refine ⟨hm, .inl ⟨hk, ?_⟩⟩
        rintro _ ⟨run, hr, rfl, hx⟩ hu
        exact hd run hr hx hu
      · rintro ⟨_, ⟨_, hd⟩ | ⟨hn, _⟩⟩
        · intro run hr hx hu
          exact hd _ ⟨run, hr, rfl, hx⟩ hu
        · exact (hn hk).elim
    · have hsp := hs.unknown hk
      have ha := unknown_analyses hf hread hlen hs.few hk
      have key : DividedAt runsOf read o w i ↔ o.hyphenateUnknown = true ∧ PartPoint o.ugly (w.map lower) i := by
        constructor
        · rintro ⟨_, ⟨hx, _⟩ | ⟨_, hd⟩⟩
          · exact (hk hx).elim
          · exact hd
        · intro hd; exact ⟨hm, .inr ⟨hk, hd⟩⟩
      rw [key]
      cases hu : o.hyphenateUnknown with
      | false =>
        simp only [Bool.false_eq_true, false_and, iff_false, ne_eq, Classical.not_not]
        refine Classical.byContradiction fun hr => ?_
        have hdot : dotCut o an w = false := by
          unfold dotCut
          have hl : w.getLast? ≠ some 0x2E := by
            intro e
            rw [List.getLast?_eq_getElem?] at e
            exact (letters_no hsp.1 e).2 rfl
          simp [hl]
        have hun : usedAnalyses o an w = [] := by
          unfold usedAnalyses
          rw [hdot, if_neg (by simp), ha]
          rfl
        have := C94_off_partial o an w r h0 hu hun (fun j hj => (letters_no hsp.1 hj.1).1 rfl) h i hi hr
        exact (letters_no hsp.1 this).1 rfl
      | true =>
        simp only [true_and]
        have one : OnePart o an w := .inl ⟨ha, hu⟩
        cases hug : o.ugly with
        | false =>
          rw [hug] at hsp
          exact C67_exact_pretty o an w r hsp.1 (by omega) hm hug one hsp.2.1 h i hi
        | true =>
          rw [hug] at hsp
          exact C67_exact_ugly o an w r hsp.1 (by omega) hm hug one hsp.2.1 (hsp.2.2 rfl) h i hi
  · have := C38_short_word o an w (by omega)
    rw [show hyphenateUcs4 o an w = _ from this] at h
    cases h
    constructor
    · intro hr
      rw [List.getElem?_replicate, if_pos hi] at hr
      exact (hr rfl).elim
    · rintro ⟨hd, _⟩; exact (hm hd).elim

/-- What is printed for a word. -/
theorem printed_line {o : HyphOpts} {an : Analyzer} {sep : Wc} (hsep : sep ≠ 0) {w r : List Wc} (h0 : 0 ∉ w) (h : hyphenateUcs4 o an w = some (some r))
    (hmark : ∀ i : Nat, r[i]? = some 0x3D → Removable w i) :
    ∃ line, hyphenateWordTool o an sep w = some (line ++ nl) ∧ ∀ D : Nat → Prop, (∀ i < w.length, (r[i]? ≠ some 0x20 ↔ D i)) → Line sep w D line := by
  obtain ⟨hl, hpc⟩ := C35_pattern o an w r h0 h
  refine ⟨_, tool_line o an sep hsep w r h0 h, fun D hD => ⟨_, rfl, by simp [hl], ?_⟩⟩
  intro i c x hc hx
  have hi : i < w.length := (List.getElem?_eq_some_iff.1 hc).1
  have hp : r[i]? = some (r[i]'(by omega)) := List.getElem?_eq_getElem _
  have hD := hD i hi
  rw [List.getElem?_zipWith, hc] at hx
  rcases hpc _ (List.getElem_mem (by omega : i < r.length)) with h' | h' | h'
  · rw [h'] at hp; rw [hp] at hx hD
    simp [printedPiece] at hx
    subst hx
    exact .whole fun k => hD.2 k rfl
  · rw [h'] at hp; rw [hp] at hx hD
    simp [printedPiece] at hx
    subst hx
    exact .before (hD.1 (by simp))
  · rw [h'] at hp
    have hR := hmark i hp
    rw [hp] at hx hD
    have hd := hD.1 (by simp)
    by_cases hs : sep = 0x2D
    · simp [printedPiece, hs] at hx
      subst hx
      rw [← hs]
      exact .instead hd hs hR
    · simp [printedPiece, hs] at hx
      subst hx
      exact .before hd

theorem separator_ok (mbtowc : Nat → Option Wc) (hmb : ∀ c, c ≠ 0 → mbtowc c ≠ some 0) (items : List Item) (hn : ∀ w, .word w ∈ items → 0 ∉ w) :
    (lastOf (hyphSeparatorOf mbtowc) items).getD 0x2D ≠ 0 := by
  cases h : lastOf (hyphSeparatorOf mbtowc) items with
  | none => simp
  | some x =>
    obtain ⟨it, hm, hx⟩ := List.mem_filterMap.1 (List.mem_of_getLast? h)
    cases it with
    | valued k v => cases hx
    | word w =>
      obtain ⟨c, y, e, hy, e'⟩ : ∃ c y, w = [0x2D, 0x73, c] ∧ mbtowc c = some y ∧ y = x := by
        unfold hyphSeparatorOf at hx
        split at hx
        · rename_i c heq
          cases heq
          exact ⟨c, x, rfl, hx, rfl⟩
        · cases hx
      subst e e'
      have := hn _ hm
      rintro rfl
      exact hmb c (by rintro rfl; exact this (by simp)) hy

/-- The readings exist. -/
theorem reads_exist {ls : List Att.Line} (hf : FinnishText ls) {runsOf : List Wc → List (List Nat)}
    (hr : ∀ v : List Wc, v.length ≤ 255 → AllRuns ls v (runsOf v)) : ∃ read, Reads ls runsOf read := by
  have : ∀ (v : List Wc) (run : List Nat), ∃ its, v.length ≤ 255 → run ∈ runsOf v → runOutput ls run = render its ∧ GoodReading v its := by
    intro v run
    by_cases h : v.length ≤ 255 ∧ run ∈ runsOf v
    · obtain ⟨its, h'⟩ := hf.readings v run h.1 (((hr v h.1).mem run).1 h.2)
      exact ⟨its, fun _ _ => h'⟩
    · exact ⟨[], fun a b => (h ⟨a, b⟩).elim⟩
  exact ⟨fun v run => Classical.choose (this v run), fun v hv run hm => Classical.choose_spec (this v run) hv hm⟩

/-! ### C105 -/

/-- **C105**: the text of a dictionary compiles to a file that loads. `voikkohyphenate`, started with this dictionary and any command line of known options, runs; it
prints one line for every word of its input, in order; the line is the word, with separators at some places; and for the words whose parts are simple these are exactly the
places that the text allows, under the options of the command line. -/
theorem C105_program {text : List Nat} {ls : List Att.Line} (hd : Att.Describes text ls) (hp : Proper ls) (hf : FinnishText ls)
    {srtS : List (Nat × List Nat) → List (Nat × List Nat)} {srtT : List CTrans → List CTrans}
    (hS : SortsBy (fun a b => attSymLt a.2 b.2) srtS) (hT : SortsBy fileOrderLt srtT) (sw : Bool) :
    ∃ file f, attCompile srtS srtT sw text = some (some file) ∧ loadFile file = some (some f) ∧
      ∃ (runsOf : List Wc → List (List Nat)) (an : Analyzer), (∀ v : List Wc, v.length ≤ 255 → AllRuns ls v (runsOf v)) ∧
        (∀ c, AnalysedBefore f (fun _ => True) c → ∀ w, ∃ l c', finnishAnalyzeFst f c w false = some (l, c') ∧ an w = l.map asMorAn) ∧
        (∃ read, Reads ls runsOf read) ∧ ∀ read, Reads ls runsOf read →
        ∀ {G : Type} (init : Arg → Option Arg → Option (Handle G)) (mbtowc : Nat → Option Wc) (hmb : ∀ c, c ≠ 0 → mbtowc c ≠ some 0)
          (args : List Arg) (items : List Item) (rest : Option Arg) (h : Args.Reads commonKeys args items rest)
          (hstop : ∀ x ∈ items, stopOf (α := HyphTool G) x = none)
          (hk : ∀ w, .word w ∈ items → 0 ∉ w ∧ HyphKnown mbtowc w ∧ minLengthOf (.word w) ≠ some none)
          (hinit : ∃ h0, initHandle G = some h0 ∧ init ((lastOf (valueOf "-d") items).getD (lit "fi")) (lastOf (valueOf "-p") items) = some h0)
          (decode : List Nat → Option (List Wc)) (hdec : ∀ b w, decode b = some w → 0 ∉ w ∧ ∀ c ∈ w, ValidCp c) (input : List Nat),
          ∃ t, hyphToolArgs init mbtowc args = some (.run t) ∧
            ∃ lines : List (List Wc), hyphenateTool t.handle.hyph an t.separator (inputWords decode input) = some ((lines.map (· ++ nl)).flatten) ∧
              lines.length = (inputWords decode input).length ∧
              ∀ (i : Nat) (w line : List Wc), (inputWords decode input)[i]? = some w → lines[i]? = some line →
                (∃ D, Line ((lastOf (hyphSeparatorOf mbtowc) items).getD 0x2D) w D line) ∧
                (Suitable runsOf read (hyphHandleAfter ({} : Handle G) items).hyph.ugly w →
                  Line ((lastOf (hyphSeparatorOf mbtowc) items).getD 0x2D) w (DividedAt runsOf read (hyphHandleAfter ({} : Handle G) items).hyph w) line) := by
  obtain ⟨file, f, h1, h2, runsOf, an, h3, h4, h5⟩ := C99_dictionary hd hp hf hS hT sw
  refine ⟨file, f, h1, h2, runsOf, an, h3, h4, reads_exist hf h3, ?_⟩
  intro read hread G init mbtowc hmb args items rest h hstop hk hinit decode hdec input
  obtain ⟨h0, e0, hi⟩ := hinit
  have ht := ((C102_hyph init mbtowc args items rest h hstop).2 h0 hi).1 fun w hw => (hk w hw).2
  refine ⟨_, ht, ?_⟩
  obtain ⟨c0, hc0⟩ : ∃ c0, newCache 0 = some c0 := by
    obtain ⟨c0, e, _⟩ := newCache_ok (fun _ => .ok) 0 (by omega)
    exact ⟨c0, e⟩
  have eh : h0 = { spellerCache := some c0 } := by
    unfold initHandle at e0
    rw [hc0] at e0
    exact (Option.some.inj e0).symm
  have eo : (hyphHandleAfter h0 items).hyph = (hyphHandleAfter ({} : Handle G) items).hyph := by rw [eh]; rfl
  have hmin : 2 ≤ (hyphHandleAfter ({} : Handle G) items).hyph.minLength := by
    unfold hyphHandleAfter
    simp only
    split
    · omega
    · decide
  have hsep := separator_ok mbtowc hmb items fun w hw => (hk w hw).1
  simp only [eo]
  generalize (hyphHandleAfter ({} : Handle G) items).hyph = o at *
  generalize (lastOf (hyphSeparatorOf mbtowc) items).getD 0x2D = sep at *
  have hwords : ∀ w ∈ inputWords decode input, (0 ∉ w ∧ ∀ c ∈ w, ValidCp c) ∧ w.length ≤ 255 := by
    intro w hw
    obtain ⟨l, _, hl⟩ := List.mem_filterMap.1 hw
    split at hl
    · cases hl
    · split at hl
      · rename_i w' hdw
        split at hl
        · cases hl
        · cases hl
          exact ⟨hdec _ _ hdw, by omega⟩
      · cases hl
  generalize inputWords decode input = words at *
  have one : ∀ w ∈ words, ∃ line, hyphenateWordTool o an sep w = some (line ++ nl) ∧ (∃ D, Line sep w D line) ∧
      (Suitable runsOf read o.ugly w → Line sep w (DividedAt runsOf read o w) line) := by
    intro w hw
    obtain ⟨⟨w0, wv⟩, wl⟩ := hwords w hw
    obtain ⟨r, r1, r2, r3, r4⟩ := h5.hyphenation o w w0 wv
    obtain ⟨line, l1, l2⟩ := printed_line hsep w0 r1 r4
    refine ⟨line, l1, ⟨fun i => r[i]? ≠ some 0x20, l2 _ fun i _ => Iff.rfl⟩, fun hs => l2 _ fun i hi => ?_⟩
    exact divided_exact h5 hread o hmin w0 wv wl hs r1 i hi
  clear hwords
  induction words with
  | nil => exact ⟨[], rfl, rfl, by simp⟩
  | cons w words ih =>
    obtain ⟨lines, g1, g2, g3⟩ := ih fun x hx => one x (List.mem_cons_of_mem _ hx)
    obtain ⟨line, k1, k2⟩ := one w List.mem_cons_self
    refine ⟨line :: lines, ?_, by simp [g2], ?_⟩
    · rw [hyphenateTool, k1, g1]
      rfl
    · intro i w' line' hw hl
      cases i with
      | zero =>
        simp at hw hl
        subst hw hl
        exact k2
      | succ i => exact g3 i w' line' (by simpa using hw) (by simpa using hl)

/-! ### A dictionary and a command line to which this applies -/

/-- With another separator than the hyphen the line is determined by the places. -/
theorem line_exact {sep : Wc} (hs : sep ≠ 0x2D) {w line : List Wc} {D : Nat → Prop} (h : Line sep w D line) (f : Nat → Bool) (hf : ∀ i < w.length, (D i ↔ f i = true)) :
    line = (w.mapIdx fun i c => if f i then [sep, c] else [c]).flatten := by
  obtain ⟨pieces, rfl, h1, h2⟩ := h
  congr 1
  refine List.ext_getElem (by simp [h1]) fun i hi hi' => ?_
  have hiw : i < w.length := by omega
  have := h2 i _ _ (List.getElem?_eq_getElem hiw) (List.getElem?_eq_getElem hi)
  rw [List.getElem_mapIdx]
  generalize pieces[i] = x at *
  cases this with
  | whole hd => rw [if_neg fun k => hd ((hf i hiw).2 k)]
  | before hd => rw [if_pos ((hf i hiw).1 hd)]
  | instead _ e _ => exact (hs e).elim

/-- `-s+ no_ugly_hyphenation=1` -/
def plusItems : List Item := [.word (lit "-s+"), .word (lit "no_ugly_hyphenation=1")]
def plusArgs : List Arg := [lit "-s+", lit "no_ugly_hyphenation=1"]

/-- The decoder of a locale that has only ASCII. -/
def asciiDecode (b : List Nat) : Option (List Wc) := if b.all (fun c => decide (0 < c ∧ c < 128)) then some b else none

theorem haha_valid : Validity.Valid (Validity.events (hahaReading (97 :: List.replicate 1 98))) := by
  obtain ⟨b, hb, hv⟩ := C77_valid _ (haha_good (m := 1)).plain
  rw [show isValidAnalysis (render (hahaReading (97 :: List.replicate 1 98))) = some true by decide +kernel] at hb
  cases hb
  exact hv.1 rfl

theorem haha_one {runsOf : List Wc → List (List Nat)} (hr : ∀ v : List Wc, v.length ≤ 255 → AllRuns hahaLines v (runsOf v)) (v : List Wc) (hv : v.length ≤ 255) :
    (runsOf v).length ≤ 1 := by
  match h : runsOf v, hr v hv with
  | [], _ => simp
  | [_], _ => simp
  | r :: r' :: t, ha =>
    have a := graph_unique haha_graph ((ha.mem r).1 (by simp)) ((ha.mem r').1 (by simp))
    have b := ha.nodup
    simp [a] at b

theorem no_group {x : List Wc} (h : ∀ k < x.length, ∀ g ∈ wholeGroups, ¬ g <+: x.drop k) (k : Nat) : ¬ GroupAt x k := by
  rintro ⟨g, hg, hp⟩
  by_cases hk : k < x.length
  · exact h k hk g hg hp
  · rw [List.drop_eq_nil_of_le (by omega), List.prefix_nil] at hp
    subst hp
    revert hg
    decide

theorem haha_undivided (w : List Wc) : Undivided (hahaReading w) := by
  have none' : ∀ (w : List Wc) (k j : Nat), ¬ BorderFrom k (w.map SItem.chr ++ []) j := by
    intro w
    induction w with
    | nil => intro k j h; exact h
    | cons c w ih => intro k j h; exact ih (k + 1) j h
  have nob : ∀ j, 0 < j → ¬ Verif.Border (hahaReading w) j := by
    rintro j hj (⟨h, _⟩ | h)
    · omega
    · exact none' w 0 j h
  rintro i ⟨hi, ⟨h, _⟩ | ⟨_, h⟩⟩
  · exact nob i hi h
  · exact nob (i + 1) (by omega) h

/-- Non-vacuity: the dictionary knows the words `a`, `ab`, `abb`, ...; `kala` is divided by the rules. -/
example (sw : Bool) (h0 : Handle Nat) (hh : initHandle Nat = some h0) : ∃ (an : Analyzer) (t : HyphTool Nat),
    hyphToolArgs (fun _ _ => some h0) some plusArgs = some (.run t) ∧
    hyphenateTool t.handle.hyph an t.separator (inputWords asciiDecode (ascii "kala\nab\n")) = some (lit "ka+la\nab\n") := by
  obtain ⟨file, f, _, _, runsOf, an, hr, _, _, main⟩ := C105_program haha_describes haha_proper haha_finnish sortSymbols_sorts sortTransitions_sorts sw
  have hread : Reads hahaLines runsOf fun v _ => hahaReading v := by
    intro v hv run hm
    obtain ⟨m, rfl, rfl⟩ := haha_runs (((hr v hv).mem run).1 hm)
    exact ⟨haha_output m, haha_good⟩
  obtain ⟨t, ht, lines, l1, l2, l3⟩ := main _ hread (fun _ _ => some h0) some (by rintro c hc e; cases e; exact hc rfl) plusArgs plusItems none
    ⟨rfl, by simp [plusItems], by simp only [plusItems, List.mem_cons, List.not_mem_nil, or_false, Item.word.injEq]; rintro w (rfl | rfl) <;> decide +kernel, by simp⟩
    (by
      intro x hx
      simp only [plusItems, List.mem_cons, List.not_mem_nil, or_false] at hx
      rcases hx with rfl | rfl <;> rfl)
    (by
      intro w hm
      simp only [plusItems, List.mem_cons, List.not_mem_nil, or_false, Item.word.injEq] at hm
      rcases hm with rfl | rfl
      · exact ⟨by decide, .inr (.inr (by decide +kernel)), by decide +kernel⟩
      · exact ⟨by decide, .inl (by decide +kernel), by decide +kernel⟩)
    ⟨h0, hh, rfl⟩ asciiDecode
    (by
      intro b w h
      unfold asciiDecode at h
      split at h
      · rename_i hb
        cases h
        simp only [List.all_eq_true, decide_eq_true_eq] at hb
        refine ⟨fun k => by have := hb _ k; omega, fun c hc => ?_⟩
        have := hb c hc
        unfold ValidCp
        omega
      · cases h)
    (ascii "kala\nab\n")
  refine ⟨an, t, ht, ?_⟩
  have hw : inputWords asciiDecode (ascii "kala\nab\n") = [lit "kala", lit "ab"] := by decide +kernel
  rw [l1]
  rw [hw] at l2 l3
  have ho : (hyphHandleAfter ({} : Handle Nat) plusItems).hyph = { ugly := false } := by decide +kernel
  have hse : (lastOf (hyphSeparatorOf some) plusItems).getD 0x2D = 0x2B := by decide +kernel
  rw [ho, hse] at l3
  have low1 : setCase .allLower (lit "kala") = lit "kala" := by decide +kernel
  have low2 : setCase .allLower (lit "ab") = lit "ab" := by decide +kernel
  have un : ¬ ∃ its, ValidOf runsOf (fun v _ => hahaReading v) (lit "kala") its := by
    rintro ⟨_, run, hm, rfl, _⟩
    rw [low1] at hm
    obtain ⟨m, h, _⟩ := haha_runs (((hr (lit "kala") (by decide)).mem run).1 hm)
    cases h
  have kn : ∀ its, ValidOf runsOf (fun v _ => hahaReading v) (lit "ab") its ↔ its = hahaReading (lit "ab") := by
    intro its
    constructor
    · rintro ⟨_, _, rfl, _⟩; rw [low2]
    · rintro rfl
      refine ⟨[0, 1, 2], ?_, by rw [low2], haha_valid⟩
      rw [low2]
      exact ((hr (lit "ab") (by decide)).mem _).2 haha_run
  match lines, l2, l3 with
  | [x, y], _, l3 =>
    have g1 := (l3 0 _ _ rfl rfl).2 ⟨by have := haha_one hr (setCase .allLower (lit "kala")) (by decide +kernel); omega, fun its h => (un ⟨its, h⟩).elim, fun _ =>
      ⟨by unfold FinnishWord; decide +kernel, no_group (by decide +kernel), by simp⟩⟩
    have g2 := (l3 1 _ _ rfl rfl).2 ⟨by have := haha_one hr (setCase .allLower (lit "ab")) (by decide +kernel); omega, fun its h => by
      rw [(kn its).1 h]
      refine ⟨by decide, fun i hi => ?_, by decide +kernel, fun s e hs hse => ?_⟩
      · match i, hi with
        | 0, hi => cases hi
        | 1, hi => cases hi
        | i + 2, hi => cases hi
      · have h2 : e ≤ 2 := hs.le
        obtain rfl : s = 0 := by omega
        obtain rfl : e = 2 := by omega
        exact ⟨by unfold FinnishWord; decide +kernel, no_group (by decide +kernel), by simp⟩, fun h => (h ⟨_, (kn _).2 rfl⟩).elim⟩
    have e1 := line_exact (by decide) g1 (fun i => i == 2) (by
      intro i hi
      constructor
      · rintro ⟨_, ⟨hx, _⟩ | ⟨_, _, h2, ⟨⟨c, hc, hc'⟩, _⟩, _⟩⟩
        · exact (un hx).elim
        · match i, hi, h2, hc with
          | 2, _, _, _ => rfl
          | 3, _, _, hc =>
            rw [show ((lit "kala").map lower)[3]? = some 0x61 by decide +kernel] at hc
            cases hc
            revert hc'
            decide
      · intro h
        obtain rfl : i = 2 := by simpa using h
        exact ⟨by decide, .inr ⟨un, rfl, by omega, ⟨⟨0x6C, by decide +kernel, by decide⟩, 0x61, by decide +kernel, by decide⟩, 1, by omega, 0x61, by decide +kernel, by decide⟩⟩)
    have e2 := line_exact (by decide) g2 (fun i => false) (by
      intro i hi
      simp only [Bool.false_eq_true, iff_false]
      rintro ⟨_, ⟨_, h⟩ | ⟨hx, _⟩⟩
      · rcases h _ ((kn _).2 rfl) fun _ => haha_undivided _ with h | ⟨s, e, hs, h1, h2, _, h3, _⟩
        · exact haha_undivided _ i h
        · have : i < 2 := hi
          omega
      · exact hx ⟨_, (kn _).2 rfl⟩)
    rw [e1, e2]
    decide +kernel

end Verif.HyphProgram
