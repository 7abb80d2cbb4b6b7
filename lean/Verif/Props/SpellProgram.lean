import Verif.Props.FinnishText
import Verif.Props.ToolArgs
import Verif.Props.SpellOutput
/-!
# The spelling program from the text of a dictionary to its output (C104)

C99, C101, C86 and C88 together: what `voikkospell` prints for a list of words follows from the text from which its dictionary was compiled and from its command line.
-/

set_option linter.unusedVariables false

namespace Verif.SpellProgram
open Verif Verif.Att Verif.Args Verif.Props Verif.Threads Verif.SpellOutput

/-- The library as `voikkospell` uses it: the state of a thread is its handle (`voikkospell.cpp:63-68`, `struct speller_t`). The suggestions and the analyses do not change it. -/
def handleApi {G : Type} (dict : Bool → List Wc → SpellRes) (suggest : List Wc → UB (Option (List (List Wc))))
    (analyze : List Wc → UB (List (List (List Wc × List Wc)))) : ToolApi (Handle G) where
  spell h w := do
    let (h', r) ← h.spellWord dict w
    return (r, h')
  suggest := suggest
  analyze := analyze

/-- A word of the characters that can be typed, without hyphens inside of it and without soft hyphens. -/
structure PlainWord (w : List Wc) : Prop where
  ok : WordOk w
  hyphen : InnerFree (normSpec w)
  soft : 0xAD ∉ normSpec w

/-- The text of the dictionary gives the word with the options `o`, or they accept it as it is. -/
def CorrectIn (ls : List Line) (runsOf : List Wc → List (List Nat)) (o : SpellOpts) (w : List Wc) : Prop :=
  AcceptedText ls runsOf o w (normSpec w)

/-- A handle of the program: its options are those given, and its cache agrees with the dictionary. -/
def Mine {G : Type} (dict : Bool → List Wc → SpellRes) (o : SpellOpts) (extra : Bool) (h : Handle G) : Prop :=
  h.spell = o ∧ h.acceptExtraHyphens = extra ∧ CacheInv (effDict (dict extra) o.acceptMissingHyphens) h.spellerCache

/-- The words of the kind `W` are accepted exactly if they are correct in the sense `C`, with any options and whatever was spelled before. -/
structure Judges (dict : Bool → List Wc → SpellRes) (W : List Wc → Prop) (C : Bool → SpellOpts → List Wc → Prop) : Prop where
  ok : ∀ w, W w → WordOk w
  verdict : ∀ (extra : Bool) (o : SpellOpts) (cache : Option SpellerCache), CacheInv (effDict (dict extra) o.acceptMissingHyphens) cache → ∀ w, W w →
    ∃ r cache', spellUcs4 (dict extra) o cache w = some (r, cache') ∧ (r = .ok ∨ r = .failed) ∧ (r = .ok ↔ C extra o w)

open Classical in
theorem handle_answers {G : Type} {dict : Bool → List Wc → SpellRes} {W : List Wc → Prop} {C : Bool → SpellOpts → List Wc → Prop} (hf : Judges dict W C) (o : SpellOpts)
    (extra : Bool)
    (suggest : List Wc → UB (Option (List (List Wc)))) (analyze : List Wc → UB (List (List (List Wc × List Wc)))) (words : List (List Wc))
    (hw : ∀ w ∈ words, W w) (sugg : List Wc → List (List Wc)) (hs : ∀ w ∈ words, ∃ l, suggest w = some l ∧ l.getD [] = sugg w)
    (ana : List Wc → List (List (List Wc × List Wc))) (ha : ∀ w ∈ words, analyze w = some (ana w)) :
    Answers (handleApi (G := G) dict suggest analyze) (Mine dict o extra) (fun w => decide (C extra o w)) sugg ana words := by
  refine ⟨?_, hs, ha⟩
  rintro h w ⟨rfl, rfl, hc⟩ hm
  have p := hw w hm
  obtain ⟨r, c, e1, e2, hr⟩ := hf.verdict h.acceptExtraHyphens h.spell h.spellerCache hc w p
  obtain ⟨c', g1, g2, _⟩ := spellUcs4_eq (dict h.acceptExtraHyphens) h.spell h.spellerCache hc w (hf.ok w p)
  rw [e1] at g1
  have hcc : c = c' := (Prod.mk.inj (Option.some.inj g1)).2
  rw [← hcc] at g2
  refine ⟨{ h with spellerCache := c }, ?_, rfl, rfl, g2⟩
  show (do let (h', r) ← h.spellWord dict w; return (r, h') : UB _) = _
  unfold Handle.spellWord
  rw [e1]
  by_cases hcor : C h.acceptExtraHyphens h.spell w
  · rw [hr.2 hcor]
    simp only [hcor, decide_true, if_true]
    rfl
  · have : r = .failed := e2.resolve_left fun x => hcor (hr.1 x)
    rw [this]
    simp only [hcor, decide_false, Bool.false_eq_true, if_false]
    rfl

open Classical in
/-- What the program prints, for a speller that accepts the correct words. -/
theorem program_judged {dict : Bool → List Wc → SpellRes} {W : List Wc → Prop} {C : Bool → SpellOpts → List Wc → Prop} (h5 : Judges dict W C) :
        ∀ {G : Type} (init : Arg → Option Arg → Option (Handle G)) (args : List Arg) (items : List Item) (rest : Option Arg) (h : Reads spellKeys args items rest)
          (hr : rest ≠ some (lit "-j")) (hitems : ∀ x ∈ items, NumbersOk x ∧ stopOf (α := SpellTool G) x = none)
          (hl : .word (lit "-l") ∉ items) (hL : .word (lit "-L") ∉ items) (hk : ∀ w, .word w ∈ items → SpellKnown w) (hc : wantedCache items ≤ 18)
          (hinit : ∃ h0, initHandle G = some h0 ∧ init ((lastOf (valueOf "-d") items).getD (lit "fi")) (lastOf (valueOf "-p") items) = some h0)
          (hx : ¬ ∃ w, .word w ∈ items ∧ lit "-x" <+: w)
          (words : List (List Wc)) (hw : ∀ w ∈ words, W w) (hb : (wantedThreads items).toNat ≤ blockCount words ∨ words = [])
          (suggest : List Wc → UB (Option (List (List Wc)))) (analyze : List Wc → UB (List (List (List Wc × List Wc))))
          (sugg : List Wc → List (List Wc)) (hs : ∀ w ∈ words, ∃ l, suggest w = some l ∧ l.getD [] = sugg w)
          (ana : List Wc → List (List (List Wc × List Wc))) (ha : ∀ w ∈ words, analyze w = some (ana w)) (hsl : SingleLines sugg ana words),
          ∃ t, spellToolArgs init args = some (.run t) ∧
            ∀ (n : Nat) (tool : Tool (Handle G)), ToolRun (checkWord (handleApi dict suggest analyze) t.opts) n (startTool t.handles words) tool →
              ¬ CanStep (checkWord (handleApi dict suggest analyze) t.opts) tool →
              (lastOf modeOf items = some .onlyIncorrect → .word (lit "-s") ∉ items → .word (lit "-m") ∉ items → .word (lit "-M") ∉ items →
                tool.pc = .terminated ∧ linesOf tool.out = words.filter fun w => decide (¬ C (handleAfter {} items : Handle G).acceptExtraHyphens (handleAfter {} items : Handle G).spell w)) ∧
              (lastOf modeOf items = some .onlyCW → .word (lit "-s") ∉ items → .word (lit "-m") ∉ items → .word (lit "-M") ∉ items →
                tool.pc = .terminated ∧ linesOf tool.out = words.map fun w => if C (handleAfter {} items : Handle G).acceptExtraHyphens (handleAfter {} items : Handle G).spell w then [0x43] else [0x57]) ∧
              (lastOf modeOf items = none →
                tool.pc = .terminated ∧ entries tool.out = words.map fun w =>
                  { word := w, correct := decide (C (handleAfter {} items : Handle G).acceptExtraHyphens (handleAfter {} items : Handle G).spell w),
                    attributes := if (.word (lit "-m") ∈ items ∨ .word (lit "-M") ∈ items) ∧ C (handleAfter {} items : Handle G).acceptExtraHyphens (handleAfter {} items : Handle G).spell w then
                      (numbered 1 (ana w)).map some else [],
                    suggestions := if .word (lit "-s") ∈ items ∧ ¬ C (handleAfter {} items : Handle G).acceptExtraHyphens (handleAfter {} items : Handle G).spell w then sugg w else [] }) := by
  intro G init args items rest h hr hitems hl hL hk hc hinit hx words hw hb suggest analyze sugg hs ana ha hsl
  obtain ⟨h0, e0, hi⟩ := hinit
  obtain ⟨t, c, ht, hm, _, _, hinv⟩ := (((C101_outcome init args items rest h hr hitems).2.2 hl hL).2 h0 hi hc).2 hk
  refine ⟨t, ht, ?_⟩
  obtain ⟨c0, hc0⟩ : ∃ c0, newCache 0 = some c0 := by
    obtain ⟨c0, e, _⟩ := newCache_ok (fun _ => .ok) 0 (by omega)
    exact ⟨c0, e⟩
  have eh : h0 = { spellerCache := some c0 } := by
    unfold initHandle at e0
    rw [hc0] at e0
    exact (Option.some.inj e0).symm
  have hthreads := (C101_threads items hitems).1
  have hlen : 0 < t.handles.length := by rw [hm.handles, List.length_replicate]; omega
  generalize hO : (handleAfter { h0 with spellerCache := c } items).spell = o
  generalize hE : (handleAfter { h0 with spellerCache := c } items).acceptExtraHyphens = extra
  have hO' : (handleAfter ({} : Handle G) items).spell = o := by rw [← hO, eh]; rfl
  have hE' : (handleAfter ({} : Handle G) items).acceptExtraHyphens = extra := by rw [← hE, eh]; rfl
  rw [hO', hE']
  have hP : ∀ x ∈ t.handles, Mine dict o extra x := by
    intro x hx
    rw [hm.handles] at hx
    have := List.eq_of_mem_replicate hx
    subst this
    refine ⟨hO, hE, ?_⟩
    show CacheInv (effDict (dict extra) o.acceptMissingHyphens) c
    apply hinv
    rw [eh]
    obtain ⟨c1, e1, _, hok⟩ := newCache_ok (effDict (dict extra) o.acceptMissingHyphens) 0 (by omega)
    rw [hc0] at e1
    cases e1
    exact hok
  have hans := handle_answers (G := G) h5 o extra suggest analyze words hw sugg hs ana ha
  have hone : t.opts.oneLine = false := by
    cases e : t.opts.oneLine with
    | false => rfl
    | true => exact (hx (hm.oneLine.1 e)).elim
  have hb' : t.handles.length ≤ blockCount words ∨ words = [] := by rw [hm.handles, List.length_replicate]; exact hb
  have quiet : .word (lit "-s") ∉ items → .word (lit "-m") ∉ items → .word (lit "-M") ∉ items → t.opts.suggest = false ∧ t.opts.morphology = false := by
    intro a b d
    constructor
    · cases e : t.opts.suggest with
      | false => rfl
      | true => exact (a (hm.suggest.1 e)).elim
    · cases e : t.opts.morphology with
      | false => rfl
      | true => exact ((hm.morphology.1 e).elim b d).elim
  have hp0 := hP _ (List.getElem_mem hlen)
  intro n tool hrun hend
  have fin : t.opts.mode ≠ .none → tool.pc = .terminated ∧ runSingle (checkWord (handleApi dict suggest analyze) t.opts) t.handles[0] words = some tool.out :=
    fun hmode => C86_all_executions_partial hlen hP (usual_steady hans t.opts hmode hone) hb' hrun hend _ hp0
  refine ⟨fun hmode a b d => ?_, fun hmode a b d => ?_, fun hmode => ?_⟩
  · have em : t.opts.mode = .onlyIncorrect := by rw [hm.mode, hmode]; rfl
    obtain ⟨q1, q2⟩ := fin (by rw [em]; decide)
    obtain ⟨out, r1, r2⟩ := C88_only_incorrect hans hsl t.opts em hone (quiet a b d).1 (quiet a b d).2 _ hp0
    rw [r1] at q2
    cases q2
    refine ⟨q1, ?_⟩
    rw [r2]
    congr 1
    funext w
    by_cases hcor : C extra o w <;> simp [hcor]
  · have em : t.opts.mode = .onlyCW := by rw [hm.mode, hmode]; rfl
    obtain ⟨q1, q2⟩ := fin (by rw [em]; decide)
    obtain ⟨out, r1, r2⟩ := C88_only_letters hans hsl t.opts em hone (quiet a b d).1 (quiet a b d).2 _ hp0
    rw [r1] at q2
    cases q2
    refine ⟨q1, ?_⟩
    rw [r2]
    congr 1
    funext w
    by_cases hcor : C extra o w <;> simp [hcor]
  · have em : t.opts.mode = .normal := by rw [hm.mode, hmode]; rfl
    obtain ⟨q1, q2⟩ := fin (by rw [em]; decide)
    obtain ⟨out, r1, r2⟩ := C88_readback hans hsl t.opts em hone _ hp0
    rw [r1] at q2
    cases q2
    refine ⟨q1, ?_⟩
    rw [r2]
    refine List.map_congr_left fun w _ => ?_
    simp only [entryOf, decide_eq_true_eq, hm.morphology, hm.suggest]

open Classical in
/-- What the program prints, for a speller that follows the text. -/
theorem program_output {ls : List Line} {runsOf : List Wc → List (List Nat)} {an : Analyzer} (h5 : FollowsText ls runsOf an)
    {dict : Bool → List Wc → SpellRes} (hdict : ∀ extra w, 0 ∉ w → finnishSpell extra an w = some (dict extra w)) :
        ∀ {G : Type} (init : Arg → Option Arg → Option (Handle G)) (args : List Arg) (items : List Item) (rest : Option Arg) (h : Reads spellKeys args items rest)
          (hr : rest ≠ some (lit "-j")) (hitems : ∀ x ∈ items, NumbersOk x ∧ stopOf (α := SpellTool G) x = none)
          (hl : .word (lit "-l") ∉ items) (hL : .word (lit "-L") ∉ items) (hk : ∀ w, .word w ∈ items → SpellKnown w) (hc : wantedCache items ≤ 18)
          (hinit : ∃ h0, initHandle G = some h0 ∧ init ((lastOf (valueOf "-d") items).getD (lit "fi")) (lastOf (valueOf "-p") items) = some h0)
          (hx : ¬ ∃ w, .word w ∈ items ∧ lit "-x" <+: w)
          (words : List (List Wc)) (hw : ∀ w ∈ words, PlainWord w) (hb : (wantedThreads items).toNat ≤ blockCount words ∨ words = [])
          (suggest : List Wc → UB (Option (List (List Wc)))) (analyze : List Wc → UB (List (List (List Wc × List Wc))))
          (sugg : List Wc → List (List Wc)) (hs : ∀ w ∈ words, ∃ l, suggest w = some l ∧ l.getD [] = sugg w)
          (ana : List Wc → List (List (List Wc × List Wc))) (ha : ∀ w ∈ words, analyze w = some (ana w)) (hsl : SingleLines sugg ana words),
          ∃ t, spellToolArgs init args = some (.run t) ∧
            ∀ (n : Nat) (tool : Tool (Handle G)), ToolRun (checkWord (handleApi dict suggest analyze) t.opts) n (startTool t.handles words) tool →
              ¬ CanStep (checkWord (handleApi dict suggest analyze) t.opts) tool →
              (lastOf modeOf items = some .onlyIncorrect → .word (lit "-s") ∉ items → .word (lit "-m") ∉ items → .word (lit "-M") ∉ items →
                tool.pc = .terminated ∧ linesOf tool.out = words.filter fun w => decide (¬ CorrectIn ls runsOf (handleAfter {} items : Handle G).spell w)) ∧
              (lastOf modeOf items = some .onlyCW → .word (lit "-s") ∉ items → .word (lit "-m") ∉ items → .word (lit "-M") ∉ items →
                tool.pc = .terminated ∧ linesOf tool.out = words.map fun w => if CorrectIn ls runsOf (handleAfter {} items : Handle G).spell w then [0x43] else [0x57]) ∧
              (lastOf modeOf items = none →
                tool.pc = .terminated ∧ entries tool.out = words.map fun w =>
                  { word := w, correct := decide (CorrectIn ls runsOf (handleAfter {} items : Handle G).spell w),
                    attributes := if (.word (lit "-m") ∈ items ∨ .word (lit "-M") ∈ items) ∧ CorrectIn ls runsOf (handleAfter {} items : Handle G).spell w then
                      (numbered 1 (ana w)).map some else [],
                    suggestions := if .word (lit "-s") ∈ items ∧ ¬ CorrectIn ls runsOf (handleAfter {} items : Handle G).spell w then sugg w else [] }) :=
  program_judged (C := fun _ => CorrectIn ls runsOf) ⟨fun _ h => h.ok, fun extra o cache hc w p => C99_accepted h5 extra (dict extra) (hdict extra) o cache hc w p.ok p.hyphen p.soft⟩

open Classical in
/-- **C104**: the text of a dictionary compiles to a file that loads. `voikkospell`, started with this dictionary and any command line of known options without `-l` and `-L`,
runs; every execution with words without hyphens inside of them ends, however the threads are scheduled; with `-tt` it prints exactly the words that the text does not
give and that the options do not accept as they are, and in the usual mode what it prints says about each word, in order, whether it is correct in this sense, with the analyses of the correct words if they are asked for and the
suggestions for the others. Missing for the full claim: fewer blocks of words than threads
(`C86_violation_few_words`) and cache sizes over 18 (`C101_cache_undefined`); words with hyphens inside of them are in C110. -/
theorem C104_program_partial {text : List Nat} {ls : List Line} (hd : Att.Describes text ls) (hp : Proper ls) (hf : FinnishText ls)
    {srtS : List (Nat × List Nat) → List (Nat × List Nat)} {srtT : List CTrans → List CTrans}
    (hS : SortsBy (fun a b => attSymLt a.2 b.2) srtS) (hT : SortsBy fileOrderLt srtT) (sw : Bool) :
    ∃ file f, attCompile srtS srtT sw text = some (some file) ∧ loadFile file = some (some f) ∧
      ∃ (runsOf : List Wc → List (List Nat)) (an : Analyzer) (dict : Bool → List Wc → SpellRes), (∀ v : List Wc, v.length ≤ 255 → AllRuns ls v (runsOf v)) ∧
        (∀ c, AnalysedBefore f (fun _ => True) c → ∀ w, ∃ l c', finnishAnalyzeFst f c w false = some (l, c') ∧ an w = l.map asMorAn) ∧
        (∀ extra w, 0 ∉ w → finnishSpell extra an w = some (dict extra w)) ∧
        ∀ {G : Type} (init : Arg → Option Arg → Option (Handle G)) (args : List Arg) (items : List Item) (rest : Option Arg) (h : Reads spellKeys args items rest)
          (hr : rest ≠ some (lit "-j")) (hitems : ∀ x ∈ items, NumbersOk x ∧ stopOf (α := SpellTool G) x = none)
          (hl : .word (lit "-l") ∉ items) (hL : .word (lit "-L") ∉ items) (hk : ∀ w, .word w ∈ items → SpellKnown w) (hc : wantedCache items ≤ 18)
          (hinit : ∃ h0, initHandle G = some h0 ∧ init ((lastOf (valueOf "-d") items).getD (lit "fi")) (lastOf (valueOf "-p") items) = some h0)
          (hx : ¬ ∃ w, .word w ∈ items ∧ lit "-x" <+: w)
          (words : List (List Wc)) (hw : ∀ w ∈ words, PlainWord w) (hb : (wantedThreads items).toNat ≤ blockCount words ∨ words = [])
          (suggest : List Wc → UB (Option (List (List Wc)))) (analyze : List Wc → UB (List (List (List Wc × List Wc))))
          (sugg : List Wc → List (List Wc)) (hs : ∀ w ∈ words, ∃ l, suggest w = some l ∧ l.getD [] = sugg w)
          (ana : List Wc → List (List (List Wc × List Wc))) (ha : ∀ w ∈ words, analyze w = some (ana w)) (hsl : SingleLines sugg ana words),
          ∃ t, spellToolArgs init args = some (.run t) ∧
            ∀ (n : Nat) (tool : Tool (Handle G)), ToolRun (checkWord (handleApi dict suggest analyze) t.opts) n (startTool t.handles words) tool →
              ¬ CanStep (checkWord (handleApi dict suggest analyze) t.opts) tool →
              (lastOf modeOf items = some .onlyIncorrect → .word (lit "-s") ∉ items → .word (lit "-m") ∉ items → .word (lit "-M") ∉ items →
                tool.pc = .terminated ∧ linesOf tool.out = words.filter fun w => decide (¬ CorrectIn ls runsOf (handleAfter {} items : Handle G).spell w)) ∧
              (lastOf modeOf items = some .onlyCW → .word (lit "-s") ∉ items → .word (lit "-m") ∉ items → .word (lit "-M") ∉ items →
                tool.pc = .terminated ∧ linesOf tool.out = words.map fun w => if CorrectIn ls runsOf (handleAfter {} items : Handle G).spell w then [0x43] else [0x57]) ∧
              (lastOf modeOf items = none →
                tool.pc = .terminated ∧ entries tool.out = words.map fun w =>
                  { word := w, correct := decide (CorrectIn ls runsOf (handleAfter {} items : Handle G).spell w),
                    attributes := if (.word (lit "-m") ∈ items ∨ .word (lit "-M") ∈ items) ∧ CorrectIn ls runsOf (handleAfter {} items : Handle G).spell w then
                      (numbered 1 (ana w)).map some else [],
                    suggestions := if .word (lit "-s") ∈ items ∧ ¬ CorrectIn ls runsOf (handleAfter {} items : Handle G).spell w then sugg w else [] }) := by
  obtain ⟨file, f, h1, h2, runsOf, an, h3, h4, h5⟩ := C99_dictionary hd hp hf hS hT sw
  have hdict : ∀ extra w, 0 ∉ w → finnishSpell extra an w = some ((fun extra w => (finnishSpell extra an w).getD .failed) extra w) := by
    intro extra w h0
    obtain ⟨r, e⟩ := h5.total extra w h0
    simp only [e, Option.getD_some]
  generalize (fun extra w => (finnishSpell extra an w).getD .failed) = dict at hdict
  refine ⟨file, f, h1, h2, runsOf, an, dict, h3, h4, hdict, ?_⟩
  exact program_output h5 hdict

/-! ### A dictionary and a command line to which this applies -/

theorem haha_one {runsOf : List Wc → List (List Nat)} (hr : ∀ v : List Wc, v.length ≤ 255 → AllRuns hahaLines v (runsOf v)) : runsOf (lit "ab") = [[0, 1, 2]] := by
  have ha := hr (lit "ab") (by decide)
  have hm : [0, 1, 2] ∈ runsOf (lit "ab") := (ha.mem _).2 haha_run
  match h : runsOf (lit "ab"), ha with
  | [], _ => rw [h] at hm; cases hm
  | [_], _ => rw [h, List.mem_singleton] at hm; rw [hm]
  | r :: r' :: t, ha =>
    have a := graph_unique haha_graph ((ha.mem r).1 (by simp)) ((ha.mem r').1 (by simp))
    have b := ha.nodup
    simp [a] at b

theorem haha_valid : Validity.Valid (Validity.events (hahaReading (97 :: List.replicate 1 98))) := by
  obtain ⟨b, hb, hv⟩ := C77_valid _ (haha_good (m := 1)).plain
  rw [show isValidAnalysis (render (hahaReading (97 :: List.replicate 1 98))) = some true by decide +kernel] at hb
  cases hb
  exact hv.1 rfl

theorem haha_ab {runsOf : List Wc → List (List Nat)} (hr : ∀ v : List Wc, v.length ≤ 255 → AllRuns hahaLines v (runsOf v)) :
    ∃ run ∈ (runsOf (lit "ab")).take 99, AllowingRun hahaLines (lit "ab") (lit "ab") run := by
  refine ⟨[0, 1, 2], ?_, hahaReading (97 :: List.replicate 1 98), by decide, haha_good (m := 1), haha_valid, .inl ?_⟩
  · rw [haha_one hr]
    decide
  · intro i c k h1 h2
    rw [show required (hahaReading (97 :: List.replicate 1 98)) = lit "pp" by decide +kernel] at h2
    match i, h1, h2 with
    | 0, h1, h2 => cases h1; cases h2; simp [TooLow, TooHigh]; decide
    | 1, h1, h2 => cases h1; cases h2; simp [TooLow, TooHigh]; decide
    | i + 2, h1, _ => simp [lit] at h1

theorem short_plain (w : List Wc) (h1 : ∀ c ∈ w, (0x41 ≤ c ∧ c ≤ 0x5A) ∨ (0x61 ≤ c ∧ c ≤ 0x7A) ∨ c = 0x2E) (hn : normSpec w = w) :
    PlainWord w where
  ok c hm := by have := h1 c hm; exact ⟨by omega, by omega⟩
  hyphen := by rw [hn]; exact innerFree_of fun hm => by have := h1 _ hm; omega
  soft hm := by rw [hn] at hm; have := h1 _ hm; omega

theorem haha_right {runsOf : List Wc → List (List Nat)} (hr : ∀ v : List Wc, v.length ≤ 255 → AllRuns hahaLines v (runsOf v)) (o : SpellOpts) :
    CorrectIn hahaLines runsOf o (lit "ab") := by
  have l1 : (lit "ab").map lower = lit "ab" := by decide +kernel
  have l4 : setCase .allLower (lit "ab") = lit "ab" := by decide +kernel
  have n1 : normSpec (lit "ab") = lit "ab" := by decide +kernel
  have given : Given hahaLines runsOf AllowingRun (lit "ab") := by unfold Given; rw [l4]; exact haha_ab hr
  unfold CorrectIn
  rw [n1]
  exact .dictionary (lit "ab") (by decide) (by decide) .word (.lower ((isLowerWord_iff _).2 (by decide +kernel)) (by rw [l1]; exact .inl given))

theorem haha_wrong {runsOf : List Wc → List (List Nat)} (hr : ∀ v : List Wc, v.length ≤ 255 → AllRuns hahaLines v (runsOf v)) (o : SpellOpts) :
    ¬ CorrectIn hahaLines runsOf o (lit "b") := by
  have l5 : (lit "b").map lower = lit "b" := by decide +kernel
  have l6 : setCase .allLower (lit "b") = lit "b" := by decide +kernel
  have n4 : normSpec (lit "b") = lit "b" := by decide +kernel
  have none' : ∀ R, ¬ Given hahaLines runsOf R (lit "b") := by
    rintro R ⟨run, hm, _⟩
    rw [l6] at hm
    obtain ⟨m, h, _⟩ := haha_runs (((hr (lit "b") (by decide)).mem run).1 (List.mem_of_mem_take hm))
    cases h
  have no : ∀ R, ¬ GivenText hahaLines runsOf o R (lit "b") := by
    rintro R (h | ⟨_, _, w', ⟨_, _, _, _, _, _, h⟩, _⟩)
    · exact none' R h
    · exact absurd h (by decide)
  have first : ∀ w, FirstLowered (lit "b") w → w = lit "b" := fun w h => ((firstLowered_iff _ _).1 h).trans (by decide +kernel)
  intro h
  unfold CorrectIn at h
  rw [n4] at h
  cases h with
  | empty h => cases h
  | number c _ _ hm h1 h2 =>
    have : c = 98 := by simpa [lit] using hm
    omega
  | capitals _ _ h => exact absurd ((isUpperWord_iff _).1 h) (by decide +kernel)
  | nonword _ _ h => exact absurd h.1 (by decide)
  | dictionary v _ _ hv h =>
    have hv : v = lit "b" := by
      cases hv with
      | word => rfl
      | noDot _ _ e => have := congrArg List.getLast? e; simp [lit] at this
    subst hv
    cases h with
    | lower _ h => rw [l5] at h; exact no _ h
    | capitals _ _ h => rw [l5] at h; exact no _ h
    | capitalised _ _ h => rw [l5] at h; exact no _ h
    | properNoun _ h _ => rw [l5] at h; exact no _ h
    | exact w _ hw h => rw [first w hw] at h; exact no _ h
    | exactNoun w _ _ _ hw _ _ _ h => rw [first w hw] at h; exact no _ h

/-- `-tt -c3 ignore_dot=1` -/
def wrongItems : List Item := [.word (lit "-tt"), .word (lit "-c3"), .word (lit "ignore_dot=1")]
def wrongArgs : List Arg := [lit "-tt", lit "-c3", lit "ignore_dot=1"]

/-- Non-vacuity: with the dictionary that knows the words `a`, `ab`, `abb`, ... the command prints `b` and nothing else for the words `ab`, `b`, `AB`, `Ab` and `ab.`; and there are executions
that cannot be continued (`C86_complete_execution`). -/
example (sw : Bool) (h0 : Handle Nat) (hh : initHandle Nat = some h0) : ∃ (dict : Bool → List Wc → SpellRes) (t : SpellTool Nat),
    spellToolArgs (fun _ _ => some h0) wrongArgs = some (.run t) ∧
    (∃ n tool, ToolRun (checkWord (handleApi dict (fun _ => some none) (fun _ => some [])) t.opts) n (startTool t.handles [lit "ab", lit "b", lit "AB", lit "Ab", lit "ab."]) tool ∧
      ¬ CanStep (checkWord (handleApi dict (fun _ => some none) (fun _ => some [])) t.opts) tool) ∧
    ∀ n tool, ToolRun (checkWord (handleApi dict (fun _ => some none) (fun _ => some [])) t.opts) n (startTool t.handles [lit "ab", lit "b", lit "AB", lit "Ab", lit "ab."]) tool →
      ¬ CanStep (checkWord (handleApi dict (fun _ => some none) (fun _ => some [])) t.opts) tool → linesOf tool.out = [lit "b"] := by
  obtain ⟨file, f, _, _, runsOf, an, dict, hr, _, _, main⟩ := C104_program_partial haha_describes haha_proper haha_finnish sortSymbols_sorts sortTransitions_sorts sw
  obtain ⟨t, ht, hrun⟩ := main (fun _ _ => some h0) wrongArgs wrongItems none
    ⟨rfl, by simp [wrongItems], by simp only [wrongItems, List.mem_cons, List.not_mem_nil, or_false, Item.word.injEq]; rintro w (rfl | rfl | rfl) <;> decide +kernel, by simp⟩
    (by simp)
    (by
      intro x hx
      simp only [wrongItems, List.mem_cons, List.not_mem_nil, or_false] at hx
      rcases hx with rfl | rfl | rfl <;> exact ⟨by unfold NumbersOk; decide +kernel, rfl⟩)
    (by decide +kernel) (by decide +kernel)
    (by
      intro w hm
      simp only [wrongItems, List.mem_cons, List.not_mem_nil, or_false, Item.word.injEq] at hm
      rcases hm with rfl | rfl | rfl <;> (unfold SpellKnown; decide +kernel))
    (by decide +kernel) ⟨h0, hh, rfl⟩
    (by
      rintro ⟨w, hm, hx⟩
      simp only [wrongItems, List.mem_cons, List.not_mem_nil, or_false, Item.word.injEq] at hm
      rcases hm with rfl | rfl | rfl <;> exact absurd hx (by decide +kernel))
    [lit "ab", lit "b", lit "AB", lit "Ab", lit "ab."]
    (by
      intro w hm
      simp only [List.mem_cons, List.not_mem_nil, or_false] at hm
      rcases hm with rfl | rfl | rfl | rfl | rfl <;> exact short_plain _ (by decide) (by decide +kernel))
    (.inl (by decide +kernel)) (fun _ => some none) (fun _ => some []) (fun _ => []) (fun _ _ => ⟨none, rfl, rfl⟩) (fun _ => []) (fun _ _ => rfl)
    ⟨by decide +kernel, by simp, by simp⟩
  refine ⟨dict, t, ht, C86_complete_execution, fun n tool a b => ?_⟩
  rw [((hrun n tool a b).1 (by decide +kernel) (by decide +kernel) (by decide +kernel) (by decide +kernel)).2]
  have hab := haha_ab hr
  have l2 : (lit "AB").map lower = lit "ab" := by decide +kernel
  have l3 : (lit "Ab").map lower = lit "ab" := by decide +kernel
  have l4 : setCase .allLower (lit "ab") = lit "ab" := by decide +kernel
  have n2 : normSpec (lit "AB") = lit "AB" := by decide +kernel
  have n3 : normSpec (lit "Ab") = lit "Ab" := by decide +kernel
  have given : Given hahaLines runsOf AllowingRun (lit "ab") := by unfold Given; rw [l4]; exact hab
  have o1 : (handleAfter ({} : Handle Nat) wrongItems).spell.acceptAllUppercase = true := by decide +kernel
  have o2 : (handleAfter ({} : Handle Nat) wrongItems).spell.acceptFirstUppercase = true := by decide +kernel
  have o3 : (handleAfter ({} : Handle Nat) wrongItems).spell.ignoreDot = true := by decide +kernel
  generalize (handleAfter ({} : Handle Nat) wrongItems).spell = o at *
  have c1 := haha_right hr o
  have c2 : CorrectIn hahaLines runsOf o (lit "AB") := by
    obtain ⟨run, hm, its, q1, q2, q3, _⟩ := given
    unfold CorrectIn
    rw [n2]
    exact .dictionary (lit "AB") (by decide) (by decide) .word
      (.capitals ((isUpperWord_iff _).2 (by decide +kernel)) o1 (by rw [l2]; exact .inl ⟨run, hm, its, q1, q2, q3⟩))
  have c4 : CorrectIn hahaLines runsOf o (lit "Ab") := by
    obtain ⟨run, hm, its, q1, q2, q3, q4⟩ := given
    have weak : ∀ req w, Agrees req w → AgreesRest req w := fun req w h i c k h1 h2 => ⟨fun _ => (h i c k h1 h2).1, (h i c k h1 h2).2⟩
    unfold CorrectIn
    rw [n3]
    exact .dictionary (lit "Ab") (by decide) (by decide) .word (.capitalised ((isCapitalised_iff _).2 (by decide +kernel)) o2
      (by rw [l3]; exact .inl ⟨run, hm, its, q1, q2, q3, q4.imp (weak _ _) fun h => ⟨h.1, weak _ _ h.2⟩⟩))
  have c5 : CorrectIn hahaLines runsOf o (lit "ab.") := by
    unfold CorrectIn
    rw [show normSpec (lit "ab.") = lit "ab." by decide +kernel]
    exact .dictionary (lit "ab") (by decide) (by decide) (.noDot _ o3 rfl)
      (.lower ((isLowerWord_iff _).2 (by decide +kernel)) (by rw [show (lit "ab").map lower = lit "ab" by decide +kernel]; exact .inl given))
  have c3 := haha_wrong hr o
  simp only [List.filter, c1, c2, c3, c4, c5, not_true, not_false_eq_true, decide_true, decide_false]

end Verif.SpellProgram
