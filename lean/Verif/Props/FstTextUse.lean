import Verif.Lemmas.FstTextUse
import Verif.Props.FstTextW
import Verif.Props.SpellExact
/-!
# Spelling with a dictionary written as text (C96) and suggestions with an error model written as text (C97)
-/

set_option linter.unusedSimpArgs false
set_option linter.unusedVariables false

namespace Verif.Props
open Verif Verif.Att

/-- C96, the part that holds: a text that describes a proper automaton with weights compiles, the file loads, and the speller that uses it finds a word
correct if and only if the word has at most 255 characters and the automaton of the text accepts it; it asks for an initial capital if and only if only
the capitalised word is accepted. This does not depend on the words looked up before. (Missing: words whose search meets a fixed limit or a masked flag
diacritic.) -/
theorem C96_spell_partial {N : AttNumbers} {reserved : Nat → Nat} {text : List Nat} {wls : List (Line × Nat)} (hd : DescribesW N text wls)
    (hp : Proper (wls.map (·.1))) {srtS : List (Nat × List Nat) → List (Nat × List Nat)} {srtT : List WTrans → List WTrans}
    (hS : SortsBy (fun a b => attSymLt a.2 b.2) srtS) (hT : SortsBy (fun a b => fileOrderLt a.t b.t) srtT) (sw : Bool)
    (hsw : sw = true → ∀ x ∈ wls, KeepsWeight x.2) :
    ∃ file f, attCompileW N reserved srtS srtT sw text = some (some file) ∧ loadFileW file = some (some f) ∧
    ∀ c, WUsed f 2000 c → ∀ word : List Wc, Fits (wls.map (·.1)) word → Fits (wls.map (·.1)) (capitalised word) →
      ∃ r c', vfstSpell f c word word.length = some (r, c') ∧ WUsed f 2000 c' ∧ r ≠ .capError ∧
        (r = .ok ↔ word.length ≤ 255 ∧ IsWord (wls.map (·.1)) word) ∧
        (r = .capFirst ↔ word.length ≤ 255 ∧ ¬ IsWord (wls.map (·.1)) word ∧ IsWord (wls.map (·.1)) (capitalised word) ∧
          ∃ ch rest, word = ch :: rest ∧ upper ch ≠ ch) := by
  obtain ⟨file, f, symbols, states, Ss, F, V, K, h1, h2, st⟩ := stored_of (reserved := reserved) hd hp hS hT sw hsw
  refine ⟨file, f, h1, h2, fun c hu word hw hw2 => ?_⟩
  have hc : (capitalised word).length = word.length := by cases word <;> rfl
  have e2 : (capitalised word).take word.length = capitalised word := by rw [← hc, List.take_length]
  have h := C62_partial (stored_good st) hu (word := word) (wlen := word.length) (Nat.le_refl _)
    (by rw [List.take_length]; exact stored_within st hw) (by rw [e2]; exact stored_within st hw2)
  rw [List.take_length, e2, stored_word st, stored_word st] at h
  exact h

theorem vfstSpell_long (f : WFst) (c : WConf) {word : List Wc} (h : ¬ word.length ≤ 255) :
    vfstSpell f c word word.length = some (.failed, c) := by
  have key : ∀ (c : WConf) (buf : List Wc), vfstDoSpell f c buf word.length = some (.failed, c) := by
    intro c buf
    rw [vfstDoSpell, if_pos (by have : maxWordChars = 255 := rfl; omega)]
    rfl
  unfold vfstSpell
  rw [key, ub_bind]
  simp only
  cases word with
  | nil => simp at h
  | cons ch rest =>
    have e0 : rd ((ch :: rest) ++ [0]) 0 = some ch := rfl
    have e1 : wr ((ch :: rest) ++ [0]) 0 (upper ch) = some ((upper ch :: rest) ++ [0]) := by simp [wr]
    rw [e0, ub_bind, e1]
    split
    · rw [ub_bind, key, ub_bind]
      rfl
    · rfl

open Classical in
/-- What a speller has to say about a word if its dictionary is the automaton `ls`. -/
noncomputable def textVerdict (ls : List Line) (word : List Wc) : SpellRes :=
  if word.length ≤ 255 ∧ IsWord ls word then .ok
  else if word.length ≤ 255 ∧ IsWord ls (capitalised word) ∧ ∃ ch rest, word = ch :: rest ∧ upper ch ≠ ch then .capFirst
  else .failed

/-- C96 without conditions on the words: for the text of a graph of words, the answer of the speller is always that of the text. -/
theorem C96_words {N : AttNumbers} {reserved : Nat → Nat} {text : List Nat} {wls : List (Line × Nat)} (hd : DescribesW N text wls)
    (hp : Proper (wls.map (·.1))) (hg : WordGraph (wls.map (·.1))) {srtS : List (Nat × List Nat) → List (Nat × List Nat)}
    {srtT : List WTrans → List WTrans} (hS : SortsBy (fun a b => attSymLt a.2 b.2) srtS) (hT : SortsBy (fun a b => fileOrderLt a.t b.t) srtT)
    (sw : Bool) (hsw : sw = true → ∀ x ∈ wls, KeepsWeight x.2) :
    ∃ file f, attCompileW N reserved srtS srtT sw text = some (some file) ∧ loadFileW file = some (some f) ∧
    ∀ c, WUsed f 2000 c → ∀ word : List Wc,
      ∃ c', vfstSpell f c word word.length = some (textVerdict (wls.map (·.1)) word, c') ∧ WUsed f 2000 c' := by
  obtain ⟨file, f, h1, h2, h⟩ := C96_spell_partial (reserved := reserved) hd hp hS hT sw hsw
  refine ⟨file, f, h1, h2, fun c hu word => ?_⟩
  by_cases hlen : word.length ≤ 255
  · have hc : (capitalised word).length = word.length := by cases word <;> rfl
    obtain ⟨r, c', g1, g2, g3, g4, g5⟩ := h c hu word (graph_fits hg (by omega)) (graph_fits hg (by omega))
    refine ⟨c', ?_, g2⟩
    rw [g1]
    congr 2
    unfold textVerdict
    split
    · rename_i hw; exact g4.2 hw
    · rename_i hw
      have hn : ¬ IsWord (wls.map (·.1)) word := fun hh => hw ⟨hlen, hh⟩
      split
      · rename_i hw2; exact g5.2 ⟨hlen, hn, hw2.2⟩
      · rename_i hw2
        cases r with
        | ok => exact absurd (g4.1 rfl) hw
        | capFirst => exact absurd ⟨hlen, (g5.1 rfl).2.2⟩ hw2
        | failed => rfl
        | capError => exact absurd rfl g3
  · refine ⟨c, ?_, hu⟩
    rw [vfstSpell_long f c hlen, textVerdict, if_neg (fun h => hlen h.1), if_neg (fun h => hlen h.1)]

theorem textVerdict_ok {ls : List Line} {w : List Wc} : textVerdict ls w = .ok ↔ w.length ≤ 255 ∧ IsWord ls w := by
  unfold textVerdict
  split
  · rename_i h; exact ⟨fun _ => h, fun _ => rfl⟩
  · rename_i h
    split <;> exact ⟨fun e => (by cases e), fun e => absurd e h⟩

theorem textVerdict_cap {ls : List Line} {w : List Wc} : textVerdict ls w = .capFirst ↔
    w.length ≤ 255 ∧ ¬ IsWord ls w ∧ IsWord ls (capitalised w) ∧ ∃ ch rest, w = ch :: rest ∧ upper ch ≠ ch := by
  unfold textVerdict
  split
  · rename_i h; exact ⟨fun e => (by cases e), fun e => absurd h.2 e.2.1⟩
  · rename_i h
    split
    · rename_i h2; exact ⟨fun _ => ⟨h2.1, fun e => h ⟨h2.1, e⟩, h2.2⟩, fun _ => rfl⟩
    · rename_i h2; exact ⟨fun e => (by cases e), fun e => absurd ⟨e.1, e.2.2⟩ h2⟩

/-- C96 for the function of the library: with the options that accept other things switched off, a word in lower case is accepted if and only if the
text of the dictionary accepts it; a word with a capital is accepted if and only if the text accepts it in lower case (and ACCEPT_FIRST_UPPERCASE is
set) or, but not in lower case, with the capital. -/
theorem C96_accepted (ls : List Line) (o : SpellOpts) (h1 : o.ignoreDot = false) (h2 : o.ignoreNumbers = false) (h3 : o.ignoreNonwords = false)
    (h4 : o.acceptMissingHyphens = false) (cache : Option SpellerCache) (hc : CacheInv (textVerdict ls) cache) (word : List Wc)
    (hw : WordOk word) (hn : normSpec word = word) (hlen : word.length ≤ 255) :
    ∃ r cache', spellUcs4 (textVerdict ls) o cache word = some (r, cache') ∧ (r = .ok ∨ r = .failed) ∧
      (IsLowerWord word → (r = .ok ↔ IsWord ls (word.map lower))) ∧
      (IsCapitalised word → (r = .ok ↔ (o.acceptFirstUppercase = true ∧ IsWord ls (word.map lower)) ∨
        (¬ IsWord ls (word.map lower) ∧ IsWord ls (capitalised (word.map lower)) ∧
          ∃ ch rest, word.map lower = ch :: rest ∧ upper ch ≠ ch))) := by
  have he : effDict (textVerdict ls) o.acceptMissingHyphens = textVerdict ls := by rw [h4]; rfl
  obtain ⟨r, cache', g1, g2, g3⟩ := C65_exact (textVerdict ls) o cache (by rw [he]; exact hc) word hw
  rw [he, hn] at g3
  have hl : (word.map lower).length ≤ 255 := by rw [List.length_map]; exact hlen
  have looked : ∀ v, LookedUp o word v → v = word := by
    intro v hv
    cases hv with
    | word => rfl
    | noDot _ hd _ => rw [h1] at hd; cases hd
  refine ⟨r, cache', g1, g2, fun hlow => ?_, fun hcap => ?_⟩
  · have hnu : ¬ IsUpperWord word := fun h => hlow.2 h.1
    have hnc : ¬ IsCapitalised word := by
      intro h
      have a := (isLowerWord_iff _).1 hlow
      rw [(isCapitalised_iff _).1 h] at a
      cases a
    have hno : ¬ IsOther word := fun h => h.1 hlow
    rw [g3]
    constructor
    · rintro (h | ⟨_, _, h, _⟩ | ⟨_, _, h⟩ | ⟨_, h, _⟩ | ⟨v, _, hv, hd⟩)
      · obtain ⟨⟨c, hc', _⟩, _⟩ := hlow
        rw [h] at hc'; cases hc'
      · rw [h2] at h; cases h
      · exact absurd h hnu
      · rw [h3] at h; cases h
      · have := looked v hv
        subst this
        cases hd with
        | lower _ h => exact (textVerdict_ok.1 h).2
        | properNoun h _ => exact absurd h hnc
        | capitalised h _ _ => exact absurd h hnc
        | capitals h _ _ => exact absurd h hnu
        | exact _ h _ _ => rcases h with h | ⟨h, _⟩; exact absurd h hno; exact absurd h hnu
        | exactNoun _ _ _ h _ _ _ _ _ => rcases h with h | ⟨h, _⟩; exact absurd h hno; exact absurd h hnu
    · intro h
      exact .dictionary word hlen .word (.lower hlow (textVerdict_ok.2 ⟨hl, h⟩))
  · have a := (isCapitalised_iff _).1 hcap
    have hnl : ¬ IsLowerWord word := fun h => by rw [(isLowerWord_iff _).1 h] at a; cases a
    have hnu : ¬ IsUpperWord word := fun h => by rw [(isUpperWord_iff _).1 h] at a; cases a
    have hno : ¬ IsOther word := fun h => h.2.2 hcap
    rw [g3]
    constructor
    · rintro (h | ⟨_, _, h, _⟩ | ⟨_, _, h⟩ | ⟨_, h, _⟩ | ⟨v, _, hv, hd⟩)
      · obtain ⟨c, rest, e, _⟩ := hcap
        rw [h] at e; cases e
      · rw [h2] at h; cases h
      · exact absurd h hnu
      · rw [h3] at h; cases h
      · have := looked v hv
        subst this
        cases hd with
        | lower h _ => exact absurd h hnl
        | properNoun _ h => exact .inr (textVerdict_cap.1 h).2
        | capitalised _ h h' => exact .inl ⟨h, (textVerdict_ok.1 h').2⟩
        | capitals h _ _ => exact absurd h hnu
        | exact _ h _ _ => rcases h with h | ⟨h, _⟩; exact absurd h hno; exact absurd h hnu
        | exactNoun _ _ _ h _ _ _ _ _ => rcases h with h | ⟨h, _⟩; exact absurd h hno; exact absurd h hnu
    · rintro (⟨h, h'⟩ | h)
      · exact .dictionary word hlen .word (.capitalised hcap h (textVerdict_ok.2 ⟨hl, h'⟩))
      · exact .dictionary word hlen .word (.properNoun hcap (textVerdict_cap.2 ⟨hl, h⟩))

/-! ## Suggestions -/

theorem first_of_unique {f : WFst} {w : List Wc} (hu : ∀ q q', Reading f w q → Reading f w q' → q = q') {q : List Nat} (h : Reading f w q) :
    FirstReading f w q := by
  refine ⟨h, fun q' hq' hb => ?_⟩
  rw [hu q' q hq' h] at hb
  exact before_irrefl _ hb

/-- C97, the part that holds: the texts of an error model and of a dictionary compile and load, and the suggestions for a word are the words into which
the error model turns it and which the dictionary accepts: there is a list of all of them, each once and with the lowest total weight of the runs that
give it, in the order of the weights, and the suggestions are the first 15 of it. This does not depend on earlier calls. (Missing: error models with
flag diacritics, for which it is false, see `C63_violation`; dictionaries with several runs for a word, where only the weight of the first one counts;
negative weights; words whose searches meet a fixed limit or a masked flag diacritic.) -/
theorem C97_suggestions_partial {N : AttNumbers} {reserved : Nat → Nat} {etext atext : List Nat} {els als : List (Line × Nat)}
    (hde : DescribesW N etext els) (hda : DescribesW N atext als) (hpe : Proper (els.map (·.1))) (hpa : Proper (als.map (·.1)))
    {srtS : List (Nat × List Nat) → List (Nat × List Nat)} {srtT : List WTrans → List WTrans}
    (hS : SortsBy (fun a b => attSymLt a.2 b.2) srtS) (hT : SortsBy (fun a b => fileOrderLt a.t b.t) srtT) (sw : Bool)
    (hswe : sw = true → ∀ x ∈ els, KeepsWeight x.2) (hswa : sw = true → ∀ x ∈ als, KeepsWeight x.2)
    (hflags : ∀ l ∈ els.map (·.1), ∀ s ∈ l.symbols, s.head? ≠ some 64)
    (hone : ∀ w r r', Att.Accepts (als.map (·.1)) w false r w.length → Att.Accepts (als.map (·.1)) w false r' w.length → r = r') :
    ∃ efile afile E A, attCompileW N reserved srtS srtT sw etext = some (some efile) ∧ loadFileW efile = some (some E) ∧
      attCompileW N reserved srtS srtT sw atext = some (some afile) ∧ loadFileW afile = some (some A) ∧
    ∀ order, QueueOrder order → ∀ word : List Wc, word.length ≤ 2000 → Fits (els.map (·.1)) word →
      (∀ run n, Att.Accepts (els.map (·.1)) word false run n → Fits (als.map (·.1)) (runOutput (els.map (·.1)) run)) →
      (∀ w k, Corrects els als word w k → 0 ≤ k) →
      ∃ M, ∀ n, M ≤ n → ∀ ec ac, WUsed E 2000 ec → WUsed A 2000 ac →
        ∃ s' ec' ac', vfstGenerate E A order n ec ac { word, maxSug := 15 } = some (s', ec', ac') ∧ WUsed E 2000 ec' ∧ WUsed A 2000 ac' ∧
          ∃ l : List (List Wc × Int), (l.map (·.1)).Nodup ∧
            (∀ w k, (w, k) ∈ l ↔ Corrects els als word w k ∧ ∀ k', Corrects els als word w k' → k ≤ k') ∧
            (∀ w k, Corrects els als word w k → ∃ j, (w, j) ∈ l) ∧
            l.Pairwise (fun a b => a.2 ≤ b.2) ∧ (sortSuggestions s'.sugg).map (·.1) = (l.take 15).map (·.1) := by
  obtain ⟨efile, E, symbols, states, Ss, F, V, K, e1, e2, ste⟩ := stored_of (reserved := reserved) hde hpe hS hT sw hswe
  obtain ⟨afile, A, symbols', states', Ss', F', V', K', a1, a2, sta⟩ := stored_of (reserved := reserved) hda hpa hS hT sw hswa
  refine ⟨efile, afile, E, A, e1, e2, a1, a2, fun order hord word hlen hfe hfa hpos => ?_⟩
  have hcorr : ∀ w k, Correction E A word w k ↔ Corrects els als word w k := by
    intro w k
    constructor
    · rintro ⟨q, a, hq, hw, ha, rfl⟩
      obtain ⟨run, _, _, h1, h2, h3⟩ := reading_run ste hq
      obtain ⟨run', _, _, g1, _, g3⟩ := reading_run sta ha.1
      exact ⟨_, _, h1, by rw [← h2, hw], g1, by rw [h3, g3]⟩
    · rintro ⟨e, a, h1, h2, h3, hk⟩
      obtain ⟨q, hq, g1, g2⟩ := run_reading ste h1
      obtain ⟨b, hb, _, g4⟩ := run_reading sta h3
      exact ⟨q, b, hq, by rw [g1, h2], first_of_unique (fun _ _ x y => stored_unique sta (hone w) x y) hb, by rw [hk, g2, g4]⟩
  have hbest : ∀ w k, Best E A word w k ↔ Corrects els als word w k ∧ ∀ k', Corrects els als word w k' → k ≤ k' := by
    intro w k
    unfold Best
    rw [hcorr]
    exact and_congr_right fun _ => forall_congr' fun k' => by rw [hcorr]
  obtain ⟨M, h⟩ := vfstGenerate_spec (stored_errors ste hflags) (stored_good sta) hord hlen (stored_within ste hfe) (by
    intro q hq
    obtain ⟨run, _, _, h1, h2, _⟩ := reading_run ste hq
    rw [h2]
    exact stored_within sta (hfa _ _ h1)) (fun w k hk => hpos w k ((hbest w k).1 hk).1)
  refine ⟨M, fun n hn ec ac hec hac => ?_⟩
  obtain ⟨s', ec', ac', h1, h2, h3, l, h4, h5, h6, h7, h8⟩ := h n hn ec ac hec hac
  refine ⟨s', ec', ac', h1, h2, h3, l, h4, fun w k => by rw [h5, hbest], ?_, h7, h8⟩
  rintro w k ⟨e, a, g1, g2, g3, _⟩
  obtain ⟨q, hq, g4, _⟩ := run_reading ste g1
  obtain ⟨b, hb, _⟩ := run_reading sta g3
  rw [g2] at g4
  obtain ⟨j, hj⟩ := h6 q hq (by rw [g4]; exact ⟨b, hb⟩)
  rw [g4] at hj
  exact ⟨j, hj⟩

/-! ## Examples -/

/-- A dictionary of `a` and `C`, both followed by any number of letters `b`. -/
def graphText : List Nat := ascii "0\t1\ta\ta\t2\n0\t1\tC\tC\t0\n1\t1\tb\tb\t1\n1\t3\n"

def graphLines : List (Line × Nat) :=
  [(.arc ⟨0, 1, [97], [97]⟩, 2), (.arc ⟨0, 1, [67], [67]⟩, 0), (.arc ⟨1, 1, [98], [98]⟩, 1), (.final 1, 3)]

/-- An error model: `a` and `b` stay, `c` becomes `a` at weight 9. -/
def errorModelText : List Nat := ascii "0\t0\ta\ta\t0\n0\t0\tb\tb\t0\n0\t0\tc\ta\t9\n0\t0\n"

def errorModelLines : List (Line × Nat) :=
  [(.arc ⟨0, 0, [97], [97]⟩, 0), (.arc ⟨0, 0, [98], [98]⟩, 0), (.arc ⟨0, 0, [99], [97]⟩, 9), (.final 0, 0)]

theorem digit_decimal {n : Nat} (hn : n < 10) : Decimal [48 + n] n :=
  ⟨by simp, by intro x hx; rw [List.mem_singleton.1 hx]; omega, by simp [decimalValue], by omega⟩

theorem digit_weighs {n : Nat} (hn : n < 10) : Weighs digitNumbers [48 + n] n := by
  have : n = 0 ∨ n = 1 ∨ n = 2 ∨ n = 3 ∨ n = 4 ∨ n = 5 ∨ n = 6 ∨ n = 7 ∨ n = 8 ∨ n = 9 := by omega
  rcases this with rfl | rfl | rfl | rfl | rfl | rfl | rfl | rfl | rfl | rfl <;>
    exact ⟨⟨by decide, by decide⟩, _, rfl, by decide, by decide⟩

theorem tab_blank : Blank [9] := by intro b hb; rw [List.mem_singleton.1 hb]; exact .inl rfl

theorem arc_line {s t c d w : Nat} (hs : s < 10) (ht : t < 10) (hw : w < 10) (hc : Names [c] [c]) (hd : Names [d] [d]) :
    WritesLineW digitNumbers [48 + s, 9, 48 + t, 9, c, 9, d, 9, 48 + w] (.arc ⟨s, t, [c], [d]⟩) w :=
  .arc (sp := []) (ds := [48 + s]) (sp1 := [9]) (dt := [48 + t]) (sp2 := [9]) (ti := [c]) (sp3 := [9]) («to» := [d]) (sp4 := [9]) (tw := [48 + w])
    (rest := []) (by intro b hb; cases hb) (digit_decimal hs) tab_blank (by simp) (digit_decimal ht) tab_blank (by simp) hc tab_blank (by simp) hd
    tab_blank (by simp) (digit_weighs hw) (.inl rfl) (by simp)

theorem final_line {s w : Nat} (hs : s < 10) (hw : w < 10) : WritesLineW digitNumbers [48 + s, 9, 48 + w] (.final s) w :=
  .weighted (sp := []) (ds := [48 + s]) (sp1 := [9]) (tw := [48 + w]) (by intro b hb; cases hb) (digit_decimal hs) tab_blank (by simp) (digit_weighs hw)

theorem letter_names {n : Nat} (h : n = 97 ∨ n = 98 ∨ n = 99 ∨ n = 67) : Names [n] [n] := by
  rcases h with rfl | rfl | rfl | rfl <;> exact names_plain (by decide) (by decide) ⟨by simp, by decide⟩

theorem graph_describes : DescribesW digitNumbers graphText graphLines := by
  refine .line (b := [48 + 0, 9, 48 + 1, 9, 97, 9, 97, 9, 48 + 2]) (t := _) (arc_line (by omega) (by omega) (by omega) (letter_names (by simp)) (letter_names (by simp))) ?_
  refine .line (b := [48 + 0, 9, 48 + 1, 9, 67, 9, 67, 9, 48 + 0]) (t := _) (arc_line (by omega) (by omega) (by omega) (letter_names (by simp)) (letter_names (by simp))) ?_
  refine .line (b := [48 + 1, 9, 48 + 1, 9, 98, 9, 98, 9, 48 + 1]) (t := _) (arc_line (by omega) (by omega) (by omega) (letter_names (by simp)) (letter_names (by simp))) ?_
  exact .line (b := [48 + 1, 9, 48 + 3]) (t := []) (final_line (by omega) (by omega)) .nil

theorem error_describes : DescribesW digitNumbers errorModelText errorModelLines := by
  refine .line (b := [48 + 0, 9, 48 + 0, 9, 97, 9, 97, 9, 48 + 0]) (t := _) (arc_line (by omega) (by omega) (by omega) (letter_names (by simp)) (letter_names (by simp))) ?_
  refine .line (b := [48 + 0, 9, 48 + 0, 9, 98, 9, 98, 9, 48 + 0]) (t := _) (arc_line (by omega) (by omega) (by omega) (letter_names (by simp)) (letter_names (by simp))) ?_
  refine .line (b := [48 + 0, 9, 48 + 0, 9, 99, 9, 97, 9, 48 + 9]) (t := _) (arc_line (by omega) (by omega) (by omega) (letter_names (by simp)) (letter_names (by simp))) ?_
  exact .line (b := [48 + 0, 9, 48 + 0]) (t := []) (final_line (by omega) (by omega)) .nil

theorem letter_proper {n : Nat} (h : n = 97 ∨ n = 98 ∨ n = 99 ∨ n = 67) : ProperSymbol [n] := by
  rcases h with rfl | rfl | rfl | rfl <;> exact ⟨by unfold ValidCp; decide, .inr (.inr (.inr ⟨_, rfl, by simp, by simp⟩))⟩

theorem graph_proper : Proper (graphLines.map (·.1)) := by
  refine ⟨?_, ?_, ?_, ⟨.arc ⟨0, 1, [97], [97]⟩, by simp [graphLines], 97, by simp, by simp, by simp [Line.symbols]⟩,
    ⟨(graphLines.map (·.1)).flatMap Line.symbols, by decide, fun l hl s hs => List.mem_flatMap.2 ⟨l, hl, hs⟩⟩, by decide⟩
  · intro k l hk s hs
    match k, hk with
    | 0, hk => cases hk; cases hs
    | 1, hk => cases hk; cases hs
    | 2, hk => cases hk; exact ⟨0, .arc ⟨0, 1, [97], [97]⟩, by omega, rfl, by simp only [Line.src] at hs ⊢; omega⟩
    | 3, hk => cases hk; exact ⟨0, .arc ⟨0, 1, [97], [97]⟩, by omega, rfl, by simp only [Line.src] at hs ⊢; omega⟩
  · intro a ha
    refine ⟨.final 1, by simp [graphLines], ?_⟩
    simp only [graphLines, List.map_cons, List.map_nil, List.mem_cons, List.not_mem_nil, or_false, Line.arc.injEq, reduceCtorEq] at ha
    rcases ha with rfl | rfl | rfl <;> rfl
  · intro l hl s hs
    simp only [graphLines, List.map_cons, List.map_nil, List.mem_cons, List.not_mem_nil, or_false] at hl
    rcases hl with rfl | rfl | rfl | rfl <;> simp only [Line.symbols, List.mem_cons, List.not_mem_nil, or_false, or_self] at hs <;> subst hs <;>
      exact letter_proper (by simp)

theorem error_proper : Proper (errorModelLines.map (·.1)) := by
  refine ⟨?_, ?_, ?_, ⟨.arc ⟨0, 0, [97], [97]⟩, by simp [errorModelLines], 97, by simp, by simp, by simp [Line.symbols]⟩,
    ⟨(errorModelLines.map (·.1)).flatMap Line.symbols, by decide, fun l hl s hs => List.mem_flatMap.2 ⟨l, hl, hs⟩⟩, by decide⟩
  · intro k l hk s hs
    match k, hk with
    | 0, hk => cases hk; cases hs
    | 1, hk => cases hk; cases hs
    | 2, hk => cases hk; cases hs
    | 3, hk => cases hk; cases hs
  · intro a ha
    refine ⟨.final 0, by simp [errorModelLines], ?_⟩
    simp only [errorModelLines, List.map_cons, List.map_nil, List.mem_cons, List.not_mem_nil, or_false, Line.arc.injEq, reduceCtorEq] at ha
    rcases ha with rfl | rfl | rfl <;> rfl
  · intro l hl s hs
    simp only [errorModelLines, List.map_cons, List.map_nil, List.mem_cons, List.not_mem_nil, or_false] at hl
    rcases hl with rfl | rfl | rfl | rfl <;> simp only [Line.symbols, List.mem_cons, List.not_mem_nil, or_false, or_self] at hs
    · subst hs; exact letter_proper (by simp)
    · subst hs; exact letter_proper (by simp)
    · rcases hs with rfl | rfl <;> exact letter_proper (by simp)

theorem graph_isGraph : WordGraph (graphLines.map (·.1)) := by
  refine ⟨?_, ?_, ?_, ?_⟩
  · intro a ha
    simp only [graphLines, List.map_cons, List.map_nil, List.mem_cons, List.not_mem_nil, or_false, Line.arc.injEq, reduceCtorEq] at ha
    rcases ha with rfl | rfl | rfl <;> exact ⟨_, rfl⟩
  · intro a ha
    simp only [graphLines, List.map_cons, List.map_nil, List.mem_cons, List.not_mem_nil, or_false, Line.arc.injEq, reduceCtorEq] at ha
    rcases ha with rfl | rfl | rfl <;> decide
  · intro k k' a b hk hk' h1 h2
    have at' : ∀ (k : Nat) a, (graphLines.map (·.1))[k]? = some (.arc a) →
        (k = 0 ∧ a = ⟨0, 1, [97], [97]⟩) ∨ (k = 1 ∧ a = ⟨0, 1, [67], [67]⟩) ∨ (k = 2 ∧ a = ⟨1, 1, [98], [98]⟩) := by
      intro k a hk
      match k, hk with
      | 0, hk => cases hk; exact .inl ⟨rfl, rfl⟩
      | 1, hk => cases hk; exact .inr (.inl ⟨rfl, rfl⟩)
      | 2, hk => cases hk; exact .inr (.inr ⟨rfl, rfl⟩)
      | 3, hk => cases hk
    rcases at' k a hk with ⟨rfl, rfl⟩ | ⟨rfl, rfl⟩ | ⟨rfl, rfl⟩ <;> rcases at' k' b hk' with ⟨rfl, rfl⟩ | ⟨rfl, rfl⟩ | ⟨rfl, rfl⟩ <;>
      first | rfl | cases h2
  · intro k k' s hk hk'
    match k, hk, k', hk' with
    | 3, hk, 3, hk' => rfl

theorem error_isGraph : WordGraph (errorModelLines.map (·.1)) := by
  refine ⟨?_, ?_, ?_, ?_⟩
  · intro a ha
    simp only [errorModelLines, List.map_cons, List.map_nil, List.mem_cons, List.not_mem_nil, or_false, Line.arc.injEq, reduceCtorEq] at ha
    rcases ha with rfl | rfl | rfl <;> exact ⟨_, rfl⟩
  · intro a ha
    simp only [errorModelLines, List.map_cons, List.map_nil, List.mem_cons, List.not_mem_nil, or_false, Line.arc.injEq, reduceCtorEq] at ha
    rcases ha with rfl | rfl | rfl <;> decide
  · intro k k' a b hk hk' h1 h2
    have at' : ∀ (k : Nat) a, (errorModelLines.map (·.1))[k]? = some (.arc a) →
        (k = 0 ∧ a = ⟨0, 0, [97], [97]⟩) ∨ (k = 1 ∧ a = ⟨0, 0, [98], [98]⟩) ∨ (k = 2 ∧ a = ⟨0, 0, [99], [97]⟩) := by
      intro k a hk
      match k, hk with
      | 0, hk => cases hk; exact .inl ⟨rfl, rfl⟩
      | 1, hk => cases hk; exact .inr (.inl ⟨rfl, rfl⟩)
      | 2, hk => cases hk; exact .inr (.inr ⟨rfl, rfl⟩)
      | 3, hk => cases hk
    rcases at' k a hk with ⟨rfl, rfl⟩ | ⟨rfl, rfl⟩ | ⟨rfl, rfl⟩ <;> rcases at' k' b hk' with ⟨rfl, rfl⟩ | ⟨rfl, rfl⟩ | ⟨rfl, rfl⟩ <;>
      first | rfl | cases h2
  · intro k k' s hk hk'
    match k, hk, k', hk' with
    | 3, hk, 3, hk' => rfl

theorem graph_keeps : ∀ x ∈ graphLines, KeepsWeight x.2 := by
  intro x hx
  simp only [graphLines, List.mem_cons, List.not_mem_nil, or_false] at hx
  rcases hx with rfl | rfl | rfl | rfl <;> simp [KeepsWeight]

theorem error_keeps : ∀ x ∈ errorModelLines, KeepsWeight x.2 := by
  intro x hx
  simp only [errorModelLines, List.mem_cons, List.not_mem_nil, or_false] at hx
  rcases hx with rfl | rfl | rfl | rfl <;> simp [KeepsWeight]

/-- C96 applies to the dictionary, in both byte orders and to all words. -/
example (sw : Bool) (reserved : Nat → Nat) :=
  C96_words (reserved := reserved) graph_describes graph_proper graph_isGraph sortSymbols_sorts sortWeighted_sorts sw (fun _ => graph_keeps)

example (sw : Bool) (reserved : Nat → Nat) :=
  C96_spell_partial (reserved := reserved) graph_describes graph_proper sortSymbols_sorts sortWeighted_sorts sw (fun _ => graph_keeps)

/-- Compilation of a text with weights and spelling of a word. -/
def compileAndSpell (sw : Bool) (text : List Nat) (word : List Wc) : UB (Option (Option SpellRes)) := do
  match ← attCompileW digitNumbers (fun _ => 0) sortSymbols sortWeighted sw text with
  | none => return none
  | some file =>
    match ← loadFileW file with
    | none => return some none
    | some f =>
      let (r, _) ← vfstSpell f (WConf.new f.featureCount 2000) word word.length
      return some (some r)

example : compileAndSpell false graphText (lit "abb") = some (some (some .ok)) ∧ compileAndSpell true graphText (lit "cb") = some (some (some .capFirst)) ∧
    compileAndSpell false graphText (lit "Cb") = some (some (some .ok)) ∧ compileAndSpell false graphText (lit "ba") = some (some (some .failed)) := by
  decide +kernel

theorem graph_ab : Att.Accepts (graphLines.map (·.1)) [97, 98] false [0, 2, 3] 2 :=
  ⟨[0, 2], 3, _, rfl, .cons (.letter rfl rfl rfl rfl) (.cons (.letter rfl rfl rfl rfl) .nil), rfl, rfl, fun _ => rfl⟩

theorem error_cb : Att.Accepts (errorModelLines.map (·.1)) [99, 98] false [2, 1, 3] 2 :=
  ⟨[2, 1], 3, _, rfl, .cons (.letter rfl rfl rfl rfl) (.cons (.letter rfl rfl rfl rfl) .nil), rfl, rfl, fun _ => rfl⟩

/-- The dictionary has the word `ab` but not `cb`, and it has `Cb`. -/
example : IsWord (graphLines.map (·.1)) (lit "ab") ∧ ¬ IsWord (graphLines.map (·.1)) (lit "cb") ∧
    IsWord (graphLines.map (·.1)) (capitalised (lit "cb")) := by
  refine ⟨⟨_, graph_ab⟩, ?_, ⟨[1, 2, 3], [1, 2], 3, _, rfl, .cons (.letter (c := 67) rfl rfl (by decide) (by decide)) (.cons (.letter rfl rfl rfl rfl) .nil),
    rfl, rfl, fun _ => rfl⟩⟩
  rintro ⟨run, ks, k, p, rfl, h1, h2, h3, h4⟩
  cases h1 with
  | nil =>
    have := List.mem_of_getElem? h2
    simp [graphLines] at this
  | cons hs _ =>
    obtain ⟨a, c, g1, g2, g3, g4, _⟩ := graph_takes graph_isGraph hs
    cases g4
    have := List.mem_of_getElem? g1
    simp only [graphLines, List.map_cons, List.map_nil, List.mem_cons, List.not_mem_nil, or_false, Line.arc.injEq, reduceCtorEq] at this
    rcases this with rfl | rfl | rfl <;> revert g3 <;> decide

/-- C96 for the library, applied to the words `ab` and `Cb`. -/
example := C96_accepted (graphLines.map (·.1)) { ignoreNonwords := false } rfl rfl rfl rfl none trivial (lit "ab") (by unfold WordOk; decide) (by decide)
  (by decide)

example : IsLowerWord (lit "ab") ∧ IsCapitalised (lit "Cb") ∧ normSpec (lit "Cb") = lit "Cb" :=
  ⟨(isLowerWord_iff _).2 (by decide), (isCapitalised_iff _).2 (by decide), by decide⟩

/-- C97 applies to the two texts in both byte orders. -/
example (sw : Bool) (reserved : Nat → Nat) :=
  C97_suggestions_partial (reserved := reserved) error_describes graph_describes error_proper graph_proper sortSymbols_sorts sortWeighted_sorts sw
    (fun _ => error_keeps) (fun _ => graph_keeps) (by decide) (fun _ _ _ h h' => graph_unique graph_isGraph h h')

/-- The word `cb` meets the conditions of C97; its only correction is `ab`, at weight 15. -/
example : Fits (errorModelLines.map (·.1)) (lit "cb") ∧
    (∀ run n, Att.Accepts (errorModelLines.map (·.1)) (lit "cb") false run n → Fits (graphLines.map (·.1)) (runOutput (errorModelLines.map (·.1)) run)) ∧
    ∀ w k, Corrects errorModelLines graphLines (lit "cb") w k ↔ w = lit "ab" ∧ k = 15 := by
  refine ⟨graph_fits error_isGraph (by decide), ?_, ?_⟩
  · intro run n h
    have hn : n = (lit "cb").length := by obtain ⟨_, _, _, _, _, _, _, h⟩ := h; exact h rfl
    subst hn
    rw [graph_unique error_isGraph h error_cb]
    exact graph_fits graph_isGraph (by decide)
  · intro w k
    constructor
    · rintro ⟨e, a, h1, h2, h3, h4⟩
      have := graph_unique error_isGraph h1 error_cb
      subst this
      have e2 : w = [97, 98] := by rw [← h2]; decide
      subst e2
      have := graph_unique graph_isGraph h3 graph_ab
      subst this
      exact ⟨rfl, by rw [h4]; decide⟩
    · rintro ⟨rfl, rfl⟩
      exact ⟨_, _, error_cb, by decide, graph_ab, by decide⟩

end Verif.Props
