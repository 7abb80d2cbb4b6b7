import Verif.Lemmas.FstTextStored
/-!
# From the text of a weighted automaton to the look-up (C95)
-/

set_option linter.unusedSimpArgs false
set_option linter.unusedVariables false

namespace Verif.Props
open Verif Verif.Att

theorem wprepare_total (f : WFst) {bufferSize : Nat} {word : List Wc} (h : word.length ≤ bufferSize) (h0 : 0 < bufferSize) :
    ∃ c b, wprepare f (WConf.new f.featureCount bufferSize) word = some (b, c) := by
  obtain ⟨_, _, h3⟩ := inputSymbols_eq f word
  unfold wprepare
  generalize inputSymbols f word = x at h3
  obtain ⟨ss, ok⟩ := x
  simp only at h3 ⊢
  rw [if_neg (show ¬ ((WConf.new f.featureCount bufferSize).bufferSize < ss.length ∨ (WConf.new f.featureCount bufferSize).bufferSize = 0) by
    simp only [WConf.new]; omega)]
  exact ⟨_, _, rfl⟩

/-- C95, the part that holds: a text that describes a proper automaton with weights compiles, in the native byte order and, if the weights survive the
change, also in the opposite one; the file loads, and a look-up gives the outputs and the weights of the accepting runs of the automaton that the text
describes, each run once, in the order of the lines. If the look-up reports exhaustion, all accepting runs were given; it ends otherwise only at one of
the fixed limits. A word with other characters is refused, and it has no accepting runs. (Missing: words with a masked flag diacritic and other weights
in the opposite byte order; there the claim is false, see `C45_violation` and `C43_weighted_violation`.) -/
theorem C95_look_up_partial {N : AttNumbers} {reserved : Nat → Nat} {text : List Nat} {wls : List (Line × Nat)} (hd : DescribesW N text wls)
    (hp : Proper (wls.map (·.1))) {srtS : List (Nat × List Nat) → List (Nat × List Nat)} {srtT : List WTrans → List WTrans}
    (hS : SortsBy (fun a b => attSymLt a.2 b.2) srtS) (hT : SortsBy (fun a b => fileOrderLt a.t b.t) srtT) (sw : Bool)
    (hsw : sw = true → ∀ x ∈ wls, KeepsWeight x.2) :
    ∃ file f, attCompileW N reserved srtS srtT sw text = some (some file) ∧ loadFileW file = some (some f) ∧
    ∀ word : List Wc,
      (¬ InAlphabet (wls.map (·.1)) word → (∀ bufferSize, 0 < bufferSize → word.length ≤ bufferSize → ∃ c, wprepare f (WConf.new f.featureCount bufferSize) word = some (false, c)) ∧
        ∀ run n, ¬ Accepts (wls.map (·.1)) word false run n) ∧
      (InAlphabet (wls.map (·.1)) word → NoMasked (wls.map (·.1)) word →
        ∀ bufferSize bufferLen : Nat, 2 ≤ bufferSize → word.length ≤ bufferSize → 0 < bufferLen → ∀ n,
        ∃ c, wprepare f (WConf.new f.featureCount bufferSize) word = some (true, c) ∧
        ∃ (runs : List (List Nat)) (tail : List WNextRes) (c' : WConf),
          wenumerate f bufferLen n c = some (runs.map (fun r => .found (runOutput (wls.map (·.1)) r) (runWeight wls r)) ++ tail, c') ∧
          (∀ r ∈ runs, Accepts (wls.map (·.1)) word false r word.length) ∧
          runs.Pairwise (RunBefore (wls.map (·.1))) ∧ runs.Nodup ∧
          ((tail = [] ∧ runs.length = n) ∨
            (tail = [.exhausted] ∧ ∀ r m, Accepts (wls.map (·.1)) word false r m → r ∈ runs) ∨
            ∃ r, tail = [r] ∧ ExceedsW (wls.map (·.1)) word bufferSize bufferLen r)) := by
  obtain ⟨file, f, symbols, states, Ss, F, V, K, h1, hl', st⟩ := stored_of (reserved := reserved) hd hp hS hT sw hsw
  have S := st.S
  have gb := st.gb
  have hf := st.holds
  have hknown := st.known
  obtain ⟨T, wf, _⟩ := st.wf
  refine ⟨file, f, h1, hl', fun word => ⟨fun hu => ⟨?_, fun run n => unknown_word hp hu run n⟩, ?_⟩⟩
  · intro bufferSize h0 hlen
    obtain ⟨c, b, h⟩ := wprepare_total f hlen h0
    cases b with
    | false => exact ⟨c, h⟩
    | true => exact absurd ((hknown word).1 ((C45_unknown f _ c word true h).1 rfl)) hu
  · intro ha hm bufferSize bufferLen hbs hlen hbl n
    obtain ⟨c, h2, qs, tail, c', h3, h4, h5, h6⟩ :=
      C45_partial wf st.normal word ((hknown word).2 ha) (noMasked_of S gb hf st.fn hm) hbs hlen hbl n
    have hruns : ∃ runs : List (List (Nat × Nat)), qs = runs.map (fun r => r.map (addrOf (bare states))) ∧
        ∀ r ∈ runs, AAccepting (plainFst f) (bare states) (word.map (plainFst f).symOf) false r word.length := by
      clear h3 h5 h6
      induction qs with
      | nil => exact ⟨[], rfl, by intro r hr; cases hr⟩
      | cons q qs ih =>
        obtain ⟨runs, e1, e2⟩ := ih (fun x hx => h4 x (List.mem_cons_of_mem _ hx))
        obtain ⟨run, e3, e4⟩ := (accepting_iff gb hf).1 (h4 q List.mem_cons_self)
        refine ⟨run :: runs, by rw [List.map_cons, ← e1, ← e3], ?_⟩
        intro r hr
        rcases List.mem_cons.1 hr with rfl | hr
        · exact e4
        · exact e2 r hr
    obtain ⟨runs, rfl, hacc⟩ := hruns
    have hfol : ∀ r m, AAccepting (plainFst f) (bare states) (word.map (plainFst f).symOf) false r m → Follows (bare states) 0 r := by
      rintro r m ⟨as, p, j, s, t, rfl, hp, hi, hj, _⟩
      exact follows_run hp hi hj
    rw [List.pairwise_map] at h5
    have h5' : runs.Pairwise ABefore := by
      refine List.Pairwise.imp_of_mem ?_ h5
      intro a b ha hb hab
      exact abefore_of_before (hfol _ _ (hacc a ha)) (hfol _ _ (hacc b hb)) hab
    refine ⟨c, h2, runs.map (List.map (numberOf K)), tail, c', ?_, ?_, ?_, ?_, ?_⟩
    · rw [h3, List.map_map, List.map_map]
      congr 3
      apply List.map_congr_left
      intro r hr
      simp only [Function.comp]
      rw [output_eq gb hf (hacc r hr), output_of S (hacc r hr),
        weight_of st.lines S.kmem st.g st.cells (accepts_of S (hacc r hr)).2 (run_ords S (hacc r hr))]
    · intro r hr
      obtain ⟨r', hr', rfl⟩ := List.mem_map.1 hr
      exact (accepts_of S (hacc r' hr')).1
    · rw [List.pairwise_map]
      refine h5'.imp_of_mem ?_
      intro a b ha hb hab
      exact before_of S (accepts_of S (hacc a ha)).2 (accepts_of S (hacc b hb)).2 (run_ords S (hacc a ha)) (run_ords S (hacc b hb)) hab
    · rw [List.nodup_iff_pairwise_ne, List.pairwise_map]
      refine h5'.imp_of_mem ?_
      intro a b ha hb hab e
      have e' := numbers_inj S (accepts_of S (hacc a ha)).2 (accepts_of S (hacc b hb)).2 e
      rw [e'] at hab
      have irr : ∀ q : List (Nat × Nat), ¬ ABefore q q := by
        intro q
        induction q with
        | nil => exact fun h => h
        | cons x q ih =>
          rintro (h | h)
          · exact Nat.lt_irrefl _ h.2
          · exact ih h.2
      exact irr _ hab
    · rcases h6 with ⟨h6, h7⟩ | ⟨h6, h7⟩ | ⟨r, h6, h7⟩
      · exact .inl ⟨h6, by rw [List.length_map] at h7 ⊢; exact h7⟩
      · refine .inr (.inl ⟨h6, ?_⟩)
        intro r m hr
        obtain ⟨run, h8, rfl⟩ := of_accepts S hr
        have h9 := h7 _ m ((accepting_iff gb hf).2 ⟨run, rfl, h8⟩)
        obtain ⟨r', hr', e⟩ := List.mem_map.1 h9
        have : r' = run := follows_inj (hfol _ _ (hacc _ hr')) (hfol _ _ h8) e
        rw [← this]
        exact List.mem_map.2 ⟨r', hr', rfl⟩
      · refine .inr (.inr ⟨r, h6, ?_⟩)
        cases r with
        | found _ _ => exact h7
        | exhausted => exact h7
        | outputLimit => exact exceeds_of S gb hf (pfx := false) (bufferSize := bufferSize) (r := NextRes.outputLimit) h7
        | stackLimit => exact exceeds_of S gb hf (pfx := false) (bufferLen := bufferLen) (r := NextRes.stackLimit) h7
        | loopLimit => exact exceeds_of S gb hf (pfx := false) (bufferSize := bufferSize) (bufferLen := bufferLen) (r := NextRes.loopLimit) h7

/-! ## A concrete text -/

/-- Numbers for the examples: digits only, used as they are. -/
def digitsOnly (tok : List Nat) : Nat × Bool :=
  if tok ≠ [] ∧ tok.all (fun b => decide (48 ≤ b ∧ b ≤ 57)) = true then (tok.foldl (fun n b => 10 * n + (b - 48)) 0, true) else (0, false)

def digitNumbers : AttNumbers :=
  { D := Nat
    num := digitsOnly
    conv := fun n => if n < 65536 then some n else none }

def sortWeighted (l : List WTrans) : List WTrans := attSort (fun a b => !fileOrderLt b.t a.t) l

theorem sortWeighted_sorts : SortsBy (fun a b => fileOrderLt a.t b.t) sortWeighted := by
  intro l
  refine ⟨sort_perm _ _, ?_⟩
  have h := sort_sorted (le := fun a b : WTrans => !fileOrderLt b.t a.t) (by
      intro a b c h1 h2
      simp only [Bool.not_eq_true', ← Bool.not_eq_true, codeLt_iff] at *
      omega) (by
      intro a b
      simp only [Bool.or_eq_true, Bool.not_eq_true']
      cases h1 : fileOrderLt b.t a.t with
      | false => exact .inl rfl
      | true =>
        right
        cases h2 : fileOrderLt a.t b.t with
        | false => rfl
        | true =>
          rw [codeLt_iff] at h1 h2
          omega) l
  exact h.imp fun h => by simpa using h

/-- Bytes of a text without other characters than those of ASCII. -/
def ascii (s : String) : List Nat := s.toList.map (·.toNat)

def weightedText : List Nat := ascii "0\t1\ta\tb\t65535\n0\t1\ta\ta\t40 more\n1\t1\tb\t@0@\t7\n1\t3"

def weightedLines : List (Line × Nat) :=
  [(.arc ⟨0, 1, [97], [98]⟩, 65535), (.arc ⟨0, 1, [97], [97]⟩, 40), (.arc ⟨1, 1, [98], []⟩, 7), (.final 1, 3)]

/-- Compilation of a text with weights and look-up of a word: at most four results. -/
def compileAndLookW (sw : Bool) (text : List Nat) (word : List Wc) : UB (Option (Option (List WNextRes))) := do
  match ← attCompileW digitNumbers (fun _ => 0) sortSymbols sortWeighted sw text with
  | none => return none
  | some file =>
    match ← loadFileW file with
    | none => return some none
    | some f =>
      let (known, c) ← wprepare f (WConf.new f.featureCount 2000) word
      if known then do
        let (r, _) ← wenumerate f 100 4 c
        return some (some r)
      else return some (some [])

example : compileAndLookW false weightedText [97, 98] = some (some (some [.found [98] 9, .found [97] 50, .exhausted])) := by decide +kernel

example : compileAndLookW true weightedText [97, 98] = some (some (some [.found [98] 9, .found [97] 50, .exhausted])) := by decide +kernel

theorem weighted_describes : DescribesW digitNumbers weightedText weightedLines := by
  have d : ∀ n < 10, Decimal [48 + n] n := by
    intro n hn
    refine ⟨by simp, by intro x hx; rw [List.mem_singleton.1 hx]; omega, by simp [decimalValue], by omega⟩
  have tab : Blank [9] := by intro b hb; rw [List.mem_singleton.1 hb]; exact .inl rfl
  have blank : Blank [32] := by intro b hb; rw [List.mem_singleton.1 hb]; simp
  have none' : Blank [] := by intro b hb; cases hb
  have eps : Names [64, 48, 64] [] := .inl ⟨("@0@", []), by simp [specialNames], by decide, rfl⟩
  have let' : ∀ n, n = 97 ∨ n = 98 → Names [n] [n] := by
    rintro n (rfl | rfl) <;> exact names_plain (by decide) (by decide) ⟨by simp, by decide⟩
  have wt : ∀ (tok : List Nat) (w : Nat), Token tok → digitsOnly tok = (w, true) → w < 65536 → Weighs digitNumbers tok w :=
    fun tok w h1 h2 h3 => ⟨h1, w, h2, if_pos h3, h3⟩
  refine .line (b := ascii "0\t1\ta\tb\t65535") (t := _) (.arc (sp := []) (ds := [48]) (sp1 := [9]) (dt := [49]) (sp2 := [9]) (ti := [97]) (sp3 := [9])
    («to» := [98]) (sp4 := [9]) (tw := ascii "65535") (rest := []) none' (d 0 (by omega)) tab (by simp) (d 1 (by omega)) tab (by simp)
    (let' _ (.inl rfl)) tab (by simp) (let' _ (.inr rfl)) tab (by simp) (wt _ _ ⟨by decide, by decide⟩ (by decide) (by decide)) (.inl rfl) (by simp)) ?_
  refine .line (b := ascii "0\t1\ta\ta\t40 more") (t := _) (.arc (sp := []) (ds := [48]) (sp1 := [9]) (dt := [49]) (sp2 := [9]) (ti := [97]) (sp3 := [9])
    («to» := [97]) (sp4 := [9]) (tw := ascii "40") (rest := ascii " more") none' (d 0 (by omega)) tab (by simp) (d 1 (by omega)) tab (by simp)
    (let' _ (.inl rfl)) tab (by simp) (let' _ (.inl rfl)) tab (by simp) (wt _ _ ⟨by decide, by decide⟩ (by decide) (by decide))
    (.inr ⟨32, ascii "more", rfl, blank⟩) (by decide)) ?_
  refine .line (b := ascii "1\t1\tb\t@0@\t7") (t := _) (.arc (sp := []) (ds := [49]) (sp1 := [9]) (dt := [49]) (sp2 := [9]) (ti := [98]) (sp3 := [9])
    («to» := [64, 48, 64]) (sp4 := [9]) (tw := [55]) (rest := []) none' (d 1 (by omega)) tab (by simp) (d 1 (by omega)) tab (by simp)
    (let' _ (.inr rfl)) tab (by simp) eps tab (by simp) (wt _ _ ⟨by decide, by decide⟩ (by decide) (by decide)) (.inl rfl) (by simp)) ?_
  exact .last (b := ascii "1\t3") (.weighted (sp := []) (ds := [49]) (sp1 := [9]) (tw := [51]) none' (d 1 (by omega)) tab (by simp)
    (wt _ _ ⟨by decide, by decide⟩ (by decide) (by decide)))

theorem weighted_proper : Proper (weightedLines.map (·.1)) := by
  refine ⟨?_, ?_, ?_, ⟨.arc ⟨0, 1, [97], [98]⟩, by simp [weightedLines], 97, by simp, by simp, by simp [Line.symbols]⟩,
    ⟨(weightedLines.map (·.1)).flatMap Line.symbols, by decide, fun l hl s hs => List.mem_flatMap.2 ⟨l, hl, hs⟩⟩, by decide⟩
  · intro k l hk s hs
    have h0 : ∀ s, s < 1 → ∃ (j : Nat) (l' : Line), j < 2 ∧ (weightedLines.map (·.1))[j]? = some l' ∧ l'.src = s := fun s hs =>
      ⟨0, .arc ⟨0, 1, [97], [98]⟩, by omega, rfl, by simp only [Line.src]; omega⟩
    match k, hk with
    | 0, hk => cases hk; cases hs
    | 1, hk => cases hk; cases hs
    | 2, hk =>
      cases hk
      exact h0 s hs
    | 3, hk =>
      cases hk
      obtain ⟨j, l', h1, h2⟩ := h0 s hs
      exact ⟨j, l', by omega, h2⟩
  · intro a ha
    refine ⟨.final 1, by simp [weightedLines], ?_⟩
    simp only [weightedLines, List.map_cons, List.map_nil, List.mem_cons, List.not_mem_nil, or_false, Line.arc.injEq] at ha
    rcases ha with rfl | rfl | rfl | h
    · rfl
    · rfl
    · rfl
    · cases h
  · intro l hl s hs
    have hm : s ∈ [[97], [98], []] := by
      simp only [weightedLines, List.map_cons, List.map_nil, List.mem_cons, List.not_mem_nil, or_false] at hl
      rcases hl with rfl | rfl | rfl | rfl <;> simp only [Line.symbols, List.mem_cons, List.not_mem_nil, or_false] at hs ⊢
      · rcases hs with rfl | rfl <;> simp
      · rcases hs with rfl | rfl <;> simp
      · rcases hs with rfl | rfl <;> simp
    simp only [List.mem_cons, List.not_mem_nil, or_false] at hm
    rcases hm with rfl | rfl | rfl
    · exact ⟨by unfold ValidCp; decide, .inr (.inr (.inr ⟨97, rfl, by simp, by simp⟩))⟩
    · exact ⟨by unfold ValidCp; decide, .inr (.inr (.inr ⟨98, rfl, by simp, by simp⟩))⟩
    · exact ⟨by simp, .inl rfl⟩

/-- C95 applies to the text, in both byte orders; the word `ab` has only letters of the text, and no flag diacritic is masked. -/
example (sw : Bool) (reserved : Nat → Nat) :=
  C95_look_up_partial (reserved := reserved) weighted_describes weighted_proper sortSymbols_sorts sortWeighted_sorts sw (by
    intro _ x hx
    simp only [weightedLines, List.mem_cons, List.not_mem_nil, or_false] at hx
    rcases hx with rfl | rfl | rfl | rfl <;> simp [KeepsWeight])

example : InAlphabet (weightedLines.map (·.1)) [97, 98] ∧ NoMasked (weightedLines.map (·.1)) [97, 98] ∧ ¬ InAlphabet (weightedLines.map (·.1)) [99] ∧
    Accepts (weightedLines.map (·.1)) [97, 98] false [0, 2, 3] 2 ∧ runWeight weightedLines [0, 2, 3] = 9 := by
  refine ⟨?_, ?_, ?_, ⟨[0, 2], 3, _, rfl, .cons (.letter rfl rfl rfl rfl) (.cons (.letter rfl rfl rfl rfl) .nil), rfl, rfl, fun _ => rfl⟩, by decide⟩
  · intro c hc
    simp only [List.mem_cons, List.not_mem_nil, or_false] at hc
    rcases hc with rfl | rfl
    · exact ⟨by decide, by decide, .arc ⟨0, 1, [97], [98]⟩, by simp [weightedLines], by simp [Line.symbols]⟩
    · exact ⟨by decide, by decide, .arc ⟨0, 1, [97], [98]⟩, by simp [weightedLines], by simp [Line.symbols]⟩
  · intro ks p _ _ k k' a b ha _ _ _ h64
    have := List.mem_of_getElem? ha
    simp only [weightedLines, List.map_cons, List.map_nil, List.mem_cons, List.not_mem_nil, or_false, Line.arc.injEq] at this
    rcases this with rfl | rfl | rfl | h
    · cases h64
    · cases h64
    · cases h64
    · cases h
  · intro h
    obtain ⟨_, _, l, hl, hm⟩ := h 99 (by simp)
    simp only [weightedLines, List.map_cons, List.map_nil, List.mem_cons, List.not_mem_nil, or_false] at hl
    rcases hl with rfl | rfl | rfl | rfl <;> simp [Line.symbols] at hm

/-! ## What the restrictions are for -/

/-- C95 fails with a masked flag diacritic: the word `a` has an accepting run, but it is not found. (After `a`, the feature is required and not set;
the other transition of the state, which is allowed, is then not tried.) -/
theorem C95_masked_flag :
    compileAndLookW false (ascii "0\t1\ta\ta\t0\n1\t2\t@R.F@\t@0@\t0\n1\t2\t@U.F.X@\t@0@\t0\n2\n") [97] = some (some (some [.exhausted])) ∧
    Accepts [.arc ⟨0, 1, [97], [97]⟩, .arc ⟨1, 2, lit "@R.F@", []⟩, .arc ⟨1, 2, lit "@U.F.X@", []⟩, .final 2] [97] false [0, 2, 3] 1 := by
  refine ⟨by decide +kernel, [0, 2], 3, _, rfl, .cons (.letter rfl rfl rfl rfl) (.cons (.flag (op := .U) (feature := [70]) (value := [88]) (new := [88]) rfl rfl
    (FlagText.valued (op := .U) (feature := [70]) (value := [88]) (by simp)) (.inl ⟨rfl, rfl⟩)) .nil), rfl, rfl, fun _ => rfl⟩

/-- C95 fails in the opposite byte order for other weights: the weight 200 is found as -56. -/
theorem C95_byte_order :
    compileAndLookW false (ascii "0\t1\ta\ta\t200\n1\n") [97] = some (some (some [.found [97] 200, .exhausted])) ∧
    compileAndLookW true (ascii "0\t1\ta\ta\t200\n1\n") [97] = some (some (some [.found [97] (-56), .exhausted])) := by
  constructor <;> decide +kernel

/-- C95: white space after the number of a final state makes the compiler use a weight that was never set, whatever the numbers are. -/
theorem C95_trailing_space (N : AttNumbers) (reserved : Nat → Nat) (srtS : List (Nat × List Nat) → List (Nat × List Nat))
    (srtT : List WTrans → List WTrans) (sw : Bool) : attCompileW N reserved srtS srtT sw (ascii "0 \n") = ub := rfl

/-- C95: the weight of a final state is not checked: after an error the value that the error leaves is used, that is, 0 for a text that is not a
number. -/
theorem C95_unchecked_final_weight (N : AttNumbers) {ds sp tok : List Nat} {s : Nat} (hd : Decimal ds s) (hsp : Blank sp) (hne : sp ≠ [])
    (ht : Token tok) : attParseW N (ds ++ (sp ++ tok)) = some (.final s, N.conv (N.num tok).1) := by
  unfold attParseW
  have h0 := readUInt_spec (old := 0) (sp := []) (ds := ds) (r := sp ++ tok) (by intro b hb; cases hb) hd (blank_stops (blank_notDigit hsp) hne)
  rw [List.nil_append] at h0
  rw [h0]
  simp only [blank_isEmpty hne, Bool.false_eq_true, if_false]
  have := readToken_spec (old := []) (r := []) hsp ht (.inl rfl)
  rw [List.append_nil] at this
  rw [this]
  simp only [List.isEmpty_nil, if_true, if_neg ht.1]

example : Decimal [49] 1 ∧ Blank [9] ∧ Token (ascii "abc") := by
  refine ⟨⟨by simp, by intro x hx; rw [List.mem_singleton.1 hx]; omega, by simp [decimalValue], by omega⟩, ?_, by decide, by decide⟩
  intro b hb; rw [List.mem_singleton.1 hb]; exact .inl rfl

end Verif.Props
