import Verif.Lemmas.FstTextW
import Verif.Props.FstText
/-!
# Runs of the compiled weighted tables are runs of the text
-/

set_option linter.unusedSimpArgs false
set_option linter.unusedVariables false

namespace Verif.Att
open Verif Verif.Props

theorem writes_lt {N : AttNumbers} {text : List Nat} {wls : List (Line × Nat)} (hd : DescribesW N text wls) : ∀ x ∈ wls, x.2 < 65536 := by
  induction hd with
  | nil => intro x hx; cases hx
  | last h =>
    intro x hx
    rw [List.mem_singleton.1 hx]
    exact (parseW_spec h).2
  | line h _ ih =>
    intro x hx
    rcases List.mem_cons.1 hx with rfl | hx
    · exact (parseW_spec h).2
    · exact ih x hx

theorem weightAt_mem {wls : List (Line × Nat)} {p : Nat → Prop} (h : ∀ x ∈ wls, p x.2) {k : Nat} {l : Line} (hk : (wls.map (·.1))[k]? = some l) :
    p (weightAt wls k) := by
  rw [List.getElem?_map] at hk
  obtain ⟨x, hx, _⟩ := Option.map_eq_some_iff.1 hk
  unfold weightAt
  rw [hx]
  exact h x (List.mem_of_getElem? hx)

section
variable {wls : List (Line × Nat)} {symbols : List (List Nat)} {states : List (List WTrans)} {reserved : Nat → Nat} {K : Nat → List Nat}
  (hK : ∀ (i : Nat) s, states[i]? = some s →
    s.map some = (K i).map fun k => ((wls.map (·.1))[k]?).map (lineTransW symbols wls reserved k))
include hK

theorem wline_of {i j : Nat} {s : List WTrans} {x : WTrans} (hi : states[i]? = some s) (hj : s[j]? = some x) :
    ∃ k l, (K i)[j]? = some k ∧ (wls.map (·.1))[k]? = some l ∧ x = lineTransW symbols wls reserved k l := by
  have h := congrArg (fun L => L[j]?) (hK i s hi)
  simp only [List.getElem?_map, hj, Option.map_some] at h
  cases hk : (K i)[j]? with
  | none => rw [hk] at h; cases h
  | some k =>
    rw [hk, Option.map_some, Option.some.injEq] at h
    obtain ⟨l, hl, e⟩ := Option.map_eq_some_iff.1 h.symm
    rw [← List.getElem?_map] at hl
    exact ⟨k, l, rfl, hl, e.symm⟩

theorem weights_all {p : Nat → Prop} (h : ∀ x ∈ wls, p x.2) : ∀ s ∈ states, ∀ x ∈ s, p x.weight := by
  intro s hs x hx
  obtain ⟨i, hi⟩ := List.getElem?_of_mem hs
  obtain ⟨j, hj⟩ := List.getElem?_of_mem hx
  obtain ⟨k, l, _, hl, rfl⟩ := wline_of hK hi hj
  exact weightAt_mem h hl

theorem bare_lines (i : Nat) (s : List CTrans) (hs : (bare states)[i]? = some s) :
    s.map some = (K i).map fun k => ((wls.map (·.1))[k]?).map fun l => lineTrans symbols (bline l) := by
  unfold bare at hs
  rw [List.getElem?_map] at hs
  obtain ⟨s0, hs0, rfl⟩ := Option.map_eq_some_iff.1 hs
  have h := congrArg (List.map (Option.map fun x : WTrans => x.t)) (hK i s0 hs0)
  rw [List.map_map, List.map_map] at h
  rw [List.map_map]
  refine Eq.trans ?_ (h.trans ?_)
  · rfl
  · apply List.map_congr_left
    intro k _
    simp only [Function.comp, Option.map_map]
    rfl

end

/-- The tables can be written. -/
theorem wgood_of {symbols : List (List Nat)} {states : List (List WTrans)} (g : GoodInput symbols (bare states))
    (hw : ∀ s ∈ states, ∀ x ∈ s, x.weight < 65536) : WGoodInput symbols states := by
  have hm : ∀ s ∈ states, s.map (·.t) ∈ bare states := fun s hs => List.mem_map.2 ⟨s, hs, rfl⟩
  have hx : ∀ (s : List WTrans) (x : WTrans), x ∈ s → x.t ∈ s.map (·.t) := fun s x hx => List.mem_map.2 ⟨x, hx, rfl⟩
  refine ⟨g.epsilon, g.symCount, g.noNul, ?_, ?_, ?_, ?_, hw, ?_⟩
  · intro e
    exact g.initial (by rw [e]; rfl)
  · intro s hs e
    exact g.nonempty _ (hm s hs) (by rw [e]; rfl)
  · intro s hs x h
    exact g.codes _ (hm s hs) _ (hx s x h)
  · intro s hs x h
    have := g.targets _ (hm s hs) _ (hx s x h)
    rwa [bare_length] at this
  · have := g.size
    unfold bare at this
    rw [List.map_map] at this
    simp only [Function.comp_def, List.length_map] at this
    omega

/-- A loaded weighted file, with its symbol table. -/
theorem wloaded_fold {ss : List (List Nat)} {states : List (List WTrans)} (g : WGoodInput ([] :: ss) states)
    {file : List Nat} {f : WFst} (hw : writeFileW false ([] :: ss) states = some file) (hl : loadFileW file = some (some f)) :
    ∃ st, foldSymbols 1 initTab ss = some (some st) ∧ f = wfstOf st (wtableOf states) := by
  rw [writeFileW_eq g false] at hw
  cases hw
  rw [loadFileW_layout false g.symCount g.noNul (wplaced_cells _) (wfits_table (wsize_lt g))] at hl
  have hc := g.symCount
  rw [List.length_cons] at hc
  simp only [Bool.false_eq_true, if_false] at hl
  rw [readBodyW_layout hc (fun s hs => g.noNul s (List.mem_cons_of_mem _ hs)) (wfits_table (wsize_lt g))] at hl
  cases h1 : foldSymbols 1 initTab ss with
  | none => rw [h1] at hl; cases hl
  | some o =>
    rw [h1] at hl
    cases o with
    | none => cases hl
    | some st =>
      simp only [Option.map_some, Option.some.injEq] at hl
      exact ⟨st, rfl, hl.symm⟩

/-- The file in the opposite byte order. -/
theorem wswapped {symbols : List (List Nat)} {states : List (List WTrans)} (g : WGoodInput symbols states)
    (hk : ∀ s ∈ states, ∀ x ∈ s, KeepsWeight x.weight) :
    ∃ native foreign, writeFileW false symbols states = some native ∧ writeFileW true symbols states = some foreign ∧
      loadFileW foreign = loadFileW native := by
  refine ⟨_, _, writeFileW_eq g false, writeFileW_eq g true, ?_⟩
  refine C43_weighted_partial g.epsilon g.symCount g.noNul (wplaced_cells _) (wfits_table (wsize_lt g)) ?_
  intro c hc
  obtain ⟨s, hs, hc⟩ := List.mem_flatMap.1 hc
  rcases wmem_state hc with ⟨x, hx, m, rfl⟩ | rfl
  · obtain ⟨y, hy, rfl⟩ := List.mem_map.1 hx
    have h1 := hk s hs y hy
    have h2 := g.weights s hs y hy
    simp only [wtransCell]
    rw [Nat.mod_eq_of_lt h2]
    exact h1
  · trivial

/-- The loaded table has the transitions of the states. -/
theorem wholds {symbols : List (List Nat)} {states : List (List WTrans)} (g : WGoodInput symbols states) {f : WFst}
    (hf : f.cells = wtableOf states) : Holds (plainFst f) (bare states) := by
  refine ⟨?_, ?_⟩
  · intro i s hi
    unfold bare at hi
    rw [List.getElem?_map] at hi
    obtain ⟨s0, hs0, rfl⟩ := Option.map_eq_some_iff.1 hi
    rw [wgood_addrs g hf hs0, List.length_map]
  · intro i j s t hi hj
    have hi' := hi
    unfold bare at hi
    rw [List.getElem?_map] at hi
    obtain ⟨s0, hs0, rfl⟩ := Option.map_eq_some_iff.1 hi
    rw [List.getElem?_map] at hj
    obtain ⟨x, hx, rfl⟩ := Option.map_eq_some_iff.1 hj
    obtain ⟨c, h1, h2, h3, h4, h5⟩ := wgood_cell g hs0 hx
    refine ⟨WCell.plain c, ?_, ?_, h3, h4, ?_⟩
    · show (f.cells.map WCell.plain)[_]? = _
      rw [hf, List.getElem?_map, h1]
      rfl
    · simp only [WCell.plain, h2]
    · simp only [WCell.plain, h2]
      have := g.symCount
      split
      · rename_i e; exact ⟨fun _ => e, fun _ => rfl⟩
      · rename_i e
        refine ⟨fun e' => ?_, fun e' => absurd e' e⟩
        rcases g.codes _ (List.mem_of_getElem? hs0) _ (List.mem_of_getElem? hx) with ⟨h, _⟩ | ⟨h, _⟩
        · exact h
        · omega

/-- The weight of a run. -/
theorem weight_of {wls : List (Line × Nat)} {symbols : List (List Nat)} {states : List (List WTrans)} {reserved : Nat → Nat} {K : Nat → List Nat}
    (hK : ∀ (i : Nat) s, states[i]? = some s →
      s.map some = (K i).map fun k => ((wls.map (·.1))[k]?).map (lineTransW symbols wls reserved k))
    (hm : ∀ i k, k ∈ K i ↔ ∃ l, (wls.map (·.1))[k]? = some l ∧ l.src = i)
    (g : WGoodInput symbols states) {f : WFst} (hf : f.cells = wtableOf states) {run : List (Nat × Nat)} (hlink : Linked K run)
    (hords : ∀ a ∈ run, a.1 < (bare states).length) :
    pathWeight f (run.map (addrOf (bare states))) = runWeight wls (run.map (numberOf K)) := by
  have e : (run.map (addrOf (bare states))).map (fun a => ((f.cells[a]?).map (·.weight)).getD 0) =
      (run.map (numberOf K)).map fun k => ((wls[k]?).map (·.2)).getD 0 := by
    rw [List.map_map, List.map_map]
    apply List.map_congr_left
    intro a ha
    have hi : a.1 < states.length := by have := hords a ha; rwa [bare_length] at this
    have hs := List.getElem?_eq_getElem hi
    have hl := hlink a ha
    obtain ⟨l, hl', _⟩ := (hm a.1 (numberOf K a)).1 (List.mem_of_getElem? hl)
    have h := congrArg (fun L => L[a.2]?) (hK _ _ hs)
    simp only [List.getElem?_map, hl, Option.map_some] at h
    rw [List.getElem?_map] at hl'
    rw [hl', Option.map_some] at h
    obtain ⟨x, hx, e⟩ := Option.map_eq_some_iff.1 h
    cases e
    obtain ⟨c, h1, _, _, _, h5⟩ := wgood_cell g hs hx
    have h1' : f.cells[addrOf (bare states) a]? = some c := by rw [hf]; exact h1
    simp only [Function.comp, h1', Option.map_some, Option.getD_some, h5]
    rfl
  unfold pathWeight runWeight
  rw [e]
  unfold toInt16 signed16
  split <;> omega

section
variable {ls : List Line} {states : List (List CTrans)} {f : Fst} {Ss F V : List (List Wc)} {K : Nat → List Nat}
  (S : Setting ls states f Ss F V K)
include S

theorem flag_line {i j : Nat} {s : List CTrans} {t : CTrans} (hi : states[i]? = some s) (hj : s[j]? = some t) (hn : t.symIn ≠ 0xFFFFFFFF)
    (h0 : 0 < t.symIn) (h1 : t.symIn < f.firstNormal) :
    ∃ k a, (K i)[j]? = some k ∧ ls[k]? = some (.arc a) ∧ a.src = i ∧ Ss[t.symIn]? = some a.inp ∧ a.inp.head? = some 64 := by
  obtain ⟨k, l, hk, hl, hsrc, rfl⟩ := line_of S hi hj
  cases l with
  | final s => exact absurd rfl hn
  | arc a =>
    obtain ⟨n, e, hn', hlt⟩ := code_spec S (List.mem_of_getElem? hl) (s := a.inp) (by simp [Line.symbols])
    have e' : (lineTrans (Ss.map encodeStr) (bline (.arc a))).symIn = n := e
    rw [e'] at h0 h1 ⊢
    refine ⟨k, a, hk, hl, hsrc, hn', ?_⟩
    rcases (below_normal S hn').1 h1 with h | h
    · have := (code_zero S hn').2 h
      omega
    · exact h

theorem addr_mono {i j j' : Nat} {s : List CTrans} (hi : states[i]? = some s) (h : addrOf states (i, j) < addrOf states (i, j')) : j < j' := by
  rcases Nat.lt_or_ge j j' with h' | h'
  · exact h'
  · exfalso
    rcases Nat.lt_or_eq_of_le h' with h2 | h2
    · have := (cellIdx_mono (n := s.length)).2 h2
      simp only [addrOf, hi, Option.getD_some] at h
      omega
    · subst h2; omega

theorem flags_sorted {n n' : Nat} {a b : List Wc} (ha : Ss[n]? = some a) (hb : Ss[n']? = some b) (ha64 : a.head? = some 64) (hb64 : b.head? = some 64)
    (hlt : n < n') : encodeStr a < encodeStr b := by
  have hn := (List.getElem?_eq_some_iff.1 ha).1
  have hn' := (List.getElem?_eq_some_iff.1 hb).1
  have h := List.pairwise_iff_getElem.1 S.symSorted n n' (by simpa using hn) (by simpa using hn') hlt
  have ea : (Ss.map encodeStr)[n]'(by simpa using hn) = encodeStr a := by
    rw [List.getElem_map, (List.getElem?_eq_some_iff.1 ha).2]
  have eb : (Ss.map encodeStr)[n']'(by simpa using hn') = encodeStr b := by
    rw [List.getElem_map, (List.getElem?_eq_some_iff.1 hb).2]
  rw [ea, eb] at h
  have h64a : (encodeStr a).head? = some 64 := (encode_head (by decide)).2 ha64
  have h64b : (encodeStr b).head? = some 64 := (encode_head (by decide)).2 hb64
  have hne : encodeStr a ≠ encodeStr b := by
    intro e
    have := encode_inj (proper_valid (S.symbolsProper a (List.mem_of_getElem? ha))) (proper_valid (S.symbolsProper b (List.mem_of_getElem? hb))) e
    have := (get_inj S.nodup ha hb).2 this
    omega
  have rank : ∀ s : List Nat, s.head? = some 64 → byteRank s = 1 := by
    intro s hs
    unfold byteRank
    rw [if_neg (by rintro rfl; cases hs), if_pos hs]
  rcases C82_symbol_order.2.2 (encodeStr a) (encodeStr b) with e | e | e
  · exact absurd e hne
  · rw [symLt_iff, rank _ h64a, rank _ h64b] at e
    rcases e with e | e
    · omega
    · exact e.2
  · rw [e] at h; cases h

/-- A text without masked flag diacritics gives a table without masked flag diacritics. -/
theorem noMasked_of {symbols : List (List Nat)} (g : GoodInput symbols states) (hf : Holds f states) (hfn : f.firstNormal < 65535) {word : List Wc}
    (h : NoMasked ls word) : NoMaskedFlag f (word.map f.symOf) := by
  have h0 : startPoint f = atOffset states ⟨0, 0, List.replicate f.featureCount 0⟩ := by
    simp [startPoint, atOffset, offsetOf, sizeOf']
  have hpos : 0 < states.length := List.length_pos_iff.2 g.initial
  intro path p hpath hend a ha b hb hab t u ht hu ht0 htn hu0 hun hno F' hF'
  obtain ⟨bs, P, _, rfl, hap, hord⟩ := apath_of_path g hf hpath _ hpos h0
  obtain ⟨pl, hpl, hsame, _⟩ := takes_of_apath S hap _ (start_same S)
  obtain ⟨s, j, x, hi, hj, rfl, e1, _, _, m1⟩ := of_addr g hf hord ha ht
  obtain ⟨s', j', y, hi', hj', rfl, e2, _, _, m2⟩ := of_addr g hf hord hb hu
  have hh : s' = s := by rw [hi] at hi'; exact (Option.some.inj hi').symm
  subst hh
  have nx : x.symIn ≠ 0xFFFFFFFF := fun e => by have := m1.2 e; omega
  have ny : y.symIn ≠ 0xFFFFFFFF := fun e => by have := m2.2 e; omega
  rw [if_neg nx] at e1
  rw [if_neg ny] at e2
  obtain ⟨k, a1, hk, hl, hsrc, hc, h64⟩ := flag_line S hi hj nx (by omega) (by omega)
  obtain ⟨k', a2, hk', hl', hsrc', hc', h64'⟩ := flag_line S hi' hj' ny (by omega) (by omega)
  have hjj := addr_mono S hi hab
  have hle : x.symIn ≤ y.symIn := by
    have hlj := (List.getElem?_eq_some_iff.1 hj).1
    have hlj' := (List.getElem?_eq_some_iff.1 hj').1
    have hs := List.pairwise_iff_getElem.1 (S.sorted _ (List.mem_of_getElem? hi)) j j' hlj hlj' hjj
    rw [(List.getElem?_eq_some_iff.1 hj).2, (List.getElem?_eq_some_iff.1 hj').2] at hs
    have : ¬ codeRank y.symIn < codeRank x.symIn := fun e => by rw [(codeLt_iff y x).2 e] at hs; cases hs
    unfold codeRank at this
    rw [if_neg (show ¬ y.symIn = 0 by omega), if_neg ny, if_neg (show ¬ x.symIn = 0 by omega), if_neg nx] at this
    omega
  rcases Nat.lt_or_eq_of_le hle with hlt | heq
  · have hbytes := flags_sorted S hc hc' h64 h64' hlt
    have hpend : pl.pos = word.length := by
      rw [← hsame.2.1]
      rw [List.length_map] at hend
      exact hend
    have hnt : ∀ q, ¬ Takes ls word pl k q := by
      intro q hq
      obtain ⟨c, Q, hst, _, hkc⟩ := astep_of_takes S hq hsame
      have hcj : c = (P.ord, j) := link_inj S hkc hk
      subst hcj
      cases hst with
      | symbol s1 j1 t1 hi1 hj1 _ hfn1 _ =>
        rw [hi] at hi1; cases hi1
        rw [hj] at hj1; cases hj1
        omega
      | flag s1 j1 t1 fl hi1 hj1 _ _ hstep =>
        rw [hi] at hi1; cases hi1
        rw [hj] at hj1; cases hj1
        rw [← e1] at hstep
        exact hno _ hstep
    obtain ⟨q, hq, _⟩ := takes_of_astep S (AStep.flag P s' j' y F' hi' hj' ny (by omega) (by rw [← e2]; exact hF')) hsame
    have hnum : numberOf K (P.ord, j') = k' := numberOf_eq (a := (P.ord, j')) hk'
    rw [hnum] at hq
    exact h _ pl hpl hpend k k' a1 a2 hl hl' (by rw [hsrc]; exact hsame.1) (by rw [hsrc']; exact hsame.1) h64 h64' hbytes hnt q hq
  · rw [e2, ← heq, ← e1] at hF'
    exact hno _ hF'

/-- The letters of the table are the letters of the text. -/
theorem known_iff {symbols : List (List Nat)} (c : Compiled ls symbols states) (hS : symbols = Ss.map encodeStr)
    (hch : ∀ e ∈ f.charToSym, e.2 < Ss.length) (word : List Wc) :
    (word.all fun ch => (f.charToSym.lookup ch).isSome) = true ↔ InAlphabet ls word := by
  rw [List.all_eq_true]
  refine forall_congr' fun ch => imp_congr_right fun _ => ?_
  have hlen : f.symbols.length = Ss.length := by rw [S.tables.symbols]
  constructor
  · intro h
    obtain ⟨k, hk⟩ := Option.isSome_iff_exists.1 h
    have hm : (ch, k) ∈ f.charToSym := lookup_mem hk
    have hsym : f.symOf ch = k := by unfold Fst.symOf; rw [hk]; rfl
    obtain ⟨h1, h2, h3⟩ := (S.tables.chars ch k (hch _ hm)).1 hsym
    refine ⟨h2, h3, ?_⟩
    have hmem : encodeStr [ch] ∈ symbols := by rw [hS]; exact List.mem_map.2 ⟨_, List.mem_of_getElem? h1, rfl⟩
    rcases c.from' _ hmem with e | ⟨l, hl, h4⟩
    · have := encode_nil.1 e
      cases this
    · obtain ⟨s, hs, e⟩ := mem_lineSyms h4
      have := encode_inj (proper_valid (S.symbolsProper [ch] (List.mem_of_getElem? h1))) (proper_valid (S.proper.symbols l hl s hs)) e
      rw [← this] at hs
      exact ⟨l, hl, hs⟩
  · rintro ⟨h2, h3, l, hl, hm⟩
    obtain ⟨k, hk⟩ := List.getElem?_of_mem (S.all l hl _ hm)
    have hklt := (List.getElem?_eq_some_iff.1 hk).1
    have := (S.tables.chars ch k hklt).2 ⟨hk, h2, h3⟩
    unfold Fst.symOf at this
    cases hlk : f.charToSym.lookup ch with
    | some v => rfl
    | none =>
      rw [hlk, Option.getD_none] at this
      omega

end

/-- A run reads letters of the text. -/
theorem takes_letters {ls : List Line} {word : List Wc} {p q : Place} {ks : List Nat} (h : TakesAll ls word p ks q) :
    p.pos ≤ q.pos ∧ ∀ i, p.pos ≤ i → i < q.pos → ∃ c, word[i]? = some c ∧ ∃ l ∈ ls, [c] ∈ l.symbols := by
  induction h with
  | nil => exact ⟨Nat.le_refl _, fun i h1 h2 => by omega⟩
  | cons hs _ ih =>
    rename_i p q r k ks
    cases hs with
    | @letter a c hl hsrc hinp hc =>
      simp only at ih
      refine ⟨by omega, fun i h1 h2 => ?_⟩
      rcases Nat.lt_or_eq_of_le h1 with h3 | h3
      · exact ih.2 i (by omega) h2
      · subst h3
        exact ⟨c, hc, _, List.mem_of_getElem? hl, by simp [Line.symbols, hinp]⟩
    | epsilon hl hsrc hinp => exact ih
    | flag hl hsrc hinp he => exact ih

theorem unknown_word {ls : List Line} (hp : Proper ls) {word : List Wc} (hu : ¬ InAlphabet ls word) (run : List Nat) (n : Nat) :
    ¬ Accepts ls word false run n := by
  rintro ⟨ks, k, p, rfl, h1, h2, h3, h4⟩
  apply hu
  intro c hc
  obtain ⟨i, hi⟩ := List.getElem?_of_mem hc
  have hlt := (List.getElem?_eq_some_iff.1 hi).1
  obtain ⟨c', hc', l, hl, hm⟩ := (takes_letters h1).2 i (Nat.zero_le _) (by rw [h3, h4 rfl]; exact hlt)
  rw [hi] at hc'
  cases hc'
  have hne := (hp.symbols l hl _ hm).2
  rcases hne with h | ⟨op, x, v, h⟩ | ⟨r, hr, h⟩ | ⟨d, h, h5, h6⟩
  · cases h
  · have := flag_long h
    simp at this
  · cases h
    exact absurd rfl hr
  · cases h
    exact ⟨h5, h6, l, hl, hm⟩

end Verif.Att
