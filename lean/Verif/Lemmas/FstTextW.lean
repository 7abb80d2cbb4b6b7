import Verif.Lemmas.FstTextSteps
import Verif.Spec.FstTextW
import Verif.Props.FstWeighted
import Verif.Props.FstWeightedFile
/-!
# From the text of a weighted automaton to the tables
-/

set_option linter.unusedSimpArgs false
set_option linter.unusedVariables false

namespace Verif.Att
open Verif Verif.Props

/-! ### Lines -/

theorem blank_isEmpty {sp r : List Nat} (h : sp ≠ []) : (sp ++ r).isEmpty = false := by
  cases sp with
  | nil => exact absurd rfl h
  | cons => rfl

theorem decimal_token {ds : List Nat} {n : Nat} (h : Decimal ds n) : Token ds :=
  ⟨h.1, fun b hb => by have := h.2.1 b hb; omega⟩

/-- A line is read as what it says. -/
theorem parseW_spec {N : AttNumbers} {b : List Nat} {l : Line} {w : Nat} (h : WritesLineW N b l w) :
    attParseW N b = some (bline l, some w) ∧ w < 65536 := by
  cases h with
  | final hsp hd =>
    rename_i sp ds s
    have := readUInt_spec (old := 0) (r := []) hsp hd (by intro x r e; cases e)
    rw [List.append_nil] at this
    unfold attParseW
    rw [this]
    exact ⟨rfl, by omega⟩
  | weighted h0 h1 h2 h2' h3 =>
    rename_i sp ds sp1 tw s
    obtain ⟨ht, d, h4, h5, h6⟩ := h3
    refine ⟨?_, h6⟩
    unfold attParseW
    rw [readUInt_spec h0 h1 (blank_stops (blank_notDigit h2) h2')]
    simp only [blank_isEmpty h2', Bool.false_eq_true, if_false]
    have := readToken_spec (old := []) (r := []) h2 ht (.inl rfl)
    rw [List.append_nil] at this
    rw [this]
    simp only [List.isEmpty_nil, if_true, if_neg ht.1, h4, h5]
    rfl
  | arc h0 h1 h2 h2' h3 h4 h4' h5 h6 h6' h7 h8 h8' h9 h10 h11 =>
    rename_i sp ds sp1 dt sp2 ti sp3 tout sp4 tw rest a
    obtain ⟨t5, n5⟩ := names_spec h5
    obtain ⟨t7, n7⟩ := names_spec h7
    obtain ⟨ht, d, h12, h13, h14⟩ := h9
    refine ⟨?_, h14⟩
    unfold attParseW
    rw [readUInt_spec h0 h1 (blank_stops (blank_notDigit h2) h2')]
    simp only [blank_isEmpty h2', Bool.false_eq_true, if_false]
    rw [readToken_spec h2 (decimal_token h3) (.inr (blank_head h4 h4'))]
    simp only [blank_isEmpty h4', Bool.false_eq_true, if_false]
    have ht3 := readUInt_spec (sp := []) (old := 0) (r := []) (by intro x hx; cases hx) h3 (by intro x r e; cases e)
    rw [List.nil_append, List.append_nil] at ht3
    rw [ht3]
    rw [readToken_spec h4 t5 (.inr (blank_head h6 h6'))]
    simp only [blank_isEmpty h6']
    rw [readToken_spec h6 t7 (.inr (blank_head h8 h8'))]
    simp only [blank_isEmpty h8', Bool.false_eq_true, if_false]
    rw [sentry_blank h8 (by simp [ht.1]) (stops_append ht.1 (token_notSpace ht))]
    have e1 : ∀ x ∈ tw, (!attSpace x) = true := fun x hx => by rw [token_notSpace ht x hx]; rfl
    have e2 : Stops (fun b => !attSpace b) rest := by
      intro x q e
      rcases h10 with rfl | ⟨b, q', rfl, hb⟩
      · cases e
      · cases e; simp [blank_space hb _ List.mem_cons_self]
    simp only [takeWhile_all e1, takeWhile_stops e2, List.append_nil, h12, h13, n5, n7, Bool.false_eq_true, if_false, if_true]
    rfl

theorem token_newline {t : List Nat} (h : Token t) : 10 ∉ t := by
  intro h10
  have := h.2 10 h10
  omega

theorem lineW_newline {N : AttNumbers} {b : List Nat} {l : Line} {w : Nat} (h : WritesLineW N b l w) : 10 ∉ b ∧ b ≠ [] := by
  cases h with
  | final hsp hd => simp [blank_newline hsp, decimal_newline hd, hd.1]
  | weighted h0 h1 h2 h2' h3 => simp [blank_newline h0, decimal_newline h1, blank_newline h2, token_newline h3.1, h1.1]
  | arc h0 h1 h2 h2' h3 h4 h4' h5 h6 h6' h7 h8 h8' h9 h10 h11 =>
    simp [blank_newline h0, decimal_newline h1, blank_newline h2, decimal_newline h3, blank_newline h4, names_newline h5, blank_newline h6,
      names_newline h7, blank_newline h8, token_newline h9.1, h11, h1.1]

/-! ### Tables -/

/-- The tables after lines. -/
def addLinesW (reserved : Nat → Nat) : Nat → AttTabW → List (AttLine × Nat) → UB (Option AttTabW)
  | _, st, [] => some (some st)
  | k, st, l :: ls => (attAddW st (reserved k) (l.1, some l.2)).bind fun o =>
    match o with
    | none => some none
    | some st => addLinesW reserved (k + 1) st ls

theorem addAllW_spec {N : AttNumbers} {reserved : Nat → Nat} {t : List Nat} {wls : List (Line × Nat)} (h : DescribesW N t wls) (k : Nat) (st : AttTabW) :
    attAddAllW N reserved k st (attLines [] t) = addLinesW reserved k st (wls.map fun x => (bline x.1, x.2)) := by
  induction h generalizing st k with
  | nil => rfl
  | last h =>
    rw [lines_last (lineW_newline h).1 (by simpa using (lineW_newline h).2)]
    simp only [List.reverse_nil, List.nil_append, attAddAllW, (parseW_spec h).1, List.map_cons, List.map_nil, addLinesW, Option.bind_eq_bind]
    rfl
  | line h _ ih =>
    rw [lines_cons (lineW_newline h).1]
    simp only [List.reverse_nil, List.nil_append, attAddAllW, (parseW_spec h).1, List.map_cons, addLinesW, Option.bind_eq_bind]
    cases attAddW st (reserved k) (bline _, some _) with
    | none => rfl
    | some o =>
      cases o with
      | none => rfl
      | some st' => exact ih (k + 1) st'

/-- Pushing commutes with mapping. -/
theorem push_map {α β : Type} (f : α → β) (states : List (List α)) (src : Nat) (x : α) :
    attPush (states.map (List.map f)) src (f x) = (attPush states src x).map (List.map (List.map f)) := by
  unfold attPush
  rw [List.length_map]
  split
  · rfl
  · rw [Option.map_some, Option.some.injEq]
    have e : (if states.length = src then states.map (List.map f) ++ [[]] else states.map (List.map f)) =
        (if states.length = src then states ++ [[]] else states).map (List.map f) := by split <;> simp
    rw [e]
    generalize (if states.length = src then states ++ [[]] else states) = L
    apply List.ext_getElem?
    intro i
    simp only [List.getElem?_modify, List.getElem?_map]
    cases L[i]? with
    | none => rfl
    | some y => by_cases h : src = i <;> simp [h]

/-- The tables without weights. -/
def bareTab (st : AttTabW) : AttTab := ⟨st.syms, bare st.states⟩

/-- The transitions with a line's weight and byte. -/
def extraOf (x : WTrans) : Nat × Nat := (x.weight, x.reserved)

theorem bare_push {states states' : List (List WTrans)} {src : Nat} {x : WTrans} (h : attPush states src x = some states') :
    attPush (bare states) src x.t = some (bare states') := by
  have := push_map (fun x : WTrans => x.t) states src x
  rw [h] at this
  exact this

theorem push_total {α : Type} {states : List (List α)} {src : Nat} {x : α} (h : ¬ states.length < src) : ∃ states', attPush states src x = some states' := by
  unfold attPush; rw [if_neg h]; exact ⟨_, rfl⟩

theorem addW_spec {st : AttTabW} {st1 : AttTab} {l : AttLine} (h : attAdd (bareTab st) l = some st1) (r w : Nat) :
    ∃ st', attAddW st r (l, some w) = some (some st') ∧ bareTab st' = st1 ∧
      ∃ t, attPush st.states (lineSrc l) ⟨t, w, r⟩ = some st'.states := by
  cases l with
  | final src =>
    simp only [attAdd, bareTab] at h
    obtain ⟨states1, h1, h2⟩ := Option.map_eq_some_iff.1 h
    have hlen : ¬ st.states.length < src := by
      intro hlt
      unfold attPush at h1
      rw [bare_length, if_pos hlt] at h1
      cases h1
    obtain ⟨states', hs⟩ := push_total (x := (⟨⟨0xFFFFFFFF, 0, 0⟩, w, r⟩ : WTrans)) hlen
    have := bare_push hs
    rw [this] at h1
    cases h1
    refine ⟨{ st with states := states' }, ?_, h2, _, hs⟩
    simp only [attAddW, if_neg hlen, Option.bind_eq_bind, Option.bind_some, hs]
    rfl
  | arc src tgt inp out =>
    simp only [attAdd, bareTab, bare_length] at h
    by_cases hlen : st.states.length < src
    · rw [if_pos hlen] at h; cases h
    · rw [if_neg hlen] at h
      obtain ⟨⟨i, syms1⟩, h1, h⟩ := Option.bind_eq_some_iff.1 h
      obtain ⟨⟨o, syms2⟩, h2, h⟩ := Option.bind_eq_some_iff.1 h
      obtain ⟨states1, h3, h⟩ := Option.bind_eq_some_iff.1 h
      obtain ⟨states', hs⟩ := push_total (x := (⟨⟨i, o, tgt⟩, w, r⟩ : WTrans)) hlen
      have := bare_push hs
      simp only at h3
      rw [this] at h3
      cases h3
      refine ⟨⟨syms2, states'⟩, ?_, Option.some.inj h, _, hs⟩
      simp only [attAddW, if_neg hlen, h1, h2, Option.bind_eq_bind, Option.bind_some, hs]
      rfl

/-- The lines of the states, with a value for each. -/
def listsBy {α β : Type} (src : β → Nat) (tr : β → α) (m : Nat) (ls : List β) : List (List α) :=
  (List.range m).map fun i => (ls.filter fun l => src l = i).map tr

theorem listsBy_push {α β : Type} {src : β → Nat} {tr : β → α} {m : Nat} {ls : List β} {l : β} {states : List (List α)} (hs : ∀ x ∈ ls, src x < m)
    (h : attPush (listsBy src tr m ls) (src l) (tr l) = some states) : states = listsBy src tr (max m (src l + 1)) (ls ++ [l]) := by
  unfold attPush at h
  have hl : (listsBy src tr m ls).length = m := by simp [listsBy]
  rw [hl] at h
  split at h
  · cases h
  · rename_i hlt
    rw [Option.some.injEq] at h
    rw [← h]
    have hbase : (if m = src l then listsBy src tr m ls ++ [[]] else listsBy src tr m ls) = listsBy src tr (max m (src l + 1)) ls := by
      split
      · rename_i he
        rw [← he, Nat.max_eq_right (by omega)]
        unfold listsBy
        rw [List.range_succ, List.map_append, List.map_singleton]
        congr 2
        rw [List.filter_eq_nil_iff.2]
        · rfl
        · intro x hx
          have := hs x hx
          simp only [decide_eq_true_eq]
          omega
      · rw [Nat.max_eq_left (by omega)]
    rw [hbase]
    apply List.ext_getElem?
    intro i
    rw [List.getElem?_modify]
    unfold listsBy
    simp only [List.getElem?_map]
    by_cases hi : i < max m (src l + 1)
    · rw [List.getElem?_range hi]
      simp only [Option.map_some, Option.map_eq_map, List.filter_append, List.map_append]
      by_cases he : src l = i
      · simp [he]
      · simp [he]
    · rw [List.getElem?_eq_none (by simpa using hi)]
      rfl

/-- Lines with weights and bytes. -/
abbrev WL := AttLine × Nat × Nat

def wlSrc (x : WL) : Nat := lineSrc x.1

/-- The lines with their bytes, from line number `k`. -/
def numbered (reserved : Nat → Nat) (k : Nat) (ls : List (AttLine × Nat)) : List WL := (ls.zipIdx k).map fun x => (x.1.1, x.1.2, reserved x.2)

theorem numbered_cons (reserved : Nat → Nat) (k : Nat) (l : AttLine × Nat) (ls : List (AttLine × Nat)) :
    numbered reserved k (l :: ls) = (l.1, l.2, reserved k) :: numbered reserved (k + 1) ls := rfl

theorem addLinesW_spec {reserved : Nat → Nat} {ls : List (AttLine × Nat)} : ∀ {k m : Nat} {pre : List WL} {st : AttTabW} {st1 : AttTab},
    addLines (bareTab st) (ls.map (·.1)) = some st1 → (∀ x ∈ pre, wlSrc x < m) → st.states.map (List.map extraOf) = listsBy wlSrc (·.2) m pre →
    ∃ st' m', addLinesW reserved k st ls = some (some st') ∧ bareTab st' = st1 ∧
      st'.states.map (List.map extraOf) = listsBy wlSrc (·.2) m' (pre ++ numbered reserved k ls) := by
  induction ls with
  | nil =>
    intro k m pre st st1 h hs he
    cases h
    exact ⟨st, m, rfl, rfl, by simpa [numbered] using he⟩
  | cons l ls ih =>
    intro k m pre st st1 h hs he
    rw [List.map_cons, addLines] at h
    obtain ⟨st2, h1, h2⟩ := Option.bind_eq_some_iff.1 h
    obtain ⟨st3, h3, h4, t, h5⟩ := addW_spec h1 (reserved k) l.2
    have h6 := push_map extraOf st.states (lineSrc l.1) ⟨t, l.2, reserved k⟩
    rw [h5, he, Option.map_some] at h6
    have h7 := listsBy_push (src := wlSrc) (tr := (·.2)) (l := (l.1, l.2, reserved k)) hs h6
    obtain ⟨st4, m4, h8, h9, h10⟩ := ih (k := k + 1) (m := max m (lineSrc l.1 + 1)) (pre := pre ++ [(l.1, l.2, reserved k)]) (st := st3) (st1 := st1) (by rw [h4]; exact h2) (by
      intro x hx
      rcases List.mem_append.1 hx with hx | hx
      · have := hs x hx; omega
      · rw [List.mem_singleton.1 hx]; show lineSrc l.1 < _; omega) h7
    refine ⟨st4, m4, ?_, h9, by rw [numbered_cons]; simpa using h10⟩
    rw [addLinesW, h3]
    exact h8

theorem wtrans_ext {α : Type} {tr : α → CTrans} {ex : α → Nat × Nat} {l : List WTrans} {A : List α} (h1 : l.map (·.t) = A.map tr)
    (h2 : l.map extraOf = A.map ex) : l = A.map fun a => ⟨tr a, (ex a).1, (ex a).2⟩ := by
  induction l generalizing A with
  | nil =>
    cases A with
    | nil => rfl
    | cons a A => cases h1
  | cons x l ih =>
    cases A with
    | nil => cases h1
    | cons a A =>
      rw [List.map_cons, List.map_cons, List.cons.injEq] at h1 h2
      rw [List.map_cons, ← ih h1.2 h2.2, ← h1.1, ← h2.1]
      rfl

/-! ### The compiler -/

theorem numbers_filter {β : Type} (src : β → Nat) (ls : List β) (i : Nat) :
    (((List.range ls.length).filter fun k => (ls[k]?).map src = some i).map fun k => ls[k]?) = (ls.filter fun l => src l = i).map some := by
  induction ls with
  | nil => rfl
  | cons l ls ih =>
    have hr : ∀ k : Nat, (l :: ls)[k + 1]? = ls[k]? := fun k => rfl
    rw [List.length_cons, List.range_succ_eq_map, List.filter_cons, List.filter_map]
    have e : ((List.range ls.length).filter ((fun k => decide (((l :: ls)[k]?).map src = some i)) ∘ Nat.succ)) =
        (List.range ls.length).filter fun k => decide ((ls[k]?).map src = some i) := by
      apply List.filter_congr
      intro k _
      rfl
    rw [e]
    by_cases h : src l = i
    · rw [if_pos (by simp [h]), List.filter_cons, if_pos (by simp [h]), List.map_cons, List.map_cons, List.map_map, ← ih]
      rfl
    · rw [if_neg (by simp [h]), List.filter_cons, if_neg (by simp [h]), List.map_map, ← ih]
      rfl

/-- The weight of a line. -/
def weightAt (wls : List (Line × Nat)) (k : Nat) : Nat := ((wls[k]?).map (·.2)).getD 0

/-- The transition of a line. -/
def lineTransW (symbols : List (List Nat)) (wls : List (Line × Nat)) (reserved : Nat → Nat) (k : Nat) (l : Line) : WTrans :=
  ⟨lineTrans symbols (bline l), weightAt wls k, reserved k⟩

theorem numbered_get (reserved : Nat → Nat) (ls : List (AttLine × Nat)) (k : Nat) :
    (numbered reserved 0 ls)[k]? = (ls[k]?).map fun x => (x.1, x.2, reserved k) := by
  unfold numbered
  rw [List.getElem?_map, List.getElem?_zipIdx, Option.map_map]
  cases ls[k]? with
  | none => rfl
  | some x => simp

theorem numbered_fst (reserved : Nat → Nat) (ls : List (AttLine × Nat)) : (numbered reserved 0 ls).map (·.1) = ls.map (·.1) := by
  apply List.ext_getElem?
  intro k
  rw [List.getElem?_map, numbered_get, List.getElem?_map, Option.map_map]
  rfl

/-- The transitions of a state by the numbers of the lines. -/
theorem numbered_lines {symbols : List (List Nat)} {wls : List (Line × Nat)} {reserved : Nat → Nat} (i : Nat) :
    ((((numbered reserved 0 (wls.map fun x => (bline x.1, x.2))).filter fun x => wlSrc x = i).map
      fun x => (⟨lineTrans symbols x.1, x.2.1, x.2.2⟩ : WTrans)).map some) =
    (lineNumbers ((wls.map (·.1)).map bline) i).map fun k => ((wls.map (·.1))[k]?).map (lineTransW symbols wls reserved k) := by
  have h := congrArg (List.map (Option.map fun x : WL => (⟨lineTrans symbols x.1, x.2.1, x.2.2⟩ : WTrans)))
    (numbers_filter wlSrc (numbered reserved 0 (wls.map fun x => (bline x.1, x.2))) i)
  rw [List.map_map, List.map_map] at h
  rw [List.map_map]
  refine Eq.trans ?_ (h.symm.trans ?_)
  · rfl
  · have hl : (numbered reserved 0 (wls.map fun x => (bline x.1, x.2))).length = ((wls.map (·.1)).map bline).length := by
      rw [← List.length_map (f := fun x : WL => x.1), numbered_fst]; simp
    unfold lineNumbers
    rw [hl]
    have e : ((List.range ((wls.map (·.1)).map bline).length).filter fun k =>
          decide (((numbered reserved 0 (wls.map fun x => (bline x.1, x.2)))[k]?).map wlSrc = some i)) =
        (List.range ((wls.map (·.1)).map bline).length).filter fun k => decide ((((wls.map (·.1)).map bline)[k]?).map lineSrc = some i) := by
      apply List.filter_congr
      intro k _
      rw [numbered_get]
      simp only [List.getElem?_map, Option.map_map]
      rfl
    rw [e]
    apply List.map_congr_left
    intro k _
    simp only [Function.comp, numbered_get, List.getElem?_map, Option.map_map]
    cases hk : wls[k]? with
    | none => rfl
    | some x => simp [lineTransW, weightAt, hk]

/-- The compiler writes the file of the tables for the lines that the text describes. -/
theorem compileW_tables {N : AttNumbers} {reserved : Nat → Nat} {text : List Nat} {wls : List (Line × Nat)} (hd : DescribesW N text wls)
    (hp : Proper (wls.map (·.1))) {srtS : List (Nat × List Nat) → List (Nat × List Nat)} {srtT : List WTrans → List WTrans}
    (hS : SortsBy (fun a b => attSymLt a.2 b.2) srtS) (hT : SortsBy (fun a b => fileOrderLt a.t b.t) srtT) (sw : Bool) :
    ∃ symbols states, attCompileW N reserved srtS srtT sw text = some (writeFileW sw symbols states) ∧
      Compiled (wls.map (·.1)) symbols (bare states) ∧
      ∀ (i : Nat) s, states[i]? = some s → (s.map some).Perm
        ((lineNumbers ((wls.map (·.1)).map bline) i).map fun k => ((wls.map (·.1))[k]?).map (lineTransW symbols wls reserved k)) := by
  obtain ⟨st, T, m, h1, b⟩ := addLines_spec built_nil (in_order hp) (by
      intro l hl t ht
      obtain ⟨l0, hl0, rfl⟩ := List.mem_map.1 hl
      obtain ⟨s, hs, rfl⟩ := mem_lineSyms ht
      exact proper_not_bracket (hp.symbols l0 hl0 s hs)) (fun T' hn hf => few_symbols hp hn hf)
  rw [List.nil_append] at b
  have hlen := few_symbols hp b.nodup (by
    intro t ht
    exact b.from' t ht)
  have hls : (wls.map fun x => (bline x.1, x.2)).map (·.1) = (wls.map (·.1)).map bline := by simp
  obtain ⟨stW, m', hw1, hw2, hw3⟩ := addLinesW_spec (reserved := reserved) (ls := wls.map fun x => (bline x.1, x.2)) (k := 0) (m := 0) (pre := [])
    (st := { syms := [(0, [])], states := [] }) (st1 := st) (by rw [hls]; exact h1) (by intro x hx; cases hx) rfl
  rw [List.nil_append] at hw3
  have hsy : stW.syms = coded T := by rw [← b.syms, ← hw2]; rfl
  have hbare : bare stW.states = stateLists T m ((wls.map (·.1)).map bline) := by rw [← b.states, ← hw2]; rfl
  have hmm : m' = m := by
    have e1 := congrArg List.length hw3
    have e2 := congrArg List.length hbare
    rw [bare_length, stateLists_length] at e2
    rw [List.length_map] at e1
    have : (listsBy wlSrc (·.2) m' (numbered reserved 0 (wls.map fun x => (bline x.1, x.2)))).length = m' := by simp [listsBy]
    omega
  rw [hmm] at hw3
  let A := fun i => (numbered reserved 0 (wls.map fun x => (bline x.1, x.2))).filter fun x => decide (wlSrc x = i)
  have hAfst : ∀ i, (A i).map (·.1) = ((wls.map (·.1)).map bline).filter fun l => decide (lineSrc l = i) := by
    intro i
    rw [← hls, ← numbered_fst reserved, List.filter_map]
    rfl
  have hst : stW.states = (List.range m).map fun i => (A i).map fun x => (⟨lineTrans T x.1, x.2.1, x.2.2⟩ : WTrans) := by
    apply List.ext_getElem?
    intro i
    have e1 := congrArg (fun L => L[i]?) hbare
    have e2 := congrArg (fun L => L[i]?) hw3
    simp only [bare, stateLists, listsBy, List.getElem?_map] at e1 e2
    rw [List.getElem?_map]
    by_cases hi : i < m
    · rw [List.getElem?_range hi] at e1 e2 ⊢
      cases hs : stW.states[i]? with
      | none => rw [hs] at e1; cases e1
      | some s =>
        rw [hs, Option.map_some, Option.map_some, Option.some.injEq] at e1 e2
        rw [Option.map_some, Option.some.injEq]
        refine wtrans_ext (tr := fun x : WL => lineTrans T x.1) (ex := fun x => x.2) ?_ e2
        rw [e1, ← hAfst i, List.map_map]
        rfl
    · have hr : (List.range m)[i]? = none := List.getElem?_eq_none (by simpa using hi)
      rw [hr] at e1 ⊢
      cases hs : stW.states[i]? with
      | none => rfl
      | some s => rw [hs] at e1; cases e1
  obtain ⟨hperm, hsort⟩ := hS stW.syms
  rw [hsy] at hperm hsort
  let symbols := (srtS (coded T)).map (·.2)
  have hsp : symbols.Perm T := sorted_perm hperm
  have hmem : ∀ t, t ∈ symbols ↔ t ∈ T := fun t => hsp.mem_iff
  have hsorted : symbols.Pairwise fun a b => attSymLt b a = false := by
    show ((srtS (coded T)).map (·.2)).Pairwise _
    rw [List.pairwise_map]
    exact hsort
  let S := fun i => (A i).map fun x => (⟨lineTrans symbols x.1, x.2.1, x.2.2⟩ : WTrans)
  have hget : ∀ (i : Nat) s, (((List.range m).map S).map srtT)[i]? = some s → i < m ∧ s = srtT (S i) := by
    intro i s hs
    rw [List.getElem?_map, List.getElem?_map] at hs
    by_cases hi : i < m
    · rw [List.getElem?_range hi] at hs
      exact ⟨hi, (Option.some.inj hs).symm⟩
    · rw [List.getElem?_eq_none (by simpa using hi)] at hs
      cases hs
  refine ⟨symbols, ((List.range m).map S).map srtT, ?_, ?_, ?_⟩
  · unfold attCompileW
    rw [addAllW_spec hd, hw1]
    simp only [hsy, hst, Option.bind_eq_bind, Option.bind_some]
    have : ((List.range m).map fun i => (A i).map fun x => (⟨lineTrans T x.1, x.2.1, x.2.2⟩ : WTrans)).mapM
        (fun s => s.mapM (attRenumberW (attPairs (srtS (coded T))))) = some ((List.range m).map S) := by
      rw [List.mapM_map]
      apply mapM_some
      intro i _
      simp only [Function.comp]
      rw [List.mapM_map]
      apply mapM_some
      intro x hx
      have hx' : x.1 ∈ (A i).map (·.1) := List.mem_map.2 ⟨x, hx, rfl⟩
      rw [hAfst] at hx'
      have := renumber_spec hperm b.nodup hlen (b.all x.1 (List.mem_filter.1 hx').1)
      simp only [Function.comp, attRenumberW, this, Option.bind_eq_bind, Option.bind_some]
      rfl
    rw [this]
    rfl
  · refine ⟨hsp.nodup_iff.2 b.nodup, by rw [hsp.length_eq]; exact hlen, ?_, ?_, ?_, hsorted, ?_, ?_, ?_⟩
    · intro t ht
      rcases b.from' t ((hmem t).1 ht) with h | ⟨x, hx, h⟩
      · exact .inl h
      · obtain ⟨l, hl, rfl⟩ := List.mem_map.1 hx
        exact .inr ⟨l, hl, h⟩
    · intro l hl t ht
      exact (hmem t).2 (b.all _ (List.mem_map.2 ⟨l, hl, rfl⟩) t ht)
    · exact sorted_first ((hmem _).2 (List.mem_of_getElem? b.first)) hsorted
    · intro i s hs
      unfold bare at hs
      rw [List.getElem?_map] at hs
      obtain ⟨s0, hs0, rfl⟩ := Option.map_eq_some_iff.1 hs
      obtain ⟨hi, rfl⟩ := hget i s0 hs0
      refine ((hT _).1.map _).trans (List.Perm.of_eq ?_)
      rw [← hAfst i, List.map_map, List.map_map]
      rfl
    · intro s hs
      obtain ⟨s0, hs0, rfl⟩ := List.mem_map.1 hs
      obtain ⟨i, hi⟩ := List.getElem?_of_mem hs0
      obtain ⟨_, rfl⟩ := hget i s0 hi
      rw [List.pairwise_map]
      exact (hT _).2
    · intro i
      rw [bare_length, List.length_map, List.length_map, List.length_range, b.srcs i]
      constructor
      · rintro ⟨x, hx, e⟩
        obtain ⟨l, hl, rfl⟩ := List.mem_map.1 hx
        exact ⟨l, hl, by rw [← src_bline]; exact e⟩
      · rintro ⟨l, hl, e⟩
        exact ⟨bline l, List.mem_map.2 ⟨l, hl, rfl⟩, by rw [src_bline]; exact e⟩
  · intro i s hs
    obtain ⟨hi, rfl⟩ := hget i s hs
    rw [← numbered_lines i]
    exact (hT _).1.map some

end Verif.Att
