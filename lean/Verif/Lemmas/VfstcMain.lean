import Verif.Model.VfstcMain
import Verif.Lemmas.ToolArgs
import Verif.Lemmas.FstTextCompile
/-!
# Lemmas about `main` of `voikkovfstc`
-/

namespace Verif.Vfstc
open Verif Verif.Props Verif.Att Verif.Args

/-! ### The arguments -/

/-- The options of the compiler that have values. -/
def keys : List Arg := [lit "-o", lit "-f", lit "-w"]

/-- The value is one of the kinds of weights. -/
def kindOf (v : Arg) : Option WeightKind := if v = lit "prob" then some .prob else if v = lit "log" then some .log else none

/-- What an item changes. -/
def upd (s : VfstcArgs) : Item → VfstcArgs
  | .valued k v =>
    if k = lit "-o" then { s with outputFile := v }
    else if k = lit "-f" then { s with format := v }
    else if k = lit "-w" then { s with weights := true, weightFunc := kindOf v }
    else s
  | .word _ => s

/-- The item has a weight of an unknown kind. -/
def BadKind (it : Item) : Prop := ∃ v, it = .valued (lit "-w") v ∧ kindOf v = none

theorem args_word {w : Arg} (h : w ∉ keys) (r : List Arg) (s : VfstcArgs) : vfstcArgs (w :: r) s = vfstcArgs r s := by
  simp only [keys, List.mem_cons, List.not_mem_nil, or_false, not_or] at h
  cases r with
  | nil => rfl
  | cons v r => rw [vfstcArgs, if_neg h.1, if_neg h.2.1, if_neg h.2.2]

theorem args_valued {k v : Arg} (h : k ∈ keys) (r : List Arg) (s : VfstcArgs) :
    (BadKind (.valued k v) → vfstcArgs (k :: v :: r) s = none) ∧ (¬ BadKind (.valued k v) → vfstcArgs (k :: v :: r) s = vfstcArgs r (upd s (.valued k v))) := by
  simp only [keys, List.mem_cons, List.not_mem_nil, or_false] at h
  have ho : lit "-f" ≠ lit "-o" := by decide
  have hw : lit "-w" ≠ lit "-o" := by decide
  have hw' : lit "-w" ≠ lit "-f" := by decide
  rw [vfstcArgs]
  rcases h with rfl | rfl | rfl
  · refine ⟨fun ⟨v', e, _⟩ => absurd (Item.valued.inj e).1.symm hw, fun _ => ?_⟩
    rw [if_pos rfl]
    simp only [upd, if_true]
  · refine ⟨fun ⟨v', e, _⟩ => absurd (Item.valued.inj e).1.symm hw', fun _ => ?_⟩
    rw [if_neg ho, if_pos rfl]
    simp only [upd, if_neg ho, if_true]
  · rw [if_neg hw, if_neg hw', if_pos rfl]
    simp only [upd, if_neg hw, if_neg hw', if_true]
    constructor
    · rintro ⟨v', e, hk⟩
      cases e
      unfold kindOf at hk
      split at hk
      · cases hk
      · rename_i h1
        split at hk
        · cases hk
        · rename_i h2
          rw [if_neg h1, if_neg h2]
    · intro hb
      by_cases h1 : v = lit "prob"
      · rw [if_pos h1, kindOf, if_pos h1]
      · rw [if_neg h1]
        by_cases h2 : v = lit "log"
        · rw [if_pos h2, kindOf, if_neg h1, if_pos h2]
        · exact absurd ⟨v, rfl, by rw [kindOf, if_neg h1, if_neg h2]⟩ hb

theorem args_spec : (items : List Item) → (args : List Arg) → (rest : Option Arg) → (s : VfstcArgs) → Reads keys args items rest →
    ((∃ it ∈ items, BadKind it) → vfstcArgs args s = none) ∧ ((¬ ∃ it ∈ items, BadKind it) → vfstcArgs args s = some (items.foldl upd s))
  | [], args, rest, s, h => by
    refine ⟨fun ⟨_, hm, _⟩ => absurd hm List.not_mem_nil, fun _ => ?_⟩
    rw [h.split]
    cases rest <;> rfl
  | .word w :: items, args, rest, s, h => by
    rw [h.split]
    simp only [List.flatMap_cons, Item.args, List.cons_append, List.nil_append]
    rw [args_word (h.word w List.mem_cons_self)]
    obtain ⟨a, b⟩ := args_spec items _ rest s h.tail
    refine ⟨fun ⟨it, hm, hb⟩ => ?_, fun hb => b fun ⟨it, hm, hx⟩ => hb ⟨it, List.mem_cons_of_mem _ hm, hx⟩⟩
    rcases List.mem_cons.1 hm with rfl | hm
    · obtain ⟨_, e, _⟩ := hb
      cases e
    · exact a ⟨it, hm, hb⟩
  | .valued k v :: items, args, rest, s, h => by
    rw [h.split]
    simp only [List.flatMap_cons, Item.args, List.cons_append, List.nil_append]
    obtain ⟨p, q⟩ := args_valued (h.valued k v List.mem_cons_self) (v := v) (items.flatMap Item.args ++ rest.toList) s
    by_cases hbad : BadKind (.valued k v)
    · exact ⟨fun _ => p hbad, fun hb => absurd ⟨_, List.mem_cons_self, hbad⟩ hb⟩
    · rw [q hbad]
      obtain ⟨a, b⟩ := args_spec items _ rest (upd s (.valued k v)) h.tail
      refine ⟨fun ⟨it, hm, hb⟩ => ?_, fun hb => b fun ⟨it, hm, hx⟩ => hb ⟨it, List.mem_cons_of_mem _ hm, hx⟩⟩
      rcases List.mem_cons.1 hm with rfl | hm
      · exact absurd hb hbad
      · exact a ⟨it, hm, hb⟩

theorem upd_output (items : List Item) (s : VfstcArgs) : (items.foldl upd s).outputFile = (lastOf (valueOf "-o") items).getD s.outputFile := by
  refine foldl_last upd (·.outputFile) (valueOf "-o") items (fun it _ s => ?_) s
  cases it with
  | word w => rfl
  | valued k v => simp only [upd, valueOf]; (repeat' split) <;> rfl

theorem upd_format (items : List Item) (s : VfstcArgs) : (items.foldl upd s).format = (lastOf (valueOf "-f") items).getD s.format := by
  refine foldl_last upd (·.format) (valueOf "-f") items (fun it _ s => ?_) s
  cases it with
  | word w => rfl
  | valued k v =>
    simp only [upd, valueOf]
    by_cases h1 : k = lit "-o"
    · rw [if_pos h1, if_neg (by rw [h1]; decide)]; rfl
    · rw [if_neg h1]; (repeat' split) <;> rfl

theorem upd_weights (items : List Item) (s : VfstcArgs) :
    ((items.foldl upd s).weights, (items.foldl upd s).weightFunc) = ((lastOf (valueOf "-w") items).map fun v => (true, kindOf v)).getD (s.weights, s.weightFunc) := by
  have := foldl_last upd (fun s => (s.weights, s.weightFunc)) (fun it => (valueOf "-w" it).map fun v => (true, kindOf v)) items (fun it _ s => ?_) s
  · rw [this]
    congr 1
    induction items with
    | nil => rfl
    | cons it r ih =>
      rw [lastOf_cons, lastOf_cons]
      rw [ih ((foldl_last upd (fun s => (s.weights, s.weightFunc)) (fun it => (valueOf "-w" it).map fun v => (true, kindOf v)) r (fun it _ s => ?_) s))]
      · cases lastOf (valueOf "-w") r <;> cases valueOf "-w" it <;> rfl
      · cases it with
        | word w => rfl
        | valued k v =>
          simp only [upd, valueOf]
          by_cases h1 : k = lit "-o"
          · rw [if_pos h1, if_neg (by rw [h1]; decide)]; rfl
          · rw [if_neg h1]
            by_cases h2 : k = lit "-f"
            · rw [if_pos h2, if_neg (by rw [h2]; decide)]; rfl
            · rw [if_neg h2]; split <;> rfl
  · cases it with
    | word w => rfl
    | valued k v =>
      simp only [upd, valueOf]
      by_cases h1 : k = lit "-o"
      · rw [if_pos h1, if_neg (by rw [h1]; decide)]; rfl
      · rw [if_neg h1]
        by_cases h2 : k = lit "-f"
        · rw [if_pos h2, if_neg (by rw [h2]; decide)]; rfl
        · rw [if_neg h2]; split <;> rfl

/-! ### The two stages -/

theorem writeFile_offsets {sw : Bool} {symbols : List (List Nat)} {states : List (List CTrans)} (h : stateOffsets 0 states = none) : writeFile sw symbols states = none := by
  unfold writeFile tableCells
  rw [h]
  rfl

theorem writeFileW_offsets {sw : Bool} {symbols : List (List Nat)} {states : List (List WTrans)} (h : stateOffsets 0 (states.map fun s => s.map (·.t)) = none) :
    writeFileW sw symbols states = none := by
  unfold writeFileW wtableCells
  rw [h]
  rfl

theorem plain_compile (srtS : List (Nat × List Nat) → List (Nat × List Nat)) (srtT : List CTrans → List CTrans) (sw : Bool) (text : List Nat) :
    attCompile srtS srtT sw text = (vfstcPlain srtS srtT sw text).map fun r => r.bind id := by
  unfold attCompile vfstcPlain
  cases attAddAll { syms := [(0, [])], states := [] } (attLines [] text) with
  | none => rfl
  | some st =>
    simp only [Option.bind_eq_bind]
    cases st.states.mapM fun s => s.mapM (attRenumber (attPairs (srtS st.syms))) with
    | none => rfl
    | some states =>
      simp only [Option.bind_some]
      cases h : stateOffsets 0 (states.map srtT) with
      | none => simp only [writeFile_offsets h]; rfl
      | some o => rfl

theorem weighted_compile (N : AttNumbers) (reserved : Nat → Nat) (srtS : List (Nat × List Nat) → List (Nat × List Nat)) (srtT : List WTrans → List WTrans) (sw : Bool)
    (text : List Nat) : attCompileW N reserved srtS srtT sw text = (vfstcWeighted N reserved srtS srtT sw text).map fun r => r.bind id := by
  unfold attCompileW vfstcWeighted
  simp only [Option.bind_eq_bind]
  cases attAddAllW N reserved 0 { syms := [(0, [])], states := [] } (attLines [] text) with
  | none => rfl
  | some st =>
    cases st with
    | none => rfl
    | some st =>
      simp only [Option.bind_some]
      cases st.states.mapM fun s => s.mapM (attRenumberW (attPairs (srtS st.syms))) with
      | none => rfl
      | some states =>
        simp only [Option.bind_some]
        cases h : stateOffsets 0 ((states.map srtT).map fun s => s.map (·.t)) with
        | none => simp only [writeFileW_offsets h]; rfl
        | some o => rfl

/-! ### The lines of the text -/

/-- There are not too many symbols. -/
def Few (ls : List Line) : Prop := ∃ all : List (List Wc), all.length < 65535 ∧ ∀ l ∈ ls, ∀ s ∈ l.symbols, s ∈ all

theorem few_lines {ls : List Line} (h : Few ls) {T : List (List Nat)} (hn : T.Nodup)
    (hf : ∀ t ∈ T, t = [] ∨ ∃ x ∈ [] ++ ls.map bline, t ∈ lineSyms x) : T.length < 65536 := by
  obtain ⟨all, hl, ha⟩ := h
  have hsub : T ⊆ [] :: all.map encodeStr := by
    intro t ht
    rcases hf t ht with rfl | ⟨x, hx, hm⟩
    · exact List.mem_cons_self
    · rw [List.nil_append] at hx
      obtain ⟨l, hl', rfl⟩ := List.mem_map.1 hx
      obtain ⟨s, hs, rfl⟩ := mem_lineSyms hm
      exact List.mem_cons_of_mem _ (List.mem_map.2 ⟨s, ha l hl' s hs, rfl⟩)
  have := (List.Nodup.subperm hn hsub).length_le
  rw [List.length_cons, List.length_map] at this
  omega

theorem intern_bracket {T : List (List Nat)} (h : [91] ∉ T) : attIntern [91] (coded T) = none := by
  unfold attIntern
  rw [coded_find, if_neg h]
  rfl

theorem add_order {st : AttTab} {l : AttLine} (h : st.states.length < lineSrc l) : attAdd st l = none := by
  cases l with
  | final s => simp only [attAdd, attPush]; rw [if_pos (show st.states.length < s from h)]; rfl
  | arc s t i o => simp only [attAdd]; rw [if_pos (show st.states.length < s from h)]

theorem add_bracket {ls : List AttLine} {st : AttTab} {T : List (List Nat)} {m : Nat} {l : AttLine} (b : Built ls st T m) (hT : [91] ∉ T)
    (hsrc : lineSrc l ≤ m) (hl : T.length < 65536) (h : [91] ∈ lineSyms l) : attAdd st l = none := by
  cases l with
  | final s => cases h
  | arc s t i o =>
    have hm : ¬ st.states.length < s := by rw [b.states, stateLists_length]; exact Nat.not_lt.2 hsrc
    simp only [attAdd]
    rw [if_neg hm, b.syms]
    by_cases hi : i = [91]
    · rw [hi, intern_bracket hT]; rfl
    · rw [intern_spec hi hl]
      have ho : o = [91] := by
        simp only [lineSyms, List.mem_cons, List.not_mem_nil, or_false] at h
        exact (h.resolve_left fun e => hi e.symm).symm
      simp only [Option.bind_eq_bind, Option.bind_some]
      rw [ho, intern_bracket fun e => (withSym_sub e).elim hT fun e => hi e.symm]
      rfl

/-- The lines are read, or one of them is not in order or has a bracket as a symbol. -/
theorem addLines_none {pre ls : List AttLine} {st : AttTab} {T : List (List Nat)} {m : Nat} (b : Built pre st T m) (hpre : ∀ l ∈ pre, [91] ∉ lineSyms l)
    (hlen : ∀ T' : List (List Nat), T'.Nodup → (∀ t ∈ T', t = [] ∨ ∃ x ∈ pre ++ ls, t ∈ lineSyms x) → T'.length < 65536) :
    addLines st ls = none ∨ (InOrder pre ls ∧ ∀ l ∈ ls, [91] ∉ lineSyms l) := by
  induction ls generalizing pre st T m with
  | nil =>
    refine .inr ⟨?_, by simp⟩
    intro a l b e
    cases a <;> cases e
  | cons l ls ih =>
    have hfrom : ∀ x ∈ T, x = [] ∨ ∃ y ∈ pre ++ l :: ls, x ∈ lineSyms y := fun x hx =>
      (b.from' x hx).imp id fun ⟨y, hy, h⟩ => ⟨y, List.mem_append_left _ hy, h⟩
    have hT : [91] ∉ T := by
      intro h
      rcases b.from' _ h with h | ⟨x, hx, h⟩
      · cases h
      · exact hpre x hx h
    rw [addLines]
    by_cases hsrc : lineSrc l ≤ m
    · by_cases hbr : [91] ∈ lineSyms l
      · rw [add_bracket b hT hsrc (hlen T b.nodup hfrom) hbr]
        exact .inl rfl
      · obtain ⟨st1, T1, h1, b1⟩ := add_spec b hsrc (fun t ht e => hbr (e ▸ ht)) (by
          intro T' hn hf
          refine hlen T' hn fun t ht => (hf t ht).imp id fun ⟨y, hy, h⟩ => ⟨y, ?_, h⟩
          rcases List.mem_append.1 hy with hy | hy
          · exact List.mem_append_left _ hy
          · rw [List.mem_singleton.1 hy]; simp)
        rw [h1, Option.bind_some]
        rcases ih b1 (by
          intro x hx
          rcases List.mem_append.1 hx with hx | hx
          · exact hpre x hx
          · rw [List.mem_singleton.1 hx]; exact hbr) (by rw [List.append_assoc]; exact hlen) with h | ⟨h2, h3⟩
        · exact .inl h
        · refine .inr ⟨?_, ?_⟩
          · intro a x c e s hs
            cases a with
            | nil =>
              cases e
              obtain ⟨y, hy, e⟩ := (b.srcs s).1 (by omega)
              exact ⟨y, by simpa using hy, e⟩
            | cons y a =>
              cases e
              obtain ⟨z, hz, e⟩ := h2 a x c rfl s hs
              exact ⟨z, by simpa using hz, e⟩
          · intro x hx
            rcases List.mem_cons.1 hx with rfl | hx
            · exact hbr
            · exact h3 x hx
    · rw [add_order (by rw [b.states, stateLists_length]; omega)]
      exact .inl rfl

/-- The states are numbered in the order in which their lines begin. -/
def Ordered (ls : List Line) : Prop :=
  ∀ (k : Nat) (l : Line), ls[k]? = some l → ∀ s, s < l.src → ∃ (j : Nat) (l' : Line), j < k ∧ ls[j]? = some l' ∧ l'.src = s

theorem ordered_iff (ls : List Line) : InOrder [] (ls.map bline) ↔ Ordered ls := by
  constructor
  · intro h k l hk s hs
    obtain ⟨hk', e⟩ := List.getElem?_eq_some_iff.1 hk
    obtain ⟨x, hx, e2⟩ := h ((ls.map bline).take k) (bline l) ((ls.map bline).drop (k + 1)) (by
      have : (ls.map bline)[k]'(by rw [List.length_map]; exact hk') = bline l := by rw [List.getElem_map, e]
      rw [← this, List.getElem_cons_drop, List.take_append_drop]) s (by rw [src_bline]; exact hs)
    rw [List.nil_append] at hx
    obtain ⟨j, hj⟩ := List.getElem?_of_mem hx
    rw [List.getElem?_take] at hj
    split at hj
    · rename_i hjk
      rw [List.getElem?_map] at hj
      obtain ⟨l', h1, rfl⟩ := Option.map_eq_some_iff.1 hj
      exact ⟨j, l', hjk, h1, by rw [← src_bline]; exact e2⟩
    · cases hj
  · intro h a l b e s hs
    have hk : (ls.map bline)[a.length]? = some l := by rw [e]; simp
    rw [List.getElem?_map, Option.map_eq_some_iff] at hk
    obtain ⟨l0, hk, rfl⟩ := hk
    rw [src_bline] at hs
    obtain ⟨j, l', hj, hl', he⟩ := h _ _ hk s hs
    refine ⟨bline l', ?_, by rw [src_bline]; exact he⟩
    rw [List.nil_append]
    have : (ls.map bline)[j]? = some (bline l') := by rw [List.getElem?_map, hl']; rfl
    rw [e, List.getElem?_append_left hj] at this
    exact List.mem_of_getElem? this

theorem bracket_iff (l : Line) : [91] ∈ lineSyms (bline l) ↔ [91] ∈ l.symbols := by
  have one : ∀ s : List Wc, encodeStr s = [91] ↔ s = [91] := by
    intro s
    constructor
    · intro e
      have hh : (encodeStr s).head? = some 91 := by rw [e]; rfl
      rw [encode_head (by decide)] at hh
      have hl := length_encode s
      rw [e] at hl
      match s, hh, hl with
      | [c], hh, _ => rw [List.head?_cons, Option.some.injEq] at hh; rw [hh]
      | _ :: _ :: _, _, hl => simp at hl
    · rintro rfl; rfl
  cases l with
  | final s => simp [bline, lineSyms, Line.symbols]
  | arc a =>
    simp only [bline, lineSyms, Line.symbols, List.mem_cons, List.not_mem_nil, or_false]
    rw [eq_comm, one, eq_comm (b := encodeStr a.out), one, eq_comm (b := [91]), eq_comm (a := a.out)]

theorem stateOffsets_length : (states : List (List CTrans)) → (off : Nat) → (∀ s ∈ states, s ≠ []) →
    ∃ os, stateOffsets off states = some os ∧ os.length = states.length
  | [], _, _ => ⟨[], rfl, rfl⟩
  | s :: ss, off, h => by
    obtain ⟨os, e, hl⟩ := stateOffsets_length ss ((off + stateSize s.length) % 2 ^ 32) fun x hx => h x (List.mem_cons_of_mem _ hx)
    rw [stateOffsets, if_neg fun e => h s List.mem_cons_self (List.length_eq_zero_iff.1 e), e]
    exact ⟨off :: os, rfl, by rw [List.length_cons, List.length_cons, hl]⟩

theorem mapM_none_iff {α β : Type} (f : α → Option β) : (l : List α) → (l.mapM f = none ↔ ∃ x ∈ l, f x = none)
  | [] => by simp
  | x :: l => by
    rw [List.mapM_cons]
    have ih := mapM_none_iff f l
    cases h : f x with
    | none => simp [h]
    | some y =>
      cases h2 : l.mapM f with
      | none =>
        obtain ⟨z, hz, e⟩ := ih.1 h2
        simp only [Option.bind_eq_bind, Option.bind_some, Option.bind_none, true_iff]
        exact ⟨z, List.mem_cons_of_mem _ hz, e⟩
      | some ys =>
        simp only [Option.bind_eq_bind, Option.bind_some, Option.pure_def, reduceCtorEq, false_iff]
        rintro ⟨z, hz, e⟩
        rcases List.mem_cons.1 hz with rfl | hz
        · rw [h] at e; cases e
        · have := ih.2 ⟨z, hz, e⟩; rw [h2] at this; cases this

theorem writeFile_none {sw : Bool} {symbols : List (List Nat)} {states : List (List CTrans)} (hne : ∀ s ∈ states, s ≠ []) :
    writeFile sw symbols states = none ↔ ∃ s ∈ states, ∃ t ∈ s, states.length ≤ t.targetOrd := by
  obtain ⟨os, e, hl⟩ := stateOffsets_length states 0 hne
  have hset : ∀ s, setTargets os s = none ↔ ∃ t ∈ s, states.length ≤ t.targetOrd := by
    intro s
    unfold setTargets
    rw [mapM_none_iff]
    constructor
    · rintro ⟨t, ht, h⟩
      rw [Option.map_eq_none_iff, List.getElem?_eq_none_iff, hl] at h
      exact ⟨t, ht, h⟩
    · rintro ⟨t, ht, h⟩
      exact ⟨t, ht, by rw [Option.map_eq_none_iff, List.getElem?_eq_none_iff, hl]; exact h⟩
  unfold writeFile tableCells
  rw [Option.map_eq_none_iff, e]
  simp only [Option.bind_eq_bind, Option.bind_some]
  rw [← show (∃ s ∈ states, setTargets os s = none) ↔ ∃ s ∈ states, ∃ t ∈ s, states.length ≤ t.targetOrd from
    ⟨fun ⟨s, hs, h⟩ => ⟨s, hs, (hset s).1 h⟩, fun ⟨s, hs, h⟩ => ⟨s, hs, (hset s).2 h⟩⟩, ← mapM_none_iff]
  cases states.mapM (setTargets os) <;> simp

/-- What the compiler makes of lines that it can read. -/
theorem plain_text {text : List Nat} {ls : List Line} (hd : Describes text ls) (hfew : Few ls)
    {srtS : List (Nat × List Nat) → List (Nat × List Nat)} {srtT : List CTrans → List CTrans}
    (hS : SortsBy (fun a b => attSymLt a.2 b.2) srtS) (hT : SortsBy fileOrderLt srtT) (sw : Bool) :
    (¬ (Ordered ls ∧ ∀ l ∈ ls, [91] ∉ l.symbols) → vfstcPlain srtS srtT sw text = some none) ∧
    ((Ordered ls ∧ ∀ l ∈ ls, [91] ∉ l.symbols) → (∃ a, Line.arc a ∈ ls ∧ ∀ l ∈ ls, l.src ≠ a.tgt) → vfstcPlain srtS srtT sw text = some (some none)) ∧
    ((Ordered ls ∧ ∀ l ∈ ls, [91] ∉ l.symbols) → (∀ a, Line.arc a ∈ ls → ∃ l ∈ ls, l.src = a.tgt) → ∃ file, vfstcPlain srtS srtT sw text = some (some (some file))) := by
  have hlen := fun T hn hf => few_lines (T := T) hfew hn hf
  constructor
  · intro h
    unfold vfstcPlain
    rw [addAll_spec hd]
    rcases addLines_none built_nil (by simp) hlen with h1 | ⟨h1, h2⟩
    · rw [h1]; rfl
    · exact absurd ⟨(ordered_iff ls).1 h1, fun l hl e => h2 _ (List.mem_map.2 ⟨l, hl, rfl⟩) ((bracket_iff l).2 e)⟩ h
  suffices key : (Ordered ls ∧ ∀ l ∈ ls, [91] ∉ l.symbols) → ∃ w, vfstcPlain srtS srtT sw text = some (some w) ∧
      (w = none ↔ ∃ a, Line.arc a ∈ ls ∧ ∀ l ∈ ls, l.src ≠ a.tgt) by
    constructor
    · intro h1 h2
      obtain ⟨w, e, hw⟩ := key h1
      rw [e, hw.2 h2]
    · intro h1 h2
      obtain ⟨w, e, hw⟩ := key h1
      cases w with
      | some file => exact ⟨file, e⟩
      | none =>
        obtain ⟨a, ha, hn⟩ := hw.1 rfl
        obtain ⟨l, hl, e⟩ := h2 a ha
        exact absurd e (hn l hl)
  rintro ⟨h1, h2⟩
  obtain ⟨st, T, m, e, b⟩ := addLines_spec built_nil ((ordered_iff ls).2 h1) (by
    intro l hl t ht hb
    obtain ⟨l0, hl0, rfl⟩ := List.mem_map.1 hl
    exact h2 l0 hl0 ((bracket_iff l0).1 (hb ▸ ht))) hlen
  rw [List.nil_append] at b
  have hl := hlen T b.nodup (fun t ht => b.from' t ht)
  obtain ⟨hperm, -⟩ := hS st.syms
  rw [b.syms] at hperm
  let symbols := (srtS (coded T)).map (·.2)
  have hren : (stateLists T m (ls.map bline)).mapM (fun s => s.mapM (attRenumber (attPairs (srtS (coded T))))) =
      some (stateLists symbols m (ls.map bline)) := by
    unfold stateLists
    rw [List.mapM_map]
    apply mapM_some
    intro i _
    simp only [Function.comp]
    rw [List.mapM_map]
    apply mapM_some
    intro l hl'
    exact renumber_spec hperm b.nodup hl (b.all l (List.mem_filter.1 hl').1)
  have hne : ∀ s ∈ (stateLists symbols m (ls.map bline)).map srtT, s ≠ [] := by
    intro s hs e
    obtain ⟨s0, hs0, rfl⟩ := List.mem_map.1 hs
    have hn : s0 = [] := by
      have := (hT s0).1.length_eq
      rw [e] at this
      exact List.length_eq_zero_iff.1 this.symm
    unfold stateLists at hs0
    obtain ⟨i, hi, rfl⟩ := List.mem_map.1 hs0
    obtain ⟨l, hl1, hl2⟩ := (b.srcs i).1 (List.mem_range.1 hi)
    have hm : l ∈ (ls.map bline).filter fun l => lineSrc l = i := List.mem_filter.2 ⟨hl1, by rw [decide_eq_true_eq]; exact hl2⟩
    rw [List.map_eq_nil_iff.1 hn] at hm
    cases hm
  obtain ⟨os, eo, _⟩ := stateOffsets_length _ 0 hne
  refine ⟨writeFile sw symbols ((stateLists symbols m (ls.map bline)).map srtT), ?_, ?_⟩
  · unfold vfstcPlain
    rw [addAll_spec hd, e]
    simp only [b.syms, b.states, hren, Option.bind_eq_bind, Option.bind_some, eo]
    rfl
  · rw [writeFile_none hne, List.length_map, stateLists_length]
    constructor
    · rintro ⟨s, hs, t, ht, hlt⟩
      obtain ⟨s0, hs0, rfl⟩ := List.mem_map.1 hs
      have ht := (hT s0).1.mem_iff.1 ht
      unfold stateLists at hs0
      obtain ⟨i, hi, rfl⟩ := List.mem_map.1 hs0
      obtain ⟨x, hx, rfl⟩ := List.mem_map.1 ht
      obtain ⟨l, hl1, rfl⟩ := List.mem_map.1 (List.mem_filter.1 hx).1
      cases l with
      | final s =>
        have : 0 < m := Nat.lt_of_le_of_lt (Nat.zero_le _) (List.mem_range.1 hi)
        simp only [bline, lineTrans] at hlt
        omega
      | arc a =>
        refine ⟨a, hl1, fun l hl2 e => ?_⟩
        have := (b.srcs a.tgt).2 ⟨bline l, List.mem_map.2 ⟨l, hl2, rfl⟩, by rw [src_bline]; exact e⟩
        simp only [bline, lineTrans] at hlt
        omega
    · rintro ⟨a, ha, hn⟩
      have ham : bline (.arc a) ∈ ls.map bline := List.mem_map.2 ⟨_, ha, rfl⟩
      have hsrc : a.src < m := (b.srcs a.src).2 ⟨_, ham, src_bline _⟩
      refine ⟨srtT (((ls.map bline).filter fun l => lineSrc l = a.src).map (lineTrans symbols)),
        List.mem_map.2 ⟨_, List.mem_map.2 ⟨a.src, List.mem_range.2 hsrc, rfl⟩, rfl⟩, lineTrans symbols (bline (.arc a)),
        (hT _).1.mem_iff.2 (List.mem_map.2 ⟨_, List.mem_filter.2 ⟨ham, by rw [decide_eq_true_eq]; exact src_bline _⟩, rfl⟩), ?_⟩
      show m ≤ a.tgt
      refine Nat.not_lt.1 fun h => ?_
      obtain ⟨x, hx, e⟩ := (b.srcs a.tgt).1 h
      obtain ⟨l, hl1, rfl⟩ := List.mem_map.1 hx
      exact hn l hl1 (by rw [← src_bline]; exact e)

end Verif.Vfstc
