import Verif.Lemmas.FstCount
import Verif.Model.SpellUtils
import Mathlib.Data.List.Perm.Basic
import Mathlib.Data.List.Perm.Subperm
/-!
# Look-up in an unweighted transducer (C41, C42)
-/

set_option linter.unusedSimpArgs false
set_option linter.unusedVariables false

namespace Verif.Props
open Verif

/-- The symbol table belongs to normal symbols: the symbol of a character and the number used for unknown characters are not
flags or epsilon. -/
structure NormalSymbols (f : Fst) : Prop where
  known : ∀ e ∈ f.charToSym, f.firstNormal ≤ e.2
  unknown : f.firstNormal ≤ f.symbols.length

theorem lookup_mem {α β : Type} [BEq α] [LawfulBEq α] {l : List (α × β)} {a : α} {b : β} (h : l.lookup a = some b) :
    (a, b) ∈ l := by
  induction l with
  | nil => simp at h
  | cons x l ih =>
    obtain ⟨x1, x2⟩ := x
    rw [List.lookup_cons] at h
    split at h
    · rename_i hx
      simp only [beq_iff_eq] at hx
      cases h
      rw [hx]
      exact List.mem_cons_self
    · exact List.mem_cons_of_mem _ (ih h)

theorem symOf_normal {f : Fst} (hn : NormalSymbols f) (ch : Wc) : f.firstNormal ≤ f.symOf ch := by
  unfold Fst.symOf
  cases h : f.charToSym.lookup ch with
  | none => exact hn.unknown
  | some s => exact hn.known _ (lookup_mem h)

/-- The configuration of a search that has just been prepared for `word`. -/
def prepared (f : Fst) (bufferSize : Nat) (word : List Wc) : Conf :=
  { bufferSize, below := [], state := 0, cur := 0, inputDepth := 0, input := word.map f.symOf,
    flags := List.replicate f.featureCount 0, log := [] }

theorem prepare_new (f : Fst) (bufferSize : Nat) (word : List Wc) (h : word.length ≤ bufferSize) (h0 : 0 < bufferSize) :
    prepare f (Conf.new f.featureCount bufferSize) word =
      some (word.all fun ch => (f.charToSym.lookup ch).isSome, prepared f bufferSize word) := by
  unfold prepare
  rw [if_neg (by simp only [Conf.new]; omega)]
  rfl

theorem prepared_inv {f : Fst} {S : Nat → Prop} (wf : WellFormed f S) (bufferSize : Nat) (word : List Wc) (h : 2 ≤ bufferSize) :
    Inv f (word.map f.symOf) (prepared f bufferSize word) :=
  ⟨.base, rfl, Nat.le_refl _, fun _ _ => by simp [prepared], by simpa [prepared] using h⟩

theorem not_before_start (f : Fst) (bufferSize : Nat) (word : List Wc) (q : List Nat) :
    ¬ Before q (Conf.place (prepared f bufferSize word)) := by
  cases q with
  | nil => simp [Before, Conf.place, prepared, stackAddrs]
  | cons a q => cases q <;> simp [Before, Conf.place, prepared, stackAddrs]

/-- C41: any number of calls gives distinct readings in the order of the transition table, and nothing but readings. If the
calls report exhaustion then all readings were given. The search ends otherwise only if one of the fixed limits is met: a reading
that does not fit into the output buffer, a path as long as the stack, or at least 50000 paths. -/
theorem C41_readings {f : Fst} {S : Nat → Prop} (wf : WellFormed f S) (hn : NormalSymbols f) (pfx : Bool) (word : List Wc)
    {bufferSize bufferLen : Nat} (hbs : 2 ≤ bufferSize) (hw : word.length ≤ bufferSize) (hbl : 0 < bufferLen) (n : Nat) :
    ∃ known c, prepare f (Conf.new f.featureCount bufferSize) word = some (known, c) ∧
    ∃ (qs : List (List Nat × Nat)) (tail : List NextRes) (c' : Conf),
      enumerate f pfx bufferLen n c = some (qs.map (fun q => .found (outputOf f q.1) q.2) ++ tail, c') ∧
      (∀ q ∈ qs, Accepting f (word.map f.symOf) pfx q.1 q.2) ∧
      qs.Pairwise (fun a b => Before a.1 b.1) ∧
      ((tail = [] ∧ qs.length = n) ∨
        (tail = [.exhausted] ∧ ∀ q m, Accepting f (word.map f.symOf) pfx q m → (q, m) ∈ qs) ∨
        ∃ r, tail = [r] ∧ Limit f (word.map f.symOf) pfx bufferSize bufferLen r) := by
  refine ⟨_, _, prepare_new f bufferSize word hw (by omega), ?_⟩
  have hin : ∀ x ∈ word.map f.symOf, f.firstNormal ≤ x := by
    intro x hx
    obtain ⟨ch, _, rfl⟩ := List.mem_map.1 hx
    exact symOf_normal hn ch
  obtain ⟨qs, tail, c', h1, h2, h3, h4⟩ := enumerate_spec wf hin pfx hbl n _ (prepared_inv wf bufferSize word hbs)
  refine ⟨qs, tail, c', h1, fun q hq => (h2 q hq).1, h3, ?_⟩
  rcases h4 with h4 | ⟨h4, h5, _⟩ | h4
  · exact .inl h4
  · refine .inr (.inl ⟨h4, fun q m ha => ?_⟩)
    rcases h5 q m ha with h | h
    · exact absurd h (not_before_start _ _ _ _)
    · exact h
  · exact .inr (.inr h4)

theorem pairwise_nodup {qs : List (List Nat × Nat)} (h : qs.Pairwise (fun a b => Before a.1 b.1)) : qs.Nodup :=
  List.Pairwise.imp (fun {a b} (hab : Before a.1 b.1) (he : a = b) => before_irrefl b.1 (by rw [he] at hab; exact hab)) h

/-- C41: within the limits, the calls return exactly the readings of the word, each once, and then report exhaustion. -/
theorem C41_complete {f : Fst} {S : Nat → Prop} (wf : WellFormed f S) (hn : NormalSymbols f) (pfx : Bool) (word : List Wc)
    {bufferSize bufferLen : Nat} (hbs : 2 ≤ bufferSize) (hw : word.length ≤ bufferSize) (hbl : 0 < bufferLen)
    (all : List (List Nat × Nat)) (hall : ∀ q m, Accepting f (word.map f.symOf) pfx q m → (q, m) ∈ all)
    (hdepth : ∀ q e, Path f (word.map f.symOf) (startPoint f) q e → q.length + 1 < bufferSize)
    (hout : ∀ q m, Accepting f (word.map f.symOf) pfx q m → (outputOf f q).length + 1 < bufferLen)
    (hpaths : ∀ L : List (List Nat), L.Nodup → (∀ p ∈ L, ∃ e, Path f (word.map f.symOf) (startPoint f) p e) →
      2 * L.length < maxLoopCount) (n : Nat) (hnn : all.length < n) :
    ∃ known c, prepare f (Conf.new f.featureCount bufferSize) word = some (known, c) ∧
    ∃ (qs : List (List Nat × Nat)) (c' : Conf),
      enumerate f pfx bufferLen n c = some (qs.map (fun q => .found (outputOf f q.1) q.2) ++ [.exhausted], c') ∧
      qs.Nodup ∧ (∀ q m, (q, m) ∈ qs ↔ Accepting f (word.map f.symOf) pfx q m) ∧
      qs.Pairwise (fun a b => Before a.1 b.1) := by
  obtain ⟨known, c, h0, qs, tail, c', h1, h2, h3, h4⟩ := C41_readings wf hn pfx word hbs hw hbl n
  refine ⟨known, c, h0, qs, c', ?_⟩
  have hnd := pairwise_nodup h3
  rcases h4 with ⟨h4, h5⟩ | ⟨h4, h5⟩ | ⟨r, h4, h5⟩
  · exfalso
    have hsub : qs ⊆ all := fun q hq => hall _ _ (h2 q hq)
    have := (List.subperm_of_subset hnd hsub).length_le
    omega
  · subst h4
    exact ⟨h1, hnd, fun q m => ⟨fun hq => h2 _ hq, h5 q m⟩, h3⟩
  · exfalso
    cases r with
    | found _ _ => exact h5
    | exhausted => exact h5
    | outputLimit => obtain ⟨q, m, ha, hl⟩ := h5; have := hout q m ha; omega
    | stackLimit => obtain ⟨q, e, hp, hl⟩ := h5; have := hdepth q e hp; omega
    | loopLimit => obtain ⟨L, hL, hl, hp⟩ := h5; have := hpaths L hL hp; omega

/-- Every input symbol passed by a path is the input symbol of a transition of a state. -/
theorem path_reads {f : Fst} {S : Nat → Prop} (wf : WellFormed f S) {input : List Nat} {p q : Point} {as : List Nat} (h : Path f input p as q) :
    S p.state → ∀ i : Nat, p.pos ≤ i → i < q.pos → ∃ (s a : Nat) (t : Cell), S s ∧ a ∈ stateAddrs f s ∧ f.cells[a]? = some t ∧
      t.symIn ≠ 0xFFFF ∧ input[i]? = some t.symIn := by
  induction h with
  | nil p => intro _ i h1 h2; omega
  | cons p x r a as s h ih =>
    intro hS i h1 h2
    cases s with
    | symbol t m c n s i' =>
      by_cases hi : i = p.pos
      · exact ⟨p.state, a, t, hS, m, c, n, hi ▸ i'⟩
      · exact ih (wf.trans _ hS a m t c n).1 i (by simp only; omega) h2
    | flag t F m c n s i' => exact ih (wf.trans _ hS a m t c n).1 i h1 h2

/-- C41: a word with a character that is not in the symbol table has no readings, so the check of its callers (they skip the
search if `prepare` reports an unknown character) does not lose any. -/
theorem C41_unknown {f : Fst} {S : Nat → Prop} (wf : WellFormed f S)
    (hcells : ∀ s, S s → ∀ a ∈ stateAddrs f s, ∀ t : Cell, f.cells[a]? = some t → t.symIn ≠ 0xFFFF → t.symIn < f.symbols.length)
    (word : List Wc) (hunk : (word.all fun ch => (f.charToSym.lookup ch).isSome) = false) (q : List Nat) (m : Nat) :
    ¬ Accepting f (word.map f.symOf) false q m := by
  rintro ⟨as, a, p, t, _, hp, _, _, _, hm, hl⟩
  obtain ⟨ch, hch, hno⟩ := List.all_eq_false.1 hunk
  obtain ⟨i, hi, hget⟩ := List.mem_iff_getElem.1 hch
  have hlen := hl rfl
  rw [List.length_map] at hlen
  obtain ⟨s, b, t', hs, hm', hb, hne, hin⟩ := path_reads wf hp wf.root i (by simp [startPoint]) (by omega)
  rw [List.getElem?_map, List.getElem?_eq_getElem hi, hget, Option.map_some] at hin
  have hsym : f.symOf ch = f.symbols.length := by
    unfold Fst.symOf
    cases h : f.charToSym.lookup ch with
    | none => rfl
    | some s => rw [h] at hno; simp at hno
  have := hcells s hs b hm' t' hb hne
  have hin := Option.some.inj hin
  omega

/-! ## A concrete transducer -/

/-- Symbols: epsilon, `@P.X.A@`, `@D.X@`, `a`, `b`. The word `a` has the readings `a` (after setting X) and `b`; the word `b` has
a reading only if X is not set. -/
def demoFst : Fst :=
  { cells := [⟨1, 0, 3, 2⟩, ⟨2, 0, 4, 0⟩, ⟨3, 4, 5, 0⟩, ⟨3, 3, 5, 0⟩, ⟨4, 4, 5, 0⟩, ⟨0xFFFF, 0, 0, 0⟩]
    symbols := [[], lit "@P.X.A@", lit "@D.X@", lit "a", lit "b"]
    firstNormal := 3
    diacritics := [⟨.P, 0, 0⟩, ⟨.P, 0, 2⟩, ⟨.D, 0, 1⟩]
    featureCount := 1
    charToSym := [(97, 3), (98, 4)] }

theorem demoFst_wf : WellFormed demoFst (fun s => s ∈ [0, 3, 4, 5]) := by
  refine ⟨by decide, by decide, rfl, ?_, ?_⟩
  · intro s hs
    simp only [List.mem_cons, List.not_mem_nil, or_false] at hs
    rcases hs with rfl | rfl | rfl | rfl <;> exact ⟨_, rfl, .inl (by decide)⟩
  · intro s hs a ha t ht hne
    have h6 : a < 6 := (List.getElem?_eq_some_iff.1 ht).1
    have : ∀ a < 6, ∀ t, demoFst.cells[a]? = some t → t.symIn ≠ 0xFFFF → t.target ∈ [0, 3, 4, 5] ∧
        t.symOut < demoFst.symbols.length ∧ (t.symIn < demoFst.firstNormal → demoFst.featureCount ≠ 0 → t.symIn ≠ 0 →
          ∃ ofv, demoFst.diacritics[t.symIn]? = some ofv ∧ ofv.feature < demoFst.featureCount) := by
      intro a ha t ht hne
      match a, ha with
      | 0, _ => cases ht; exact ⟨by decide, by decide, fun _ _ _ => ⟨_, rfl, by decide⟩⟩
      | 1, _ => cases ht; exact ⟨by decide, by decide, fun _ _ _ => ⟨_, rfl, by decide⟩⟩
      | 2, _ => cases ht; exact ⟨by decide, by decide, fun h => absurd h (by decide)⟩
      | 3, _ => cases ht; exact ⟨by decide, by decide, fun h => absurd h (by decide)⟩
      | 4, _ => cases ht; exact ⟨by decide, by decide, fun h => absurd h (by decide)⟩
      | 5, _ => cases ht; exact absurd rfl hne
    exact this a h6 t ht hne

theorem demoFst_normal : NormalSymbols demoFst := ⟨by decide, by decide⟩

/-- The paths of the demonstration transducer. -/
theorem demoFst_paths {input : List Nat} {q : List Nat} {e : Point} (h : Path demoFst input (startPoint demoFst) q e) :
    q ∈ [[], [0], [1], [2], [0, 3], [1, 4]] := by
  have tgt : ∀ s, s ∈ [0, 3, 4, 5] → ∀ p a e, p.state = s → Step demoFst input p a e →
      (s = 0 ∧ a = 0 ∧ e.state = 3) ∨ (s = 0 ∧ a = 1 ∧ e.state = 4) ∨ (s = 0 ∧ a = 2 ∧ e.state = 5) ∨
      (s = 3 ∧ a = 3 ∧ e.state = 5) ∨ (s = 4 ∧ a = 4 ∧ e.state = 5) := by
    intro s hs p a e hp hst
    have hm := step_mem hst
    obtain ⟨t, ht, hne, he⟩ := step_cell hst
    rw [hp] at hm
    simp only [List.mem_cons, List.not_mem_nil, or_false] at hs
    rcases hs with rfl | rfl | rfl | rfl
    · have : a ∈ [0, 1, 2] := hm
      simp only [List.mem_cons, List.not_mem_nil, or_false] at this
      rcases this with rfl | rfl | rfl <;> cases ht <;> simp [he]
    · have : a ∈ [3] := hm
      simp only [List.mem_cons, List.not_mem_nil, or_false] at this
      subst this
      cases ht
      simp [he]
    · have : a ∈ [4] := hm
      simp only [List.mem_cons, List.not_mem_nil, or_false] at this
      subst this
      cases ht
      simp [he]
    · have : a ∈ [5] := hm
      simp only [List.mem_cons, List.not_mem_nil, or_false] at this
      subst this
      cases ht
      exact absurd rfl hne
  have dead : ∀ p, p.state = 5 → ∀ as e, Path demoFst input p as e → as = [] := by
    intro p hp as e h
    cases h with
    | nil => rfl
    | cons _ x _ a as s h =>
      rcases tgt 5 (by decide) p a x hp s with h | h | h | h | h <;> exact absurd h.1 (by decide)
  have mid : ∀ p, p.state = 3 ∨ p.state = 4 → ∀ as e, Path demoFst input p as e → as = [] ∨ as = [p.state] := by
    intro p hp as e h
    cases h with
    | nil => exact .inl rfl
    | cons _ x _ a as s h =>
      right
      rcases hp with hp | hp <;> rcases tgt p.state (by rw [hp]; decide) p a x rfl s with h' | h' | h' | h' | h' <;>
        rw [hp] at h' <;> first | (exact absurd h'.1 (by decide)) | (rw [dead x h'.2.2 _ _ h, h'.2.1, hp])
  cases h with
  | nil => decide
  | cons _ x _ a as s h =>
    rcases tgt 0 (by decide) _ a x rfl s with h' | h' | h' | h' | h'
    · rcases mid x (.inl h'.2.2) _ _ h with h2 | h2
      · rw [h2, h'.2.1]; decide
      · rw [h2, h'.2.1, h'.2.2]; decide
    · rcases mid x (.inr h'.2.2) _ _ h with h2 | h2
      · rw [h2, h'.2.1]; decide
      · rw [h2, h'.2.1, h'.2.2]; decide
    · rw [dead x h'.2.2 _ _ h, h'.2.1]; decide
    · exact absurd h'.1 (by decide)
    · exact absurd h'.1 (by decide)

theorem demoFst_accepting {input : List Nat} {pfx : Bool} {q : List Nat} {m : Nat} (h : Accepting demoFst input pfx q m) :
    (∃ as ∈ [[], [0], [1], [2], [0, 3], [1, 4]], ∃ a < 6, q = as ++ [a]) ∧ m ≤ input.length := by
  obtain ⟨as, a, p, t, hq, hp, ha, ht, hs, hm, hl⟩ := h
  refine ⟨⟨as, demoFst_paths hp, a, (List.getElem?_eq_some_iff.1 ht).1, hq⟩, ?_⟩
  have pos : ∀ (p e : Point) as, Path demoFst input p as e → p.pos ≤ input.length → e.pos ≤ input.length := by
    intro p e as h
    induction h with
    | nil => exact id
    | cons p x r a as s h ih => exact fun hp => ih (step_pos s hp)
  rw [← hm]
  exact pos _ _ _ hp (by simp [startPoint])

/-- All hypotheses of `C41_complete` hold for the demonstration transducer and every word of at most 10 characters. -/
example (word : List Wc) (hw : word.length ≤ 10) (pfx : Bool) :
    ∃ known c, prepare demoFst (Conf.new 1 10) word = some (known, c) ∧
    ∃ (qs : List (List Nat × Nat)) (c' : Conf),
      enumerate demoFst pfx 10 400 c = some (qs.map (fun q => .found (outputOf demoFst q.1) q.2) ++ [.exhausted], c') ∧
      qs.Nodup ∧ (∀ q m, (q, m) ∈ qs ↔ Accepting demoFst (word.map demoFst.symOf) pfx q m) ∧
      qs.Pairwise (fun a b => Before a.1 b.1) := by
  have hfin : ∀ q m, Accepting demoFst (word.map demoFst.symOf) pfx q m →
      (q, m) ∈ ([[], [0], [1], [2], [0, 3], [1, 4]].flatMap fun as => (List.range 6).map fun a => as ++ [a]).flatMap
        fun q => (List.range 11).map fun m => (q, m) := by
    intro q m h
    obtain ⟨⟨as, has, a, ha, hq⟩, hm⟩ := demoFst_accepting h
    rw [List.length_map] at hm
    refine List.mem_flatMap.2 ⟨q, List.mem_flatMap.2 ⟨as, has, List.mem_map.2 ⟨a, List.mem_range.2 ha, hq.symm⟩⟩, ?_⟩
    exact List.mem_map.2 ⟨m, List.mem_range.2 (by omega), rfl⟩
  refine C41_complete demoFst_wf demoFst_normal pfx word (by decide) hw (by decide) _ hfin ?_ ?_ ?_ 400 (by decide +kernel)
  · intro q e h
    exact (by decide : ∀ q ∈ [[], [0], [1], [2], [0, 3], [1, 4]], q.length + 1 < 10) q (demoFst_paths h)
  · intro q m h
    obtain ⟨⟨as, has, a, ha, rfl⟩, _⟩ := demoFst_accepting h
    simp only [outputOf, List.dropLast_concat]
    exact (by decide : ∀ as ∈ [[], [0], [1], [2], [0, 3], [1, 4]], (List.flatMap (outText demoFst) as).length + 1 < 10) as has
  · intro L hL hp
    have hsub : L ⊆ [[], [0], [1], [2], [0, 3], [1, 4]] := fun p h => by
      obtain ⟨e, he⟩ := hp p h
      exact demoFst_paths he
    have h1 := (List.subperm_of_subset hL hsub).length_le
    have h2 : maxLoopCount = 100000 := rfl
    simp only [List.length_cons, List.length_nil] at h1
    omega

/-- The search of the demonstration transducer finds both readings of `a` and the reading of `b`. -/
example : (prepare demoFst (Conf.new 1 10) (lit "a")).bind (fun x => enumerate demoFst false 10 5 x.2) =
    some ([.found (lit "a") 1, .found (lit "b") 1, .exhausted],
      { prepared demoFst 10 (lit "a") with cur := 3 }) := by decide +kernel

/-! ## C42: history -/

/-- C42 fails: after the first reading of `a` has been fetched and the search abandoned, the word `b` has no readings, because the
value of the flag X has survived. -/
theorem C42_violation :
    ∃ (f : Fst) (S : Nat → Prop) (w1 w2 : List Wc) (c1 c2 c3 c4 c5 c6 : Conf), WellFormed f S ∧ NormalSymbols f ∧
      prepare f (Conf.new f.featureCount 2000) w1 = some (true, c1) ∧
      nextPrefix f c1 2000 = some (.found (lit "a") 1, c2) ∧
      prepare f c2 w2 = some (true, c3) ∧ enumerate f false 2000 10 c3 = some ([.exhausted], c4) ∧
      prepare f (Conf.new f.featureCount 2000) w2 = some (true, c5) ∧
      enumerate f false 2000 10 c5 = some ([.found (lit "b") 1, .exhausted], c6) :=
  ⟨demoFst, _, lit "a", lit "b", prepared demoFst 2000 (lit "a"),
    { prepared demoFst 2000 (lit "a") with below := [⟨3, 3, 3⟩, ⟨0, 0, 0⟩], state := 5, cur := 6, inputDepth := 1, flags := [2], log := [(0, 0)] },
    { prepared demoFst 2000 (lit "b") with flags := [2] },
    { prepared demoFst 2000 (lit "b") with flags := [2], cur := 1 },
    prepared demoFst 2000 (lit "b"), { prepared demoFst 2000 (lit "b") with cur := 2 },
    demoFst_wf, demoFst_normal, by decide +kernel, by decide +kernel, by decide +kernel, by decide +kernel, by decide +kernel,
    by decide +kernel⟩

/-- Configurations after a history of look-ups, each of them continued until exhaustion was reported. -/
inductive Finished (f : Fst) (bufferSize : Nat) : Conf → Prop
  | new : Finished f bufferSize (Conf.new f.featureCount bufferSize)
  | lookup (c c1 c2 : Conf) (word : List Wc) (known pfx : Bool) (bufferLen n : Nat) (rs : List NextRes) :
      Finished f bufferSize c → prepare f c word = some (known, c1) → 0 < bufferLen →
      enumerate f pfx bufferLen n c1 = some (rs ++ [.exhausted], c2) → Finished f bufferSize c2

/-- C42, the part that holds: if all earlier searches ran to exhaustion then `prepare` leaves nothing of them; the following
calls work on exactly the configuration they would have got as the first ones. (Missing: searches that were abandoned, or that
met a limit; there the claim is false, see `C42_violation`.) -/
theorem C42_partial {f : Fst} {S : Nat → Prop} (wf : WellFormed f S) (hn : NormalSymbols f) {bufferSize : Nat}
    (hbs : 2 ≤ bufferSize) {c : Conf} (h : Finished f bufferSize c) (word : List Wc) :
    prepare f c word = prepare f (Conf.new f.featureCount bufferSize) word := by
  have key : c.bufferSize = bufferSize ∧ c.flags = List.replicate f.featureCount 0 := by
    induction h with
    | new => exact ⟨rfl, rfl⟩
    | lookup c c1 c2 word known pfx bufferLen n rs hf hp hbl he ih =>
      have hc1 : c1 = prepared f bufferSize word := by
        unfold prepare at hp
        split at hp
        · cases hp
        · cases hp
          simp only [prepared, ih.1, ih.2]
      have hin : ∀ x ∈ word.map f.symOf, f.firstNormal ≤ x := by
        intro x hx
        obtain ⟨ch, _, rfl⟩ := List.mem_map.1 hx
        exact symOf_normal hn ch
      subst hc1
      obtain ⟨qs, tail, c', h1, h2, h3, h4⟩ := enumerate_spec wf hin pfx hbl n _ (prepared_inv wf bufferSize word hbs)
      rw [he] at h1
      obtain ⟨h5, rfl⟩ := Prod.mk.inj (Option.some.inj h1)
      have hsz := enumerate_size he
      rcases h4 with ⟨h4, _⟩ | ⟨h4, _, h6, h7⟩ | ⟨r, h4, h6⟩
      · exfalso
        rw [h4, List.append_nil] at h5
        have : NextRes.exhausted ∈ qs.map (fun q => NextRes.found (outputOf f q.1) q.2) := by
          rw [← h5]; simp
        obtain ⟨q, _, hq⟩ := List.mem_map.1 this
        cases hq
      · refine ⟨hsz, ?_⟩
        have hs := h6.stk
        rw [h7] at hs
        generalize hpt : Conf.point c2 = pt at hs
        generalize c2.log = lg at hs
        cases hs
        simp only [Conf.point, startPoint, Point.mk.injEq] at hpt
        exact hpt.2.2
      · exfalso
        rw [h4] at h5
        have := (List.append_inj' h5 rfl).2
        cases this
        exact h6
  unfold prepare
  simp only [key.1, key.2, Conf.new]
  rfl

/-- C42: without flag diacritics every history is harmless, even with abandoned searches. -/
theorem C42_no_flags {f : Fst} (hf : f.featureCount = 0) (c c' : Conf) (pfx : Bool) (bufferLen n : Nat) (rs : List NextRes)
    (h : enumerate f pfx bufferLen n c = some (rs, c')) (word : List Wc) : prepare f c' word = prepare f c word := by
  have h1 := enumerate_size h
  have h2 := enumerate_noflags hf h
  unfold prepare
  simp only [h1, h2]

/-- The hypothesis of `C42_partial` holds after looking up `a`. -/
example : Finished demoFst 10 { prepared demoFst 10 (lit "a") with cur := 3 } :=
  .lookup _ (prepared demoFst 10 (lit "a")) _ (lit "a") true false 10 5 [.found (lit "a") 1, .found (lit "b") 1] .new
    (by decide +kernel) (by decide) (by decide +kernel)

end Verif.Props
