import Verif.Lemmas.ApiHeap

/-!
# Sessions keep every result whole
-/

namespace Verif.ApiHeap

open Verif.Props

/-! ### Errors -/

/-- The cells of an error object. -/
def ErrCells (p : Nat) (e : Err) (cs : List Cell) : Prop :=
  ∃ s cs', cs = (p, ⟨.newObject, .error e.info s⟩) :: cs' ∧ ArrOpt .newArray s e.suggestions cs'

theorem releaseOptArray_ok {o : Origin} {s : Option Nat} {ss : Option (List (List Nat))}
    {cs rest : List Cell} {H : Heap} (h : ArrOpt o s ss cs) (hx : Exactly H (cs ++ rest)) :
    ∃ H', releaseArray o H s = some H' ∧ Exactly H' rest := by
  cases s with
  | none =>
    cases ss with
    | none => cases h; exact ⟨H, rfl, hx⟩
    | some ss => cases h
  | some p =>
    cases ss with
    | none => cases h
    | some ss => exact releaseArray_ok h hx

theorem deleteError_ok {p : Nat} {e : Err} {cs rest : List Cell} {H : Heap} (h : ErrCells p e cs)
    (hx : Exactly H (cs ++ rest)) : ∃ H', deleteError H (some p) = some H' ∧ Exactly H' rest := by
  obtain ⟨s, cs', rfl, hs⟩ := h
  have e1 : errorAt H p = some (e.info, s) := by simp [errorAt, hx.get List.mem_cons_self]
  obtain ⟨H1, e2, hx1⟩ := releaseOptArray_ok (rest := (p, ⟨.newObject, .error e.info s⟩) :: rest) hs
    (hx.perm List.perm_middle.symm)
  obtain ⟨H2, e3, hx2⟩ := hx1.release
  refine ⟨H2, ?_, hx2⟩
  simp only [] at e3
  simp only [deleteError, e1, e2, e3, Option.bind_eq_bind, Option.bind_some]

theorem putSuggestions_ok {H : Heap} {p : Nat} {info : ErrInfo} {s : Option Nat} {rest : List Cell}
    (hx : Exactly H ((p, ⟨.newObject, .error info s⟩) :: rest)) (v : Option Nat) :
    ∃ H', putSuggestions H p v = some H' ∧
      Exactly H' ((p, ⟨.newObject, .error info v⟩) :: rest) := by
  refine ⟨_, ?_, hx.set _⟩
  simp [putSuggestions, hx.get List.mem_cons_self]

theorem makeError_ok {H : Heap} {rest : List Cell} (hx : Exactly H rest) (info : ErrInfo)
    (ss : Option (List (List Nat))) (h0 : ∀ l ∈ ss, ∀ s ∈ l, 0 ∉ s) :
    ∃ H' p cs, makeError H info ss = some (H', p) ∧ ErrCells p ⟨info, ss⟩ cs ∧
      Exactly H' (cs ++ rest) := by
  have hx1 := hx.store ⟨.newObject, .error info none⟩
  cases ss with
  | none => exact ⟨_, _, _, rfl, ⟨none, [], rfl, rfl⟩, hx1⟩
  | some ss =>
    obtain ⟨H2, a, cs, e2, hcs, hx2⟩ := makeArray_ok hx1 ss (h0 ss rfl)
    obtain ⟨H3, e3, hx3⟩ := putSuggestions_ok (hx2.perm List.perm_middle) (some a)
    refine ⟨H3, H.length, _ :: cs, ?_, ⟨some a, cs, rfl, hcs⟩, hx3⟩
    simp only [makeError, store, e2, e3, Option.bind_eq_bind, Option.bind_some]

theorem ArrOpt.errorAt {p : Nat} {e : Err} {cs cells : List Cell} {H : Heap} (h : ErrCells p e cs)
    (hx : Exactly H cells) (hm : cs ⊆ cells) :
    ∃ s cs', ApiHeap.errorAt H p = some (e.info, s) ∧ ArrOpt .newArray s e.suggestions cs' ∧
      cs' ⊆ cells := by
  obtain ⟨s, cs', rfl, hs⟩ := h
  refine ⟨s, cs', ?_, hs, fun x hx' => hm (List.mem_cons_of_mem _ hx')⟩
  simp [ApiHeap.errorAt, hx.get (hm List.mem_cons_self)]

/-- The copy of an error, or a null pointer. -/
def ErrOpt : Option Nat → Option Err → List Cell → Prop
  | none, none, cs => cs = []
  | some p, some e, cs => ErrCells p e cs
  | _, _, _ => False

/-- An error with code zero is no error. -/
def realError (e : Option Err) : Option Err := e.filter (fun e => decide (e.info.code ≠ 0))

theorem copyError_ok {H : Heap} {c : Option Nat} {e : Option Err} {cs rest : List Cell}
    (h : ErrOpt c e cs) (hm : cs ⊆ rest) (hx : Exactly H rest) :
    ∃ H' p cs', copyError (fun _ => true) H c = some (H', p) ∧ ErrOpt p (realError e) cs' ∧
      Exactly H' (cs' ++ rest) := by
  cases c with
  | none =>
    cases e with
    | none => exact ⟨H, none, [], rfl, rfl, hx⟩
    | some e => cases h
  | some c =>
    cases e with
    | none => cases h
    | some e =>
      obtain ⟨s, cs1, e1, hs, hm1⟩ := ArrOpt.errorAt h hx hm
      by_cases hz : e.info.code = 0
      · refine ⟨H, none, [], ?_, ?_, hx⟩
        · simp only [copyError, e1, Option.bind_eq_bind, Option.bind_some, if_pos hz]
        · simp [realError, hz, ErrOpt, Option.filter]
      · have hr : realError (some e) = some e := by simp [realError, hz, Option.filter]
        rw [hr]
        have hx1 := hx.store ⟨.newObject, .error e.info s⟩
        cases s with
        | none =>
          have hsug : e.suggestions = none := by
            cases hss : e.suggestions with
            | none => rfl
            | some ss => rw [hss] at hs; cases hs
          refine ⟨_, some H.length, _ :: [], ?_, ⟨none, [], rfl, ?_⟩, hx1⟩
          · simp only [copyError, e1, Option.bind_eq_bind, Option.bind_some, if_neg hz, store]
          · rw [hsug]; rfl
        | some s =>
          cases hss : e.suggestions with
          | none => rw [hss] at hs; cases hs
          | some ss =>
            rw [hss] at hs
            obtain ⟨H2, d, cs2, e2, hcs2, hx2⟩ := copyArray_ok true .newArray .newArray (show
              ArrCells .newArray s ss cs1 from hs) (fun x hx' => List.mem_cons_of_mem _ (hm1 hx')) hx1
            obtain ⟨H3, e3, hx3⟩ := putSuggestions_ok (hx2.perm List.perm_middle) (some d)
            refine ⟨H3, some H.length, _ :: cs2, ?_, ⟨some d, cs2, rfl, ?_⟩, hx3⟩
            · simp only [copyError, e1, Option.bind_eq_bind, Option.bind_some, if_neg hz, store, e2, e3]
            · rw [hss]; exact hcs2

theorem oldError_ok {H : Heap} {c : Option Nat} {e : Option Err} {cs rest : List Cell}
    (h : ErrOpt c e cs) (hm : cs ⊆ rest) (hx : Exactly H rest) :
    ∃ H' s cs', oldError (fun _ => true) H c =
        some (H', ((realError e).getD ⟨⟨0, 0, 0⟩, none⟩).info, s) ∧
      ArrOpt .malloc s ((realError e).getD ⟨⟨0, 0, 0⟩, none⟩).suggestions cs' ∧
      Exactly H' (cs' ++ rest) := by
  obtain ⟨H1, p, cs1, e1, hp, hx1⟩ := copyError_ok h hm hx
  cases p with
  | none =>
    cases hr : realError e with
    | some e' => rw [hr] at hp; cases hp
    | none =>
      rw [hr] at hp
      cases hp
      refine ⟨H1, none, [], ?_, rfl, hx1⟩
      simp only [oldError, e1, Option.bind_eq_bind, Option.bind_some]
      rfl
  | some p =>
    cases hr : realError e with
    | none => rw [hr] at hp; cases hp
    | some e' =>
      rw [hr] at hp
      have hp' : ErrCells p e' cs1 := hp
      obtain ⟨s, cs2, e2, hs, hm2⟩ := ArrOpt.errorAt hp' hx1 (List.subset_append_left _ _)
      cases s with
      | none =>
        obtain ⟨H2, e3, hx2⟩ := deleteError_ok hp' hx1
        cases hss : e'.suggestions with
        | some ss => rw [hss] at hs; cases hs
        | none =>
          refine ⟨H2, none, [], ?_, ?_, hx2⟩
          · simp only [oldError, e1, e2, e3, Option.bind_eq_bind, Option.bind_some]
            rfl
          · simp only [Option.getD_some, hss]; rfl
      | some s =>
        cases hss : e'.suggestions with
        | none => rw [hss] at hs; cases hs
        | some ss =>
          rw [hss] at hs
          obtain ⟨H2, d, cs3, e3, hcs3, hx2⟩ := copyArray_ok false .malloc .newArray (show
            ArrCells .newArray s ss cs2 from hs) hm2 hx1
          have hx2' : Exactly H2 (cs1 ++ (cs3 ++ rest)) := hx2.perm (by
            rw [← List.append_assoc, ← List.append_assoc]
            exact List.Perm.append_right _ List.perm_append_comm)
          obtain ⟨H3, e4, hx3⟩ := deleteError_ok hp' hx2'
          refine ⟨H3, some d, cs3, ?_, ?_, hx3⟩
          · simp only [oldError, e1, e2, e3, e4, Option.bind_eq_bind, Option.bind_some]
            rfl
          · simp only [Option.getD_some, hss]; exact hcs3

/-! ### Lists of objects -/

inductive Parts {α β : Type} (R : α → β → List Cell → Prop) : List α → List β → List Cell → Prop
  | nil : Parts R [] [] []
  | cons {a b c as bs cs} : R a b c → Parts R as bs cs → Parts R (a :: as) (b :: bs) (c ++ cs)

theorem Parts.length {α β : Type} {R : α → β → List Cell → Prop} {as : List α} {bs : List β}
    {cs : List Cell} (h : Parts R as bs cs) : as.length = bs.length := by
  induction h with
  | nil => rfl
  | cons _ _ ih => simp [ih]

theorem Parts.snoc {α β : Type} {R : α → β → List Cell → Prop} {as : List α} {bs : List β}
    {cs : List Cell} (h : Parts R as bs cs) {a : α} {b : β} {c : List Cell} (hr : R a b c) :
    Parts R (as ++ [a]) (bs ++ [b]) (cs ++ c) := by
  induction h with
  | nil => simpa using Parts.cons hr .nil
  | cons h _ ih => simpa using Parts.cons h ih

theorem Parts.pick {α β : Type} {R : α → β → List Cell → Prop} {as : List α} {bs : List β}
    {cs : List Cell} (h : Parts R as bs cs) : ∀ (i : Nat) (a : α), as[i]? = some a →
      ∃ b c rest, bs[i]? = some b ∧ R a b c ∧ cs.Perm (c ++ rest) ∧
        ∀ a' b', R a' b' [] → Parts R (as.set i a') (bs.set i b') rest := by
  induction h with
  | nil => intro i a h; simp at h
  | @cons a b c as bs cs hr hp ih =>
    intro i a' hi
    cases i with
    | zero =>
      simp only [List.getElem?_cons_zero, Option.some.injEq] at hi
      subst hi
      exact ⟨b, c, cs, by simp, hr, List.Perm.refl _, fun a' b' h => by simpa using Parts.cons h hp⟩
    | succ i =>
      simp only [List.getElem?_cons_succ] at hi
      obtain ⟨b', c', rest, h1, h2, h3, h4⟩ := ih i a' hi
      refine ⟨b', c', c ++ rest, by simpa using h1, h2, ?_, fun x y hxy => ?_⟩
      · refine (List.Perm.append_left c h3).trans ?_
        rw [← List.append_assoc, ← List.append_assoc]
        exact List.Perm.append_right _ List.perm_append_comm
      · simpa using Parts.cons hr (h4 x y hxy)

theorem Parts.sum {α β : Type} {R : α → β → List Cell → Prop} {as : List α} {bs : List β}
    {cs : List Cell} (h : Parts R as bs cs) (f : β → Nat)
    (hf : ∀ a b c, R a b c → c.length = f b) : cs.length = (bs.map f).sum := by
  induction h with
  | nil => rfl
  | cons hr _ ih => simp [hf _ _ _ hr, ih]

/-! ### The cache -/

theorem clearCache_ok {rest : List Cell} {ps : List Nat} {es : List Err} {cs : List Cell}
    (h : Parts ErrCells ps es cs) : ∀ (H : Heap), Exactly H (cs ++ rest) →
    ∃ H', clearCache ps H = some H' ∧ Exactly H' rest := by
  induction h with
  | nil => intro H hx; exact ⟨H, rfl, hx⟩
  | cons hr _ ih =>
    intro H hx
    rw [List.append_assoc] at hx
    obtain ⟨H1, e1, hx1⟩ := deleteError_ok hr hx
    obtain ⟨H2, e2, hx2⟩ := ih H1 hx1
    refine ⟨H2, ?_, hx2⟩
    simp only [clearCache, e1, e2, Option.bind_eq_bind, Option.bind_some]

theorem fillCache_ok : ∀ (errors : List (ErrInfo × Option (List (List Nat)))) (H : Heap)
    (rest : List Cell), (∀ e ∈ errors, ∀ l ∈ e.2, ∀ s ∈ l, 0 ∉ s) → Exactly H rest →
    ∃ H' ps cs, fillCache errors H = some (H', ps) ∧
      Parts ErrCells ps (errors.map (fun e => ⟨e.1, e.2⟩)) cs ∧ Exactly H' (cs ++ rest) := by
  intro errors
  induction errors with
  | nil => intro H rest _ hx; exact ⟨H, [], [], rfl, .nil, hx⟩
  | cons e es ih =>
    intro H rest h0 hx
    obtain ⟨info, ss⟩ := e
    obtain ⟨H1, p, c, e1, hc, hx1⟩ := makeError_ok hx info ss (h0 (info, ss) List.mem_cons_self)
    obtain ⟨H2, ps, cs, e2, hp, hx2⟩ := ih H1 (c ++ rest)
      (fun e he => h0 e (List.mem_cons_of_mem _ he)) hx1
    refine ⟨H2, p :: ps, c ++ cs, ?_, Parts.cons hc hp, hx2.perm ?_⟩
    · simp only [fillCache, e1, e2, Option.bind_eq_bind, Option.bind_some]
    · rw [← List.append_assoc]
      exact List.Perm.append_right _ List.perm_append_comm

/-! ### Results -/

/-- The cells of a result. -/
def OutCells : Option Res → Option Value → List Cell → Prop
  | none, none, cs => cs = []
  | some (.string _ none), some .nothing, cs => cs = []
  | some (.string o (some a)), some (.text s), cs => ∃ c, cs = [c] ∧ StrCell o a s c
  | some (.array _ none), some .nothing, cs => cs = []
  | some (.array o (some p)), some (.texts ss), cs => ArrCells o p ss cs
  | some (.error none), some .nothing, cs => cs = []
  | some (.error (some p)), some (.error e), cs => ErrCells p e cs
  | some (.oldError info s), some (.oldError e), cs =>
    info = e.info ∧ ArrOpt .malloc s e.suggestions cs
  | _, _, _ => False

theorem freeRes_ok {r : Res} {v : Option Value} {cs rest : List Cell} {H : Heap}
    (h : OutCells (some r) v cs) (hx : Exactly H (cs ++ rest)) :
    ∃ H', freeRes H r = some H' ∧ Exactly H' rest := by
  rcases r with ⟨o, _ | a⟩ | ⟨o, _ | p⟩ | (_ | p) | ⟨info, q⟩ <;>
    rcases v with _ | (_ | s | ss | e | e) <;> try exact h.elim
  · cases h; exact ⟨H, rfl, hx⟩
  · obtain ⟨c, rfl, hc⟩ := h
    exact hc.free hx
  · cases h; exact ⟨H, rfl, hx⟩
  · exact releaseArray_ok h hx
  · cases h; exact ⟨H, rfl, hx⟩
  · exact deleteError_ok h hx
  · exact releaseOptArray_ok h.2 hx

theorem ArrOpt.shows {o : Origin} {s : Option Nat} {ss : Option (List (List Nat))} {cs cells : List Cell}
    {H : Heap} (h : ArrOpt o s ss cs) (hx : Exactly H cells) (hm : cs ⊆ cells) :
    SuggestionsIn H s ss := by
  cases s with
  | none =>
    cases ss with
    | none => trivial
    | some ss => cases h
  | some p =>
    cases ss with
    | none => cases h
    | some ss => exact ArrCells.at h hx hm

theorem OutCells.shows {r : Option Res} {v : Option Value} {cs cells : List Cell} {H : Heap}
    (h : OutCells r v cs) (hx : Exactly H cells) (hm : cs ⊆ cells) : ShowsOpt H r v := by
  unfold OutCells at h
  split at h
  case h_1 => trivial
  case h_2 => trivial
  case h_3 =>
    obtain ⟨c, rfl, pad, rfl, h0⟩ := h
    exact ⟨_, pad, hx.get (hm List.mem_cons_self), h0⟩
  case h_4 => trivial
  case h_5 => exact h.at hx hm
  case h_6 => trivial
  case h_7 =>
    obtain ⟨s, cs', rfl, hs⟩ := h
    exact ⟨_, s, hx.get (hm List.mem_cons_self), hs.shows hx (fun x hx' => hm (List.mem_cons_of_mem _ hx'))⟩
  case h_8 => exact ⟨h.1, h.2.shows hx hm⟩
  case h_9 => exact h.elim

theorem ArrOpt.length {o : Origin} {s : Option Nat} {ss : Option (List (List Nat))} {cs : List Cell}
    (h : ArrOpt o s ss cs) : cs.length = suggestionBlocks ss := by
  cases s with
  | none =>
    cases ss with
    | none => cases h; rfl
    | some ss => cases h
  | some p =>
    cases ss with
    | none => cases h
    | some ss => exact ArrCells.length h

theorem ErrCells.length {p : Nat} {e : Err} {cs : List Cell} (h : ErrCells p e cs) :
    cs.length = 1 + suggestionBlocks e.suggestions := by
  obtain ⟨s, cs', rfl, hs⟩ := h
  simp [hs.length]
  omega

theorem OutCells.length (r : Option Res) (v : Option Value) (cs : List Cell)
    (h : OutCells r v cs) : cs.length = blocksOf v := by
  unfold OutCells at h
  split at h
  case h_1 => cases h; rfl
  case h_2 => cases h; rfl
  case h_3 => obtain ⟨c, rfl, _⟩ := h; rfl
  case h_4 => cases h; rfl
  case h_5 => exact ArrCells.length h
  case h_6 => cases h; rfl
  case h_7 => exact ErrCells.length h
  case h_8 => exact ArrOpt.length h.2
  case h_9 => exact h.elim

/-! ### The session -/

/-- The heap consists of the errors of the cache and the results that are still held. -/
def Sound (st : Session) (an : Answers) : Prop :=
  ∃ cc oc, Parts ErrCells st.cache an.cache cc ∧ Parts OutCells st.out an.out oc ∧
    Exactly st.heap (cc ++ oc)

theorem makeFound_ok {H : Heap} {rest : List Cell} (hx : Exactly H rest)
    (found : Option (List (List Nat))) (h0 : ∀ l ∈ found, ∀ s ∈ l, 0 ∉ s) :
    ∃ H' p cs, makeFound H found = some (H', p) ∧ ArrOpt .newArray p found cs ∧
      Exactly H' (cs ++ rest) := by
  cases found with
  | none => exact ⟨H, none, [], rfl, rfl, hx⟩
  | some ss =>
    obtain ⟨H', a, cs, e, hc, hx'⟩ := makeArray_ok hx ss (h0 ss rfl)
    refine ⟨H', some a, cs, ?_, hc, hx'⟩
    simp only [makeFound, e, Option.bind_eq_bind, Option.bind_some]

theorem array_out {o : Origin} {p : Option Nat} {found : Option (List (List Nat))} {cs : List Cell}
    (h : ArrOpt o p found cs) : OutCells (some (.array o p)) (some (foundValue found)) cs := by
  cases p with
  | none =>
    cases found with
    | none => exact h
    | some ss => cases h
  | some p =>
    cases found with
    | none => cases h
    | some ss => exact h

theorem encodedValue_eq (found : Option (List (List Nat))) :
    encodedValue found = foundValue (encodedOpt found) := by
  cases found with
  | none => rfl
  | some ss =>
    simp only [encodedValue, encodedOpt]
    split <;> rfl

/-- Adding a new result. -/
theorem sound_add {st : Session} {an : Answers} {H' : Heap} {r : Res} {v : Value} {cc oc cs : List Cell}
    (h1 : Parts ErrCells st.cache an.cache cc) (h2 : Parts OutCells st.out an.out oc)
    (hr : OutCells (some r) (some v) cs) (hx : Exactly H' (cs ++ (cc ++ oc))) :
    Sound { st with heap := H', out := st.out ++ [some r] } { an with out := an.out ++ [some v] } := by
  refine ⟨cc, oc ++ cs, h1, h2.snoc hr, hx.perm ?_⟩
  refine List.perm_append_comm.trans ?_
  rw [List.append_assoc]

theorem cache_pick {ps : List Nat} {es : List Err} {cc : List Cell} (h : Parts ErrCells ps es cc)
    (i : Nat) : ∃ cs, ErrOpt ps[i]? es[i]? cs ∧ cs ⊆ cc := by
  cases hp : ps[i]? with
  | none =>
    have : es[i]? = none := by
      rw [List.getElem?_eq_none_iff] at hp ⊢
      rw [← h.length]
      exact hp
    rw [this]
    exact ⟨[], rfl, by simp⟩
  | some p =>
    obtain ⟨e, c, rest, h1, h2, h3, _⟩ := h.pick i p hp
    rw [h1]
    exact ⟨c, h2, fun x hx => h3.mem_iff.2 (List.mem_append_left _ hx)⟩

theorem error_out {p : Option Nat} {e : Option Err} {cs : List Cell} (h : ErrOpt p (realError e) cs) :
    OutCells (some (.error p)) (some (errorValue e)) cs := by
  cases e with
  | none =>
    cases p with
    | none => exact h
    | some p => cases h
  | some e =>
    by_cases hz : e.info.code = 0
    · have hr : realError (some e) = none := by simp [realError, hz, Option.filter]
      rw [hr] at h
      simp only [errorValue, if_pos hz]
      cases p with
      | none => exact h
      | some p => cases h
    · have hr : realError (some e) = some e := by simp [realError, hz, Option.filter]
      rw [hr] at h
      simp only [errorValue, if_neg hz]
      cases p with
      | none => cases h
      | some p => exact h

theorem oldErrorValue_eq (e : Option Err) :
    oldErrorValue e = .oldError ((realError e).getD ⟨⟨0, 0, 0⟩, none⟩) := by
  cases e with
  | none => rfl
  | some e =>
    by_cases hz : e.info.code = 0
    · simp [realError, hz, Option.filter, oldErrorValue]
    · simp [realError, hz, Option.filter, oldErrorValue]

theorem step_ok {st : Session} {an : Answers} (h : Sound st an) (c : Call) (hc : PlainCall c) :
    ∃ st', step (fun _ => true) st c = some st' ∧ Sound st' (answerTo an c) := by
  obtain ⟨cc, oc, h1, h2, hx⟩ := h
  cases c with
  | suggestUcs4 found =>
    obtain ⟨H1, p, cs, e1, hp, hx1⟩ := makeFound_ok hx found hc
    refine ⟨_, ?_, sound_add h1 h2 (array_out hp) hx1⟩
    simp only [step, e1, Option.bind_eq_bind, Option.bind_some]
  | suggest found =>
    obtain ⟨H1, p, cs, e1, hp, hx1⟩ := makeFound_ok hx found hc
    obtain ⟨H2, d, cs2, e2, hd, hx2⟩ := suggestCstr_ok hp hx1
    simp only [answerTo, encodedValue_eq]
    refine ⟨_, ?_, sound_add h1 h2 (array_out hd) hx2⟩
    simp only [step, e1, e2, Option.bind_eq_bind, Option.bind_some]
  | suggestOld found =>
    obtain ⟨H1, p, cs, e1, hp, hx1⟩ := makeFound_ok hx found hc
    obtain ⟨H2, d, cs2, e2, hd, hx2⟩ := suggestCstr_ok hp hx1
    simp only [answerTo, encodedValue_eq]
    have : ∃ H3 m cs3, convertArray (fun _ => true) H2 d = some (H3, m) ∧
        ArrOpt .malloc m (encodedOpt found) cs3 ∧ Exactly H3 (cs3 ++ (cc ++ oc)) := by
      cases d with
      | none =>
        cases hf : encodedOpt found with
        | some ss => rw [hf] at hd; cases hd
        | none => rw [hf] at hd; cases hd; exact ⟨H2, none, [], rfl, rfl, hx2⟩
      | some d =>
        cases hf : encodedOpt found with
        | none => rw [hf] at hd; cases hd
        | some ss =>
          rw [hf] at hd
          obtain ⟨H3, m, cs3, e3, hm, hx3⟩ := convertArray_ok hd hx2
          exact ⟨H3, some m, cs3, e3, hm, hx3⟩
    obtain ⟨H3, m, cs3, e3, hm, hx3⟩ := this
    refine ⟨_, ?_, sound_add h1 h2 (array_out hm) hx3⟩
    simp only [step, e1, e2, e3, Option.bind_eq_bind, Option.bind_some]
  | hyphenate found =>
    cases found with
    | none => exact ⟨_, rfl, sound_add (cs := []) h1 h2 (by exact rfl) hx⟩
    | some s =>
      obtain ⟨H1, a, c, e1, hs, hx1⟩ := makeString_ok hx s (hc s rfl)
      refine ⟨_, ?_, sound_add (r := .string .newArray (some a)) (v := .text s) (cs := [c]) h1 h2
        ⟨c, rfl, hs⟩ hx1⟩
      simp only [step, makeText, e1, Option.bind_eq_bind, Option.bind_some]
  | hyphenateOld found =>
    cases found with
    | none => exact ⟨_, rfl, sound_add (cs := []) h1 h2 (by exact rfl) hx⟩
    | some s =>
      obtain ⟨H1, a, c, e1, hs, hx1⟩ := makeString_ok hx s (hc s rfl)
      obtain ⟨H2, d, c2, e2, hd, hx2⟩ := convertString_ok hs hx1
      refine ⟨_, ?_, sound_add (r := .string .malloc (some d)) (v := .text s) (cs := [c2]) h1 h2
        ⟨c2, rfl, hd⟩ hx2⟩
      simp only [step, makeText, e1, e2, Option.bind_eq_bind, Option.bind_some]
  | paragraph errors =>
    obtain ⟨H1, e1, hx1⟩ := clearCache_ok h1 st.heap hx
    obtain ⟨H2, ps, cs, e2, hp, hx2⟩ := fillCache_ok errors H1 oc hc hx1
    refine ⟨{ st with heap := H2, cache := ps, out := st.out ++ [none] }, ?_, cs, oc ++ [], hp, h2.snoc (a := none) (b := none) (by exact rfl), ?_⟩
    · simp only [step, e1, e2, Option.bind_eq_bind, Option.bind_some]
    · rw [List.append_nil]; exact hx2
  | nextError i =>
    obtain ⟨cs, hcs, hm⟩ := cache_pick h1 i
    obtain ⟨H1, p, cs2, e1, hp, hx1⟩ := copyError_ok hcs
      (fun x hx' => List.mem_append_left _ (hm hx')) hx
    refine ⟨_, ?_, sound_add h1 h2 (error_out hp) hx1⟩
    simp only [step, e1, Option.bind_eq_bind, Option.bind_some]
  | nextErrorOld i =>
    obtain ⟨cs, hcs, hm⟩ := cache_pick h1 i
    obtain ⟨H1, s, cs2, e1, hp, hx1⟩ := oldError_ok hcs
      (fun x hx' => List.mem_append_left _ (hm hx')) hx
    simp only [answerTo, oldErrorValue_eq]
    refine ⟨_, ?_, sound_add (r := .oldError _ s) h1 h2 ⟨rfl, hp⟩ hx1⟩
    simp only [step, e1, Option.bind_eq_bind, Option.bind_some]
  | free k =>
    cases hk : st.out[k]? with
    | none =>
      have hk' : st.out.length ≤ k := List.getElem?_eq_none_iff.1 hk
      refine ⟨{ st with out := st.out ++ [none] }, by simp only [step, hk], cc, oc ++ [], h1, ?_, ?_⟩
      · simp only [answerTo]
        rw [List.set_eq_of_length_le (by rw [← h2.length]; exact hk')]
        exact h2.snoc (a := none) (b := none) (by exact rfl)
      · rw [List.append_nil]; exact hx
    | some r =>
      obtain ⟨v, c, rest, g1, g2, g3, g4⟩ := h2.pick k r hk
      have g5 := (g4 none none rfl).snoc (a := none) (b := none) (c := []) (by exact rfl)
      cases r with
      | none =>
        have hv : v = none ∧ c = [] := by
          cases v with
          | none => exact ⟨rfl, g2⟩
          | some v => cases g2
        obtain ⟨rfl, rfl⟩ := hv
        refine ⟨{ st with out := st.out ++ [none] }, by simp only [step, hk], cc, rest ++ [], h1, ?_, ?_⟩
        · have e : st.out.set k none = st.out := by
            apply List.ext_getElem? 
            intro j
            rw [List.getElem?_set]
            by_cases hj : k = j
            · subst hj
              rw [if_pos rfl, if_pos (by
                rcases Nat.lt_or_ge k st.out.length with g | g
                · exact g
                · rw [List.getElem?_eq_none g] at hk; cases hk), hk]
            · rw [if_neg hj]
          rw [e] at g5
          exact g5
        · rw [List.append_nil]
          exact hx.perm (List.Perm.append_left _ g3)
      | some r =>
        have hx' : Exactly st.heap (c ++ (cc ++ rest)) := hx.perm (by
          refine (List.Perm.append_left cc g3).trans ?_
          rw [← List.append_assoc, ← List.append_assoc]
          exact List.Perm.append_right _ List.perm_append_comm)
        obtain ⟨H1, e1, hx1⟩ := freeRes_ok g2 hx'
        refine ⟨{ st with heap := H1, out := st.out.set k none ++ [none] }, ?_, cc, rest ++ [], h1, g5, ?_⟩
        · simp only [step, hk, e1, Option.bind_eq_bind, Option.bind_some]
        · rw [List.append_nil]; exact hx1

theorem run_ok : ∀ (cs : List Call) (st : Session) (an : Answers), Sound st an →
    (∀ c ∈ cs, PlainCall c) →
    ∃ st', run (fun _ => true) cs st = some st' ∧ Sound st' (answers cs an) := by
  intro cs
  induction cs with
  | nil => intro st an h _; exact ⟨st, rfl, h⟩
  | cons c cs ih =>
    intro st an h hp
    obtain ⟨st1, e1, h1⟩ := step_ok h c (hp c List.mem_cons_self)
    obtain ⟨st2, e2, h2⟩ := ih st1 _ h1 (fun x hx => hp x (List.mem_cons_of_mem _ hx))
    refine ⟨st2, ?_, h2⟩
    simp only [run, e1, e2, Option.bind_eq_bind, Option.bind_some]

theorem sound_start : Sound {} {} := ⟨[], [], .nil, .nil, by simp, by
  intro a b
  simp [blockAt]⟩

theorem Parts.shows {st : Session} {an : Answers} (h : Sound st an) :
    List.Forall₂ (ShowsOpt st.heap) st.out an.out := by
  obtain ⟨cc, oc, _, h2, hx⟩ := h
  have : oc ⊆ cc ++ oc := List.subset_append_right _ _
  generalize cc ++ oc = cells at this hx
  generalize st.heap = H at hx ⊢
  generalize st.out = rs at h2 ⊢
  generalize an.out = vs at h2 ⊢
  induction h2 with
  | nil => exact .nil
  | cons hr _ ih =>
    exact .cons (hr.shows hx (fun x hx' => this (List.mem_append_left _ hx')))
      (ih (fun x hx' => this (List.mem_append_right _ hx')))

theorem sound_blocks {st : Session} {an : Answers} (h : Sound st an) :
    liveBlocks st.heap = blocksExpected an := by
  obtain ⟨cc, oc, h1, h2, hx⟩ := h
  rw [liveBlocks_eq _ _ hx, List.length_append,
    h1.sum (fun e => 1 + suggestionBlocks e.suggestions) (fun _ _ _ h => ErrCells.length h),
    h2.sum blocksOf OutCells.length]
  rfl

end Verif.ApiHeap
