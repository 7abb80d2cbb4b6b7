import Verif.Lemmas.ApiSession

/-!
# C103: results of the C API belong to the caller

A session is any sequence of calls for suggestions, hyphenation and grammar errors, of paragraphs
being checked, and of results being released, in any order, each with the function meant for it.
As long as `malloc` does not fail, nothing in it is undefined; every result that is still held has
the value it was returned with, whatever has happened since; and the memory in use is that of the
results held and of the errors in the cache, nothing else.

When `malloc` fails the old interface breaks its contract (last section), so the claim is partial.
-/

namespace Verif.ApiHeap

/-- No undefined behaviour, every result shows its value, and no block more than needed is in use. -/
theorem C103_session_partial (cs : List Call) (h : ∀ c ∈ cs, PlainCall c) :
    ∃ st, run (fun _ => true) cs {} = some st ∧
      List.Forall₂ (ShowsOpt st.heap) st.out (answers cs {}).out ∧
      liveBlocks st.heap = blocksExpected (answers cs {}) := by
  obtain ⟨st, e, hs⟩ := run_ok cs {} {} sound_start h
  exact ⟨st, e, Parts.shows hs, sound_blocks hs⟩

theorem out_append (ok : Nat → Bool) (k : Nat) (r : Res) : ∀ (cs : List Call) (st st' : Session),
    run ok cs st = some st' → st.out[k]? = some (some r) → Call.free k ∉ cs →
    st'.out[k]? = some (some r) := by
  intro cs
  induction cs with
  | nil => intro st st' e h _; cases e; exact h
  | cons c cs ih =>
    intro st st' e h hf
    simp only [List.mem_cons, not_or] at hf
    obtain ⟨st1, e1, e2⟩ := Option.bind_eq_some_iff.1 e
    refine ih st1 st' e2 ?_ hf.2
    have hlt : k < st.out.length := by
      rcases Nat.lt_or_ge k st.out.length with g | g
      · exact g
      · rw [List.getElem?_eq_none g] at h; cases h
    have app : ∀ x, (st.out ++ [x])[k]? = some (some r) := fun x => by
      rw [List.getElem?_append_left hlt]; exact h
    cases c with
    | free j =>
      simp only [step] at e1
      split at e1
      · obtain ⟨H, _, e1⟩ := Option.bind_eq_some_iff.1 e1
        cases e1
        have hj : j ≠ k := fun e => hf.1 (by rw [e])
        simp only []
        rw [List.getElem?_append_left (by simpa using hlt), List.getElem?_set_ne hj]
        exact h
      · cases e1; exact app none
    | suggestUcs4 f =>
      simp only [step, Option.bind_eq_bind, Option.bind_eq_some_iff] at e1
      obtain ⟨_, _, e1⟩ := e1
      cases e1; exact app _
    | suggest f =>
      simp only [step, Option.bind_eq_bind, Option.bind_eq_some_iff] at e1
      obtain ⟨_, _, _, _, e1⟩ := e1
      cases e1; exact app _
    | suggestOld f =>
      simp only [step, Option.bind_eq_bind, Option.bind_eq_some_iff] at e1
      obtain ⟨_, _, _, _, _, _, e1⟩ := e1
      cases e1; exact app _
    | hyphenate f =>
      simp only [step, Option.bind_eq_bind, Option.bind_eq_some_iff] at e1
      obtain ⟨_, _, e1⟩ := e1
      cases e1; exact app _
    | hyphenateOld f =>
      simp only [step, Option.bind_eq_bind, Option.bind_eq_some_iff] at e1
      obtain ⟨_, _, _, _, e1⟩ := e1
      cases e1; exact app _
    | paragraph f =>
      simp only [step, Option.bind_eq_bind, Option.bind_eq_some_iff] at e1
      obtain ⟨_, _, _, _, e1⟩ := e1
      cases e1; exact app _
    | nextError i =>
      simp only [step, Option.bind_eq_bind, Option.bind_eq_some_iff] at e1
      obtain ⟨_, _, e1⟩ := e1
      cases e1; exact app _
    | nextErrorOld i =>
      simp only [step, Option.bind_eq_bind, Option.bind_eq_some_iff] at e1
      obtain ⟨_, _, e1⟩ := e1
      cases e1; exact app _

theorem answers_append (cs cs' : List Call) (an : Answers) :
    answers (cs ++ cs') an = answers cs' (answers cs an) := by
  simp [answers]

theorem value_stays (k : Nat) (v : Value) : ∀ (cs : List Call) (an : Answers),
    an.out[k]? = some (some v) → Call.free k ∉ cs → (answers cs an).out[k]? = some (some v) := by
  intro cs
  induction cs with
  | nil => intro an h _; exact h
  | cons c cs ih =>
    intro an h hf
    simp only [List.mem_cons, not_or] at hf
    refine ih (answerTo an c) ?_ hf.2
    have hlt : k < an.out.length := by
      rcases Nat.lt_or_ge k an.out.length with g | g
      · exact g
      · rw [List.getElem?_eq_none g] at h; cases h
    have app : ∀ x, (an.out ++ [x])[k]? = some (some v) := fun x => by
      rw [List.getElem?_append_left hlt]; exact h
    cases c with
    | free j =>
      have hj : j ≠ k := fun e => hf.1 (by rw [e])
      simp only [answerTo]
      rw [List.getElem?_append_left (by simpa using hlt), List.getElem?_set_ne hj]
      exact h
    | _ => exact app _

theorem forall2_get {α β : Type} {R : α → β → Prop} {as : List α} {bs : List β}
    (h : List.Forall₂ R as bs) : ∀ (k : Nat) (a : α), as[k]? = some a → ∃ b, bs[k]? = some b ∧ R a b := by
  induction h with
  | nil => intro k a h; simp at h
  | cons hr _ ih =>
    intro k a hk
    cases k with
    | zero =>
      simp only [List.getElem?_cons_zero, Option.some.injEq] at hk
      subst hk
      exact ⟨_, by simp, hr⟩
    | succ k => simpa using ih k a (by simpa using hk)

/-- A result keeps its place and its value until the caller releases it: other calls, other results
being released and new paragraphs being checked make no difference. -/
theorem C103_stays_partial (before after : List Call) (hb : ∀ c ∈ before, PlainCall c)
    (ha : ∀ c ∈ after, PlainCall c) (st1 : Session) (h1 : run (fun _ => true) before {} = some st1)
    (k : Nat) (r : Res) (hr : st1.out[k]? = some (some r)) (hf : Call.free k ∉ after) :
    ∃ st2 v, run (fun _ => true) after st1 = some st2 ∧ st2.out[k]? = some (some r) ∧
      (answers before {}).out[k]? = some (some v) ∧ Shows st1.heap r v ∧ Shows st2.heap r v := by
  obtain ⟨s1, e1, hs1⟩ := run_ok before {} {} sound_start hb
  rw [h1, Option.some.injEq] at e1
  subst e1
  obtain ⟨st2, e2, hs2⟩ := run_ok after st1 _ hs1 ha
  have hk2 := out_append _ k r after st1 st2 e2 hr hf
  obtain ⟨v, hv, hsh⟩ := forall2_get (Parts.shows hs1) k _ hr
  cases v with
  | none => exact hsh.elim
  | some v =>
    refine ⟨st2, v, e2, hk2, hv, hsh, ?_⟩
    obtain ⟨v', hv', hsh'⟩ := forall2_get (Parts.shows hs2) k _ hk2
    rw [value_stays k v after _ hv hf, Option.some.injEq] at hv'
    subst hv'
    exact hsh'

/-- When the caller has released everything and the cache is empty, no memory is in use. -/
theorem C103_all_released_partial (cs : List Call) (h : ∀ c ∈ cs, PlainCall c) (st : Session)
    (hr : run (fun _ => true) cs {} = some st) (hout : ∀ r ∈ st.out, r = none) (hcache : st.cache = []) :
    ∀ a, blockAt st.heap a = none := by
  obtain ⟨s1, e1, cc, oc, h1, h2, hx⟩ := run_ok cs {} {} sound_start h
  rw [hr, Option.some.injEq] at e1
  subst e1
  have hcc : cc = [] := by
    rw [hcache] at h1
    generalize (answers cs {}).cache = es at h1
    cases h1
    rfl
  have hoc : oc = [] := by
    generalize st.out = rs at h2 hout
    generalize (answers cs {}).out = vs at h2
    clear hx
    induction h2 with
    | nil => rfl
    | @cons a b c as bs cs hr' _ ih =>
      have := hout a List.mem_cons_self
      subst this
      cases b with
      | some v => exact hr'.elim
      | none =>
        rw [show c = [] from hr', ih (fun x hx => hout x (List.mem_cons_of_mem _ hx))]
        rfl
  intro a
  cases hb : blockAt st.heap a with
  | none => rfl
  | some b =>
    have := (hx.2 a b).1 hb
    rw [hcc, hoc] at this
    cases this

/-! ### The new interface does not depend on `malloc` -/

theorem copyLoop_new (ok ok' : Nat → Bool) (b : Bool) (dst src : Nat) : ∀ (n i : Nat) (H : Heap),
    copyLoop ok b .newArray dst src n i H = copyLoop ok' b .newArray dst src n i H := by
  intro n
  induction n with
  | zero => intro i H; rfl
  | succ n ih =>
    intro i H
    simp only [copyLoop, reduceCtorEq, false_and, if_false, ih]

theorem copyError_new (ok ok' : Nat → Bool) (H : Heap) (c : Option Nat) :
    copyError ok H c = copyError ok' H c := by
  cases c with
  | none => rfl
  | some c =>
    simp only [copyError, copyArray, reduceCtorEq, false_and, if_false,
      copyLoop_new ok ok']

/-- Calls of the old interface, `compatibility/interface.cpp`. -/
def OldCall : Call → Bool
  | .suggestOld _ | .hyphenateOld _ | .nextErrorOld _ => true
  | _ => false

/-- Without calls of the old interface the theorems above hold whether or not `malloc` fails. -/
theorem C103_new_interface (ok : Nat → Bool) : ∀ (cs : List Call) (st : Session),
    (∀ c ∈ cs, OldCall c = false) → run ok cs st = run (fun _ => true) cs st := by
  intro cs
  induction cs with
  | nil => intro st _; rfl
  | cons c cs ih =>
    intro st h
    have hc := h c List.mem_cons_self
    have e : step ok st c = step (fun _ => true) st c := by
      cases c with
      | nextError i => simp only [step, copyError_new ok (fun _ => true)]
      | suggestOld f => cases hc
      | hyphenateOld f => cases hc
      | nextErrorOld f => cases hc
      | _ => rfl
    simp only [run, e]
    congr 1
    funext st'
    exact ih st' (fun x hx => h x (List.mem_cons_of_mem _ hx))

/-- A session of the new interface with no `malloc` at all. -/
example : (run (fun _ => false) [.suggest (some [[97]]), .paragraph [(⟨1, 0, 1⟩, some [[97]])],
    .nextError 0, .paragraph [], .free 0, .free 2] {}).map (fun st => liveBlocks st.heap) = some 0 := by
  decide +kernel

/-! ### A session -/

/-- Suggestions "ä" and one that cannot be encoded, a hyphenation, a paragraph with one error, and
the error asked for in both ways; then the cache is replaced. -/
def demoCalls : List Call :=
  [.suggest (some [[0xE4], [0xD800]]), .hyphenateOld (some [97, 45]),
   .paragraph [(⟨1, 4, 2⟩, some [[97], [98]])], .nextError 0, .nextErrorOld 0, .suggestOld (some [[98]]),
   .paragraph []]

theorem demoCalls_plain : ∀ c ∈ demoCalls, PlainCall c := by
  intro c hc
  simp only [demoCalls, List.mem_cons, List.not_mem_nil, or_false] at hc
  rcases hc with rfl | rfl | rfl | rfl | rfl | rfl | rfl <;>
    simp [PlainCall, PlainText]

/-- It ends with the expected values; twelve blocks, the contents of five results, are in use. -/
example : (∀ c ∈ demoCalls, PlainCall c) ∧
    ((run (fun _ => true) demoCalls {}).map (fun st => (liveBlocks st.heap, st.cache,
      st.out.map Option.isSome))) =
      some (2 + 1 + 4 + 3 + 2, [], [true, true, false, true, true, true, false]) ∧
    (answers demoCalls {}).out = [some (.texts [[0xC3, 0xA4]]), some (.text [97, 45]), none,
      some (.error ⟨⟨1, 4, 2⟩, some [[97], [98]]⟩), some (.oldError ⟨⟨1, 4, 2⟩, some [[97], [98]]⟩),
      some (.texts [[98]]), none] :=
  ⟨demoCalls_plain, by decide +kernel, by decide +kernel⟩

/-- Releasing everything, in an order of its own, leaves nothing. -/
example : (run (fun _ => true) (demoCalls ++ [.free 4, .free 0, .free 5, .free 3, .free 1]) {}).map
    (fun st => (liveBlocks st.heap, st.out.all Option.isNone, st.cache)) = some (0, true, []) := by
  decide +kernel

/-- The model notices wrong use: an array of `voikkoSuggestCstr` given to `voikko_free_suggest_cstr`,
and releasing twice. -/
example : (do
      let (H, p) ← makeFound [] (some [[97]])
      releaseArray .malloc H p) = none ∧
    (do
      let (H, p) ← makeFound [] (some [[97]])
      let H ← releaseArray .newArray H p
      releaseArray .newArray H p) = none := by
  decide +kernel

/-! ### When `malloc` fails -/

/-- `voikko_suggest_cstr` then returns the array of `new[]`, and the release by
`voikko_free_suggest_cstr` that its documentation asks for is undefined. -/
theorem C103_suggest_out_of_memory : ∃ st, run (fun _ => false) [.suggestOld (some [[97]])] {} = some st ∧
    (∃ p, st.out = [some (.array .malloc (some p))] ∧ ArrayIn st.heap p [[97]]) ∧
    run (fun _ => false) [.suggestOld (some [[97]]), .free 0] {} = none := by
  refine ⟨⟨[none, none, some ⟨.newArray, .ptrs [some (some 3), some none]⟩,
    some ⟨.newArray, .chars [some 97, some 0, none, none, none, none, none]⟩], [],
    [some (.array .malloc (some 2))]⟩, by decide +kernel, ⟨2, rfl, ?_⟩, by decide +kernel⟩
  exact ⟨.newArray, [3], [], rfl, .cons ⟨.newArray, [none, none, none, none, none], rfl, by simp⟩ .nil⟩

/-- The same for `voikko_hyphenate_cstr` and `voikko_free_hyphenate`. -/
theorem C103_hyphenate_out_of_memory :
    (run (fun _ => false) [.hyphenateOld (some [97])] {}).isSome = true ∧
    run (fun _ => false) [.hyphenateOld (some [97]), .free 0] {} = none := by decide +kernel

/-- When memory runs out between two strings, the array is returned as it was, and the strings
copied so far are lost: one block more is in use than the result needs. -/
theorem C103_copied_strings_leak : ∃ ok, (run ok [.suggestOld (some [[97], [98]])] {}).map
      (fun st => liveBlocks st.heap) = some (3 + 1) ∧
    blocksExpected (answers [.suggestOld (some [[97], [98]])] {}) = 3 :=
  ⟨fun n => decide (n < 8), by decide +kernel, by decide +kernel⟩

/-- `voikko_next_grammar_error_ucs4` writes through the null pointer. -/
theorem C103_error_out_of_memory :
    (run (fun _ => false) [.paragraph [(⟨1, 0, 1⟩, some [[97]])], .nextError 0] {}).isSome = true ∧
    run (fun _ => false) [.paragraph [(⟨1, 0, 1⟩, some [[97]])], .nextErrorOld 0] {} = none := by
  decide +kernel

end Verif.ApiHeap
