import Verif.Spec.Threads
/-!
# Lemmas about the threads of the spelling program
-/

set_option linter.unusedSimpArgs false
set_option linter.unusedVariables false

namespace Verif.Threads
open Verif

theorem mod_inj {T j k l : Nat} (h1 : j ≤ k) (h2 : k < j + T) (h3 : j ≤ l) (h4 : l < j + T) (h : k % T = l % T) : k = l := by
  have e1 := Nat.div_add_mod k T
  have e2 := Nat.div_add_mod l T
  rcases Nat.lt_trichotomy (k / T) (l / T) with hlt | heq | hgt
  · have := Nat.mul_le_mul_left T (Nat.succ_le_of_lt hlt)
    rw [Nat.mul_succ] at this
    omega
  · rw [heq] at e1; omega
  · have := Nat.mul_le_mul_left T (Nat.succ_le_of_lt hgt)
    rw [Nat.mul_succ] at this
    omega

/-- A thread works on the block `q`, or has worked on it. -/
def Holds (answer : List Wc → List Wc) (q : List (List Wc)) : Slot → Prop
  | .free => False
  | .running todo o => ∃ pre, q = pre ++ todo ∧ o = pre.flatMap answer
  | .finished o => o = q.flatMap answer

/-- What is known where the main thread is. `qs` are the blocks for which threads have been created, the first `j` of them have been joined. -/
def Place (T : Nat) (words : List (List Wc)) (pc : Pc) (input block : List (List Wc)) (next : Nat) (qs : List (List (List Wc))) (j : Nat) : Prop :=
  match pc with
  | .reading => next = qs.length % T ∧ (∀ q ∈ qs, q.length = 500) ∧ block.length < 500 ∧ (qs.length < T → j = 0) ∧ (T ≤ qs.length → qs.length = j + T)
  | .queueing final => next = qs.length % T ∧ (∀ q ∈ qs, q.length = 500) ∧ (if final then block.length < 500 ∧ input = [] else block.length = 500) ∧
      (qs.length < T → j = 0) ∧ (T ≤ qs.length → j + T ≤ qs.length + 1 ∧ (block = [] → qs.length = j + T))
  | .finishing => input = [] ∧ block = [] ∧ blockCount words = qs.length ∧ ((qs.length < T ∧ j = 0 ∧ next = qs.length) ∨ (T ≤ qs.length ∧ next = j % T))
  | .terminated => input = [] ∧ block = [] ∧ j = qs.length ∧ blockCount words = qs.length ∧ (qs.length < T → qs.length = 0)

/-- The invariant of the program. -/
structure Inv {σ : Type} (T : Nat) (P : σ → Prop) (answer : List Wc → List Wc) (words : List (List Wc)) (t : Tool σ) (qs : List (List (List Wc))) (j : Nat) : Prop where
  pos : 0 < T
  slen : t.slots.length = T
  hlen : t.handles.length = T
  hP : ∀ h ∈ t.handles, P h
  split : qs.flatten ++ t.block ++ t.input = words
  jle : j ≤ qs.length
  use : t.inUse = qs.length - j
  useT : qs.length ≤ j + T
  out : t.out = expected answer (qs.take j).flatten
  slot : ∀ (k : Nat) q, j ≤ k → qs[k]? = some q → ∃ s, t.slots[k % T]? = some s ∧ Holds answer q s
  free : ∀ i < T, (∀ k, j ≤ k → k < qs.length → k % T ≠ i) → t.slots[i]? = some .free
  place : Place T words t.pc t.input t.block t.next qs j

theorem inv_start {σ : Type} {P : σ → Prop} {answer : List Wc → List Wc} {handles : List σ} {words : List (List Wc)} (hT : 0 < handles.length)
    (hP : ∀ h ∈ handles, P h) : Inv handles.length P answer words (startTool handles words) [] 0 := by
  refine ⟨hT, by simp [startTool], rfl, hP, rfl, Nat.le_refl _, rfl, by simp, rfl, ?_, ?_, ?_⟩
  · intro k q _ h; simp at h
  · intro i hi _
    simp [startTool, hi]
  · show Place _ _ .reading _ _ _ _ _
    refine ⟨by simp [startTool], by simp, by simp [startTool], fun _ => rfl, fun h => ?_⟩
    exact absurd (Nat.lt_of_lt_of_le hT h) (Nat.lt_irrefl 0)

/-- The block of a slot that is not free. -/
theorem Inv.owner {σ : Type} {T : Nat} {P : σ → Prop} {answer : List Wc → List Wc} {words : List (List Wc)} {t : Tool σ} {qs : List (List (List Wc))} {j : Nat}
    (h : Inv T P answer words t qs j) {i : Nat} {s : Slot} (hs : t.slots[i]? = some s) (hf : s ≠ .free) :
    ∃ k q, j ≤ k ∧ qs[k]? = some q ∧ k % T = i ∧ Holds answer q s := by
  have hi : i < T := by rw [← h.slen]; exact (List.getElem?_eq_some_iff.1 hs).1
  by_cases hex : ∃ k, j ≤ k ∧ k < qs.length ∧ k % T = i
  · obtain ⟨k, h1, h2, h3⟩ := hex
    obtain ⟨s', h4, h5⟩ := h.slot k _ h1 (List.getElem?_eq_getElem h2)
    rw [h3, hs] at h4
    cases h4
    exact ⟨k, _, h1, List.getElem?_eq_getElem h2, h3, h5⟩
  · exfalso
    have := h.free i hi (fun k h1 h2 h3 => hex ⟨k, h1, h2, h3⟩)
    rw [hs] at this
    exact hf (Option.some.inj this)

theorem Inv.word_mem {σ : Type} {T : Nat} {P : σ → Prop} {answer : List Wc → List Wc} {words : List (List Wc)} {t : Tool σ} {qs : List (List (List Wc))} {j : Nat}
    (h : Inv T P answer words t qs j) {k : Nat} {q : List (List Wc)} (hq : qs[k]? = some q) {w : List Wc} (hw : w ∈ q) : w ∈ words := by
  rw [← h.split]
  exact List.mem_append_left _ (List.mem_append_left _ (List.mem_flatten.2 ⟨q, List.mem_of_getElem? hq, hw⟩))

/-- Changing the state of one thread that is not free. -/
theorem Inv.setSlot {σ : Type} {T : Nat} {P : σ → Prop} {answer : List Wc → List Wc} {words : List (List Wc)} {t : Tool σ} {qs : List (List (List Wc))} {j : Nat}
    (h : Inv T P answer words t qs j) {k i : Nat} {q : List (List Wc)} (h1 : j ≤ k) (h2 : qs[k]? = some q) (h3 : k % T = i) {s : Slot} (hs : Holds answer q s)
    (hd : List σ) (hl : hd.length = T) (hP : ∀ h ∈ hd, P h) : Inv T P answer words { t with slots := t.slots.set i s, handles := hd } qs j := by
  have hk : k < qs.length := (List.getElem?_eq_some_iff.1 h2).1
  have hiT : i < T := by rw [← h3]; exact Nat.mod_lt _ h.pos
  refine ⟨h.pos, by simp [h.slen], hl, hP, h.split, h.jle, h.use, h.useT, h.out, ?_, ?_, h.place⟩
  · intro l r h4 h5
    have hl : l < qs.length := (List.getElem?_eq_some_iff.1 h5).1
    by_cases he : l % T = i
    · have := h.useT
      have hlk : l = k := mod_inj (T := T) h4 (by omega) h1 (by omega) (he.trans h3.symm)
      subst hlk
      rw [h2] at h5; cases h5
      refine ⟨s, ?_, hs⟩
      show (t.slots.set i s)[l % T]? = _
      rw [he, List.getElem?_set_self (by rw [h.slen]; exact hiT)]
    · obtain ⟨s', h6, h7⟩ := h.slot l r h4 h5
      refine ⟨s', ?_, h7⟩
      show (t.slots.set i s)[l % T]? = _
      rw [List.getElem?_set_ne (fun e => he e.symm)]
      exact h6
  · intro m hm hno
    show (t.slots.set i s)[m]? = _
    rw [List.getElem?_set_ne (fun e => hno k h1 hk (h3.trans e))]
    exact h.free m hm hno

variable {σ : Type} {T : Nat} {check : σ → List Wc → UB (List Wc × σ)} {P : σ → Prop} {answer : List Wc → List Wc} {words : List (List Wc)}

/-- A step of a thread. -/
theorem threadStep_inv (hc : Steady check P answer words) {t : Tool σ} {qs : List (List (List Wc))} {j : Nat} (h : Inv T P answer words t qs j) (i : Nat) :
    threadStep check i t ≠ .ub ∧ ∀ t', threadStep check i t = .ok t' → Inv T P answer words t' qs j ∧ t'.pc = t.pc := by
  unfold threadStep
  cases hs : t.slots[i]? with
  | none => exact ⟨by simp, by simp⟩
  | some s =>
    cases hh : t.handles[i]? with
    | none => cases s <;> simp
    | some hd =>
      cases s with
      | free => simp
      | finished o => simp
      | running todo o =>
        obtain ⟨k, q, h1, h2, h3, pre, h4, h5⟩ := h.owner hs (by simp)
        cases todo with
        | nil =>
          refine ⟨by simp, ?_⟩
          intro t' e
          simp only [Outcome.ok.injEq] at e
          subst e
          refine ⟨?_, rfl⟩
          have := h.setSlot h1 h2 h3 (s := .finished o) (by show o = _; rw [h4, h5]; simp) t.handles h.hlen h.hP
          exact this
        | cons w r =>
          obtain ⟨hd', e1, e2⟩ := hc hd w (h.hP hd (List.mem_of_getElem? hh)) (h.word_mem h2 (by rw [h4]; simp))
          simp only [e1]
          refine ⟨by simp, ?_⟩
          intro t' e
          simp only [Outcome.ok.injEq] at e
          subst e
          refine ⟨h.setSlot h1 h2 h3 (s := .running r (o ++ answer w)) ⟨pre ++ [w], by rw [h4]; simp, by rw [h5]; simp⟩ _ ?_ ?_, rfl⟩
          · rw [List.length_set]; exact h.hlen
          · intro x hx
            rcases List.mem_or_eq_of_mem_set hx with hx | hx
            · exact h.hP x hx
            · rw [hx]; exact e2

/-- Joining the oldest thread. -/
theorem cleanup_inv {t : Tool σ} {qs : List (List (List Wc))} {j : Nat} (h : Inv T P answer words t qs j) (hj : j < qs.length) (hn : t.next = j % T) :
    cleanupThread t ≠ .ub ∧ (cleanupThread t = .blocked → ∃ todo o, t.slots[t.next]? = some (.running todo o)) ∧
    ∀ t', cleanupThread t = .ok t' → ∀ pc next, Place T words pc t.input t.block next qs (j + 1) →
      Inv T P answer words { t' with pc := pc, next := next } qs (j + 1) := by
  obtain ⟨s, h1, h2⟩ := h.slot j _ (Nat.le_refl _) (List.getElem?_eq_getElem hj)
  unfold cleanupThread
  rw [hn, h1]
  cases s with
  | free => exact absurd h2 id
  | running todo o => exact ⟨by simp, fun _ => ⟨_, _, rfl⟩, by simp⟩
  | finished o =>
    refine ⟨by simp, by simp, ?_⟩
    intro t' e pc next hp
    simp only [Outcome.ok.injEq] at e
    subst e
    have hu := h.useT
    refine ⟨h.pos, by simp [h.slen], h.hlen, h.hP, h.split, hj, ?_, by omega, ?_, ?_, ?_, hp⟩
    · show t.inUse - 1 = _
      rw [h.use]; omega
    · show t.out ++ o = _
      have : o = _ := h2
      rw [h.out, List.take_succ_eq_append_getElem hj, this]
      simp [expected, -List.take_append_getElem]
    · intro k q hk hq
      have hkl : k < qs.length := (List.getElem?_eq_some_iff.1 hq).1
      obtain ⟨s, h3, h4⟩ := h.slot k q (by omega) hq
      refine ⟨s, ?_, h4⟩
      show (t.slots.set (j % T) .free)[k % T]? = _
      rw [List.getElem?_set_ne]
      · exact h3
      · intro e
        have := mod_inj (T := T) (Nat.le_refl j) (by have := h.pos; omega) (show j ≤ k by omega) (by omega) e
        omega
    · intro i hi hno
      show (t.slots.set (j % T) .free)[i]? = _
      by_cases he : j % T = i
      · rw [he, List.getElem?_set_self (by rw [h.slen]; exact hi)]
      · rw [List.getElem?_set_ne he]
        refine h.free i hi fun k h3 h4 h5 => ?_
        by_cases hk : k = j
        · subst hk; exact he h5
        · exact hno k (by omega) h4 h5

theorem flatten_length {qs : List (List (List Wc))} (h : ∀ q ∈ qs, q.length = 500) : qs.flatten.length = 500 * qs.length := by
  induction qs with
  | nil => rfl
  | cons q qs ih =>
    rw [List.flatten_cons, List.length_append, ih (fun x hx => h x (List.mem_cons_of_mem _ hx)), h q List.mem_cons_self, List.length_cons]
    omega

/-- A step of the main thread. It is undefined only if there are too few blocks. -/
theorem mainStep_inv {t : Tool σ} {qs : List (List (List Wc))} {j : Nat} (h : Inv T P answer words t qs j) :
    (mainStep t = .ub → 0 < blockCount words ∧ blockCount words < T) ∧ (mainStep t = .blocked → t.pc = .terminated ∨ ∃ (i : Nat) (todo : List (List Wc)) (o : List Wc), t.slots[i]? = some (.running todo o)) ∧
    ∀ t', mainStep t = .ok t' → ∃ qs' j', Inv T P answer words t' qs' j' := by
  have hp := h.place
  have hpos := h.pos
  have huse := h.use
  have huT := h.useT
  have hjle := h.jle
  unfold mainStep
  cases hpc : t.pc with
  | terminated => exact ⟨by simp, fun _ => Or.inl rfl, by simp⟩
  | reading =>
    rw [hpc] at hp
    obtain ⟨p1, p2, p3, p4, p5⟩ := hp
    cases hin : t.input with
    | nil =>
      refine ⟨by simp, by simp, ?_⟩
      intro t' e
      simp only [Outcome.ok.injEq] at e
      subst e
      refine ⟨qs, j, ⟨h.pos, h.slen, h.hlen, h.hP, by rw [← h.split, hin], h.jle, h.use, h.useT, h.out, h.slot, h.free, ?_⟩⟩
      exact ⟨p1, p2, ⟨p3, rfl⟩, p4, fun e => by have := p5 e; exact ⟨by omega, fun _ => this⟩⟩
    | cons w r =>
      simp only
      have hsplit : qs.flatten ++ (t.block ++ [w]) ++ r = words := by rw [← h.split, hin]; simp
      split
      · rename_i hlen
        refine ⟨by simp, by simp, ?_⟩
        intro t' e
        simp only [Outcome.ok.injEq] at e
        subst e
        refine ⟨qs, j, ⟨h.pos, h.slen, h.hlen, h.hP, hsplit, h.jle, h.use, h.useT, h.out, h.slot, h.free, ?_⟩⟩
        exact ⟨p1, p2, hlen, p4, fun e => by have := p5 e; exact ⟨by omega, fun _ => this⟩⟩
      · rename_i hlen
        refine ⟨by simp, by simp, ?_⟩
        intro t' e
        simp only [Outcome.ok.injEq] at e
        subst e
        refine ⟨qs, j, ⟨h.pos, h.slen, h.hlen, h.hP, hsplit, h.jle, h.use, h.useT, h.out, h.slot, h.free, ?_⟩⟩
        refine ⟨p1, p2, ?_, p4, p5⟩
        show (t.block ++ [w]).length < 500
        rw [List.length_append, List.length_singleton] at hlen ⊢
        unfold wordsPerBlock at hlen
        omega
  | queueing final =>
    rw [hpc] at hp
    obtain ⟨p1, p2, p3, p4, p5⟩ := hp
    simp only
    have hcount : ∀ l : List (List Wc), l.length ≤ 500 → (l ≠ [] → qs.flatten ++ l = words) → (l = [] → qs.flatten = words) →
        blockCount words = qs.length + (if l = [] then 0 else 1) := by
      intro l hl h1 h2
      have hf := flatten_length p2
      unfold blockCount
      by_cases he : l = []
      · rw [if_pos he, ← h2 he, hf]; omega
      · rw [if_neg he, ← h1 he, List.length_append, hf]
        have : 0 < l.length := List.length_pos_iff.2 he
        omega
    by_cases hbl : t.block = []
    · rw [if_pos hbl]
      refine ⟨by simp, by simp, ?_⟩
      intro t' e
      simp only [Outcome.ok.injEq] at e
      subst e
      cases final with
      | false => rw [if_neg (by decide), hbl] at p3; simp at p3
      | true =>
        rw [if_pos rfl] at p3
        refine ⟨qs, j, ⟨h.pos, h.slen, h.hlen, h.hP, h.split, h.jle, h.use, h.useT, h.out, h.slot, h.free, ?_⟩⟩
        have hw : qs.flatten = words := by rw [← h.split, hbl, p3.2]; simp
        have hc := hcount [] (by simp) (fun e => absurd rfl e) (fun _ => hw)
        rw [if_pos rfl] at hc
        refine ⟨p3.2, hbl, by omega, ?_⟩
        by_cases hlt : qs.length < T
        · exact Or.inl ⟨hlt, p4 hlt, by show t.next = _; rw [p1, Nat.mod_eq_of_lt hlt]⟩
        · exact Or.inr ⟨by omega, by show t.next = _; rw [p1, (p5 (by omega)).2 hbl, Nat.add_mod_right]⟩
    · rw [if_neg hbl]
      by_cases hfull : t.inUse = t.slots.length
      · rw [if_pos hfull]
        rw [h.slen, huse] at hfull
        have hnj : t.next = j % T := by
          rw [p1, show qs.length = j + T by omega, Nat.add_mod_right]
        obtain ⟨c1, c2, c3⟩ := cleanup_inv h (by omega) hnj
        refine ⟨fun e => absurd e c1, fun e => ?_, fun t' e => ⟨qs, j + 1, ?_⟩⟩
        · obtain ⟨todo, o, e⟩ := c2 e
          exact Or.inr ⟨_, _, _, e⟩
        · have := c3 t' e (.queueing final) t.next ⟨p1, p2, p3, fun e => by omega, fun e => ⟨by omega, fun e => absurd e hbl⟩⟩
          have e2 : { t' with pc := .queueing final, next := t.next } = t' := by
            unfold cleanupThread at e
            split at e <;> simp at e
            subst e
            rw [← hpc]
          rw [e2] at this
          exact this
      · rw [if_neg hfull]
        rw [h.slen, huse] at hfull
        have hlt : qs.length - j < T := by omega
        have hnext : t.next < T := by rw [p1]; exact Nat.mod_lt _ h.pos
        have hfree : t.slots[t.next]? = some .free := by
          refine h.free _ hnext fun k h1 h2 h3 => ?_
          rw [p1] at h3
          have := mod_inj (T := T) h1 (by omega) (show j ≤ qs.length from h.jle) (by omega) h3
          omega
        rw [hfree]
        refine ⟨by simp, by simp, ?_⟩
        intro t' e
        simp only [Outcome.ok.injEq] at e
        subst e
        refine ⟨qs ++ [t.block], j, ⟨h.pos, by simp [h.slen], h.hlen, h.hP, ?_, ?_, ?_, ?_, ?_, ?_, ?_, ?_⟩⟩
        · rw [← h.split]; simp
        · simp; omega
        · show t.inUse + 1 = _
          rw [huse]; simp; omega
        · simp; omega
        · show t.out = _
          rw [h.out, List.take_append_of_le_length h.jle]
        · intro k q hk hq
          by_cases hkm : k = qs.length
          · subst hkm
            rw [List.getElem?_append_right (Nat.le_refl _), Nat.sub_self] at hq
            cases hq
            refine ⟨.running t.block [], ?_, [], rfl, rfl⟩
            show (t.slots.set t.next _)[_]? = _
            rw [← p1, List.getElem?_set_self (by rw [h.slen]; exact hnext)]
          · have hkl : k < (qs ++ [t.block]).length := (List.getElem?_eq_some_iff.1 hq).1
            rw [List.length_append, List.length_singleton] at hkl
            rw [List.getElem?_append_left (by omega)] at hq
            obtain ⟨s, h3, h4⟩ := h.slot k q hk hq
            refine ⟨s, ?_, h4⟩
            show (t.slots.set t.next _)[_]? = _
            rw [List.getElem?_set_ne]
            · exact h3
            · intro e
              rw [p1] at e
              have := mod_inj (T := T) h.jle (by omega) hk (by omega) e
              omega
        · intro i hi hno
          show (t.slots.set t.next _)[i]? = _
          rw [List.getElem?_set_ne]
          · exact h.free i hi fun k h1 h2 => hno k h1 (by simp; omega)
          · intro e
            exact hno qs.length h.jle (by simp) (by rw [← p1]; exact e)
        · have hn : (t.next + 1) % t.slots.length = (qs ++ [t.block]).length % T := by
            rw [h.slen, p1, List.length_append, List.length_singleton, Nat.mod_add_mod]
          cases final with
          | false =>
            rw [if_neg (by decide)] at p3
            refine ⟨hn, ?_, by simp, ?_, ?_⟩
            · intro q hq
              rcases List.mem_append.1 hq with hq | hq
              · exact p2 q hq
              · rw [List.mem_singleton] at hq; rw [hq]; exact p3
            · intro e; rw [List.length_append, List.length_singleton] at e; exact p4 (by omega)
            · intro e
              rw [List.length_append, List.length_singleton] at e ⊢
              by_cases hq : qs.length < T
              · have := p4 hq; omega
              · have := p5 (by omega); omega
          | true =>
            rw [if_pos rfl] at p3
            have hw : qs.flatten ++ t.block = words := by rw [← h.split, p3.2]; simp
            have hc := hcount t.block (by omega) (fun _ => hw) (fun e => absurd e hbl)
            rw [if_neg hbl] at hc
            refine ⟨p3.2, rfl, by rw [hc]; simp, ?_⟩
            rw [List.length_append, List.length_singleton]
            by_cases hq : qs.length + 1 < T
            · exact Or.inl ⟨hq, p4 (by omega), by show (t.next + 1) % _ = _; rw [hn, List.length_append, List.length_singleton, Nat.mod_eq_of_lt hq]⟩
            · refine Or.inr ⟨by omega, ?_⟩
              show (t.next + 1) % _ = _
              rw [hn, List.length_append, List.length_singleton]
              have : qs.length + 1 = j + T := by
                by_cases hq2 : qs.length < T
                · have := p4 hq2; omega
                · have := p5 (by omega); omega
              rw [this, Nat.add_mod_right]
  | finishing =>
    rw [hpc] at hp
    obtain ⟨p1, p2, p3, p4⟩ := hp
    simp only
    by_cases hu : 0 < t.inUse
    · rw [if_pos hu]
      rw [huse] at hu
      rcases p4 with ⟨a, b, c⟩ | hT
      · have hfree : t.slots[t.next]? = some .free := by
          rw [c]
          refine h.free _ a fun k h1 h2 h3 => ?_
          rw [Nat.mod_eq_of_lt (by omega)] at h3
          omega
        have hcl : cleanupThread t = .ub := by unfold cleanupThread; rw [hfree]
        rw [hcl]
        exact ⟨fun _ => by omega, by simp, by simp⟩
      obtain ⟨c1, c2, c3⟩ := cleanup_inv h (by omega) hT.2
      cases hcl : cleanupThread t with
      | ub => exact absurd hcl c1
      | blocked =>
        obtain ⟨todo, o, e⟩ := c2 hcl
        exact ⟨by simp, fun _ => Or.inr ⟨_, _, _, e⟩, by simp⟩
      | ok t1 =>
        refine ⟨by simp, by simp, ?_⟩
        intro t' e
        simp only [Outcome.ok.injEq] at e
        subst e
        refine ⟨qs, j + 1, ?_⟩
        have e2 : t1.pc = .finishing ∧ t1.next = t.next ∧ t1.slots.length = T := by
          unfold cleanupThread at hcl
          split at hcl <;> simp at hcl
          subst hcl
          exact ⟨hpc, rfl, by simp [h.slen]⟩
        have := c3 t1 hcl .finishing ((t1.next + 1) % t1.slots.length) ⟨p1, p2, p3, Or.inr ⟨hT.1, by rw [e2.2.1, e2.2.2, hT.2, Nat.mod_add_mod]⟩⟩
        rw [← e2.1] at this
        exact this
    · rw [if_neg hu]
      refine ⟨by simp, by simp, ?_⟩
      intro t' e
      simp only [Outcome.ok.injEq] at e
      subst e
      refine ⟨qs, j, ⟨h.pos, h.slen, h.hlen, h.hP, h.split, h.jle, h.use, h.useT, h.out, h.slot, h.free, ?_⟩⟩
      exact ⟨p1, p2, by omega, p3, fun e => by rcases p4 with ⟨a, b, c⟩ | ⟨a, b⟩ <;> omega⟩

/-! ### Executions -/

theorem toolStep_inv (hc : Steady check P answer words) {t t' : Tool σ} {qs : List (List (List Wc))} {j : Nat} (h : Inv T P answer words t qs j)
    (hs : ToolStep check t t') : ∃ qs' j', Inv T P answer words t' qs' j' := by
  cases hs with
  | main e => exact (mainStep_inv h).2.2 t' e
  | thread i e => exact ⟨qs, j, ((threadStep_inv hc h i).2 t' e).1⟩

theorem toolRun_inv (hc : Steady check P answer words) {n : Nat} {t t' : Tool σ} {qs : List (List (List Wc))} {j : Nat} (h : Inv T P answer words t qs j)
    (hs : ToolRun check n t t') : ∃ qs' j', Inv T P answer words t' qs' j' := by
  induction hs generalizing qs j with
  | nil t => exact ⟨qs, j, h⟩
  | cons hs _ ih =>
    obtain ⟨qs', j', h'⟩ := toolStep_inv hc h hs
    exact ih h'

/-- A thread that has been created can do a step. -/
theorem threadStep_can (hc : Steady check P answer words) {t : Tool σ} {qs : List (List (List Wc))} {j : Nat} (h : Inv T P answer words t qs j) {i : Nat}
    {todo : List (List Wc)} {o : List Wc} (hs : t.slots[i]? = some (.running todo o)) : CanStep check t := by
  have hi : i < t.handles.length := by rw [h.hlen, ← h.slen]; exact (List.getElem?_eq_some_iff.1 hs).1
  have hh := List.getElem?_eq_getElem hi
  cases hr : threadStep check i t with
  | ok t' => exact ⟨t', .thread i hr⟩
  | ub => exact absurd hr (threadStep_inv hc h i).1
  | blocked =>
    exfalso
    unfold threadStep at hr
    rw [hs, hh] at hr
    cases todo with
    | nil => simp at hr
    | cons w r =>
      simp only at hr
      split at hr <;> simp at hr

/-! ### The number of steps -/

/-- The number of steps that are left for a thread and for joining it. -/
def slotLeft : Slot → Nat
  | .free => 0
  | .running todo _ => todo.length + 2
  | .finished _ => 1

def pcLeft : Pc → Nat
  | .reading => 3
  | .queueing false => 4
  | .queueing true => 2
  | .finishing => 1
  | .terminated => 0

/-- A number that every step makes smaller. -/
def left (t : Tool σ) : Nat := 7 * t.input.length + 5 * t.block.length + (t.slots.map slotLeft).sum + pcLeft t.pc

theorem sum_set {s x : Slot} : ∀ {l : List Slot} {i : Nat}, l[i]? = some s →
    ((l.set i x).map slotLeft).sum + slotLeft s = (l.map slotLeft).sum + slotLeft x
  | [], i, h => by simp at h
  | a :: l, 0, h => by
    simp at h
    subst h
    simp; omega
  | a :: l, i + 1, h => by
    simp at h
    have := sum_set (x := x) h
    simp [-List.map_set]; omega

theorem cleanup_left {t t' : Tool σ} (h : cleanupThread t = .ok t') : left t' < left t := by
  unfold cleanupThread at h
  split at h <;> simp at h
  rename_i r hs
  subst h
  have := sum_set (x := .free) hs
  simp only [slotLeft] at this
  unfold left
  simp only
  omega

theorem toolStep_left {t t' : Tool σ} (h : ToolStep check t t') : left t' < left t := by
  cases h with
  | thread i h =>
    unfold threadStep at h
    split at h
    · rename_i w r out hd hs _
      split at h <;> simp at h
      rename_i o h' _
      subst h
      have := sum_set (x := .running r (out ++ o)) hs
      simp only [slotLeft, List.length_cons] at this
      unfold left
      simp only
      omega
    · rename_i out _ hs _
      simp at h
      subst h
      have := sum_set (x := .finished out) hs
      simp only [slotLeft, List.length_nil] at this
      unfold left
      simp only
      omega
    · simp at h
  | main h =>
    unfold mainStep at h
    split at h
    · rename_i hpc
      split at h
      · rename_i w r hin
        split at h <;> simp at h <;> subst h <;> unfold left <;> simp [hpc, hin, pcLeft] <;> omega
      · simp at h
        subst h
        unfold left
        simp [hpc, pcLeft]
    · rename_i final hpc
      split at h
      · simp at h
        subst h
        unfold left
        cases final <;> simp [hpc, pcLeft]
      · rename_i hb
        have hb' : 0 < t.block.length := List.length_pos_iff.2 hb
        split at h
        · exact cleanup_left h
        · split at h <;> simp at h
          rename_i hs
          subst h
          have := sum_set (x := .running t.block []) hs
          simp only [slotLeft] at this
          unfold left
          cases final <;> simp [hpc, pcLeft, -List.map_set] <;> omega
    · rename_i hpc
      split at h
      · split at h
        · rename_i t1 hcl
          simp at h
          subst h
          have := cleanup_left hcl
          unfold left at this ⊢
          simp only at this ⊢
          exact this
        · exact cleanup_left h
      · simp at h
        subst h
        unfold left
        simp [hpc, pcLeft]
    · simp at h

theorem toolRun_left {n : Nat} {t t' : Tool σ} (h : ToolRun check n t t') : n + left t' ≤ left t := by
  induction h with
  | nil t => omega
  | cons h _ ih =>
    have := toolStep_left h
    omega

theorem left_start {handles : List σ} {words : List (List Wc)} : left (startTool handles words) = 7 * words.length + 3 := by
  have : ∀ l : List σ, ((l.map fun _ => Slot.free).map slotLeft).sum = 0 := by
    intro l
    induction l with
    | nil => rfl
    | cons a l ih => simpa [slotLeft] using ih
  unfold left startTool
  simp only [this]
  simp [pcLeft]

/-- Executions can be continued until nothing can be done. -/
theorem toolRun_snoc {n : Nat} {t t' t'' : Tool σ} (h : ToolRun check n t t') (h' : ToolStep check t' t'') : ToolRun check (n + 1) t t'' := by
  induction h with
  | nil t => exact .cons h' (.nil _)
  | cons h _ ih => exact .cons h (ih h')

theorem exists_end {n : Nat} : ∀ {t : Tool σ}, left t ≤ n → ∃ m t', ToolRun check m t t' ∧ ¬ CanStep check t' := by
  induction n with
  | zero =>
    intro t h
    refine ⟨0, t, .nil t, ?_⟩
    rintro ⟨t', ht⟩
    have := toolStep_left ht
    omega
  | succ n ih =>
    intro t h
    by_cases hc : CanStep check t
    · obtain ⟨t', ht⟩ := hc
      have := toolStep_left ht
      obtain ⟨m, t'', h1, h2⟩ := ih (t := t') (by omega)
      exact ⟨m + 1, t'', .cons ht h1, h2⟩
    · exact ⟨0, t, .nil t, hc⟩

/-- What one thread prints. -/
theorem runSingle_steady : ∀ {ws : List (List Wc)} {h : σ}, Steady check P answer ws → P h → runSingle check h ws = some (expected answer ws)
  | [], h, _, _ => rfl
  | w :: r, h, hc, hp => by
    obtain ⟨h', e1, e2⟩ := hc h w hp List.mem_cons_self
    have ih := runSingle_steady (ws := r) (h := h') (fun h w a b => hc h w a (List.mem_cons_of_mem _ b)) e2
    simp only [runSingle, e1, bind, Option.bind, ih]
    rfl

end Verif.Threads
