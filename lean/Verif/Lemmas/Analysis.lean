import Verif.Model.Analysis
/-!
# Lemmas about the attribute map
-/

namespace Verif

/-- Keys strictly increasing: the order of `std::map`. -/
def KeySorted (l : List (AKey × AVal)) : Prop := l.Pairwise (fun x y => x.1.num < y.1.num)

theorem AKey.num_inj {k k' : AKey} (h : k.num = k'.num) : k = k' := by
  cases k <;> cases k' <;> first | rfl | (exact absurd h (by decide))

theorem lookup_cons_ana (k k' : AKey) (v : AVal) (r : List (AKey × AVal)) :
    List.lookup k ((k', v) :: r) = if k = k' then some v else List.lookup k r := by
  rw [List.lookup_cons]
  by_cases h : k = k'
  · subst h; simp
  · rw [if_neg h, show (k == k') = false by simpa using h]

theorem mapInsert_mem {k : AKey} {v : AVal} {l : List (AKey × AVal)} {x : AKey × AVal}
    (h : x ∈ mapInsert k v l) : x = (k, v) ∨ x ∈ l := by
  induction l with
  | nil => left; simpa [mapInsert] using h
  | cons e r ih =>
    obtain ⟨k', v'⟩ := e
    rw [mapInsert] at h
    split at h
    · right; exact h
    · split at h
      · rcases List.mem_cons.1 h with h | h
        · left; exact h
        · right; exact h
      · rcases List.mem_cons.1 h with h | h
        · right; rw [h]; exact List.mem_cons_self ..
        · rcases ih h with h | h
          · left; exact h
          · right; exact List.mem_cons_of_mem _ h

theorem mapInsert_sorted (k : AKey) (v : AVal) {l : List (AKey × AVal)} (h : KeySorted l) :
    KeySorted (mapInsert k v l) := by
  induction l with
  | nil => exact List.pairwise_singleton _ _
  | cons e r ih =>
    obtain ⟨k', v'⟩ := e
    obtain ⟨h1, h2⟩ := List.pairwise_cons.1 h
    rw [mapInsert]
    split
    · exact h
    · rename_i hne
      split
      · rename_i hlt
        refine List.pairwise_cons.2 ⟨fun x hx => ?_, h⟩
        rcases List.mem_cons.1 hx with rfl | hx
        · exact hlt
        · exact Nat.lt_trans hlt (h1 x hx)
      · rename_i hnlt
        refine List.pairwise_cons.2 ⟨fun x hx => ?_, ih h2⟩
        rcases mapInsert_mem hx with rfl | hx
        · show k'.num < k.num
          have : k.num ≠ k'.num := fun e => hne (AKey.num_inj e)
          omega
        · exact h1 x hx

theorem lookup_none_of_lt {k : AKey} {l : List (AKey × AVal)} (h : ∀ x ∈ l, k.num < x.1.num) :
    List.lookup k l = none := by
  induction l with
  | nil => rfl
  | cons e r ih =>
    obtain ⟨k', v'⟩ := e
    rw [lookup_cons_ana, if_neg]
    · exact ih fun x hx => h x (List.mem_cons_of_mem _ hx)
    · intro e
      have := h (k', v') (List.mem_cons_self ..)
      rw [e] at this
      exact Nat.lt_irrefl _ this

theorem lookup_mapInsert (k : AKey) (v : AVal) {l : List (AKey × AVal)} (h : KeySorted l) (x : AKey) :
    List.lookup x (mapInsert k v l) = if x = k then (List.lookup x l).or (some v) else List.lookup x l := by
  induction l with
  | nil =>
    rw [mapInsert, lookup_cons_ana]
    rfl
  | cons e r ih =>
    obtain ⟨k', v'⟩ := e
    obtain ⟨h1, h2⟩ := List.pairwise_cons.1 h
    rw [mapInsert]
    split
    · rename_i heq
      subst heq
      rw [lookup_cons_ana]
      by_cases hx : x = k
      · rw [if_pos hx, if_pos hx]; rfl
      · rw [if_neg hx, if_neg hx]
    · rename_i hne
      split
      · rename_i hlt
        rw [lookup_cons_ana]
        by_cases hx : x = k
        · subst hx
          have hn : List.lookup x ((k', v') :: r) = none := by
            apply lookup_none_of_lt
            intro y hy
            rcases List.mem_cons.1 hy with rfl | hy
            · exact hlt
            · exact Nat.lt_trans hlt (h1 y hy)
          rw [if_pos rfl, if_pos rfl, hn]; rfl
        · rw [if_neg hx, if_neg hx]
      · rw [lookup_cons_ana, lookup_cons_ana, ih h2]
        by_cases hx' : x = k'
        · rw [if_pos hx', if_pos hx']
          rw [if_neg (fun e => hne (e.symm.trans hx'))]
        · rw [if_neg hx', if_neg hx']

theorem lookup_filter_ne (k : AKey) (l : List (AKey × AVal)) (x : AKey) :
    List.lookup x (l.filter (·.1 ≠ k)) = if x = k then none else List.lookup x l := by
  induction l with
  | nil => simp
  | cons e r ih =>
    obtain ⟨k', v'⟩ := e
    rw [List.filter_cons, lookup_cons_ana]
    by_cases hk : k' = k
    · rw [if_neg (by simpa using hk), ih]
      by_cases hx : x = k
      · rw [if_pos hx, if_pos hx]
      · rw [if_neg hx, if_neg hx, if_neg (fun e => hx (e.trans hk))]
    · rw [if_pos (by simpa using hk), lookup_cons_ana, ih]
      by_cases hx : x = k
      · rw [if_pos hx, if_neg (fun e => hk (e.symm.trans hx)), if_pos hx]
      · rw [if_neg hx, if_neg hx]

theorem lookup_some_mem {k : AKey} {v : AVal} {l : List (AKey × AVal)} (h : List.lookup k l = some v) :
    (k, v) ∈ l := by
  induction l with
  | nil => cases h
  | cons e r ih =>
    obtain ⟨k', v'⟩ := e
    rw [lookup_cons_ana] at h
    split at h
    · rename_i hk
      cases h; subst hk
      exact List.mem_cons_self ..
    · exact List.mem_cons_of_mem _ (ih h)

theorem mem_lookup {k : AKey} {v : AVal} {l : List (AKey × AVal)} (hs : KeySorted l) (h : (k, v) ∈ l) :
    List.lookup k l = some v := by
  induction l with
  | nil => cases h
  | cons e r ih =>
    obtain ⟨k', v'⟩ := e
    obtain ⟨h1, h2⟩ := List.pairwise_cons.1 hs
    rw [lookup_cons_ana]
    rcases List.mem_cons.1 h with h | h
    · cases h; rw [if_pos rfl]
    · rw [if_neg, ih h2 h]
      intro e
      have := h1 _ h
      rw [e] at this
      exact Nat.lt_irrefl _ this

/-- The invariant of an analysis: entries in key order, and the constant bit is set for every string constant. -/
structure AnaOk (a : Ana) : Prop where
  sorted : KeySorted a.attributes
  const : ∀ x ∈ a.attributes, x.2.heap = false → x.1 ∈ a.consts

theorem anaOk_empty : AnaOk {} := ⟨List.Pairwise.nil, fun _ h => by cases h⟩

theorem anaOk_add {a : Ana} (h : AnaOk a) (k : AKey) (s : List Wc) : AnaOk (a.add k s) := by
  refine ⟨mapInsert_sorted _ _ h.sorted, fun x hx hh => ?_⟩
  rcases mapInsert_mem hx with rfl | hx
  · cases hh
  · exact h.const x hx hh

theorem anaOk_addConst {a : Ana} (h : AnaOk a) (k : AKey) (s : List Wc) : AnaOk (a.addConst k s) := by
  refine ⟨mapInsert_sorted _ _ h.sorted, fun x hx hh => ?_⟩
  rcases mapInsert_mem hx with rfl | hx
  · simp only [Ana.addConst]
    split
    · assumption
    · exact List.mem_cons_self ..
  · have := h.const x hx hh
    simp only [Ana.addConst]
    split
    · exact this
    · exact List.mem_cons_of_mem _ this

theorem getValue_add {a : Ana} (h : AnaOk a) (k : AKey) (s : List Wc) (x : AKey) :
    (a.add k s).getValue x = if x = k then (a.getValue x).or (some s) else a.getValue x := by
  simp only [Ana.getValue, Ana.add]
  rw [lookup_mapInsert _ _ h.sorted]
  split
  · cases List.lookup x a.attributes <;> rfl
  · rfl

theorem getValue_addConst {a : Ana} (h : AnaOk a) (k : AKey) (s : List Wc) (x : AKey) :
    (a.addConst k s).getValue x = if x = k then (a.getValue x).or (some s) else a.getValue x := by
  simp only [Ana.getValue, Ana.addConst]
  rw [lookup_mapInsert _ _ h.sorted]
  split
  · cases List.lookup x a.attributes <;> rfl
  · rfl

theorem remove_spec {a : Ana} (h : AnaOk a) (k : AKey) :
    ∃ b, a.remove k = some b ∧ AnaOk b ∧ ∀ x, b.getValue x = if x = k then none else a.getValue x := by
  rw [Ana.remove.eq_def]
  cases hl : List.lookup k a.attributes with
  | none =>
    refine ⟨a, rfl, h, fun x => ?_⟩
    split
    · rename_i hx
      subst hx
      simp only [Ana.getValue, hl]
      rfl
    · rfl
  | some v =>
    have hs : KeySorted (a.attributes.filter (·.1 ≠ k)) := h.sorted.filter _
    have hg : ∀ x, ((a.attributes.filter (·.1 ≠ k)).lookup x).map AVal.str
        = if x = k then none else a.getValue x := by
      intro x
      rw [lookup_filter_ne]
      split <;> rfl
    simp only
    by_cases hc : k ∈ a.consts
    · rw [if_pos hc]
      refine ⟨_, rfl, ⟨hs, fun x hx hh => ?_⟩, hg⟩
      obtain ⟨hx1, hx2⟩ := List.mem_filter.1 hx
      exact List.mem_filter.2 ⟨h.const x hx1 hh, hx2⟩
    · rw [if_neg hc]
      have hv : v.heap = true := by
        cases hv : v.heap with
        | true => rfl
        | false => exact absurd (h.const _ (lookup_some_mem hl) hv) hc
      refine ⟨{ a with attributes := a.attributes.filter (·.1 ≠ k) }, by rw [deleteVal, if_pos hv]; rfl,
        ⟨hs, fun x hx hh => ?_⟩, hg⟩
      exact h.const x (List.mem_filter.1 hx).1 hh

theorem destroyLoop_ok {consts : List AKey} {l : List (AKey × AVal)}
    (h : ∀ x ∈ l, x.2.heap = false → x.1 ∈ consts) : destroyLoop consts l = some () := by
  induction l with
  | nil => rfl
  | cons e r ih =>
    obtain ⟨k, v⟩ := e
    have ih := ih fun x hx => h x (List.mem_cons_of_mem _ hx)
    rw [destroyLoop]
    by_cases hc : k ∈ consts
    · rw [if_pos hc]; exact ih
    · rw [if_neg hc]
      have hv : v.heap = true := by
        cases hv : v.heap with
        | true => rfl
        | false => exact absurd (h (k, v) (List.mem_cons_self ..) hv) hc
      rw [deleteVal, if_pos hv, Option.bind_eq_bind, Option.bind_some]
      exact ih

theorem destroy_ok {a : Ana} (h : AnaOk a) : a.destroy = some () := destroyLoop_ok h.const

theorem sealLoop_ok (l : List (AKey × AVal)) :
    sealLoop l = some (l.map fun x => (keyToString[x.1.num]?).getD []) := by
  induction l with
  | nil => rfl
  | cons e r ih =>
    obtain ⟨k, v⟩ := e
    have hk : ∃ s, keyToString[k.num]? = some s := by cases k <;> exact ⟨_, rfl⟩
    obtain ⟨s, hs⟩ := hk
    rw [sealLoop]
    simp only [rd, hs, ih, Option.bind_eq_bind, Option.bind_some, List.map_cons, Option.getD_some]
    rfl

end Verif
