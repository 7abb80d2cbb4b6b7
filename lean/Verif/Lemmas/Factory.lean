import Verif.Model.Factory
/-!
# Ownership of memory blocks

`Own m0 m xs`: compared with the memory `m0`, the memory `m` has exactly the additional blocks `xs`.
-/

namespace Verif

/-- Compared with `m0`, exactly the blocks `xs` are allocated in addition. -/
def Own (m0 m : Mem) (xs : List Nat) : Prop :=
  ∃ ys, ys.Perm xs ∧ m.live = ys ++ m0.live ∧ ys.Nodup ∧ (∀ p ∈ ys, m0.next ≤ p ∧ p < m.next) ∧ (∀ p ∈ m0.live, p < m0.next) ∧
    m0.next ≤ m.next

/-- Blocks are numbered below `next`. -/
def Mem.Ok (m : Mem) : Prop := ∀ p ∈ m.live, p < m.next

theorem own_start {m : Mem} (h : m.Ok) : Own m m [] := ⟨[], .refl _, rfl, .nil, by simp, h, Nat.le_refl _⟩

theorem own_perm {m0 m : Mem} {xs xs' : List Nat} (h : Own m0 m xs) (hp : xs.Perm xs') : Own m0 m xs' := by
  obtain ⟨ys, h1, h2⟩ := h
  exact ⟨ys, h1.trans hp, h2⟩

theorem own_nil {m0 m : Mem} (h : Own m0 m []) : m.live = m0.live := by
  obtain ⟨ys, h1, h2, _⟩ := h
  rw [List.Perm.eq_nil h1] at h2
  simpa using h2

theorem own_length {m0 m : Mem} {xs : List Nat} (h : Own m0 m xs) : m.live.length = xs.length + m0.live.length := by
  obtain ⟨ys, h1, h2, _⟩ := h
  rw [h2, List.length_append, h1.length_eq]

theorem run_next {α β : Type} (x : Cpp α) (f : α → Cpp β) (m : Mem) : (x >>= f) m = Cpp.next x f m := rfl

theorem next_ok {α β : Type} {x : Cpp α} {f : α → Cpp β} {m m' : Mem} {a : α} (h : x m = some (m', .ok a)) :
    (x >>= f) m = f a m' := by
  show Cpp.next x f m = _
  simp [Cpp.next, h]

theorem next_error {α β : Type} {x : Cpp α} {f : α → Cpp β} {m m' : Mem} {e : String} (h : x m = some (m', .error e)) :
    (x >>= f) m = some (m', .error e) := by
  show Cpp.next x f m = _
  simp [Cpp.next, h]

theorem own_alloc {m0 m : Mem} {xs : List Nat} (h : Own m0 m xs) :
    ∃ m' p, alloc m = some (m', .ok p) ∧ Own m0 m' (p :: xs) := by
  obtain ⟨ys, h1, h2, h3, h4, h5, h6⟩ := h
  refine ⟨⟨m.next :: m.live, m.next + 1⟩, m.next, rfl, m.next :: ys, h1.cons _, by rw [h2]; rfl, ?_, ?_, h5, by simp only; omega⟩
  · rw [List.nodup_cons]
    exact ⟨fun hm => by have := h4 _ hm; omega, h3⟩
  · intro p hp
    rw [List.mem_cons] at hp
    rcases hp with rfl | hp
    · simp only; omega
    · have := h4 p hp; simp only; omega

theorem own_allocs {m0 : Mem} : ∀ (n : Nat) {m : Mem} {xs : List Nat}, Own m0 m xs →
    ∃ m' ps, allocs n m = some (m', .ok ps) ∧ Own m0 m' (ps ++ xs) ∧ ps.length = n
  | 0, m, xs, h => ⟨m, [], rfl, h, rfl⟩
  | n + 1, m, xs, h => by
    obtain ⟨m1, p, e1, o1⟩ := own_alloc h
    obtain ⟨m2, ps, e2, o2, l2⟩ := own_allocs n o1
    refine ⟨m2, p :: ps, ?_, own_perm o2 List.perm_middle, by simp [l2]⟩
    simp only [allocs]
    rw [next_ok e1, next_ok e2]
    rfl

theorem own_free {m0 m : Mem} {p : Nat} {xs : List Nat} (h : Own m0 m (p :: xs)) :
    ∃ m', free p m = some (m', .ok ()) ∧ Own m0 m' xs := by
  obtain ⟨ys, h1, h2, h3, h4, h5, h6⟩ := h
  have hm : p ∈ ys := h1.mem_iff.2 (List.mem_cons_self ..)
  refine ⟨⟨m.live.erase p, m.next⟩, ?_, ys.erase p, ?_, ?_, h3.erase p, fun q hq => h4 q (List.mem_of_mem_erase hq), h5, h6⟩
  · simp only [free]
    rw [if_pos (by rw [h2]; exact List.mem_append_left _ hm)]
  · have := h1.erase p
    rwa [List.erase_cons_head] at this
  · simp only [h2]
    exact List.erase_append_left _ hm

theorem own_freeAll {m0 : Mem} : ∀ (ps : List Nat) {m : Mem} {xs : List Nat}, Own m0 m (ps ++ xs) →
    ∃ m', freeAll ps m = some (m', .ok ()) ∧ Own m0 m' xs
  | [], m, xs, h => ⟨m, rfl, h⟩
  | p :: ps, m, xs, h => by
    obtain ⟨m1, e1, o1⟩ := own_free h
    obtain ⟨m2, e2, o2⟩ := own_freeAll ps o1
    exact ⟨m2, by simp only [freeAll]; rw [next_ok e1, e2], o2⟩

/-- All blocks of a component. -/
def Part.blocks {K : Type} (p : Part K) : List Nat := p.inner ++ [p.obj]

theorem own_dispose {K : Type} {m0 m : Mem} (p : Part K) {xs : List Nat} (h : Own m0 m (p.blocks ++ xs)) :
    ∃ m', dispose p m = some (m', .ok ()) ∧ Own m0 m' xs := by
  obtain ⟨m1, e1, o1⟩ := own_freeAll p.inner (xs := p.obj :: xs) (by simpa [Part.blocks] using h)
  obtain ⟨m2, e2, o2⟩ := own_free o1
  exact ⟨m2, by simp only [dispose]; rw [next_ok e1, e2], o2⟩

/-- A run that ends without undefined behaviour; what holds after a normal return and after an exception. -/
def Runs {α : Type} (x : Cpp α) (m : Mem) (ok : α → Mem → Prop) (err : String → Mem → Prop) : Prop :=
  ∃ m', (∃ a, x m = some (m', .ok a) ∧ ok a m') ∨ (∃ e, x m = some (m', .error e) ∧ err e m')

theorem runs_ret {α : Type} {a : α} {m : Mem} {ok : α → Mem → Prop} {err : String → Mem → Prop} (h : ok a m) :
    Runs (pure a) m ok err := ⟨m, .inl ⟨a, rfl, h⟩⟩

theorem runs_ret' {α : Type} {a : α} {m : Mem} {ok : α → Mem → Prop} {err : String → Mem → Prop} (h : ok a m) :
    Runs (Cpp.ret a) m ok err := ⟨m, .inl ⟨a, rfl, h⟩⟩

theorem runs_throw {α : Type} {e : String} {m : Mem} {ok : α → Mem → Prop} {err : String → Mem → Prop} (h : err e m) :
    Runs (Cpp.throw e) m ok err := ⟨m, .inr ⟨e, rfl, h⟩⟩

theorem runs_bind {α β : Type} {x : Cpp α} {f : α → Cpp β} {m : Mem} {ok : α → Mem → Prop} {ok' : β → Mem → Prop}
    {err : String → Mem → Prop} (h : Runs x m ok err) (hf : ∀ a m', ok a m' → Runs (f a) m' ok' err) : Runs (x >>= f) m ok' err := by
  obtain ⟨m', ⟨a, e, o⟩ | ⟨e, e', o⟩⟩ := h
  · obtain ⟨m'', h'⟩ := hf a m' o
    refine ⟨m'', ?_⟩
    rw [next_ok e]
    exact h'
  · exact ⟨m', .inr ⟨e, next_error e', o⟩⟩

theorem runs_mono {α : Type} {x : Cpp α} {m : Mem} {ok ok' : α → Mem → Prop} {err err' : String → Mem → Prop} (h : Runs x m ok err)
    (h1 : ∀ a m', ok a m' → ok' a m') (h2 : ∀ e m', err e m' → err' e m') : Runs x m ok' err' := by
  obtain ⟨m', ⟨a, e, o⟩ | ⟨e, e', o⟩⟩ := h
  · exact ⟨m', .inl ⟨a, e, h1 _ _ o⟩⟩
  · exact ⟨m', .inr ⟨e, e', h2 _ _ o⟩⟩

theorem runs_orElse {α : Type} {x : Cpp α} {hd : Cpp Unit} {m : Mem} {ok : α → Mem → Prop} {mid err : String → Mem → Prop}
    (h : Runs x m ok mid) (hh : ∀ e m', mid e m' → ∃ m'', hd m' = some (m'', .ok ()) ∧ err e m'') : Runs (x.orElse hd) m ok err := by
  obtain ⟨m', ⟨a, e, o⟩ | ⟨e, e', o⟩⟩ := h
  · exact ⟨m', .inl ⟨a, by simp [Cpp.orElse, e], o⟩⟩
  · obtain ⟨m'', h1, h2⟩ := hh e m' o
    exact ⟨m'', .inr ⟨e, by simp [Cpp.orElse, e', h1], h2⟩⟩

theorem runs_alloc {m0 m : Mem} {xs : List Nat} (h : Own m0 m xs) {err : String → Mem → Prop} :
    Runs alloc m (fun p m' => Own m0 m' (p :: xs)) err := by
  obtain ⟨m', p, e, o⟩ := own_alloc h
  exact ⟨m', .inl ⟨p, e, o⟩⟩

theorem runs_allocs {m0 m : Mem} {xs : List Nat} (n : Nat) (h : Own m0 m xs) {err : String → Mem → Prop} :
    Runs (allocs n) m (fun ps m' => Own m0 m' (ps ++ xs) ∧ ps.length = n) err := by
  obtain ⟨m', p, e, o⟩ := own_allocs n h
  exact ⟨m', .inl ⟨p, e, o⟩⟩

theorem runs_free {m0 m : Mem} {p : Nat} {xs : List Nat} (h : Own m0 m (p :: xs)) {err : String → Mem → Prop} :
    Runs (free p) m (fun _ m' => Own m0 m' xs) err := by
  obtain ⟨m', e, o⟩ := own_free h
  exact ⟨m', .inl ⟨(), e, o⟩⟩

theorem runs_dispose {K : Type} {m0 m : Mem} (p : Part K) {xs : List Nat} (h : Own m0 m (p.blocks ++ xs)) {err : String → Mem → Prop} :
    Runs (dispose p) m (fun _ m' => Own m0 m' xs) err := by
  obtain ⟨m', e, o⟩ := own_dispose p h
  exact ⟨m', .inl ⟨(), e, o⟩⟩

end Verif
