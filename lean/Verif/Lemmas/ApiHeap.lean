import Mathlib.Data.List.Induction
import Verif.Spec.ApiHeap

/-!
# The heap as a list of cells

`Exactly H cells` says that the live blocks of the heap are the given ones.  Every operation is
described by what it does to that list.
-/

namespace Verif.ApiHeap

open Verif.Props

abbrev Cell := Nat × Block

def Exactly (H : Heap) (cells : List Cell) : Prop :=
  (cells.map Prod.fst).Nodup ∧ ∀ a b, blockAt H a = some b ↔ (a, b) ∈ cells

theorem Exactly.perm {H : Heap} {c c' : List Cell} (h : Exactly H c) (p : c.Perm c') :
    Exactly H c' :=
  ⟨((p.map Prod.fst).nodup_iff).1 h.1, fun a b => (h.2 a b).trans p.mem_iff⟩

theorem Exactly.get {H : Heap} {c : List Cell} (h : Exactly H c) {a : Nat} {b : Block}
    (hm : (a, b) ∈ c) : blockAt H a = some b := (h.2 a b).2 hm

theorem blockAt_lt {H : Heap} {a : Nat} {b : Block} (h : blockAt H a = some b) : a < H.length := by
  rcases Nat.lt_or_ge a H.length with g | g
  · exact g
  · simp [blockAt, List.getElem?_eq_none g] at h

theorem Exactly.store {H : Heap} {c : List Cell} (h : Exactly H c) (b : Block) :
    Exactly (H ++ [some b]) ((H.length, b) :: c) := by
  have hlt : ∀ a b, (a, b) ∈ c → a < H.length := fun a b hm => blockAt_lt (h.get hm)
  constructor
  · simp only [List.map_cons, List.nodup_cons]
    refine ⟨?_, h.1⟩
    intro hm
    obtain ⟨⟨a, b'⟩, hm, he⟩ := List.mem_map.1 hm
    have := hlt a b' hm
    simp only at he
    omega
  · intro a b'
    rcases Nat.lt_trichotomy a H.length with g | g | g
    · have e : blockAt (H ++ [some b]) a = blockAt H a := by
        simp [blockAt, List.getElem?_append_left g]
      rw [e, h.2]
      constructor
      · exact fun hm => List.mem_cons_of_mem _ hm
      · intro hm
        rcases List.mem_cons.1 hm with hm | hm
        · injection hm with h1 _; omega
        · exact hm
    · subst g
      have e : blockAt (H ++ [some b]) H.length = some b := by simp [blockAt]
      rw [e]
      constructor
      · intro he; injection he with he; subst he; exact List.mem_cons_self
      · intro hm
        rcases List.mem_cons.1 hm with hm | hm
        · injection hm with _ h2; rw [h2]
        · exact absurd (hlt _ _ hm) (by omega)
    · have e : blockAt (H ++ [some b]) a = none := by
        simp only [blockAt]
        rw [List.getElem?_eq_none (by simp; omega)]
        rfl
      rw [e]
      constructor
      · intro he; cases he
      · intro hm
        rcases List.mem_cons.1 hm with hm | hm
        · injection hm with h1 _; omega
        · exact absurd (hlt _ _ hm) (by omega)

theorem Exactly.fresh {H : Heap} {a : Nat} {b : Block} {c : List Cell}
    (h : Exactly H ((a, b) :: c)) (b' : Block) : (a, b') ∉ c := by
  intro hm
  have := h.1
  simp only [List.map_cons, List.nodup_cons] at this
  exact this.1 (List.mem_map.2 ⟨(a, b'), hm, rfl⟩)

theorem blockAt_set (H : Heap) (a x : Nat) (v : Option Block) (ha : a < H.length) :
    blockAt (H.set a v) x = if x = a then v else blockAt H x := by
  simp only [blockAt]
  by_cases g : x = a
  · subst g; rw [if_pos rfl, List.getElem?_set_self ha]; rfl
  · rw [if_neg g, List.getElem?_set_ne (Ne.symm g)]

theorem Exactly.set {H : Heap} {a : Nat} {b : Block} {c : List Cell}
    (h : Exactly H ((a, b) :: c)) (b' : Block) : Exactly (H.set a (some b')) ((a, b') :: c) := by
  have ha := blockAt_lt (h.get List.mem_cons_self)
  refine ⟨by simpa using h.1, ?_⟩
  intro x y
  rw [blockAt_set _ _ _ _ ha]
  by_cases g : x = a
  · subst g
    rw [if_pos rfl]
    constructor
    · intro he; injection he with he; subst he; exact List.mem_cons_self
    · intro hm
      rcases List.mem_cons.1 hm with hm | hm
      · injection hm with _ h2; rw [h2]
      · exact absurd hm (h.fresh y)
  · rw [if_neg g, h.2]
    simp only [List.mem_cons, Prod.mk.injEq]
    constructor
    · rintro (⟨h1, _⟩ | hm)
      · exact absurd h1 g
      · exact Or.inr hm
    · rintro (⟨h1, _⟩ | hm)
      · exact absurd h1 g
      · exact Or.inr hm

theorem Exactly.drop {H : Heap} {a : Nat} {b : Block} {c : List Cell}
    (h : Exactly H ((a, b) :: c)) : Exactly (H.set a none) c := by
  have ha := blockAt_lt (h.get List.mem_cons_self)
  refine ⟨by have := h.1; simp only [List.map_cons, List.nodup_cons] at this; exact this.2, ?_⟩
  intro x y
  rw [blockAt_set _ _ _ _ ha]
  by_cases g : x = a
  · subst g
    rw [if_pos rfl]
    exact ⟨fun he => (by cases he), fun hm => absurd hm (h.fresh y)⟩
  · rw [if_neg g, h.2]
    simp only [List.mem_cons, Prod.mk.injEq]
    constructor
    · rintro (⟨h1, _⟩ | hm)
      · exact absurd h1 g
      · exact hm
    · exact Or.inr

theorem Exactly.release {H : Heap} {a : Nat} {b : Block} {c : List Cell}
    (h : Exactly H ((a, b) :: c)) :
    ∃ H', release b.origin H a = some H' ∧ Exactly H' c := by
  refine ⟨H.set a none, ?_, h.drop⟩
  simp [ApiHeap.release, h.get List.mem_cons_self]

/-! ### Number of live blocks -/

theorem liveBlocks_eq (H : Heap) : ∀ (c : List Cell), Exactly H c → liveBlocks H = c.length := by
  induction H using List.reverseRecOn with
  | nil =>
    intro c h
    cases c with
    | nil => rfl
    | cons x xs =>
      have := h.get (a := x.1) (b := x.2) List.mem_cons_self
      simp [blockAt] at this
  | append_singleton H v ih =>
    intro c h
    cases v with
    | none =>
      have h' : Exactly H c := by
        refine ⟨h.1, fun a b => ?_⟩
        rw [← h.2]
        rcases Nat.lt_or_ge a H.length with g | g
        · simp [blockAt, List.getElem?_append_left g]
        · simp only [blockAt, List.getElem?_eq_none g, List.getElem?_append_right g]
          cases a - H.length <;> simp
      rw [← ih c h']
      simp [liveBlocks]
    | some b =>
      have hm : (H.length, b) ∈ c := (h.2 _ _).1 (by simp [blockAt])
      obtain ⟨c1, c2, rfl⟩ := List.append_of_mem hm
      have h2 : Exactly (H ++ [some b]) ((H.length, b) :: (c1 ++ c2)) := h.perm List.perm_middle
      have h' : Exactly H (c1 ++ c2) := by
        have h3 := h2.drop
        refine ⟨h3.1, fun a b' => ?_⟩
        rw [← h3.2]
        rcases Nat.lt_or_ge a H.length with g | g
        · rw [blockAt_set _ _ _ _ (by simp), if_neg (by omega)]
          simp [blockAt, List.getElem?_append_left g]
        · by_cases e : a = H.length
          · subst e
            rw [blockAt_set _ _ _ _ (by simp), if_pos rfl]
            simp [blockAt]
          · rw [blockAt_set _ _ _ _ (by simp), if_neg e]
            simp only [blockAt]
            rw [List.getElem?_eq_none g, List.getElem?_eq_none (by simp; omega)]
      have := ih _ h'
      simp only [liveBlocks, List.filter_append, List.length_append] at this ⊢
      simp only [List.length_cons, this]
      simp
      omega

/-! ### Strings -/

theorem cString_eq (s : List Nat) (pad : List (Option Nat)) (h : 0 ∉ s) :
    cString (s.map some ++ some 0 :: pad) = some s := by
  induction s with
  | nil => rfl
  | cons c cs ih =>
    simp only [List.mem_cons, not_or] at h
    simp only [List.map_cons, List.cons_append, cString, if_neg (Ne.symm h.1), ih h.2,
      Option.bind_eq_bind, Option.bind_some]

/-- The cell of a string. -/
def StrCell (o : Origin) (a : Nat) (s : List Nat) (c : Cell) : Prop :=
  ∃ pad, c = (a, ⟨o, .chars (s.map some ++ some 0 :: pad)⟩) ∧ 0 ∉ s

theorem StrCell.at {o : Origin} {a : Nat} {s : List Nat} {c : Cell} (h : StrCell o a s c) {H : Heap}
    {cells : List Cell} (hx : Exactly H cells) (hm : c ∈ cells) : stringAt H a = some s := by
  obtain ⟨pad, rfl, h0⟩ := h
  simp [stringAt, hx.get hm, cString_eq s pad h0]

theorem put_fresh {H : Heap} {cells : List Cell} (hx : Exactly H cells) (o : Origin) (s : List Nat)
    (n : Nat) (hn : s.length + 1 ≤ n) (h0 : 0 ∉ s) :
    ∃ H' c, putString (H ++ [some ⟨o, .chars (List.replicate n none)⟩]) H.length s = some H' ∧
      StrCell o H.length s c ∧ Exactly H' (c :: cells) := by
  have h1 := hx.store ⟨o, .chars (List.replicate n none)⟩
  have hg := h1.get List.mem_cons_self
  refine ⟨_, _, ?_, ⟨(List.replicate n none).drop (s.length + 1), rfl, h0⟩, h1.set _⟩
  simp [putString, hg, hn]

theorem makeString_ok {H : Heap} {cells : List Cell} (hx : Exactly H cells) (s : List Nat)
    (h0 : 0 ∉ s) :
    ∃ H' a c, makeString H s = some (H', a) ∧ StrCell .newArray a s c ∧ Exactly H' (c :: cells) := by
  obtain ⟨H', c, h1, h2, h3⟩ := put_fresh hx .newArray s (s.length + 1) (Nat.le_refl _) h0
  refine ⟨H', H.length, c, ?_, h2, h3⟩
  simp only [makeString, store, h1, Option.bind_eq_bind, Option.bind_some]

theorem copyString_ok {H : Heap} {cells : List Cell} (hx : Exactly H cells) (o o' : Origin) {q : Nat}
    {s : List Nat} {c0 : Cell} (hc : StrCell o' q s c0) (hm : c0 ∈ cells) :
    ∃ H' a c, copyString o H q = some (H', a) ∧ StrCell o a s c ∧ Exactly H' (c :: cells) := by
  have h0 : 0 ∉ s := hc.choose_spec.2
  obtain ⟨H', c, h1, h2, h3⟩ := put_fresh hx o s (s.length + 1) (Nat.le_refl _) h0
  refine ⟨H', H.length, c, ?_, h2, h3⟩
  have e1 := hc.at hx hm
  have e2 := hc.at (hx.store ⟨o, .chars (List.replicate (s.length + 1) none)⟩)
    (List.mem_cons_of_mem _ hm)
  simp only [copyString, store, e1, e2, h1, Option.bind_eq_bind, Option.bind_some]

theorem StrCell.free {o : Origin} {a : Nat} {s : List Nat} {c : Cell} (h : StrCell o a s c) {H : Heap}
    {cells : List Cell} (hx : Exactly H (c :: cells)) :
    ∃ H', ApiHeap.release o H a = some H' ∧ Exactly H' cells := by
  obtain ⟨pad, rfl, h0⟩ := h
  exact hx.release

/-! ### Arrays of strings -/

/-- The cells of the strings of an array. -/
inductive StrCells (o : Origin) : List Nat → List (List Nat) → List Cell → Prop
  | nil : StrCells o [] [] []
  | cons {a s c as ss cs} : StrCell o a s c → StrCells o as ss cs →
      StrCells o (a :: as) (s :: ss) (c :: cs)

theorem StrCells.append {o : Origin} {as as' : List Nat} {ss ss' : List (List Nat)}
    {cs cs' : List Cell} (h : StrCells o as ss cs) (h' : StrCells o as' ss' cs') :
    StrCells o (as ++ as') (ss ++ ss') (cs ++ cs') := by
  induction h with
  | nil => exact h'
  | cons h _ ih => exact .cons h ih

theorem StrCells.lengths {o : Origin} {as : List Nat} {ss : List (List Nat)} {cs : List Cell}
    (h : StrCells o as ss cs) : as.length = ss.length ∧ cs.length = ss.length := by
  induction h with
  | nil => exact ⟨rfl, rfl⟩
  | cons _ _ ih => simp [ih.1, ih.2]

theorem StrCells.at {o : Origin} {as : List Nat} {ss : List (List Nat)} {cs : List Cell}
    (h : StrCells o as ss cs) {H : Heap} {cells : List Cell} (hx : Exactly H cells)
    (hm : cs ⊆ cells) : List.Forall₂ (StringIn H) as ss := by
  induction h with
  | nil => exact .nil
  | cons h _ ih =>
    refine .cons ?_ (ih (fun x hx => hm (List.mem_cons_of_mem _ hx)))
    obtain ⟨pad, rfl, h0⟩ := h
    exact ⟨o, pad, hx.get (hm List.mem_cons_self), h0⟩

/-- The pointers of an array. -/
abbrev ptrCells (as : List Nat) : List (Option (Option Nat)) := as.map (fun a => some (some a))

/-- The cell of an array whose first elements are the given addresses, not yet closed. -/
def HeadCell (o : Origin) (p : Nat) (as : List Nat) (n : Nat) (c : Cell) : Prop :=
  ∃ rest, c = (p, ⟨o, .ptrs (ptrCells as ++ rest)⟩) ∧ rest.length = n

/-- The cells of a finished array. -/
def ArrCells (o : Origin) (p : Nat) (ss : List (List Nat)) (cs : List Cell) : Prop :=
  ∃ as pad strs, cs = (p, ⟨o, .ptrs (ptrCells as ++ some none :: pad)⟩) :: strs ∧
    StrCells o as ss strs

theorem ArrCells.at {o : Origin} {p : Nat} {ss : List (List Nat)} {cs : List Cell}
    (h : ArrCells o p ss cs) {H : Heap} {cells : List Cell} (hx : Exactly H cells)
    (hm : cs ⊆ cells) : ArrayIn H p ss := by
  obtain ⟨as, pad, strs, rfl, hs⟩ := h
  exact ⟨o, as, pad, hx.get (hm List.mem_cons_self),
    hs.at hx (fun x hx => hm (List.mem_cons_of_mem _ hx))⟩

theorem ArrCells.length {o : Origin} {p : Nat} {ss : List (List Nat)} {cs : List Cell}
    (h : ArrCells o p ss cs) : cs.length = ss.length + 1 := by
  obtain ⟨as, pad, strs, rfl, hs⟩ := h
  simp [hs.lengths.2]

theorem ptrAt_eq {H : Heap} {cells : List Cell} (hx : Exactly H cells) {p : Nat} {o : Origin}
    {l : List (Option (Option Nat))} (hm : (p, (⟨o, .ptrs l⟩ : Block)) ∈ cells) (i : Nat) :
    ptrAt H p i = (rd l i).bind id := by
  simp [ptrAt, hx.get hm]
  rfl

theorem rd_ptrs (as : List Nat) (r : List (Option (Option Nat))) (i : Nat) (a : Nat)
    (h : as[i]? = some a) : (rd (ptrCells as ++ r) i).bind id = some (some a) := by
  have hl : i < as.length := by
    rcases Nat.lt_or_ge i as.length with g | g
    · exact g
    · rw [List.getElem?_eq_none g] at h; cases h
  have : (ptrCells as ++ r)[i]? = some (some (some a)) := by
    rw [List.getElem?_append_left (by simpa using hl)]
    simp [h]
  simp [rd, this]

theorem rd_null (as : List Nat) (r : List (Option (Option Nat))) :
    (rd (ptrCells as ++ some none :: r) as.length).bind id = some none := by
  have : (ptrCells as ++ some none :: r)[as.length]? = some (some none) := by
    rw [List.getElem?_append_right (by simp)]
    simp
  simp [rd, this]

theorem countFrom_ok {H : Heap} {cells : List Cell} (hx : Exactly H cells) {p : Nat} {o : Origin}
    {as : List Nat} {pad : List (Option (Option Nat))}
    (hm : (p, (⟨o, .ptrs (ptrCells as ++ some none :: pad)⟩ : Block)) ∈ cells) :
    ∀ f i, i ≤ as.length → as.length < i + f → countFrom H p f i = some as.length := by
  intro f
  induction f with
  | zero => intro i h1 h2; omega
  | succ f ih =>
    intro i h1 h2
    rw [countFrom, ptrAt_eq hx hm]
    rcases Nat.lt_or_ge i as.length with g | g
    · rw [rd_ptrs as _ i as[i] (List.getElem?_eq_getElem g)]
      simp only [Option.bind_eq_bind, Option.bind_some]
      exact ih (i + 1) g (by omega)
    · have e : i = as.length := by omega
      subst e
      rw [rd_null]
      rfl

theorem countAt_ok {H : Heap} {cells : List Cell} (hx : Exactly H cells) {p : Nat} {o : Origin}
    {ss : List (List Nat)} {cs : List Cell} (h : ArrCells o p ss cs) (hm : cs ⊆ cells) :
    countAt H p = some ss.length := by
  obtain ⟨as, pad, strs, rfl, hs⟩ := h
  have hp := hm List.mem_cons_self
  have : sizeAt H p = some (ptrCells as ++ some none :: pad).length := by
    simp [sizeAt, hx.get hp]
  simp only [countAt, this, Option.bind_eq_bind, Option.bind_some]
  rw [countFrom_ok hx hp _ 0 (Nat.zero_le _) (by simp)]
  rw [hs.lengths.1]

/-- Releasing the strings from `i` on, the array staying. -/
theorem releaseUntilNull_ok {o : Origin} {p : Nat} {as : List Nat}
    {pad : List (Option (Option Nat))} {rest : List Cell} :
    ∀ (f i : Nat) (H : Heap) (ss : List (List Nat)) (strs : List Cell),
      StrCells o (as.drop i) ss strs → i ≤ as.length → as.length < i + f →
      Exactly H ((p, (⟨o, .ptrs (ptrCells as ++ some none :: pad)⟩ : Block)) :: (strs ++ rest)) →
      ∃ H', releaseUntilNull o p f i H = some H' ∧
        Exactly H' ((p, (⟨o, .ptrs (ptrCells as ++ some none :: pad)⟩ : Block)) :: rest) := by
  intro f
  induction f with
  | zero => intro i H ss strs hs h1 h2; omega
  | succ f ih =>
    intro i H ss strs hs h1 h2 hx
    rw [releaseUntilNull, ptrAt_eq hx List.mem_cons_self]
    rcases Nat.lt_or_ge i as.length with g | g
    · rw [rd_ptrs as _ i as[i] (List.getElem?_eq_getElem g)]
      simp only [Option.bind_eq_bind, Option.bind_some]
      rw [List.drop_eq_getElem_cons g] at hs
      cases hs with
      | cons hc hs =>
        rename_i s c ss' cs'
        have hx' := hx.perm (c' := c :: ((p, (⟨o, .ptrs (ptrCells as ++ some none :: pad)⟩ : Block)) ::
          (cs' ++ rest))) (List.Perm.swap _ _ _)
        obtain ⟨H1, e1, hx1⟩ := hc.free hx'
        rw [e1]
        exact ih (i + 1) H1 _ _ hs g (by omega) hx1
    · have e : i = as.length := by omega
      subst e
      rw [rd_null]
      rw [List.drop_length] at hs
      cases hs
      exact ⟨H, rfl, hx⟩

theorem releaseArray_ok {o : Origin} {p : Nat} {ss : List (List Nat)} {cs rest : List Cell} {H : Heap}
    (h : ArrCells o p ss cs) (hx : Exactly H (cs ++ rest)) :
    ∃ H', releaseArray o H (some p) = some H' ∧ Exactly H' rest := by
  obtain ⟨as, pad, strs, rfl, hs⟩ := h
  have hz : sizeAt H p = some (ptrCells as ++ some none :: pad).length := by
    simp [sizeAt, hx.get List.mem_cons_self]
  obtain ⟨H1, e1, hx1⟩ := releaseUntilNull_ok (pad := pad) (rest := rest) (p := p)
    ((ptrCells as ++ some none :: pad).length) 0 H ss strs (by simpa using hs) (Nat.zero_le _)
    (by simp) hx
  obtain ⟨H2, e2, hx2⟩ := hx1.release
  refine ⟨H2, ?_, hx2⟩
  simp only [releaseArray, hz, Option.bind_eq_bind, Option.bind_some, e1]
  exact e2

theorem releaseCount_ok {p : Nat} {as : List Nat}
    {pad : List (Option (Option Nat))} {rest : List Cell} :
    ∀ (n i : Nat) (H : Heap) (ss : List (List Nat)) (strs : List Cell),
      StrCells .newArray (as.drop i) ss strs → i + n = as.length →
      Exactly H ((p, (⟨.newArray, .ptrs (ptrCells as ++ some none :: pad)⟩ : Block)) :: (strs ++ rest)) →
      ∃ H', releaseCount p n i H = some H' ∧
        Exactly H' ((p, (⟨.newArray, .ptrs (ptrCells as ++ some none :: pad)⟩ : Block)) :: rest) := by
  intro n
  induction n with
  | zero =>
    intro i H ss strs hs h1 hx
    rw [show i = as.length from h1, List.drop_length] at hs
    cases hs
    exact ⟨H, rfl, hx⟩
  | succ n ih =>
    intro i H ss strs hs h1 hx
    have g : i < as.length := by omega
    rw [releaseCount, ptrAt_eq hx List.mem_cons_self, rd_ptrs as _ i as[i] (List.getElem?_eq_getElem g)]
    simp only [Option.bind_eq_bind, Option.bind_some, releaseOpt]
    rw [List.drop_eq_getElem_cons g] at hs
    cases hs with
    | cons hc hs =>
      rename_i s c ss' cs'
      have hx' := hx.perm (c' := c :: ((p, (⟨.newArray, .ptrs (ptrCells as ++ some none :: pad)⟩ : Block)) ::
        (cs' ++ rest))) (List.Perm.swap _ _ _)
      obtain ⟨H1, e1, hx1⟩ := hc.free hx'
      rw [e1]
      exact ih (i + 1) H1 _ _ hs (by omega) hx1

/-! ### Writing pointers -/

theorem putPtr_next {H : Heap} {o : Origin} {p : Nat} {as : List Nat} {n : Nat} {c : Cell}
    {rest : List Cell} (hc : HeadCell o p as (n + 1) c) (hx : Exactly H (c :: rest)) (a : Nat) :
    ∃ H' c', putPtr H p as.length (some a) = some H' ∧ HeadCell o p (as ++ [a]) n c' ∧
      Exactly H' (c' :: rest) := by
  obtain ⟨r, rfl, hr⟩ := hc
  cases r with
  | nil => cases hr
  | cons r0 r =>
    have hr' : r.length = n := by simpa using hr
    have hw : wr (ptrCells as ++ r0 :: r) as.length (some (some a)) =
        some (ptrCells (as ++ [a]) ++ r) := by
      rw [wr_eq_some _ (by simp)]
      rw [List.set_append_right _ _ (by simp)]
      simp
    refine ⟨_, _, ?_, ⟨r, rfl, hr'⟩, hx.set _⟩
    simp only [putPtr, hx.get List.mem_cons_self, Option.bind_eq_bind, Option.bind_some, hw]

theorem putPtr_null {H : Heap} {o : Origin} {p : Nat} {as : List Nat} {n : Nat} {c : Cell}
    {rest : List Cell} (hc : HeadCell o p as (n + 1) c) (hx : Exactly H (c :: rest)) :
    ∃ H' pad, putPtr H p as.length none = some H' ∧
      Exactly H' ((p, (⟨o, .ptrs (ptrCells as ++ some none :: pad)⟩ : Block)) :: rest) := by
  obtain ⟨r, rfl, hr⟩ := hc
  cases r with
  | nil => cases hr
  | cons r0 r =>
    have hw : wr (ptrCells as ++ r0 :: r) as.length (some none) =
        some (ptrCells as ++ some none :: r) := by
      rw [wr_eq_some _ (by simp)]
      rw [List.set_append_right _ _ (by simp)]
      simp
    refine ⟨_, r, ?_, hx.set _⟩
    simp only [putPtr, hx.get List.mem_cons_self, Option.bind_eq_bind, Option.bind_some, hw]

theorem head_fresh (o : Origin) (p n : Nat) :
    HeadCell o p [] n (p, ⟨o, .ptrs (List.replicate n none)⟩) :=
  ⟨List.replicate n none, by simp, by simp⟩

/-! ### Making an array -/

theorem makeLoop_ok {dst : Nat} {rest : List Cell} :
    ∀ (ss : List (List Nat)) (H : Heap) (as : List Nat) (done : List (List Nat)) (strs : List Cell)
      (c : Cell), (∀ s ∈ ss, 0 ∉ s) → HeadCell .newArray dst as (ss.length + 1) c →
      StrCells .newArray as done strs → Exactly H (c :: (strs ++ rest)) →
      ∃ H' as' strs' c', makeLoop dst ss as.length H = some H' ∧ HeadCell .newArray dst as' 1 c' ∧
        as'.length = as.length + ss.length ∧
        StrCells .newArray as' (done ++ ss) strs' ∧ Exactly H' (c' :: (strs' ++ rest)) := by
  intro ss
  induction ss with
  | nil =>
    intro H as done strs c _ hc hs hx
    exact ⟨H, as, strs, c, rfl, by simpa using hc, by simp, by simpa using hs, hx⟩
  | cons s ss ih =>
    intro H as done strs c h0 hc hs hx
    obtain ⟨H1, a, cs, e1, hcs, hx1⟩ := makeString_ok hx s (h0 s List.mem_cons_self)
    have hx1' := hx1.perm (c' := c :: (cs :: (strs ++ rest))) (List.Perm.swap _ _ _)
    obtain ⟨H2, c2, e2, hc2, hx2⟩ := putPtr_next (n := ss.length + 1) (by simpa using hc) hx1' a
    have hs2 : StrCells .newArray (as ++ [a]) (done ++ [s]) (strs ++ [cs]) :=
      hs.append (.cons hcs .nil)
    have hx2' : Exactly H2 (c2 :: ((strs ++ [cs]) ++ rest)) := hx2.perm (by
      refine List.Perm.cons _ ?_
      simp only [List.append_assoc, List.singleton_append]
      exact List.perm_middle.symm)
    obtain ⟨H3, as3, strs3, c3, e3, hc3, hl3, hs3, hx3⟩ := ih H2 (as ++ [a]) (done ++ [s])
      (strs ++ [cs]) c2 (fun t ht => h0 t (List.mem_cons_of_mem _ ht)) hc2 hs2 hx2'
    refine ⟨H3, as3, strs3, c3, ?_, hc3, by simp at hl3 ⊢; omega, by simpa using hs3, hx3⟩
    rw [makeLoop, e1]
    simp only [Option.bind_eq_bind, Option.bind_some]
    rw [e2]
    simpa using e3

theorem makeArray_ok {H : Heap} {rest : List Cell} (hx : Exactly H rest) (ss : List (List Nat))
    (h0 : ∀ s ∈ ss, 0 ∉ s) :
    ∃ H' a cs, makeArray H ss = some (H', a) ∧ ArrCells .newArray a ss cs ∧
      Exactly H' (cs ++ rest) := by
  obtain ⟨H1, as, strs, c, e1, hc, hl, hs, hx1⟩ := makeLoop_ok (dst := H.length) (rest := rest) ss _ [] []
    [] _ h0 (head_fresh .newArray H.length (ss.length + 1)) .nil (hx.store _)
  obtain ⟨H2, pad, e2, hx2⟩ := putPtr_null hc hx1
  simp only [List.length_nil, Nat.zero_add] at hl
  rw [hl] at e2
  refine ⟨H2, H.length, _, ?_, ⟨as, pad, strs, rfl, by simpa using hs⟩, hx2⟩
  simp only [List.length_nil] at e1
  simp only [makeArray, store, e1, e2, Option.bind_eq_bind, Option.bind_some]

/-! ### Copying an array -/

theorem StrCells.cell {o : Origin} {as : List Nat} {ss : List (List Nat)} {cs : List Cell}
    (h : StrCells o as ss cs) : ∀ (i : Nat) (s : List Nat), ss[i]? = some s →
      ∃ a c, as[i]? = some a ∧ StrCell o a s c ∧ c ∈ cs := by
  induction h with
  | nil => intro i s hs; simp at hs
  | @cons a s c as ss cs hc _ ih =>
    intro i t ht
    cases i with
    | zero =>
      simp only [List.getElem?_cons_zero, Option.some.injEq] at ht
      subst ht
      exact ⟨a, c, by simp, hc, List.mem_cons_self⟩
    | succ i =>
      simp only [List.getElem?_cons_succ] at ht
      obtain ⟨a', c', h1, h2, h3⟩ := ih i t ht
      exact ⟨a', c', by simpa using h1, h2, List.mem_cons_of_mem _ h3⟩

theorem copyLoop_ok (checked : Bool) (o o' : Origin) {dst src : Nat}
    {as0 : List Nat} {pad0 : List (Option (Option Nat))} {ss0 : List (List Nat)} {strs0 rest : List Cell}
    (hsrc : StrCells o' as0 ss0 strs0)
    (hm : (src, (⟨o', .ptrs (ptrCells as0 ++ some none :: pad0)⟩ : Block)) :: strs0 ⊆ rest) :
    ∀ (n i : Nat) (H : Heap) (as : List Nat) (strs : List Cell) (c : Cell),
      i + n = ss0.length → as.length = i → HeadCell o dst as (n + 1) c →
      StrCells o as (ss0.take i) strs → Exactly H (c :: (strs ++ rest)) →
      ∃ H' as' strs' c', copyLoop (fun _ => true) checked o dst src n i H = some (H', true) ∧
        HeadCell o dst as' 1 c' ∧ as'.length = ss0.length ∧ StrCells o as' ss0 strs' ∧
        Exactly H' (c' :: (strs' ++ rest)) := by
  intro n
  induction n with
  | zero =>
    intro i H as strs c hn hl hc hs hx
    rw [show i = ss0.length from hn, List.take_length] at hs
    exact ⟨H, as, strs, c, rfl, hc, by omega, hs, hx⟩
  | succ n ih =>
    intro i H as strs c hn hl hc hs hx
    have hi : i < ss0.length := by omega
    obtain ⟨q, c0, hq, hc0, hm0⟩ := hsrc.cell i ss0[i] (List.getElem?_eq_getElem hi)
    have hm1 : (src, (⟨o', .ptrs (ptrCells as0 ++ some none :: pad0)⟩ : Block)) ∈ c :: (strs ++ rest) :=
      List.mem_cons_of_mem _ (List.mem_append_right _ (hm List.mem_cons_self))
    have hm2 : c0 ∈ c :: (strs ++ rest) :=
      List.mem_cons_of_mem _ (List.mem_append_right _ (hm (List.mem_cons_of_mem _ hm0)))
    obtain ⟨H1, a, cs, e1, hcs, hx1⟩ := copyString_ok hx o o' hc0 hm2
    have hx1' := hx1.perm (c' := c :: (cs :: (strs ++ rest))) (List.Perm.swap _ _ _)
    obtain ⟨H2, c2, e2, hc2, hx2⟩ := putPtr_next (n := n + 1) hc hx1' a
    have hs2 : StrCells o (as ++ [a]) (ss0.take (i + 1)) (strs ++ [cs]) := by
      rw [List.take_succ_eq_append_getElem hi]
      exact hs.append (.cons hcs .nil)
    have hx2' : Exactly H2 (c2 :: ((strs ++ [cs]) ++ rest)) := hx2.perm (by
      refine List.Perm.cons _ ?_
      simp only [List.append_assoc, List.singleton_append]
      exact List.perm_middle.symm)
    obtain ⟨H3, as3, strs3, c3, e3, hc3⟩ := ih (i + 1) H2 (as ++ [a]) (strs ++ [cs]) c2 (by omega)
      (by simp [hl]) hc2 hs2 hx2'
    refine ⟨H3, as3, strs3, c3, ?_, hc3⟩
    rw [hl] at e2
    rw [copyLoop, ptrAt_eq hx hm1, rd_ptrs as0 _ i q hq]
    simp only [Option.bind_eq_bind, Option.bind_some, hc0.at hx hm2, Bool.true_eq_false, and_false,
      if_false, e1, e2, e3]

theorem copyArray_ok (checked : Bool) (o o' : Origin) {H : Heap} {p : Nat} {ss : List (List Nat)}
    {cs rest : List Cell} (h : ArrCells o' p ss cs) (hm : cs ⊆ rest) (hx : Exactly H rest) :
    ∃ H' d cs', copyArray (fun _ => true) checked o H p = some (H', some d) ∧ ArrCells o d ss cs' ∧
      Exactly H' (cs' ++ rest) := by
  have hcount := countAt_ok hx h hm
  obtain ⟨as0, pad0, strs0, rfl, hs0⟩ := h
  obtain ⟨H1, as, strs, c, e1, hc, hl, hs, hx1⟩ := copyLoop_ok (pad0 := pad0) checked o o' (dst := H.length)
    hs0 hm ss.length 0 _ [] [] _ (by simp) rfl (head_fresh o H.length (ss.length + 1)) (by simpa using .nil)
    (hx.store _)
  obtain ⟨H2, pad, e2, hx2⟩ := putPtr_null hc hx1
  rw [hl] at e2
  refine ⟨H2, H.length, _, ?_, ⟨as, pad, strs, rfl, hs⟩, hx2⟩
  simp only [copyArray, hcount, Option.bind_eq_bind, Option.bind_some, Bool.true_eq_false, and_false,
    if_false, store, e1, if_true, e2]

/-! ### Converting to `malloc` -/

theorem convertString_ok {H : Heap} {p : Nat} {s : List Nat} {c : Cell} {rest : List Cell}
    (h : StrCell .newArray p s c) (hx : Exactly H (c :: rest)) :
    ∃ H' d c', convertString (fun _ => true) H (some p) = some (H', some d) ∧ StrCell .malloc d s c' ∧
      Exactly H' (c' :: rest) := by
  obtain ⟨H1, d, c', e1, hc', hx1⟩ := copyString_ok hx .malloc .newArray h List.mem_cons_self
  obtain ⟨H2, e2, hx2⟩ := h.free (hx1.perm (List.Perm.swap _ _ _))
  refine ⟨H2, d, c', ?_, hc', hx2⟩
  simp only [convertString, h.at hx List.mem_cons_self, Option.bind_eq_bind, Option.bind_some, if_true,
    e1, e2]

theorem convertArray_ok {H : Heap} {p : Nat} {ss : List (List Nat)} {cs rest : List Cell}
    (h : ArrCells .newArray p ss cs) (hx : Exactly H (cs ++ rest)) :
    ∃ H' d cs', convertArray (fun _ => true) H (some p) = some (H', some d) ∧
      ArrCells .malloc d ss cs' ∧ Exactly H' (cs' ++ rest) := by
  have hcount := countAt_ok hx h (List.subset_append_left _ _)
  obtain ⟨H1, d, cs', e1, hcs', hx1⟩ := copyArray_ok true .malloc .newArray h
    (List.subset_append_left cs rest) hx
  have hx1' : Exactly H1 (cs ++ (cs' ++ rest)) := hx1.perm (by
    rw [← List.append_assoc, ← List.append_assoc]
    exact List.Perm.append_right _ List.perm_append_comm)
  obtain ⟨as, pad, strs, rfl, hs⟩ := h
  obtain ⟨H2, e2, hx2⟩ := releaseCount_ok (pad := pad) (p := p) (rest := cs' ++ rest) ss.length 0 H1 ss strs
    (by simpa using hs) (by simpa using hs.lengths.1.symm) hx1'
  obtain ⟨H3, e3, hx3⟩ := hx2.release
  refine ⟨H3, d, cs', ?_, hcs', hx3⟩
  simp only [] at e3
  simp only [convertArray, hcount, Option.bind_eq_bind, Option.bind_some, e1, e2, e3]

/-! ### Encoding suggestions -/

theorem encodeString_ok {H : Heap} {q : Nat} {s : List Nat} {o : Origin} {c0 : Cell} {cells : List Cell}
    (hx : Exactly H cells) (hc : StrCell o q s c0) (hm : c0 ∈ cells) :
    ((∀ c ∈ s, ValidCp c) → ∃ H' a c, encodeString H q = some (H', some a) ∧
      StrCell .newArray a (encodeStr s) c ∧ Exactly H' (c :: cells)) ∧
    (¬ (∀ c ∈ s, ValidCp c) → ∃ H', encodeString H q = some (H', none) ∧ Exactly H' cells) := by
  have h0 : 0 ∉ s := hc.choose_spec.2
  have es := hc.at hx hm
  constructor
  · intro hv
    obtain ⟨bytes, e1, e2, _, _⟩ := C14_round_trip s hv
    obtain ⟨bytes', e3, e4⟩ := C14_no_nul s (fun c hcs => ⟨hv c hcs, fun e => h0 (e ▸ hcs)⟩)
    have e5 := (utf8FromUcs4_eq s).1 hv
    rw [e5, Option.some.injEq, Option.some.injEq] at e1 e3
    subst e1
    subst e3
    obtain ⟨H', c, h1, h2, h3⟩ := put_fresh hx .newArray (encodeStr s) (s.length * 6 + 1) (by omega) e4
    refine ⟨H', H.length, c, ?_, h2, h3⟩
    simp only [encodeString, es, Option.bind_eq_bind, Option.bind_some, store, e5, h1]
  · intro hv
    have e5 := (utf8FromUcs4_eq s).2 (by
      simpa only [Classical.not_forall, exists_prop] using hv)
    obtain ⟨H', e6, hx'⟩ := (hx.store ⟨.newArray, .chars (List.replicate (s.length * 6 + 1) none)⟩).release
    refine ⟨H', ?_, hx'⟩
    simp only [] at e6
    simp only [encodeString, es, Option.bind_eq_bind, Option.bind_some, store, e5, e6]

theorem encoded_append (xs ys : List (List Nat)) : encoded (xs ++ ys) = encoded xs ++ encoded ys := by
  simp [encoded]

theorem encodeLoop_ok (o' : Origin) {dst src : Nat}
    {as0 : List Nat} {pad0 : List (Option (Option Nat))} {ss0 : List (List Nat)} {strs0 rest : List Cell}
    (hsrc : StrCells o' as0 ss0 strs0)
    (hm : (src, (⟨o', .ptrs (ptrCells as0 ++ some none :: pad0)⟩ : Block)) :: strs0 ⊆ rest) :
    ∀ (n i k : Nat) (H : Heap) (as : List Nat) (strs : List Cell) (c : Cell),
      i + n = ss0.length → HeadCell .newArray dst as (n + k + 1) c → as.length + k = i →
      StrCells .newArray as (encoded (ss0.take i)) strs → Exactly H (c :: (strs ++ rest)) →
      ∃ H' as' strs' c' k', encodeLoop dst src n i as.length H = some (H', as'.length) ∧
        HeadCell .newArray dst as' (k' + 1) c' ∧ as'.length + k' = ss0.length ∧
        StrCells .newArray as' (encoded ss0) strs' ∧ Exactly H' (c' :: (strs' ++ rest)) := by
  intro n
  induction n with
  | zero =>
    intro i k H as strs c hn hc hk hs hx
    rw [show i = ss0.length from hn, List.take_length] at hs
    exact ⟨H, as, strs, c, k, rfl, by simpa using hc, by omega, hs, hx⟩
  | succ n ih =>
    intro i k H as strs c hn hc hk hs hx
    have hi : i < ss0.length := by omega
    obtain ⟨q, c0, hq, hc0, hm0⟩ := hsrc.cell i ss0[i] (List.getElem?_eq_getElem hi)
    have hm1 : (src, (⟨o', .ptrs (ptrCells as0 ++ some none :: pad0)⟩ : Block)) ∈ c :: (strs ++ rest) :=
      List.mem_cons_of_mem _ (List.mem_append_right _ (hm List.mem_cons_self))
    have hm2 : c0 ∈ c :: (strs ++ rest) :=
      List.mem_cons_of_mem _ (List.mem_append_right _ (hm (List.mem_cons_of_mem _ hm0)))
    obtain ⟨hgood, hbad⟩ := encodeString_ok hx hc0 hm2
    rw [encodeLoop, ptrAt_eq hx hm1, rd_ptrs as0 _ i q hq]
    simp only [Option.bind_eq_bind, Option.bind_some]
    by_cases hv : ∀ x ∈ ss0[i], ValidCp x
    · obtain ⟨H1, a, cs, e1, hcs, hx1⟩ := hgood hv
      have hx1' := hx1.perm (c' := c :: (cs :: (strs ++ rest))) (List.Perm.swap _ _ _)
      obtain ⟨H2, c2, e2, hc2, hx2⟩ := putPtr_next (n := n + k + 1)
        (by rw [show n + k + 1 + 1 = n + 1 + k + 1 from by omega]; exact hc) hx1' a
      have hs2 : StrCells .newArray (as ++ [a]) (encoded (ss0.take (i + 1))) (strs ++ [cs]) := by
        rw [List.take_succ_eq_append_getElem hi, encoded_append]
        refine hs.append ?_
        have : encoded [ss0[i]] = [encodeStr ss0[i]] := by
          simp only [encoded]
          rw [List.filter_cons_of_pos (by simpa using hv)]
          rfl
        rw [this]
        exact .cons hcs .nil
      have hx2' : Exactly H2 (c2 :: ((strs ++ [cs]) ++ rest)) := hx2.perm (by
        refine List.Perm.cons _ ?_
        simp only [List.append_assoc, List.singleton_append]
        exact List.perm_middle.symm)
      obtain ⟨H3, as3, strs3, c3, k3, e3, h3⟩ := ih (i + 1) k H2 (as ++ [a]) (strs ++ [cs]) c2
        (by omega) hc2 (by simp; omega) hs2 hx2'
      refine ⟨H3, as3, strs3, c3, k3, ?_, h3⟩
      rw [e1]
      simp only [Option.bind_some]
      rw [e2]
      simpa using e3
    · obtain ⟨H1, e1, hx1⟩ := hbad hv
      have hs2 : StrCells .newArray as (encoded (ss0.take (i + 1))) strs := by
        rw [List.take_succ_eq_append_getElem hi, encoded_append]
        have : encoded [ss0[i]] = [] := by
          simp only [encoded, List.map_eq_nil_iff, List.filter_eq_nil_iff, List.mem_singleton]
          rintro x rfl
          simpa using hv
        rw [this, List.append_nil]
        exact hs
      obtain ⟨H3, as3, strs3, c3, k3, e3, h3⟩ := ih (i + 1) (k + 1) H1 as strs c
        (by omega) (by rw [show n + (k + 1) + 1 = n + 1 + k + 1 from by omega]; exact hc) (by omega) hs2 hx1
      refine ⟨H3, as3, strs3, c3, k3, ?_, h3⟩
      rw [e1]
      exact e3

/-- Filling the rest of an array that is already closed, or closing it. -/
theorem nullFill_ok {o : Origin} {p : Nat} {as : List Nat} {rest : List Cell} :
    ∀ (n : Nat) (H : Heap) (pad1 pad2 : List (Option (Option Nat))), pad2.length = n →
      Exactly H ((p, (⟨o, .ptrs (ptrCells as ++ some none :: (pad1 ++ pad2))⟩ : Block)) :: rest) →
      ∃ H' pad, nullFill p n (as.length + 1 + pad1.length) H = some H' ∧
        Exactly H' ((p, (⟨o, .ptrs (ptrCells as ++ some none :: pad)⟩ : Block)) :: rest) := by
  intro n
  induction n with
  | zero => intro H pad1 pad2 _ hx; exact ⟨H, _, rfl, hx⟩
  | succ n ih =>
    intro H pad1 pad2 hl hx
    cases pad2 with
    | nil => cases hl
    | cons r pad2 =>
      have hw : wr (ptrCells as ++ some none :: (pad1 ++ r :: pad2)) (as.length + 1 + pad1.length) (some none) =
          some (ptrCells as ++ some none :: ((pad1 ++ [some none]) ++ pad2)) := by
        rw [wr_eq_some _ (by simp; omega)]
        rw [List.set_append_right _ _ (by simp; omega)]
        have e : as.length + 1 + pad1.length - (ptrCells as).length = pad1.length + 1 := by simp; omega
        rw [e, List.set_cons_succ, List.set_append_right _ _ (Nat.le_refl _)]
        simp
      have e1 : putPtr H p (as.length + 1 + pad1.length) none = some (H.set p (some ⟨o, .ptrs (ptrCells as ++
          some none :: ((pad1 ++ [some none]) ++ pad2))⟩)) := by
        simp only [putPtr, hx.get List.mem_cons_self, Option.bind_eq_bind, Option.bind_some, hw]
      obtain ⟨H2, pad, e2, hx2⟩ := ih _ (pad1 ++ [some none]) pad2 (by simpa using hl) (hx.set _)
      refine ⟨H2, pad, ?_, hx2⟩
      rw [nullFill, e1]
      simp only [List.length_append, List.length_singleton] at e2
      simpa [Nat.add_assoc] using e2

/-- The cells of an array, or none for a null pointer. -/
def ArrOpt (o : Origin) : Option Nat → Option (List (List Nat)) → List Cell → Prop
  | none, none, cs => cs = []
  | some p, some ss, cs => ArrCells o p ss cs
  | _, _, _ => False

/-- What `voikkoSuggestCstr` returns, as an array or nothing. -/
def encodedOpt : Option (List (List Nat)) → Option (List (List Nat))
  | none => none
  | some ss => if encoded ss = [] then none else some (encoded ss)

theorem suggestCstr_ok {H : Heap} {p : Option Nat} {found : Option (List (List Nat))} {cs rest : List Cell}
    (h : ArrOpt .newArray p found cs) (hx : Exactly H (cs ++ rest)) :
    ∃ H' d cs', suggestCstr H p = some (H', d) ∧ ArrOpt .newArray d (encodedOpt found) cs' ∧
      Exactly H' (cs' ++ rest) := by
  cases p with
  | none =>
    cases found with
    | none => exact ⟨H, none, [], rfl, rfl, by cases h; exact hx⟩
    | some ss => cases h
  | some p =>
    cases found with
    | none => cases h
    | some ss =>
      have h' : ArrCells .newArray p ss cs := h
      have hcount := countAt_ok hx h' (List.subset_append_left _ _)
      obtain ⟨as0, pad0, strs0, hcs, hs0⟩ := h'
      obtain ⟨H1, as, strs, c, k, e1, hc, hk, hs, hx1⟩ := encodeLoop_ok (pad0 := pad0) .newArray
        (dst := H.length) (src := p) (rest := cs ++ rest) hs0 (by rw [hcs]; exact List.subset_append_left _ _)
        ss.length 0 0 _ [] [] _
        (by simp) (by simpa using head_fresh .newArray H.length (ss.length + 1)) rfl
        (by simpa [encoded] using .nil) (hx.store _)
      have hx1' : Exactly H1 (cs ++ (c :: (strs ++ rest))) := hx1.perm (by
        refine List.Perm.trans ?_ List.perm_middle.symm
        refine List.Perm.cons _ ?_
        rw [← List.append_assoc, ← List.append_assoc]
        exact List.Perm.append_right _ List.perm_append_comm)
      obtain ⟨H2, e2, hx2⟩ := releaseArray_ok (o := .newArray) (p := p) (ss := ss) h hx1'
      simp only [List.length_nil] at e1
      by_cases hj : encoded ss = []
      · rw [hj] at hs
        cases hs
        obtain ⟨r, rfl, hr⟩ := hc
        obtain ⟨H3, e3, hx3⟩ := hx2.release
        refine ⟨H3, none, [], ?_, by simp [encodedOpt, hj, ArrOpt], hx3⟩
        simp only [] at e3
        simp only [suggestCstr, hcount, Option.bind_eq_bind, Option.bind_some, store, e1, e2,
          List.length_nil, if_true, e3]
      · obtain ⟨r, rfl, hr⟩ := hc
        have hl := hs.lengths.1
        have hne : as.length ≠ 0 := by
          intro e
          rw [e] at hl
          exact hj (List.eq_nil_of_length_eq_zero hl.symm)
        cases r with
        | nil => cases hr
        | cons r0 r =>
          obtain ⟨H3, pad3, e3, hx3⟩ := putPtr_null (n := k) ⟨r0 :: r, rfl, hr⟩ hx2
          have hw : wr (ptrCells as ++ r0 :: r) as.length (some none) =
              some (ptrCells as ++ some none :: r) := by
            rw [wr_eq_some _ (by simp)]
            rw [List.set_append_right _ _ (by simp)]
            simp
          have e4 : putPtr H2 H.length as.length none = some (H2.set H.length (some ⟨.newArray, .ptrs
              (ptrCells as ++ some none :: r)⟩)) := by
            simp only [putPtr, hx2.get List.mem_cons_self, Option.bind_eq_bind, Option.bind_some, hw]
          obtain ⟨H5, pad5, e5, hx5⟩ := nullFill_ok (p := H.length) (as := as) (o := .newArray) k _ []
            r (by simpa using hr) (hx2.set _)
          simp only [List.length_nil, Nat.add_zero] at e5
          refine ⟨H5, some H.length, _ :: strs, ?_, ?_, hx5⟩
          · have hnk : ss.length + 1 - as.length = k + 1 := by omega
            simp only [suggestCstr, hcount, Option.bind_eq_bind, Option.bind_some, store, e1, e2,
              if_neg hne, hnk, nullFill, e4]
            simp only [List.nil_append] at e5
            rw [e5]
            rfl
          · simp only [encodedOpt, if_neg hj]
            exact ⟨as, pad5, strs, rfl, hs⟩

end Verif.ApiHeap
