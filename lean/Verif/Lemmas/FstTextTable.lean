import Verif.Lemmas.FstTextParse
import Mathlib.Data.List.Nodup
import Mathlib.Data.List.Perm.Subperm
/-!
# Lemmas on the symbol codes and states of the transducer compiler
-/

set_option linter.unusedSimpArgs false
set_option linter.unusedVariables false

namespace Verif.Att
open Verif Verif.Props

/-! ### Sorting -/

theorem insert_perm {α : Type} (le : α → α → Bool) (x : α) (l : List α) : (attInsert le x l).Perm (x :: l) := by
  induction l with
  | nil => exact List.Perm.refl _
  | cons y l ih =>
    rw [attInsert]
    split
    · exact List.Perm.refl _
    · exact (ih.cons y).trans (List.Perm.swap x y l)

theorem sort_perm {α : Type} (le : α → α → Bool) (l : List α) : (attSort le l).Perm l := by
  induction l with
  | nil => exact List.Perm.refl _
  | cons x l ih => exact (insert_perm le x _).trans (ih.cons x)

theorem insert_sorted {α : Type} {le : α → α → Bool} (ht : ∀ a b c, le a b = true → le b c = true → le a c = true)
    (hc : ∀ a b, (le a b || le b a) = true) (x : α) {l : List α} (h : l.Pairwise fun a b => le a b = true) :
    (attInsert le x l).Pairwise fun a b => le a b = true := by
  induction l with
  | nil => exact List.pairwise_singleton _ _
  | cons y l ih =>
    rw [List.pairwise_cons] at h
    rw [attInsert]
    by_cases hxy : le x y = true
    · rw [if_pos hxy, List.pairwise_cons, List.pairwise_cons]
      refine ⟨?_, h⟩
      intro z hz
      rcases List.mem_cons.1 hz with rfl | hz
      · exact hxy
      · exact ht _ _ _ hxy (h.1 z hz)
    · rw [if_neg hxy, List.pairwise_cons]
      refine ⟨?_, ih h.2⟩
      intro z hz
      rcases List.mem_cons.1 ((insert_perm le x l).mem_iff.1 hz) with rfl | hz
      · have := hc z y
        rw [Bool.or_eq_true] at this
        exact this.resolve_left hxy
      · exact h.1 z hz

theorem sort_sorted {α : Type} {le : α → α → Bool} (ht : ∀ a b c, le a b = true → le b c = true → le a c = true)
    (hc : ∀ a b, (le a b || le b a) = true) (l : List α) : (attSort le l).Pairwise fun a b => le a b = true := by
  induction l with
  | nil => exact List.Pairwise.nil
  | cons x l ih => exact insert_sorted ht hc x ih

/-- Symbols with their codes. -/
def coded (T : List (List Nat)) : List (Nat × List Nat) := T.zipIdx.map fun x => (x.2, x.1)

theorem coded_append (T : List (List Nat)) (t : List Nat) : coded (T ++ [t]) = coded T ++ [(T.length, t)] := by
  simp [coded, List.zipIdx_append]

theorem coded_length (T : List (List Nat)) : (coded T).length = T.length := by simp [coded]

theorem find_zipIdx (T : List (List Nat)) (t : List Nat) (n : Nat) :
    ((T.zipIdx n).map fun x => (x.2, x.1)).find? (fun x => x.2 == t) = if t ∈ T then some (n + T.idxOf t, t) else none := by
  induction T generalizing n with
  | nil => rfl
  | cons x T ih =>
    rw [List.zipIdx_cons, List.map_cons, List.find?_cons]
    by_cases h : x = t
    · subst h; simp
    · have h' : (x == t) = false := by simpa using h
      simp only [h', ih, List.mem_cons]
      by_cases hm : t ∈ T
      · rw [if_pos hm, if_pos (Or.inr hm), List.idxOf_cons, h']
        simp only [cond_false, Option.some.injEq, Prod.mk.injEq, and_true]
        omega
      · rw [if_neg hm, if_neg]
        rintro (e | e)
        · exact h e.symm
        · exact hm e

theorem coded_find (T : List (List Nat)) (t : List Nat) :
    (coded T).find? (fun x => x.2 == t) = if t ∈ T then some (T.idxOf t, t) else none := by
  have := find_zipIdx T t 0
  rw [Nat.zero_add] at this
  exact this

/-- Adding a symbol. -/
def withSym (T : List (List Nat)) (t : List Nat) : List (List Nat) := if t ∈ T then T else T ++ [t]

theorem intern_spec {T : List (List Nat)} {t : List Nat} (ht : t ≠ [91]) (hl : T.length < 65536) :
    attIntern t (coded T) = some ((withSym T t).idxOf t, coded (withSym T t)) := by
  unfold attIntern withSym
  rw [coded_find]
  by_cases hm : t ∈ T
  · simp only [if_pos hm]
  · simp only [if_neg hm, if_neg ht, coded_append, coded_length, Nat.mod_eq_of_lt hl, List.idxOf_append_of_notMem hm, List.idxOf_cons_self,
      Nat.add_zero]

theorem withSym_mem (T : List (List Nat)) (t : List Nat) : t ∈ withSym T t := by
  unfold withSym; split
  · assumption
  · simp

theorem withSym_mono {T : List (List Nat)} {t x : List Nat} (h : x ∈ T) : x ∈ withSym T t ∧ (withSym T t).idxOf x = T.idxOf x := by
  unfold withSym; split
  · exact ⟨h, rfl⟩
  · exact ⟨by simp [h], List.idxOf_append_of_mem h⟩

theorem withSym_nodup {T : List (List Nat)} {t : List Nat} (h : T.Nodup) : (withSym T t).Nodup := by
  unfold withSym; split
  · exact h
  · rename_i hm
    rw [List.nodup_append]
    refine ⟨h, by simp, ?_⟩
    intro a ha b hb
    rw [List.mem_singleton] at hb
    subst hb
    exact fun e => hm (e ▸ ha)

theorem withSym_sub {T : List (List Nat)} {t x : List Nat} (h : x ∈ withSym T t) : x ∈ T ∨ x = t := by
  unfold withSym at h; split at h
  · exact .inl h
  · simpa using h

theorem withSym_first {T : List (List Nat)} {t : List Nat} (h : T[0]? = some []) : (withSym T t)[0]? = some [] := by
  unfold withSym; split
  · exact h
  · cases T with
    | nil => cases h
    | cons x T => exact h

/-- The state of a line. -/
def lineSrc : AttLine → Nat
  | .final s => s
  | .arc s _ _ _ => s

/-- The symbols of a line. -/
def lineSyms : AttLine → List (List Nat)
  | .final _ => []
  | .arc _ _ i o => [i, o]

/-- The transition of a line, with symbols numbered by their positions in a list. -/
def lineTrans (T : List (List Nat)) : AttLine → CTrans
  | .final _ => ⟨0xFFFFFFFF, 0, 0⟩
  | .arc _ t i o => ⟨T.idxOf i, T.idxOf o, t⟩

theorem lineTrans_congr {T T' : List (List Nat)} {l : AttLine} (h : ∀ t ∈ lineSyms l, T'.idxOf t = T.idxOf t) : lineTrans T' l = lineTrans T l := by
  cases l with
  | final s => rfl
  | arc s t i o => simp [lineTrans, h i (by simp [lineSyms]), h o (by simp [lineSyms])]

/-- The transitions of the states that have been read. -/
def stateLists (T : List (List Nat)) (m : Nat) (ls : List AttLine) : List (List CTrans) :=
  (List.range m).map fun i => (ls.filter fun l => lineSrc l = i).map (lineTrans T)

/-- What has been read. -/
structure Built (ls : List AttLine) (st : AttTab) (T : List (List Nat)) (m : Nat) : Prop where
  syms : st.syms = coded T
  nodup : T.Nodup
  first : T[0]? = some []
  from' : ∀ t ∈ T, t = [] ∨ ∃ l ∈ ls, t ∈ lineSyms l
  all : ∀ l ∈ ls, ∀ t ∈ lineSyms l, t ∈ T
  states : st.states = stateLists T m ls
  srcs : ∀ i, i < m ↔ ∃ l ∈ ls, lineSrc l = i

theorem stateLists_length (T : List (List Nat)) (m : Nat) (ls : List AttLine) : (stateLists T m ls).length = m := by simp [stateLists]

theorem stateLists_congr {T T' : List (List Nat)} {m : Nat} {ls : List AttLine} (h : ∀ l ∈ ls, ∀ t ∈ lineSyms l, T'.idxOf t = T.idxOf t) :
    stateLists T' m ls = stateLists T m ls := by
  unfold stateLists
  apply List.map_congr_left
  intro i _
  apply List.map_congr_left
  intro l hl
  exact lineTrans_congr (h l (List.mem_filter.1 hl).1)

theorem push_spec {T : List (List Nat)} {m : Nat} {ls : List AttLine} {l : AttLine} (h : lineSrc l ≤ m) (hs : ∀ x ∈ ls, lineSrc x < m) :
    attPush (stateLists T m ls) (lineSrc l) (lineTrans T l) = some (stateLists T (max m (lineSrc l + 1)) (ls ++ [l])) := by
  unfold attPush
  rw [stateLists_length, if_neg (by omega), Option.some.injEq]
  have hbase : (if m = lineSrc l then stateLists T m ls ++ [[]] else stateLists T m ls) = stateLists T (max m (lineSrc l + 1)) ls := by
    split
    · rename_i he
      rw [← he, Nat.max_eq_right (by omega)]
      unfold stateLists
      rw [List.range_succ, List.map_append, List.map_singleton]
      congr 2
      rw [List.filter_eq_nil_iff.2]
      · rfl
      · intro x hx
        have := hs x hx
        simp only [decide_eq_true_eq]
        omega
    · rw [Nat.max_eq_left (by omega)]
  rw [hbase]
  apply List.ext_getElem?
  intro i
  rw [List.getElem?_modify]
  unfold stateLists
  simp only [List.getElem?_map]
  by_cases hi : i < max m (lineSrc l + 1)
  · rw [List.getElem?_range hi]
    simp only [Option.map_some, Option.map_eq_map, List.filter_append, List.map_append]
    by_cases he : lineSrc l = i
    · simp [he]
    · simp [he]
  · rw [List.getElem?_eq_none (by simpa using hi)]
    rfl

theorem add_spec {ls : List AttLine} {st : AttTab} {T : List (List Nat)} {m : Nat} {l : AttLine} (b : Built ls st T m) (hsrc : lineSrc l ≤ m)
    (hsym : ∀ t ∈ lineSyms l, t ≠ [91]) (hlen : ∀ T' : List (List Nat), T'.Nodup → (∀ t ∈ T', t = [] ∨ ∃ x ∈ ls ++ [l], t ∈ lineSyms x) → T'.length < 65536) :
    ∃ st' T', attAdd st l = some st' ∧ Built (ls ++ [l]) st' T' (max m (lineSrc l + 1)) := by
  have hs : ∀ x ∈ ls, lineSrc x < m := fun x hx => (b.srcs _).2 ⟨x, hx, rfl⟩
  have hsrcs : ∀ i, i < max m (lineSrc l + 1) ↔ ∃ x ∈ ls ++ [l], lineSrc x = i := by
    intro i
    constructor
    · intro hi
      by_cases hm : i < m
      · obtain ⟨x, hx, e⟩ := (b.srcs i).1 hm
        exact ⟨x, by simp [hx], e⟩
      · exact ⟨l, by simp, by omega⟩
    · rintro ⟨x, hx, e⟩
      rcases List.mem_append.1 hx with hx | hx
      · have := hs x hx; omega
      · rw [List.mem_singleton] at hx; subst hx; omega
  have hfrom : ∀ t ∈ T, t = [] ∨ ∃ x ∈ ls ++ [l], t ∈ lineSyms x := by
    intro t ht
    rcases b.from' t ht with h | ⟨x, hx, h⟩
    · exact .inl h
    · exact .inr ⟨x, by simp [hx], h⟩
  cases l with
  | final s =>
    refine ⟨{ st with states := stateLists T (max m (s + 1)) (ls ++ [.final s]) }, T, ?_, ?_⟩
    · have := push_spec (T := T) (l := .final s) hsrc hs
      simp only [attAdd, b.states]
      rw [show attPush (stateLists T m ls) s ⟨0xFFFFFFFF, 0, 0⟩ = _ from this]
      rfl
    · refine ⟨b.syms, b.nodup, b.first, hfrom, ?_, rfl, hsrcs⟩
      intro x hx
      rcases List.mem_append.1 hx with hx | hx
      · exact b.all x hx
      · rw [List.mem_singleton] at hx; subst hx; intro t ht; cases ht
  | arc s t i o =>
    have hl0 := hlen T b.nodup hfrom
    have hn1 := withSym_nodup (t := i) b.nodup
    have hf1 : ∀ t' ∈ withSym T i, t' = [] ∨ ∃ x ∈ ls ++ [AttLine.arc s t i o], t' ∈ lineSyms x := by
      intro t' ht
      rcases withSym_sub ht with h | rfl
      · exact hfrom t' h
      · exact .inr ⟨.arc s t t' o, by simp, by simp [lineSyms]⟩
    have hl1 := hlen _ hn1 hf1
    have hn2 := withSym_nodup (t := o) hn1
    have hf2 : ∀ t' ∈ withSym (withSym T i) o, t' = [] ∨ ∃ x ∈ ls ++ [AttLine.arc s t i o], t' ∈ lineSyms x := by
      intro t' ht
      rcases withSym_sub ht with h | rfl
      · exact hf1 t' h
      · exact .inr ⟨.arc s t i t', by simp, by simp [lineSyms]⟩
    have hmono : ∀ x ∈ T, x ∈ withSym (withSym T i) o ∧ (withSym (withSym T i) o).idxOf x = T.idxOf x := by
      intro x hx
      have h1 := withSym_mono (t := i) hx
      have h2 := withSym_mono (t := o) h1.1
      exact ⟨h2.1, h2.2.trans h1.2⟩
    have hi2 := withSym_mono (t := o) (withSym_mem T i)
    refine ⟨⟨coded (withSym (withSym T i) o), stateLists (withSym (withSym T i) o) (max m (s + 1)) (ls ++ [.arc s t i o])⟩,
      withSym (withSym T i) o, ?_, ?_⟩
    · have hpush := push_spec (T := withSym (withSym T i) o) (l := .arc s t i o) hsrc hs
      rw [stateLists_congr (T' := withSym (withSym T i) o) (T := T) (fun x hx t' ht => (hmono t' (b.all x hx t' ht)).2)] at hpush
      have hsl : ¬ m < s := by have : s ≤ m := hsrc; omega
      simp only [attAdd, b.states, b.syms, stateLists_length, if_neg hsl, intern_spec (hsym i (by simp [lineSyms])) hl0,
        intern_spec (hsym o (by simp [lineSyms])) hl1, Option.bind_eq_bind, Option.bind_some]
      rw [← hi2.2]
      rw [show attPush (stateLists T m ls) s ⟨(withSym (withSym T i) o).idxOf i, (withSym (withSym T i) o).idxOf o, t⟩ = _ from hpush]
      rfl
    · refine ⟨rfl, hn2, withSym_first (withSym_first b.first), hf2, ?_, rfl, hsrcs⟩
      intro x hx
      rcases List.mem_append.1 hx with hx | hx
      · intro t' ht; exact (hmono t' (b.all x hx t' ht)).1
      · rw [List.mem_singleton] at hx; subst hx
        intro t' ht
        simp only [lineSyms, List.mem_cons, List.not_mem_nil, or_false] at ht
        rcases ht with rfl | rfl
        · exact hi2.1
        · exact withSym_mem _ _

/-- Every state with a smaller number has an earlier line. -/
def InOrder (pre ls : List AttLine) : Prop :=
  ∀ a l b, ls = a ++ l :: b → ∀ s, s < lineSrc l → ∃ x ∈ pre ++ a, lineSrc x = s

theorem addLines_spec {pre ls : List AttLine} {st : AttTab} {T : List (List Nat)} {m : Nat} (b : Built pre st T m) (ho : InOrder pre ls)
    (hsym : ∀ l ∈ ls, ∀ t ∈ lineSyms l, t ≠ [91])
    (hlen : ∀ T' : List (List Nat), T'.Nodup → (∀ t ∈ T', t = [] ∨ ∃ x ∈ pre ++ ls, t ∈ lineSyms x) → T'.length < 65536) :
    ∃ st' T' m', addLines st ls = some st' ∧ Built (pre ++ ls) st' T' m' := by
  induction ls generalizing pre st T m with
  | nil => exact ⟨st, T, m, rfl, by rw [List.append_nil]; exact b⟩
  | cons l ls ih =>
    have hsrc : lineSrc l ≤ m := by
      rcases Nat.lt_or_ge m (lineSrc l) with h | h
      · obtain ⟨x, hx, e⟩ := ho [] l ls rfl m h
        rw [List.append_nil] at hx
        have := (b.srcs m).2 ⟨x, hx, e⟩
        omega
      · exact h
    obtain ⟨st1, T1, h1, b1⟩ := add_spec b hsrc (hsym l List.mem_cons_self) (by
      intro T' hn hf
      refine hlen T' hn fun t ht => ?_
      rcases hf t ht with h | ⟨x, hx, h⟩
      · exact .inl h
      · refine .inr ⟨x, ?_, h⟩
        rcases List.mem_append.1 hx with hx | hx
        · simp [hx]
        · simp [List.mem_singleton.1 hx])
    obtain ⟨st2, T2, m2, h2, b2⟩ := ih b1 (by
        intro a x c e s hs
        obtain ⟨y, hy, ey⟩ := ho (l :: a) x c (by rw [e]; rfl) s hs
        exact ⟨y, by simpa using hy, ey⟩) (fun x hx => hsym x (List.mem_cons_of_mem _ hx)) (by simpa using hlen)
    exact ⟨st2, T2, m2, by rw [addLines, h1]; exact h2, by simpa using b2⟩

theorem built_nil : Built [] { syms := [(0, [])], states := [] } [[]] 0 := by
  refine ⟨rfl, by simp, rfl, ?_, ?_, rfl, ?_⟩
  · intro t ht; exact .inl (List.mem_singleton.1 ht)
  · intro l hl; cases hl
  · intro i; simp

/-! ### New codes -/

theorem range_of_sorted {l : List Nat} (h : l.Perm (List.range l.length)) (hs : l.Pairwise (· ≤ ·)) : l = List.range l.length :=
  List.Perm.eq_of_pairwise (le := (· ≤ ·)) (fun a b _ _ => Nat.le_antisymm) hs
    ((List.pairwise_lt_range (n := l.length)).imp Nat.le_of_lt) h

/-- The new code of a symbol is its position in the sorted list. -/
theorem pairs_spec {T : List (List Nat)} {sorted : List (Nat × List Nat)} (hp : sorted.Perm (coded T)) (hn : T.Nodup) (hl : T.length < 65536) {k : Nat}
    {t : List Nat} (hk : T[k]? = some t) : (attPairs sorted)[k]? = some (k, (sorted.map (·.2)).idxOf t) := by
  have hlen : sorted.length = T.length := by rw [hp.length_eq, coded_length]
  have hperm : (attPairs sorted).Perm (sorted.zipIdx.map fun x => (x.1.1, x.2 % 65536)) := sort_perm _ _
  have hfst : ((attPairs sorted).map (·.1)).Perm (List.range T.length) := by
    refine (hperm.map _).trans ?_
    rw [List.map_map]
    have e1 : sorted.zipIdx.map ((fun x : Nat × Nat => x.1) ∘ fun x => (x.1.1, x.2 % 65536)) = sorted.map (·.1) := by
      rw [show ((fun x : Nat × Nat => x.1) ∘ fun x : (Nat × List Nat) × Nat => (x.1.1, x.2 % 65536)) = (fun x => x.1) ∘ (fun x => x.1) from rfl,
        ← List.map_map, List.zipIdx_map_fst]
    rw [e1]
    refine (hp.map _).trans ?_
    have e2 : (coded T).map (·.1) = List.range T.length := by
      unfold coded
      rw [List.map_map, show ((fun x : Nat × List Nat => x.1) ∘ fun x : List Nat × Nat => (x.2, x.1)) = Prod.snd from rfl, List.zipIdx_map_snd,
        List.range_eq_range']
    rw [e2]
  have hsorted : ((attPairs sorted).map (·.1)).Pairwise (· ≤ ·) := by
    rw [List.pairwise_map]
    unfold attPairs
    refine (sort_sorted ?_ ?_ _).imp ?_
    · intro a b c h1 h2
      simp only [decide_eq_true_eq] at *
      omega
    · intro a b
      simp only [Bool.or_eq_true, decide_eq_true_eq]
      omega
    · intro a b h
      simp only [decide_eq_true_eq] at h
      omega
  have hlen2 : ((attPairs sorted).map (·.1)).length = T.length := by rw [hfst.length_eq, List.length_range]
  have hrange := range_of_sorted (by rw [hlen2]; exact hfst) hsorted
  rw [hlen2] at hrange
  have hkl : k < T.length := (List.getElem?_eq_some_iff.1 hk).1
  have hkp : k < (attPairs sorted).length := by rw [List.length_map] at hlen2; omega
  obtain ⟨x, hx⟩ : ∃ x, (attPairs sorted)[k]? = some x := ⟨_, List.getElem?_eq_getElem hkp⟩
  have hx1 : x.1 = k := by
    have : ((attPairs sorted).map (·.1))[k]? = some x.1 := by rw [List.getElem?_map, hx]; rfl
    rw [hrange, List.getElem?_range hkl] at this
    exact (Option.some.inj this).symm
  have hmem := hperm.mem_iff.1 (List.mem_of_getElem? hx)
  obtain ⟨⟨y, j⟩, hy, hyx⟩ := List.mem_map.1 hmem
  have hyj : sorted[j]? = some y := by
    have := List.mk_mem_zipIdx_iff_getElem? .. |>.1 hy
    exact this
  have hjl : j < sorted.length := (List.getElem?_eq_some_iff.1 hyj).1
  have hycoded := hp.mem_iff.1 (List.mem_of_getElem? hyj)
  obtain ⟨⟨t', k'⟩, ht', he⟩ := List.mem_map.1 hycoded
  have ht'' : T[k']? = some t' := List.mk_mem_zipIdx_iff_getElem? .. |>.1 ht'
  have e1 : y.1 = k' := by rw [← he]
  have e2 : y.2 = t' := by rw [← he]
  have e3 : x.1 = y.1 := by rw [← hyx]
  have e4 : x.2 = j := by rw [← hyx]; exact Nat.mod_eq_of_lt (by omega)
  have ekk : k' = k := by omega
  rw [ekk, hk] at ht''
  have ett : t = t' := Option.some.inj ht''
  have hnd : (sorted.map (·.2)).Nodup := by
    refine (hp.map _).nodup_iff.2 ?_
    have : (coded T).map (·.2) = T := by
      unfold coded
      rw [List.map_map, show ((fun x : Nat × List Nat => x.2) ∘ fun x : List Nat × Nat => (x.2, x.1)) = Prod.fst from rfl, List.zipIdx_map_fst]
    rw [this]; exact hn
  have hj : (sorted.map (·.2))[j]? = some t := by rw [List.getElem?_map, hyj, Option.map_some, e2, ett]
  obtain ⟨hjl', hje⟩ := List.getElem?_eq_some_iff.1 hj
  have : (sorted.map (·.2)).idxOf t = j := by rw [← hje]; exact hnd.idxOf_getElem j hjl'
  rw [hx, this, ← e4]
  congr 1
  exact Prod.ext hx1 rfl

theorem sorted_perm {T : List (List Nat)} {sorted : List (Nat × List Nat)} (hp : sorted.Perm (coded T)) : (sorted.map (·.2)).Perm T := by
  refine (hp.map _).trans ?_
  have : (coded T).map (·.2) = T := by
    unfold coded
    rw [List.map_map, show ((fun x : Nat × List Nat => x.2) ∘ fun x : List Nat × Nat => (x.2, x.1)) = Prod.fst from rfl, List.zipIdx_map_fst]
  rw [this]

theorem renumber_spec {T : List (List Nat)} {sorted : List (Nat × List Nat)} (hp : sorted.Perm (coded T)) (hn : T.Nodup) (hl : T.length < 65536)
    {l : AttLine} (hm : ∀ t ∈ lineSyms l, t ∈ T) :
    attRenumber (attPairs sorted) (lineTrans T l) = some (lineTrans (sorted.map (·.2)) l) := by
  cases l with
  | final s => rfl
  | arc s t i o =>
    have hi := hm i (by simp [lineSyms])
    have ho := hm o (by simp [lineSyms])
    have gi : T[T.idxOf i]? = some i := by
      rw [List.getElem?_eq_getElem (List.idxOf_lt_length_of_mem hi), List.getElem_idxOf]
    have go : T[T.idxOf o]? = some o := by
      rw [List.getElem?_eq_getElem (List.idxOf_lt_length_of_mem ho), List.getElem_idxOf]
    have hlt := List.idxOf_lt_length_of_mem hi
    unfold attRenumber
    rw [if_neg (show ¬ (lineTrans T (.arc s t i o)).symIn = 0xFFFFFFFF by show ¬ T.idxOf i = _; omega)]
    simp only [lineTrans, rd, pairs_spec hp hn hl gi, pairs_spec hp hn hl go, Option.bind_eq_bind, Option.bind_some, Option.pure_def]

end Verif.Att
