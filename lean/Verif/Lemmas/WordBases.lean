import Verif.Spec.WordBases
import Verif.Lemmas.FinnishBase
import Verif.Lemmas.FinnishLetters
/-!
# The loop that makes WORDBASES and WORDIDS, item by item (for C90)
-/

set_option linter.unusedSimpArgs false
set_option linter.unusedVariables false

namespace Verif.WordBases
open Verif Verif.Baseform
open Verif.Validity (drop_pre)
open Verif.Attrs (Tidy TidyItem)
open Verif.Letters (push_inv)

/-- The loop ends with `r`. -/
def DRuns (out : List Wc) (cap i : Nat) (d : DState) (r : DState) : Prop := ∃ f, dbLoop out cap f i d = some r

variable {out : List Wc} {cap i : Nat} {d r : DState}

theorem druns_end (h : DRuns out cap i d r) (hi : out.length ≤ i) : r = d := by
  obtain ⟨f, h⟩ := h
  cases f with
  | zero => cases h
  | succ f =>
    rw [dbLoop, if_neg (by omega)] at h
    exact (Option.some.inj h).symm

theorem druns_step (h : DRuns out cap i d r) (hi : i < out.length) : ∃ j d', dbStep out cap i d = some (j, d') ∧ DRuns out cap (j + 1) d' r := by
  obtain ⟨f, h⟩ := h
  cases f with
  | zero => cases h
  | succ f =>
    rw [dbLoop, if_pos hi] at h
    obtain ⟨⟨j, d'⟩, hv, h⟩ := Option.bind_eq_some_iff.1 h
    exact ⟨j, d', hv, f, h⟩

theorem pushAll_inv {cap : Nat} : ∀ {w buf st : List Wc}, pushAll cap w buf = some st → st = buf ++ w := by
  intro w
  induction w with
  | nil => intro buf st h; rw [pushAll] at h; cases h; simp
  | cons c w ih =>
    intro buf st h
    rw [pushAll] at h
    obtain ⟨b, h1, h2⟩ := Option.bind_eq_some_iff.1 h
    rw [ih h2, push_inv h1]
    simp

theorem contentEnd_inv {d d' : DState} (h : debugContentEnd cap d = some d') :
    d' = { d with ids := d.ids ++ idNote { id := d.xs }, bases := d.bases ++ baseNote { base := d.xp }, xs := [], xp := [] } := by
  have hs : ∀ w : List Wc, (0 < w.length) ↔ w ≠ [] := fun w => List.length_pos_iff
  rw [debugContentEnd] at h
  obtain ⟨d1, h1, h2⟩ := Option.bind_eq_some_iff.1 h
  have e1 : d1 = { d with ids := d.ids ++ idNote { id := d.xs }, xs := [] } := by
    by_cases hx : d.xs = []
    · rw [if_neg (by simp [hx])] at h1
      cases h1
      cases d; simp only at hx; subst hx; simp [idNote]
    · rw [if_pos (by rw [gt_iff_lt, hs]; exact hx)] at h1
      obtain ⟨b, h3, h4⟩ := Option.bind_eq_some_iff.1 h1
      rw [← Option.some.inj h4, pushAll_inv h3, idNote, if_neg hx]
  subst e1
  by_cases hx : d.xp = []
  · rw [if_neg (by simp [hx])] at h2
    rw [← Option.some.inj h2]
    cases d; simp only at hx; subst hx; simp [baseNote]
  · rw [if_pos (by rw [gt_iff_lt, hs]; exact hx)] at h2
    obtain ⟨b, h3, h4⟩ := Option.bind_eq_some_iff.1 h2
    rw [← Option.some.inj h4, pushAll_inv h3, baseNote, if_neg hx]

theorem cmp_at {pre s l : List Wc} (h0 : 0 ∉ l) : cmpz (pre ++ s) pre.length l = some (l.isPrefixOf s) := by
  rw [cmpz_eq (by simp) h0]
  simp

theorem step_at {pre t : List Wc} {c : Wc} : dbStep (pre ++ c :: t) cap pre.length d =
    if (lit "[L").isPrefixOf (c :: t) = true ∨ (lit "-[B").isPrefixOf (c :: t) = true then dbBoundary cap pre.length (c = 0x2D) d
    else if c = 0x5B ∧ pre.length + 2 < (pre ++ c :: t).length then dbBracket (pre ++ c :: t) cap pre.length d
    else if c = 0x5D then some (pre.length, { d with inTag := false })
    else (dbChar cap (pre ++ c :: t).length c d).bind fun d => some (pre.length, d) := by
  rw [dbStep, cmp_at (by decide), cmp_at (by decide), read_at]
  rfl

/-- A closing bracket. -/
theorem runs_close {pre t : List Wc} (h : DRuns (pre ++ 0x5D :: t) cap pre.length d r) :
    DRuns (pre ++ 0x5D :: t) cap (pre.length + 1) { d with inTag := false } r := by
  obtain ⟨j, d', h1, h2⟩ := druns_step h (by simp)
  rw [step_at, if_neg (by simp [lit, List.isPrefixOf]), if_neg (by simp), if_pos rfl] at h1
  cases h1
  exact h2

/-- Any other character. -/
theorem runs_plain {pre t : List Wc} {c : Wc} (h1 : c ≠ 0x5B) (h2 : c ≠ 0x5D) (h3 : (lit "-[B").isPrefixOf (c :: t) = false)
    (h : DRuns (pre ++ c :: t) cap pre.length d r) :
    ∃ n d', dbChar cap n c d = some d' ∧ DRuns (pre ++ c :: t) cap (pre.length + 1) d' r := by
  obtain ⟨j, d', h4, h5⟩ := druns_step h (by simp)
  rw [step_at, if_neg (by rw [h3]; simp [lit, List.isPrefixOf, Ne.symm h1]), if_neg (fun e => h1 e.1), if_neg h2] at h4
  obtain ⟨d1, h6, h7⟩ := Option.bind_eq_some_iff.1 h4
  cases h7
  exact ⟨_, _, h6, h5⟩

theorem not_boundary {c : Wc} {t : List Wc} (h : t.head? ≠ some 0x5B) : (lit "-[B").isPrefixOf (c :: t) = false := by
  cases t with
  | nil => simp [lit, List.isPrefixOf]
  | cons x t =>
    have : x ≠ 0x5B := fun e => h (by simp [e])
    simp [lit, List.isPrefixOf, Ne.symm this]

/-- The characters between brackets. -/
theorem body_run (P : List Wc → DState) {rest : List Wc} (hrest : ∀ c, (lit "-[B").isPrefixOf (c :: rest) = false) :
    ∀ (n m pre : List Wc), 0x5B ∉ n →
    (∀ m c, c ∈ n → (c ≠ 0x5D → ∀ k d', dbChar cap k c (P m) = some d' → d' = P (m ++ [c])) ∧ (c = 0x5D → { P m with inTag := false } = P (m ++ [c]))) →
    DRuns (pre ++ (n ++ rest)) cap pre.length (P m) r → DRuns (pre ++ (n ++ rest)) cap (pre.length + n.length) (P (m ++ n)) r := by
  intro n
  induction n with
  | nil => intro m pre _ _ h; simpa using h
  | cons c n ih =>
    intro m pre h1 hP h
    have hc1 : c ≠ 0x5B := fun e => h1 (by simp [e])
    have hn : 0x5B ∉ n := fun e => h1 (List.mem_cons_of_mem _ e)
    have hnb : (lit "-[B").isPrefixOf (c :: (n ++ rest)) = false := by
      cases n with
      | nil => exact hrest c
      | cons x n => exact not_boundary (by simp; exact fun e => hn (by simp [e]))
    have h3 : DRuns (pre ++ c :: (n ++ rest)) cap (pre.length + 1) (P (m ++ [c])) r := by
      by_cases hc : c = 0x5D
      · have := (hP m c (by simp)).2 hc
        rw [← this]
        subst hc
        exact runs_close h
      · obtain ⟨k, d', h4, h5⟩ := runs_plain hc1 hc hnb h
        rw [← (hP m c (by simp)).1 hc k d' h4]
        exact h5
    have e : pre ++ c :: (n ++ rest) = (pre ++ [c]) ++ (n ++ rest) := by simp
    have h4 := ih (m ++ [c]) (pre ++ [c]) hn (fun m x hx => hP m x (List.mem_cons_of_mem _ hx)) (by rw [e] at h3; simpa using h3)
    rw [show pre ++ (c :: n ++ rest) = (pre ++ [c]) ++ (n ++ rest) by simp]
    have e2 : (pre ++ [c]).length + n.length = pre.length + (c :: n).length := by simp; omega
    rw [e2] at h4
    simpa using h4

/-- The rest of a tag. -/
theorem tag_run {n rest pre : List Wc} (h1 : 0x5B ∉ n) (h2 : 0x5D ∉ n) (ht : d.inTag = true)
    (h : DRuns (pre ++ (n ++ 0x5D :: rest)) cap pre.length d r) :
    DRuns (pre ++ (n ++ 0x5D :: rest)) cap (pre.length + n.length + 1) { d with inTag := false } r := by
  have h3 := body_run (rest := 0x5D :: rest) (fun _ => d) (fun c => not_boundary (by simp)) n [] pre h1
    (fun m c hc => ⟨fun _ k d' e => by rw [dbChar, if_pos (Or.inl ht)] at e; exact (Option.some.inj e).symm, fun e => absurd (e ▸ hc) h2⟩) h
  have e : pre ++ (n ++ 0x5D :: rest) = (pre ++ n) ++ 0x5D :: rest := by simp
  rw [e] at h3 ⊢
  have := runs_close (pre := pre ++ n) (by simpa using h3)
  simpa using this

/-- The opening bracket of a tag that does not matter. -/
theorem runs_open {pre t : List Wc} {c : Wc} (h1 : c ≠ 0x4C) (h2 : c ≠ 0x58) (ht : t ≠ [])
    (h : DRuns (pre ++ 0x5B :: c :: t) cap pre.length d r) : DRuns (pre ++ 0x5B :: c :: t) cap (pre.length + 1) { d with inTag := true } r := by
  have hl : 0 < t.length := List.length_pos_iff.2 ht
  obtain ⟨j, d', h3, h4⟩ := druns_step h (by simp)
  rw [step_at, if_neg (by simp [lit, List.isPrefixOf, Ne.symm h1]), if_pos ⟨rfl, by simp; omega⟩, dbBracket, rdz_app pre _ 1, rdz_app pre _ 2] at h3
  obtain ⟨c1, h5, h6⟩ := Option.bind_eq_some_iff.1 h3
  obtain ⟨c2, h7, h8⟩ := Option.bind_eq_some_iff.1 h6
  rw [rdz_lt (by simp)] at h5
  cases h5
  rw [if_neg (by exact h2)] at h8
  cases h8
  exact h4

/-- The opening bracket of a section. -/
theorem runs_sect {pre t : List Wc} {c : Wc} (h : DRuns (pre ++ 0x5B :: 0x58 :: c :: t) cap pre.length d r) :
    ∃ j d', (if c = 0x73 then some (pre.length + 3, { d with inXs := true, anyXs := true, xs := [] })
      else if c = 0x70 then some (pre.length + 3, { d with inXp := true, xp := [] })
      else if c = 0x6A then (if d.inContent then (debugContentEnd cap d).bind fun d => some { d with idLast := d.ids.length, baseLast := d.bases.length }
        else some d : UB DState).bind fun d => some (pre.length + 3, { d with inXj := true, xp := [] })
      else if c = 0x5D then some (pre.length + 2, { d with inXs := false, inXp := false, inXj := false, inXOther := false })
      else some (pre.length + 3, { d with inXOther := true }) : UB (Nat × DState)) = some (j, d')
      ∧ DRuns (pre ++ 0x5B :: 0x58 :: c :: t) cap (j + 1) d' r := by
  obtain ⟨j, d', h3, h4⟩ := druns_step h (by simp)
  rw [step_at, if_neg (by simp [lit, List.isPrefixOf]), if_pos ⟨rfl, by simp⟩, dbBracket, rdz_app pre _ 1, rdz_app pre _ 2,
    rdz_lt (by simp), rdz_lt (by simp)] at h3
  refine ⟨j, d', ?_, h4⟩
  rw [← h3]
  rfl

theorem runs_sectEnd {pre t : List Wc} (h : DRuns (pre ++ 0x5B :: 0x58 :: 0x5D :: t) cap pre.length d r) :
    DRuns (pre ++ 0x5B :: 0x58 :: 0x5D :: t) cap (pre.length + 3) { d with inXs := false, inXp := false, inXj := false, inXOther := false } r := by
  obtain ⟨j, d', h1, h2⟩ := runs_sect h
  simp only [show (0x5D : Wc) ≠ 0x73 by decide, show (0x5D : Wc) ≠ 0x70 by decide, show (0x5D : Wc) ≠ 0x6A by decide, if_false, if_true] at h1
  cases h1
  exact h2

/-- A class tag, or a hyphen before a boundary. -/
theorem runs_boundary {pre t : List Wc} {c : Wc} (hb : (lit "[L").isPrefixOf (c :: t) = true ∨ (lit "-[B").isPrefixOf (c :: t) = true)
    (h : DRuns (pre ++ c :: t) cap pre.length d r) :
    DRuns (pre ++ c :: t) cap (pre.length + 1 + if c = 0x2D then 1 else 0)
      { d with inContent := false, inTag := true, xs := [], xp := [], ids := d.ids ++ idNote { id := d.xs } ++ (if c = 0x2D then lit "+-" else []), bases := d.bases ++ baseNote { base := d.xp } ++ (if c = 0x2D then lit "+-" else []) } r := by
  obtain ⟨j, d', h1, h2⟩ := druns_step h (by simp)
  rw [step_at, if_pos hb, dbBoundary] at h1
  obtain ⟨d1, h3, h4⟩ := Option.bind_eq_some_iff.1 h1
  have e := contentEnd_inv h3
  subst e
  by_cases hc : c = 0x2D
  · rw [if_pos (by simpa using hc)] at h4
    obtain ⟨b1, h5, h6⟩ := Option.bind_eq_some_iff.1 h4
    obtain ⟨b2, h7, h8⟩ := Option.bind_eq_some_iff.1 h6
    have e1 := pushAll_inv h5
    have e2 := pushAll_inv h7
    subst e1; subst e2
    cases h8
    rw [if_pos hc, if_pos hc]
    exact h2
  · rw [if_neg (by simpa using hc)] at h4
    cases h4
    rw [if_neg hc, if_neg hc]
    simpa using h2

/-! ### Items -/

/-- Items that are read as they should be. -/
def DItem : SItem → Prop
  | .cls c => c ≠ 0x5B ∧ c ≠ 0x5D
  | .cls2 c d => c ≠ 0x5B ∧ c ≠ 0x5D ∧ d ≠ 0x5B ∧ d ≠ 0x5D
  | .tag n => n ≠ [] ∧ 0x5B ∉ n ∧ 0x5D ∉ n ∧ n.head? ≠ some 0x4C ∧ n.head? ≠ some 0x58
  | .bound c => c ≠ 0x5B ∧ c ≠ 0x5D
  | .sect c b => (c = 0x70 ∨ c = 0x6A ∨ c = 0x73) ∧ 0x5B ∉ b ∧ 0x5D ∉ b
  | .pat p => 0x5B ∉ p
  | .chr c => c ≠ 0x5B ∧ c ≠ 0x5D ∧ c ≠ 0x2B

/-- The text of the parts that are complete. -/
def sofar (note : Part → List Wc) (ps : List Part) : List Wc := (ps.map (inner note)).flatten

theorem sofar_snoc (note : Part → List Wc) (ps : List Part) (p : Part) : sofar note (ps ++ [p]) = sofar note ps ++ inner note p := by
  simp [sofar]

/-- The state of the loop between items. -/
structure Sim (ps : List Part) (p : Part) (d : DState) : Prop where
  ids : d.ids = sofar idNote ps ++ (lead p ++ p.text)
  bases : d.bases = sofar baseNote ps ++ (lead p ++ p.text)
  xs : d.xs = p.id
  xp : d.xp = p.base
  flags : d.inXs = false ∧ d.inXp = false ∧ d.inXj = false ∧ d.inXOther = false ∧ d.inTag = false
  content : d.inContent = true ↔ (p.text ≠ [] ∨ p.joined = true)
  idLast : p.text ≠ [] ∨ p.joined = true → d.idLast = (sofar idNote ps ++ lead p).length
  baseLast : p.text ≠ [] ∨ p.joined = true → d.baseLast = (sofar baseNote ps ++ lead p).length
  joined : p.joined = true → p.hyphen = false ∧ (sofar baseNote ps).getLast? ≠ some 0x2B
  noPlus : 0x2B ∉ p.text

theorem sim_start : Sim [] {} {} := by
  constructor <;> simp [sofar, lead]

theorem inner_id (p : Part) : inner idNote p = lead p ++ p.text ++ idNote { id := p.id } := rfl
theorem inner_base (p : Part) : inner baseNote p = lead p ++ p.text ++ baseNote { base := p.base } := rfl

/-- After a class tag, or a hyphen before a boundary. -/
theorem sim_boundary {ps : List Part} {p : Part} (h : Sim ps p d) (hy : Bool) : Sim (ps ++ [p]) { hyphen := hy }
    { d with inContent := false, inTag := false, xs := [], xp := [], ids := d.ids ++ idNote { id := d.xs } ++ (if hy then lit "+-" else []), bases := d.bases ++ baseNote { base := d.xp } ++ (if hy then lit "+-" else []) } where
  ids := by
    show d.ids ++ _ ++ _ = _
    rw [h.ids, h.xs, sofar_snoc, inner_id]
    simp [lead]
  bases := by
    show d.bases ++ _ ++ _ = _
    rw [h.bases, h.xp, sofar_snoc, inner_base]
    simp [lead]
  xs := rfl
  xp := rfl
  flags := ⟨h.flags.1, h.flags.2.1, h.flags.2.2.1, h.flags.2.2.2.1, rfl⟩
  content := by simp
  idLast := by simp
  baseLast := by simp
  joined := by simp
  noPlus := by simp

/-- A letter. -/
theorem sim_chr {ps : List Part} {p : Part} (h : Sim ps p d) {c : Wc} (hc : c ≠ 0x2B) {n : Nat} {d' : DState} (hd : dbChar cap n c d = some d') :
    Sim ps { p with text := p.text ++ [c] } d' ∧ d'.anyXs = d.anyXs := by
  obtain ⟨f1, f2, f3, f4, f5⟩ := h.flags
  have hnp : 0x2B ∉ p.text ++ [c] := by simp [h.noPlus, Ne.symm hc]
  rw [dbChar, if_neg (by simp [f4, f5]), if_neg (by simp [f1]), if_neg (by simp [f2]), if_neg (by simp [f3])] at hd
  obtain ⟨d1, h1, h2⟩ := Option.bind_eq_some_iff.1 hd
  obtain ⟨b1, h3, h4⟩ := Option.bind_eq_some_iff.1 h2
  obtain ⟨b2, h5, h6⟩ := Option.bind_eq_some_iff.1 h4
  have e1 := push_inv h3
  have e2 := push_inv h5
  subst e1; subst e2
  cases h6
  by_cases hi : d.inContent = true
  · rw [if_neg (by simp [hi])] at h1
    cases h1
    have hh := h.content.1 hi
    have hl : lead { p with text := p.text ++ [c] } = lead p := by
      rcases hh with hh | hh <;> simp [lead, hh]
    refine ⟨⟨?_, ?_, h.xs, h.xp, h.flags, ?_, ?_, ?_, h.joined, hnp⟩, rfl⟩
    · show d.ids ++ [c] = _
      rw [hl, h.ids]; simp
    · show d.bases ++ [c] = _
      rw [hl, h.bases]; simp
    · simp [hi]
    · intro _; rw [hl]; exact h.idLast hh
    · intro _; rw [hl]; exact h.baseLast hh
  · rw [if_pos (by simp [hi])] at h1
    have hh := mt h.content.2 hi
    have ht : p.text = [] := by
      by_cases e : p.text = []
      · exact e
      · exact absurd (Or.inl e) hh
    have hj : p.joined = false := by
      cases e : p.joined with
      | false => rfl
      | true => exact absurd (Or.inr e) hh
    obtain ⟨b3, h7, h8⟩ := Option.bind_eq_some_iff.1 h1
    obtain ⟨b4, h9, h10⟩ := Option.bind_eq_some_iff.1 h8
    have e3 := push_inv h7
    have e4 := push_inv h9
    subst e3; subst e4
    cases h10
    have hl : lead { p with text := p.text ++ [c] } = lead p ++ [0x2B] := by
      simp [lead, ht, hj, lit]
    refine ⟨⟨?_, ?_, h.xs, h.xp, h.flags, ?_, ?_, ?_, fun e => Bool.noConfusion (hj.symm.trans e), hnp⟩, rfl⟩
    · show d.ids ++ [0x2B] ++ [c] = _
      rw [hl, h.ids, ht]; simp
    · show d.bases ++ [0x2B] ++ [c] = _
      rw [hl, h.bases, ht]; simp
    · simp
    · intro _
      show (d.ids ++ [0x2B]).length = _
      rw [hl, h.ids, ht]; simp
    · intro _
      show (d.bases ++ [0x2B]).length = _
      rw [hl, h.bases, ht]; simp

/-- A base form. -/
theorem sim_base {ps : List Part} {p : Part} (h : Sim ps p d) (b : List Wc) : Sim ps { p with base := b } { d with xp := b } :=
  ⟨h.ids, h.bases, h.xs, rfl, h.flags, h.content, h.idLast, h.baseLast, h.joined, h.noPlus⟩

/-- An identifier. -/
theorem sim_id {ps : List Part} {p : Part} (h : Sim ps p d) (b : List Wc) (x : Bool) : Sim ps { p with id := b } { d with xs := b, anyXs := x } :=
  ⟨h.ids, h.bases, rfl, h.xp, h.flags, h.content, h.idLast, h.baseLast, h.joined, h.noPlus⟩

theorem last_app (a : List Wc) {b : List Wc} (h : b ≠ []) : (a ++ b).getLast? = b.getLast? := by
  rw [List.getLast?_append]
  cases hb : b.getLast? with
  | none => exact absurd (List.getLast?_eq_none_iff.1 hb) h
  | some x => rfl

/-- A suffix behind letters. -/
theorem sim_joined {ps : List Part} {p : Part} (h : Sim ps p d) (hc : p.text ≠ [] ∨ p.joined = true) (b : List Wc) :
    Sim (ps ++ [p]) { joined := true, base := b }
      { d with xs := [], xp := b, ids := d.ids ++ idNote { id := d.xs }, bases := d.bases ++ baseNote { base := d.xp }, idLast := (d.ids ++ idNote { id := d.xs }).length, baseLast := (d.bases ++ baseNote { base := d.xp }).length } := by
  have e1 : d.ids ++ idNote { id := d.xs } = sofar idNote (ps ++ [p]) := by
    rw [h.ids, h.xs, sofar_snoc, inner_id]; simp
  have e2 : d.bases ++ baseNote { base := d.xp } = sofar baseNote (ps ++ [p]) := by
    rw [h.bases, h.xp, sofar_snoc, inner_base]; simp
  refine ⟨?_, ?_, rfl, rfl, h.flags, ?_, ?_, ?_, fun _ => ⟨rfl, ?_⟩, by simp⟩
  · show d.ids ++ _ = _
    rw [e1]; simp [lead]
  · show d.bases ++ _ = _
    rw [e2]; simp [lead]
  · simp [h.content.2 hc]
  · intro _
    show (d.ids ++ _).length = _
    rw [e1]; simp [lead]
  · intro _
    show (d.bases ++ _).length = _
    rw [e2]; simp [lead]
  · rw [sofar_snoc, inner_base]
    by_cases hb : p.base = []
    · have : baseNote { base := p.base } = [] := by simp [baseNote, hb]
      rw [this, List.append_nil]
      by_cases ht : p.text = []
      · have hj : p.joined = true := hc.resolve_left (fun e => e ht)
        have := h.joined hj
        simpa [lead, ht, hj, this.1] using this.2
      · rw [← List.append_assoc, last_app _ ht]
        intro e
        exact h.noPlus (List.mem_of_getLast? e)
    · have : baseNote { base := p.base } = 0x28 :: (p.base ++ [0x29]) := by simp [baseNote, hb, lit]
      rw [this, ← List.append_assoc, last_app _ (by simp)]
      simp [List.getLast?_cons]

theorem boundary_tag {x : SItem} {l : List SItem} (hb : atBoundary (x :: l) = true) (hx : DItem x) :
    ∃ n, x.render = 0x5B :: 0x42 :: (n ++ [0x5D]) ∧ 0x5B ∉ n ∧ 0x5D ∉ n ∧ (∀ p, parts p (x :: l) = parts p l) ∧ (∀ b, x ≠ .sect 0x73 b)  := by
  cases x with
  | bound c => exact ⟨[c], rfl, by simpa using Ne.symm hx.1, by simpa using Ne.symm hx.2, fun _ => rfl, by simp⟩
  | tag n =>
    cases n with
    | nil => cases hb
    | cons c n =>
      have hc : c = 0x42 := by
        by_cases e : c = 0x42
        · exact e
        · exfalso
          revert hb
          rw [atBoundary.eq_def]
          split <;> simp_all
      subst hc
      exact ⟨n, rfl, fun e => hx.2.1 (List.mem_cons_of_mem _ e), fun e => hx.2.2.1 (List.mem_cons_of_mem _ e), fun _ => rfl, by simp⟩
  | _ => cases hb

theorem not_atBoundary {l : List SItem} (hx : ∀ x ∈ l, DItem x) (hb : atBoundary l = false) (c : Wc) :
    (lit "-[B").isPrefixOf (c :: render l) = false := by
  cases l with
  | nil => exact not_boundary (by simp [render])
  | cons x l =>
    have hx := hx x List.mem_cons_self
    cases x with
    | cls a => simp [lit, List.isPrefixOf, render, SItem.render]
    | cls2 a b => simp [lit, List.isPrefixOf, render, SItem.render]
    | bound a => cases hb
    | sect a b => simp [lit, List.isPrefixOf, render, SItem.render]
    | pat p => simp [lit, List.isPrefixOf, render, SItem.render]
    | chr a => exact not_boundary (by simp [render, SItem.render, hx.1])
    | tag n =>
      cases n with
      | nil => exact absurd rfl hx.1
      | cons a n =>
        have : a ≠ 0x42 := fun e => by subst e; cases hb
        simp [lit, List.isPrefixOf, render, SItem.render, Ne.symm this]

theorem runs_all : ∀ (k : Nat) (its : List SItem), its.length ≤ k → (∀ x ∈ its, DItem x) → ∀ (pre : List Wc) (ps : List Part) (p : Part) (d : DState),
    Sim ps p d → DRuns (pre ++ render its) cap pre.length d r →
    ∃ qs q, parts p its = qs ++ [q] ∧ Sim (ps ++ qs) q r ∧ (r.anyXs = true ↔ d.anyXs = true ∨ HasId its) := by
  intro k
  induction k with
  | zero =>
    intro its hk _ pre ps p d hs h
    have : its = [] := List.length_eq_zero_iff.1 (by omega)
    subst this
    have := druns_end h (by simp [render])
    subst this
    exact ⟨[], p, rfl, by simpa using hs, by simp [HasId]⟩
  | succ k ih =>
    intro its hk hit pre ps p d hs h
    cases its with
    | nil =>
      have := druns_end h (by simp [render])
      subst this
      exact ⟨[], p, rfl, by simpa using hs, by simp [HasId]⟩
    | cons x its =>
      have hx := hit x List.mem_cons_self
      have hit' : ∀ y ∈ its, DItem y := fun y hy => hit y (List.mem_cons_of_mem _ hy)
      have hk' : its.length ≤ k := by simp at hk; omega
      -- the rest, when the item is read
      have go : ∀ (ps2 : List Part) (p2 : Part) (d2 : DState), Sim ps2 p2 d2 → DRuns (pre ++ render (x :: its)) cap (pre.length + x.render.length) d2 r →
          ∃ qs q, parts p2 its = qs ++ [q] ∧ Sim (ps2 ++ qs) q r ∧ (r.anyXs = true ↔ d2.anyXs = true ∨ HasId its) := by
        intro ps2 p2 d2 hs2 h2
        refine ih its hk' hit' (pre ++ x.render) ps2 p2 d2 hs2 ?_
        rw [List.length_append, List.append_assoc]
        exact h2
      have hid : (∀ b, x ≠ .sect 0x73 b) → (HasId (x :: its) ↔ HasId its) := by
        intro hne
        constructor
        · rintro ⟨b, hb⟩
          rcases List.mem_cons.1 hb with e | e
          · exact absurd e.symm (hne b)
          · exact ⟨b, e⟩
        · rintro ⟨b, hb⟩
          exact ⟨b, List.mem_cons_of_mem _ hb⟩
      -- class tags
      have cls : ∀ n : List Wc, x.render = 0x5B :: 0x4C :: (n ++ [0x5D]) → 0x5B ∉ n → 0x5D ∉ n → parts p (x :: its) = p :: parts {} its →
          (∀ b, x ≠ .sect 0x73 b) → ∃ qs q, parts p (x :: its) = qs ++ [q] ∧ Sim (ps ++ qs) q r ∧ (r.anyXs = true ↔ d.anyXs = true ∨ HasId (x :: its)) := by
        intro n hr h1 h2 hp hne
        have hrr : render (x :: its) = 0x5B :: (0x4C :: n ++ 0x5D :: render its) := by rw [render, hr]; simp
        rw [hrr] at h
        have h3 := runs_boundary (Or.inl (by simp [lit, List.isPrefixOf])) h
        simp only [show (0x5B : Wc) ≠ 0x2D by decide, if_false, Nat.add_zero] at h3
        have e : pre ++ 0x5B :: (0x4C :: n ++ 0x5D :: render its) = (pre ++ [0x5B]) ++ (0x4C :: n ++ 0x5D :: render its) := by simp
        rw [e] at h3
        have h4 := tag_run (pre := pre ++ [0x5B]) (n := 0x4C :: n) (rest := render its) (by simp [h1]) (by simp [h2]) rfl (by simpa using h3)
        rw [← e, ← hrr] at h4
        have hsim := sim_boundary hs false
        simp only [Bool.false_eq_true, if_false, List.append_nil] at hsim
        obtain ⟨qs, q, g1, g2, g3⟩ := go _ _ _ hsim (by
          have e3 : (pre ++ [0x5B]).length + (0x4C :: n).length + 1 = pre.length + x.render.length := by rw [hr]; simp; omega
          rw [e3] at h4
          exact h4)
        refine ⟨p :: qs, q, by rw [hp, g1]; rfl, by simpa using g2, ?_⟩
        rw [hid hne]
        exact g3
      -- sections
      have sect : ∀ (c : Wc) (b : List Wc) (d1 : DState) (P : List Wc → DState), x.render = 0x5B :: 0x58 :: c :: 0x5D :: (b ++ [0x5B, 0x58, 0x5D]) → 0x5B ∉ b →
          DRuns (pre ++ render (x :: its)) cap (pre.length + 4) (P []) r →
          (∀ m c, c ∈ b → (c ≠ 0x5D → ∀ k d', dbChar cap k c (P m) = some d' → d' = P (m ++ [c])) ∧ (c = 0x5D → { P m with inTag := false } = P (m ++ [c]))) →
          DRuns (pre ++ render (x :: its)) cap (pre.length + x.render.length)
            { P b with inXs := false, inXp := false, inXj := false, inXOther := false } r := by
        intro c b d1 P hr hb h0 hP
        have hrr : pre ++ render (x :: its) = (pre ++ [0x5B, 0x58, c, 0x5D]) ++ (b ++ (0x5B :: 0x58 :: 0x5D :: render its)) := by rw [render, hr]; simp
        rw [hrr] at h0 ⊢
        have h1 := body_run P (rest := 0x5B :: 0x58 :: 0x5D :: render its) (fun c => by simp [lit, List.isPrefixOf]) b [] (pre ++ [0x5B, 0x58, c, 0x5D]) hb hP
          (by simpa using h0)
        rw [← List.append_assoc] at h1 ⊢
        have h2 := runs_sectEnd (pre := pre ++ [0x5B, 0x58, c, 0x5D] ++ b) (t := render its) (by
          have e0 : (pre ++ [0x5B, 0x58, c, 0x5D]).length + b.length = (pre ++ [0x5B, 0x58, c, 0x5D] ++ b).length := by rw [List.length_append (as := pre ++ _)]
          rw [e0] at h1
          exact h1)
        have e : (pre ++ [0x5B, 0x58, c, 0x5D] ++ b).length + 3 = pre.length + x.render.length := by rw [hr]; simp; omega
        rw [e] at h2
        simpa using h2
      obtain ⟨f1, f2, f3, f4, f5⟩ := hs.flags
      cases x with
      | cls c => exact cls [c] rfl (by simpa using Ne.symm hx.1) (by simpa using Ne.symm hx.2) rfl (by simp)
      | cls2 c e => exact cls [c, e] rfl (by simp [Ne.symm hx.1, Ne.symm hx.2.2.1]) (by simp [Ne.symm hx.2.1, Ne.symm hx.2.2.2]) rfl (by simp)
      | tag n =>
        obtain ⟨h1, h2, h3, h4, h5⟩ := hx
        cases n with
        | nil => exact absurd rfl h1
        | cons c n =>
          have hrr : render (.tag (c :: n) :: its) = 0x5B :: c :: (n ++ 0x5D :: render its) := by simp [render, SItem.render]
          have hh := h
          rw [hrr] at hh
          have h6 := runs_open (by simpa using h4) (by simpa using h5) (by simp) hh
          have e : pre ++ 0x5B :: c :: (n ++ 0x5D :: render its) = (pre ++ [0x5B]) ++ (c :: n ++ 0x5D :: render its) := by simp
          rw [e] at h6
          have h7 := tag_run (pre := pre ++ [0x5B]) (n := c :: n) (rest := render its) h2 h3 rfl (by simpa using h6)
          rw [← e, ← hrr] at h7
          have e3 : (pre ++ [0x5B]).length + (c :: n).length + 1 = pre.length + (SItem.tag (c :: n)).render.length := by simp [SItem.render]; omega
          rw [e3] at h7
          have hsim : Sim ps p { d with inTag := false } :=
            ⟨hs.ids, hs.bases, hs.xs, hs.xp, ⟨f1, f2, f3, f4, rfl⟩, hs.content, hs.idLast, hs.baseLast, hs.joined, hs.noPlus⟩
          obtain ⟨qs, q, g1, g2, g3⟩ := go _ _ _ hsim h7
          exact ⟨qs, q, g1, g2, by rw [hid (by simp)]; exact g3⟩
      | bound c =>
        have hrr : render (.bound c :: its) = 0x5B :: 0x42 :: (c :: 0x5D :: render its) := by simp [render, SItem.render]
        have hh := h
        rw [hrr] at hh
        have h6 := runs_open (by decide) (by decide) (by simp) hh
        have e : pre ++ 0x5B :: 0x42 :: (c :: 0x5D :: render its) = (pre ++ [0x5B]) ++ ([0x42, c] ++ 0x5D :: render its) := by simp
        rw [e] at h6
        have h7 := tag_run (pre := pre ++ [0x5B]) (n := [0x42, c]) (rest := render its) (by simp [Ne.symm hx.1]) (by simp [Ne.symm hx.2]) rfl (by simpa using h6)
        rw [← e, ← hrr] at h7
        have e3 : (pre ++ [0x5B]).length + [0x42, c].length + 1 = pre.length + (SItem.bound c).render.length := by simp [SItem.render]
        rw [e3] at h7
        have hsim : Sim ps p { d with inTag := false } :=
          ⟨hs.ids, hs.bases, hs.xs, hs.xp, ⟨f1, f2, f3, f4, rfl⟩, hs.content, hs.idLast, hs.baseLast, hs.joined, hs.noPlus⟩
        obtain ⟨qs, q, g1, g2, g3⟩ := go _ _ _ hsim h7
        exact ⟨qs, q, g1, g2, by rw [hid (by simp)]; exact g3⟩
      | pat b =>
        have hrr : render (.pat b :: its) = 0x5B :: 0x58 :: 0x72 :: (0x5D :: (b ++ 0x5B :: 0x58 :: 0x5D :: render its)) := by simp [render, SItem.render]
        have hh := h
        rw [hrr] at hh
        obtain ⟨j, d', h1, h2⟩ := runs_sect hh
        simp only [show (0x72 : Wc) ≠ 0x73 by decide, show (0x72 : Wc) ≠ 0x70 by decide, show (0x72 : Wc) ≠ 0x6A by decide,
          show (0x72 : Wc) ≠ 0x5D by decide, if_false] at h1
        cases h1
        rw [← hrr] at h2
        have h3 := sect 0x72 b d (fun _ => { d with inXOther := true }) rfl hx h2 (fun m c hc => ⟨fun _ k d' e => by
          rw [dbChar, if_pos (Or.inr rfl)] at e; exact (Option.some.inj e).symm, fun _ => by simp [f5]⟩)
        have hsim : Sim ps p { d with inXs := false, inXp := false, inXj := false, inXOther := false } :=
          ⟨hs.ids, hs.bases, hs.xs, hs.xp, ⟨rfl, rfl, rfl, rfl, f5⟩, hs.content, hs.idLast, hs.baseLast, hs.joined, hs.noPlus⟩
        obtain ⟨qs, q, g1, g2, g3⟩ := go _ _ _ hsim h3
        exact ⟨qs, q, g1, g2, by rw [hid (by simp)]; exact g3⟩
      | sect c b =>
        obtain ⟨hc, hb1, hb2⟩ := hx
        have hrr : render (.sect c b :: its) = 0x5B :: 0x58 :: c :: (0x5D :: (b ++ 0x5B :: 0x58 :: 0x5D :: render its)) := by simp [render, SItem.render]
        have hh := h
        rw [hrr] at hh
        obtain ⟨j, d', h1, h2⟩ := runs_sect hh
        rw [← hrr] at h2
        have hclear : ∀ {ps2 : List Part} {p2 : Part} {d2 : DState}, Sim ps2 p2 d2 →
            Sim ps2 p2 { d2 with inXs := false, inXp := false, inXj := false, inXOther := false } := fun s =>
          ⟨s.ids, s.bases, s.xs, s.xp, ⟨rfl, rfl, rfl, rfl, s.flags.2.2.2.2⟩, s.content, s.idLast, s.baseLast, s.joined, s.noPlus⟩
        rcases hc with rfl | rfl | rfl
        · simp only [show (0x70 : Wc) ≠ 0x73 by decide, if_false, if_true] at h1
          cases h1
          have h3 := sect 0x70 b d (fun m => { d with inXp := true, xp := m }) rfl hb1 h2 (fun m c hc => ⟨fun _ k d' e => by
            rw [dbChar, if_neg (by simp [f4, f5]), if_neg (by simp [f1]), if_pos rfl] at e
            obtain ⟨w, e1, e2⟩ := Option.bind_eq_some_iff.1 e
            rw [← Option.some.inj e2, push_inv e1], fun e => absurd (e ▸ hc) hb2⟩)
          have hsim := hclear (sim_base hs b)
          obtain ⟨qs, q, g1, g2, g3⟩ := go _ _ _ hsim h3
          refine ⟨qs, q, by rw [parts, if_pos rfl]; exact g1, g2, by rw [hid (by simp)]; exact g3⟩
        · simp only [show (0x6A : Wc) ≠ 0x73 by decide, show (0x6A : Wc) ≠ 0x70 by decide, if_false, if_true] at h1
          obtain ⟨d1, h4, h5⟩ := Option.bind_eq_some_iff.1 h1
          cases h5
          -- the characters
          have hrun : d1.inXs = false → d1.inXp = false → d1.inXOther = false → d1.inTag = false → DRuns (pre ++ render (.sect 0x6A b :: its)) cap
              (pre.length + (SItem.sect 0x6A b).render.length)
              { d1 with xp := suffix b, inXs := false, inXp := false, inXj := false, inXOther := false } r := by
            intro q1 q2 q4 q5
            have h3 := sect 0x6A b d (fun m => { d1 with inXj := true, xp := suffix m }) rfl hb1 (by simpa [suffix] using h2)
              (fun m c hc => ⟨fun _ k d' e => by
              rw [dbChar, if_neg (by simp [q4, q5]), if_neg (by simp [q1]), if_neg (by simp [q2]), if_pos rfl] at e
              obtain ⟨w, e1, e2⟩ := Option.bind_eq_some_iff.1 e
              obtain ⟨w2, e3, e4⟩ := Option.bind_eq_some_iff.1 e2
              rw [← Option.some.inj e4, push_inv e3]
              by_cases hm : m = []
              · rw [if_pos (by simp [suffix, hm])] at e1
                rw [push_inv e1]
                simp [suffix, hm]
              · rw [if_neg (by simp [suffix, hm])] at e1
                rw [← Option.some.inj e1]
                simp [suffix, hm], fun e => absurd (e ▸ hc) hb2⟩)
            exact h3
          by_cases hi : d.inContent = true
          · rw [if_pos hi] at h4
            obtain ⟨d2, h6, h7⟩ := Option.bind_eq_some_iff.1 h4
            have e := contentEnd_inv h6
            subst e
            cases h7
            have hcont := hs.content.1 hi
            have hsim := hclear (sim_joined hs hcont (suffix b))
            obtain ⟨qs, q, g1, g2, g3⟩ := go _ _ _ hsim (hrun f1 f2 f4 f5)
            have hne : ¬ (p.text = [] ∧ p.joined = false) := by
              rintro ⟨e1, e2⟩
              rcases hcont with e | e
              · exact e e1
              · rw [e2] at e; cases e
            refine ⟨p :: qs, q, ?_, by simpa using g2, by rw [hid (by simp)]; exact g3⟩
            rw [parts, if_neg (by decide), if_pos rfl, if_neg hne, g1]
            rfl
          · rw [if_neg hi] at h4
            cases h4
            have hh := mt hs.content.2 hi
            have ht : p.text = [] := by
              by_cases e : p.text = []
              · exact e
              · exact absurd (Or.inl e) hh
            have hj : p.joined = false := by
              cases e : p.joined with
              | false => rfl
              | true => exact absurd (Or.inr e) hh
            have hsim := hclear (sim_base hs (suffix b))
            obtain ⟨qs, q, g1, g2, g3⟩ := go _ _ _ hsim (hrun f1 f2 f4 f5)
            refine ⟨qs, q, ?_, g2, by rw [hid (by simp)]; exact g3⟩
            rw [parts, if_neg (by decide), if_pos rfl, if_pos ⟨ht, hj⟩]
            exact g1
        · simp only [if_true] at h1
          cases h1
          have h3 := sect 0x73 b d (fun m => { d with inXs := true, anyXs := true, xs := m }) rfl hb1 h2 (fun m c hc => ⟨fun _ k d' e => by
            rw [dbChar, if_neg (by simp [f4, f5]), if_pos rfl] at e
            obtain ⟨w, e1, e2⟩ := Option.bind_eq_some_iff.1 e
            rw [← Option.some.inj e2, push_inv e1], fun e => absurd (e ▸ hc) hb2⟩)
          have hsim := hclear (sim_id hs b true)
          obtain ⟨qs, q, g1, g2, g3⟩ := go _ _ _ hsim h3
          refine ⟨qs, q, by rw [parts, if_neg (by decide), if_neg (by decide)]; exact g1, g2, ?_⟩
          rw [g3]
          exact ⟨fun _ => Or.inr ⟨b, by simp⟩, fun _ => Or.inl rfl⟩
      | chr c =>
        obtain ⟨h1, h2, h3⟩ := hx
        have hrr : render (.chr c :: its) = c :: render its := by simp [render, SItem.render]
        have hh := h
        rw [hrr] at hh
        by_cases hb : c = 0x2D ∧ atBoundary its = true
        · cases its with
          | nil => exact absurd hb.2 (by decide)
          | cons y its =>
            obtain ⟨n, hn, hn1, hn2, hn3, hn4⟩ := boundary_tag hb.2 (hit' y List.mem_cons_self)
            have hr2 : render (y :: its) = 0x5B :: (0x42 :: n ++ 0x5D :: render its) := by rw [render, hn]; simp
            rw [hr2] at hh
            have h4 := runs_boundary (Or.inr (by rw [hb.1]; simp [lit, List.isPrefixOf])) hh
            rw [if_pos hb.1, if_pos hb.1] at h4
            have e : pre ++ c :: 0x5B :: (0x42 :: n ++ 0x5D :: render its) = (pre ++ [c, 0x5B]) ++ (0x42 :: n ++ 0x5D :: render its) := by simp
            rw [e] at h4
            have h5 := tag_run (pre := pre ++ [c, 0x5B]) (n := 0x42 :: n) (rest := render its) (by simp [hn1]) (by simp [hn2]) rfl (by simpa using h4)
            have e2 : (pre ++ [c, 0x5B]) ++ (0x42 :: n ++ 0x5D :: render its) = (pre ++ (SItem.chr c).render ++ y.render) ++ render its := by rw [hn]; simp [SItem.render]
            rw [e2] at h5
            have e3 : (pre ++ [c, 0x5B]).length + (0x42 :: n).length + 1 = (pre ++ (SItem.chr c).render ++ y.render).length := by rw [hn]; simp [SItem.render]; omega
            rw [e3] at h5
            have hsim := sim_boundary hs true
            simp only [if_true, List.append_assoc] at hsim
            obtain ⟨qs, q, g1, g2, g3⟩ := ih its (by simp at hk; omega) (fun z hz => hit' z (List.mem_cons_of_mem _ hz)) _ _ _ _ hsim h5
            refine ⟨p :: qs, q, ?_, by simpa using g2, ?_⟩
            · rw [parts, if_pos hb, hn3, g1]; rfl
            · rw [hid (by simp)]
              have : HasId (y :: its) ↔ HasId its := by
                constructor
                · rintro ⟨b, hb⟩
                  rcases List.mem_cons.1 hb with e | e
                  · exact absurd e.symm (hn4 b)
                  · exact ⟨b, e⟩
                · rintro ⟨b, hb⟩
                  exact ⟨b, List.mem_cons_of_mem _ hb⟩
              rw [this]
              exact g3
        · have hnb : (lit "-[B").isPrefixOf (c :: render its) = false := by
            by_cases hc : c = 0x2D
            · have : atBoundary its = false := by
                cases e : atBoundary its with
                | false => rfl
                | true => exact absurd ⟨hc, e⟩ hb
              exact not_atBoundary hit' this c
            · simp [lit, List.isPrefixOf, Ne.symm hc]
          obtain ⟨n, d', h4, h5⟩ := runs_plain h1 h2 hnb hh
          rw [← hrr] at h5
          obtain ⟨hsim, hany⟩ := sim_chr hs h3 h4
          obtain ⟨qs, q, g1, g2, g3⟩ := go _ _ _ hsim h5
          refine ⟨qs, q, ?_, g2, ?_⟩
          · rw [parts, if_neg hb]; exact g1
          · rw [hid (by simp), g3, hany]

/-! ### The end -/

theorem describe_snoc (note : Part → List Wc) : ∀ (ps : List Part) (p : Part), describe note (ps ++ [p]) = sofar note ps ++ final note p := by
  intro ps
  induction ps with
  | nil => intro p; simp [describe, sofar]
  | cons q ps ih =>
    intro p
    cases ps with
    | nil => simp [describe, sofar]
    | cons q2 ps =>
      show inner note q ++ describe note (q2 :: ps ++ [p]) = _
      rw [ih p]
      simp [sofar]

theorem dbEnd_inv {ps : List Part} {p : Part} (h : Sim ps p d) (hl : p.base ≠ [] → p.text ≠ [] ∨ p.joined = true) {ids bases : List Wc}
    (he : dbEnd cap d = some (ids, bases)) : ids = describe idNote (ps ++ [p]) ∧ bases = describe baseNote (ps ++ [p]) := by
  rw [describe_snoc, describe_snoc]
  rw [dbEnd] at he
  obtain ⟨⟨i1, b1⟩, h1, h2⟩ := Option.bind_eq_some_iff.1 he
  obtain ⟨i2, h3, h4⟩ := Option.bind_eq_some_iff.1 h2
  have hend : i2 = ids ∧ b1 = bases := by
    split at h4
    · cases h4; exact ⟨rfl, rfl⟩
    · cases h4
  obtain ⟨rfl, rfl⟩ := hend
  clear h4 h2 he
  have hi2 : i2 = i1 ++ idNote p := by
    rw [h.xs] at h3
    by_cases hx : p.id = []
    · rw [if_neg (by simp [hx])] at h3
      cases h3
      simp [idNote, hx]
    · rw [if_pos (by exact List.length_pos_iff.2 hx)] at h3
      rw [pushAll_inv h3, idNote, if_neg hx]
  subst hi2
  clear h3
  by_cases hb : p.base = []
  · rw [if_neg (by rw [h.xp, hb]; simp)] at h1
    cases h1
    rw [h.ids, h.bases]
    simp [final, hb, inner, baseNote]
  · have hlast := hl hb
    rw [if_pos (by rw [h.xp]; exact List.length_pos_iff.2 hb)] at h1
    obtain ⟨plus, h2, h3⟩ := Option.bind_eq_some_iff.1 h1
    have eb := h.baseLast hlast
    have ei := h.idLast hlast
    have hplus : plus = if p.joined = false ∧ p.base.head? = some 0x2B then 1 else 0 := by
      by_cases hj : p.joined = true
      · rw [if_neg (by simp [hj])]
        have hj' := h.joined hj
        have elead : lead p = [] := by simp [lead, hj'.1, hj]
        rw [elead, List.append_nil] at eb
        by_cases h0 : 0 < d.baseLast
        · rw [if_pos h0] at h2
          obtain ⟨x0, h4, h5⟩ := Option.bind_eq_some_iff.1 h2
          obtain ⟨c, h6, h7⟩ := Option.bind_eq_some_iff.1 h5
          rw [← Option.some.inj h7]
          refine if_neg fun e => ?_
          rw [rd] at h6
          have hc : c = 0x2B := e.2
          subst hc
          rw [h.bases, elead, eb, List.nil_append, List.getElem?_append_left (by omega), ← List.getLast?_eq_getElem?] at h6
          exact hj'.2 h6
        · rw [if_neg h0] at h2
          exact (Option.some.inj h2).symm
      · have hj : p.joined = false := by simpa using hj
        have ht : p.text ≠ [] := by
          rcases hlast with e | e
          · exact e
          · rw [hj] at e; cases e
        obtain ⟨pre, hpre⟩ : ∃ pre, sofar baseNote ps ++ lead p = pre ++ [0x2B] :=
          ⟨sofar baseNote ps ++ (if p.hyphen then lit "+-" else []), by simp [lead, ht, hj, lit]⟩
        rw [hpre] at eb
        rw [if_pos (by rw [eb]; simp)] at h2
        obtain ⟨x0, h4, h5⟩ := Option.bind_eq_some_iff.1 h2
        obtain ⟨c, h6, h7⟩ := Option.bind_eq_some_iff.1 h5
        rw [← Option.some.inj h7]
        rw [rd, h.xp] at h4
        rw [rd, h.bases, ← List.append_assoc, hpre, eb] at h6
        have hc : c = 0x2B := by simpa using h6.symm
        have h8 : p.base.head? = some x0 := by rw [List.head?_eq_getElem?]; exact h4
        rw [h8]
        simp [hc, hj]
    have hle : d.baseLast ≤ d.bases.length := by rw [eb, h.bases]; simp
    by_cases hlt : d.idLast < plus
    · rw [if_pos hlt] at h3; cases h3
    rw [if_neg hlt] at h3
    obtain ⟨bb, h4, h5⟩ := Option.bind_eq_some_iff.1 h3
    obtain ⟨ii, h6, h7⟩ := Option.bind_eq_some_iff.1 h5
    obtain ⟨b2, h8, h9⟩ := Option.bind_eq_some_iff.1 h7
    obtain ⟨i2, h10, h11⟩ := Option.bind_eq_some_iff.1 h9
    obtain ⟨b3, h12, h13⟩ := Option.bind_eq_some_iff.1 h11
    cases h13
    have back_inv : ∀ {buf w : List Wc} {n : Nat}, back buf n = some w → w = buf.take n := by
      intro buf w n e
      rw [back] at e
      split at e
      · exact (Option.some.inj e).symm
      · cases e
    have e4 := back_inv h4
    have e6 := back_inv h6
    subst e4; subst e6
    rw [pushAll_inv h12, pushAll_inv h8, pushAll_inv h10, List.take_take, List.take_take, Nat.min_eq_left (by omega), Nat.min_eq_left (by omega), h.xp,
      h.ids, h.bases, eb, ei, hplus]
    have key : ∀ s : List Wc, List.take ((s ++ lead p).length - if p.joined = false ∧ p.base.head? = some 0x2B then 1 else 0) (s ++ (lead p ++ p.text)) =
        s ++ (if p.hyphen then lit "+-" else []) ++ if p.joined = true ∨ p.base.head? = some 0x2B then [] else lit "+" := by
      intro s
      by_cases hj : p.joined = true
      · have hj' := h.joined hj
        have elead : lead p = [] := by simp [lead, hj'.1, hj]
        rw [elead, if_neg (by simp [hj]), if_pos (Or.inl hj), hj'.1]
        simp
      · have hj : p.joined = false := by simpa using hj
        have ht : p.text ≠ [] := by
          rcases hlast with e | e
          · exact e
          · rw [hj] at e; cases e
        have elead : lead p = (if p.hyphen then lit "+-" else []) ++ [0x2B] := by simp [lead, ht, hj, lit]
        rw [elead]
        generalize (if p.hyphen then lit "+-" else [] : List Wc) = z
        by_cases hp : p.base.head? = some 0x2B
        · rw [if_pos ⟨hj, hp⟩, if_pos (Or.inr hp)]
          have : (s ++ (z ++ [0x2B])).length - 1 = (s ++ z).length := by simp
          rw [this, show s ++ (z ++ [0x2B] ++ p.text) = (s ++ z) ++ ([0x2B] ++ p.text) by simp, List.take_left]
          simp
        · rw [if_neg (fun e => hp e.2), if_neg (by simp [hj, hp])]
          rw [Nat.sub_zero, show s ++ (z ++ [0x2B] ++ p.text) = (s ++ (z ++ [0x2B])) ++ p.text by simp, List.take_left]
          simp [lit]
    rw [key, key]
    have hw : List.filter (fun x => decide (x ≠ 0x3D)) p.base = strip p.base := rfl
    simp only [final, if_neg hb, hw, baseNote]
    simp

end Verif.WordBases
