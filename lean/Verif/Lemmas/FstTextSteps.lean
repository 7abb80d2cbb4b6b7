import Verif.Lemmas.FstTextRun
/-!
# Runs of the compiled tables are runs of the text
-/

set_option linter.unusedSimpArgs false
set_option linter.unusedVariables false

namespace Verif.Att
open Verif Verif.Props

/-- A compiled and loaded text. `K` are the numbers of the lines of each state, in the order of the file. -/
structure Setting (ls : List Line) (states : List (List CTrans)) (f : Fst) (Ss F V : List (List Wc)) (K : Nat → List Nat) : Prop where
  proper : Proper ls
  symbolsProper : ∀ s ∈ Ss, ProperSymbol s
  tables : Tables Ss f F V
  nodup : Ss.Nodup
  count : Ss.length < 65536
  first : Ss[0]? = some []
  symSorted : (Ss.map encodeStr).Pairwise fun a b => attSymLt b a = false
  sorted : ∀ s ∈ states, s.Pairwise fun a b => fileOrderLt b a = false
  all : ∀ l ∈ ls, ∀ s ∈ l.symbols, s ∈ Ss
  length : ∀ i, i < states.length ↔ ∃ l ∈ ls, l.src = i
  knodup : ∀ i, (K i).Nodup
  kmem : ∀ i k, k ∈ K i ↔ ∃ l, ls[k]? = some l ∧ l.src = i
  trans : ∀ (i : Nat) s, states[i]? = some s → s.map some = (K i).map fun k => (ls[k]?).map fun l => lineTrans (Ss.map encodeStr) (bline l)

/-- The number of the line of a transition. -/
def numberOf (K : Nat → List Nat) (a : Nat × Nat) : Nat := ((K a.1)[a.2]?).getD 0

section
variable {ls : List Line} {states : List (List CTrans)} {f : Fst} {Ss F V : List (List Wc)} {K : Nat → List Nat}
  (S : Setting ls states f Ss F V K)
include S

theorem code_spec {l : Line} (hl : l ∈ ls) {s : List Wc} (hs : s ∈ l.symbols) :
    ∃ k, (Ss.map encodeStr).idxOf (encodeStr s) = k ∧ Ss[k]? = some s ∧ k < Ss.length := by
  have hm := S.all l hl s hs
  have hm' : encodeStr s ∈ Ss.map encodeStr := List.mem_map.2 ⟨s, hm, rfl⟩
  have hlt := List.idxOf_lt_length_of_mem hm'
  have hg : (Ss.map encodeStr)[(Ss.map encodeStr).idxOf (encodeStr s)]? = some (encodeStr s) := by
    rw [List.getElem?_eq_getElem hlt, List.getElem_idxOf]
  refine ⟨_, rfl, ?_, by simpa using hlt⟩
  rw [List.getElem?_map, Option.map_eq_some_iff] at hg
  obtain ⟨y, hy, e⟩ := hg
  rw [hy, encode_inj (proper_valid (S.symbolsProper y (List.mem_of_getElem? hy))) (proper_valid (S.proper.symbols l hl s hs)) e]

/-- A transition of the tables is a line. -/
theorem line_of {i j : Nat} {s : List CTrans} {t : CTrans} (hi : states[i]? = some s) (hj : s[j]? = some t) :
    ∃ k l, (K i)[j]? = some k ∧ ls[k]? = some l ∧ l.src = i ∧ t = lineTrans (Ss.map encodeStr) (bline l) := by
  have h := congrArg (fun L => L[j]?) (S.trans i s hi)
  simp only [List.getElem?_map, hj, Option.map_some] at h
  cases hk : (K i)[j]? with
  | none => rw [hk] at h; cases h
  | some k =>
    rw [hk, Option.map_some, Option.some.injEq] at h
    cases hl : ls[k]? with
    | none => rw [hl] at h; cases h
    | some l =>
      rw [hl, Option.map_some, Option.some.injEq] at h
      obtain ⟨l', hl', e⟩ := (S.kmem i k).1 (List.mem_of_getElem? hk)
      rw [hl] at hl'
      cases hl'
      exact ⟨k, l, rfl, hl, e, h⟩

/-- A line is a transition of the tables. -/
theorem trans_of {k : Nat} {l : Line} (hl : ls[k]? = some l) :
    ∃ (j : Nat) (s : List CTrans), (K l.src)[j]? = some k ∧ states[l.src]? = some s ∧ s[j]? = some (lineTrans (Ss.map encodeStr) (bline l)) := by
  have hm := (S.kmem l.src k).2 ⟨l, hl, rfl⟩
  obtain ⟨j, hj⟩ := List.getElem?_of_mem hm
  have hi := (S.length l.src).2 ⟨l, List.mem_of_getElem? hl, rfl⟩
  have hs := List.getElem?_eq_getElem hi
  have h := congrArg (fun L => L[j]?) (S.trans _ _ hs)
  simp only [List.getElem?_map, hj, Option.map_some, hl] at h
  obtain ⟨t, ht, e⟩ := Option.map_eq_some_iff.1 h
  rw [Option.some.injEq] at e
  exact ⟨j, _, hj, hs, by rw [ht, e]⟩

theorem link_inj {a b : Nat × Nat} {k : Nat} (ha : (K a.1)[a.2]? = some k) (hb : (K b.1)[b.2]? = some k) : a = b := by
  obtain ⟨l, hl, e⟩ := (S.kmem _ _).1 (List.mem_of_getElem? ha)
  obtain ⟨l', hl', e'⟩ := (S.kmem _ _).1 (List.mem_of_getElem? hb)
  rw [hl] at hl'
  cases hl'
  have h1 : a.1 = b.1 := by omega
  rw [← h1] at hb
  have h2 : a.2 = b.2 := (List.getElem?_inj (List.getElem?_eq_some_iff.1 ha).1 (S.knodup a.1)).1 (ha.trans hb.symm)
  exact Prod.ext h1 h2

/-- The places of a run of the tables and of a run of the text. -/
def SamePlace (F V : List (List Wc)) (P : APoint) (p : Place) : Prop := P.ord = p.state ∧ P.pos = p.pos ∧ SameFlags F V P.flags p.flags

theorem start_same : SamePlace F V ⟨0, 0, List.replicate f.featureCount 0⟩ ⟨0, 0, fun _ => []⟩ := by
  refine ⟨rfl, rfl, by rw [List.length_replicate, S.tables.count], ?_⟩
  intro n x hx
  refine ⟨0, ?_, S.tables.zero⟩
  show (List.replicate f.featureCount 0)[n]? = some 0
  rw [List.getElem?_replicate, S.tables.count, if_pos (List.getElem?_eq_some_iff.1 hx).1]

/-- A symbol that begins with `@` is a flag diacritic. -/
theorem flag_of_head {l : Line} (hl : l ∈ ls) {s : List Wc} (hs : s ∈ l.symbols) (h64 : s.head? = some 64) : ∃ op x v, FlagText s op x v := by
  rcases (S.proper.symbols l hl s hs).2 with rfl | h | ⟨r, hr, rfl⟩ | ⟨c, rfl, h1, h2⟩
  · cases h64
  · exact h
  · cases h64
  · exact absurd (by simpa using h64) h1

theorem code_zero {n : Nat} {s : List Wc} (hn : Ss[n]? = some s) : n = 0 ↔ s = [] := get_inj S.nodup hn S.first

theorem below_normal {n : Nat} {s : List Wc} (hn : Ss[n]? = some s) : n < f.firstNormal ↔ s = [] ∨ s.head? = some 64 := by
  have h := S.tables.normal n s hn
  by_cases h0 : s = []
  · have : ¬ f.firstNormal ≤ n := fun e => (h.1 e).1 h0
    exact ⟨fun _ => .inl h0, fun _ => by omega⟩
  · by_cases h64 : s.head? = some 64
    · have : ¬ f.firstNormal ≤ n := fun e => (h.1 e).2 h64
      exact ⟨fun _ => .inr h64, fun _ => by omega⟩
    · have := h.2 ⟨h0, h64⟩
      exact ⟨fun _ => by omega, fun e => (e.elim h0 h64).elim⟩

theorem takes_of_astep {word : List Wc} {P Q : APoint} {a : Nat × Nat} {p : Place} (h : AStep f states (word.map f.symOf) P a Q) (hP : SamePlace F V P p) :
    ∃ q, Takes ls word p (numberOf K a) q ∧ SamePlace F V Q q ∧ (K a.1)[a.2]? = some (numberOf K a) := by
  obtain ⟨h1, h2, h3⟩ := hP
  cases h with
  | symbol s j t hi hj hne hfn hin =>
    obtain ⟨k, l, hk, hl, hsrc, rfl⟩ := line_of S hi hj
    have hnum : numberOf K (P.ord, j) = k := by simp only [numberOf, hk, Option.getD_some]
    rw [hnum]
    cases l with
    | final _ => exact absurd rfl hne
    | arc ar =>
      obtain ⟨n, e, hn, hlt⟩ := code_spec S (List.mem_of_getElem? hl) (s := ar.inp) (by simp [Line.symbols])
      have hin' : (word.map f.symOf)[P.pos]? = some n := by rw [hin]; exact congrArg some e
      rw [List.getElem?_map, Option.map_eq_some_iff] at hin'
      obtain ⟨c, hc, hsym⟩ := hin'
      obtain ⟨hc1, _, _⟩ := (S.tables.chars c n hlt).1 hsym
      have hinp : ar.inp = [c] := by
        rw [hn] at hc1; exact Option.some.inj hc1
      exact ⟨⟨ar.tgt, p.pos + 1, p.flags⟩, .letter hl (by rw [← h1]; exact hsrc) hinp (by rw [← h2]; exact hc), ⟨rfl, by rw [h2], h3⟩, hk⟩
  | flag s j t fl hi hj hne hfn hin =>
    obtain ⟨k, l, hk, hl, hsrc, rfl⟩ := line_of S hi hj
    have hnum : numberOf K (P.ord, j) = k := by simp only [numberOf, hk, Option.getD_some]
    rw [hnum]
    cases l with
    | final _ => exact absurd rfl hne
    | arc ar =>
      have hmem := List.mem_of_getElem? hl
      have hms : ar.inp ∈ (Line.arc ar).symbols := by simp [Line.symbols]
      obtain ⟨n, e, hn, hlt⟩ := code_spec S hmem hms
      have hsym : (lineTrans (Ss.map encodeStr) (bline (.arc ar))).symIn = n := e
      rw [hsym] at hin hfn
      unfold FlagStep at hin
      rcases (below_normal S hn).1 hfn with h0 | h64
      · rw [if_pos (Or.inr ((code_zero S hn).2 h0))] at hin
        subst hin
        exact ⟨⟨ar.tgt, p.pos, p.flags⟩, .epsilon hl (by rw [← h1]; exact hsrc) h0, ⟨rfl, h2, h3⟩, hk⟩
      · obtain ⟨op, x, v, hft⟩ := flag_of_head S hmem hms h64
        obtain ⟨fi, vi, hd, hF, hV⟩ := S.tables.dia n _ op x v hn hft
        have hFl := (List.getElem?_eq_some_iff.1 hF).1
        have hc := S.tables.count
        have hn0 : n ≠ 0 := fun e0 => by
          have := (code_zero S hn).1 e0
          rw [this] at h64; cases h64
        rw [if_neg (by omega)] at hin
        obtain ⟨ofv, old, new, hd', hold, hrel, rfl⟩ := hin
        rw [hd] at hd'
        cases hd'
        obtain ⟨o, ho1, ho2⟩ := h3.2 fi x hF
        simp only at hold hrel
        rw [hold] at ho1
        cases ho1
        obtain ⟨w, hw, heff⟩ := effect_of_rel S.tables.vnodup S.tables.zero S.tables.one hV ho2 hrel
        exact ⟨⟨ar.tgt, p.pos, fun y => if y = x then w else p.flags y⟩, .flag hl (by rw [← h1]; exact hsrc) hft heff,
          ⟨rfl, h2, sameFlags_set S.tables.fnodup h3 hF hw⟩, hk⟩

theorem astep_of_takes {word : List Wc} {P : APoint} {k : Nat} {p q : Place} (h : Takes ls word p k q) (hP : SamePlace F V P p) :
    ∃ a Q, AStep f states (word.map f.symOf) P a Q ∧ SamePlace F V Q q ∧ (K a.1)[a.2]? = some k := by
  obtain ⟨h1, h2, h3⟩ := hP
  cases h with
  | @letter a c hl hsrc hinp hc =>
    obtain ⟨j, s, hj, hs, ht⟩ := trans_of S hl
    have hmem := List.mem_of_getElem? hl
    obtain ⟨n, e, hn, hlt⟩ := code_spec S hmem (s := a.inp) (by simp [Line.symbols])
    have hps := S.proper.symbols _ hmem a.inp (by simp [Line.symbols])
    have hcc : c ≠ 64 ∧ c ≠ 91 := by
      rw [hinp] at hps
      rcases hps.2 with h | ⟨op, x, v, h⟩ | ⟨r, hr, h⟩ | ⟨c', h, h64, h91⟩
      · cases h
      · have := flag_long h; simp at this
      · rw [List.cons.injEq] at h; exact absurd h.2.symm hr
      · rw [List.cons.injEq] at h; rw [h.1]; exact ⟨h64, h91⟩
    have hcnt := S.count
    have hord : P.ord = (Line.arc a).src := h1.trans hsrc.symm
    refine ⟨(P.ord, j), ⟨a.tgt, P.pos + 1, P.flags⟩, ?_, ⟨rfl, by show P.pos + 1 = p.pos + 1; omega, h3⟩, by rw [hord]; exact hj⟩
    refine .symbol P s j _ (by rw [hord]; exact hs) ht ?_ ?_ ?_
    · show (Ss.map encodeStr).idxOf (encodeStr a.inp) ≠ _
      omega
    · show f.firstNormal ≤ (Ss.map encodeStr).idxOf (encodeStr a.inp)
      rw [e]
      refine (S.tables.normal n _ hn).2 ?_
      rw [hinp]
      exact ⟨by simp, by simpa using hcc.1⟩
    · show _ = some ((Ss.map encodeStr).idxOf (encodeStr a.inp))
      rw [e, List.getElem?_map, h2, hc, Option.map_some, Option.some.injEq]
      exact (S.tables.chars c n hlt).2 ⟨by rw [hn, hinp], hcc.1, hcc.2⟩
  | @epsilon a hl hsrc hinp =>
    obtain ⟨j, s, hj, hs, ht⟩ := trans_of S hl
    have hmem := List.mem_of_getElem? hl
    obtain ⟨n, e, hn, hlt⟩ := code_spec S hmem (s := a.inp) (by simp [Line.symbols])
    have hcnt := S.count
    have hord : P.ord = (Line.arc a).src := h1.trans hsrc.symm
    refine ⟨(P.ord, j), ⟨a.tgt, P.pos, P.flags⟩, ?_, ⟨rfl, h2, h3⟩, by rw [hord]; exact hj⟩
    refine .flag P s j _ _ (by rw [hord]; exact hs) ht ?_ ?_ ?_
    · show (Ss.map encodeStr).idxOf (encodeStr a.inp) ≠ _
      omega
    · show (Ss.map encodeStr).idxOf (encodeStr a.inp) < _
      rw [e]
      exact (below_normal S hn).2 (.inl hinp)
    · show FlagStep f P.flags ((Ss.map encodeStr).idxOf (encodeStr a.inp)) P.flags
      rw [e]
      unfold FlagStep
      rw [if_pos (Or.inr ((code_zero S hn).2 hinp))]
  | @flag a op x v new hl hsrc hft heff =>
    obtain ⟨j, s, hj, hs, ht⟩ := trans_of S hl
    have hmem := List.mem_of_getElem? hl
    obtain ⟨n, e, hn, hlt⟩ := code_spec S hmem (s := a.inp) (by simp [Line.symbols])
    have hcnt := S.count
    have hord : P.ord = (Line.arc a).src := h1.trans hsrc.symm
    obtain ⟨fi, vi, hd, hF, hV⟩ := S.tables.dia n _ op x v hn hft
    have hFl := (List.getElem?_eq_some_iff.1 hF).1
    have hc := S.tables.count
    have h64 := flag_head hft
    have hn0 : n ≠ 0 := fun e0 => by
      have := (code_zero S hn).1 e0
      rw [this] at h64; cases h64
    obtain ⟨o, ho1, ho2⟩ := h3.2 fi x hF
    obtain ⟨w, hrel, hw⟩ := rel_of_effect S.tables.vnodup S.tables.zero S.tables.one hV ho2 heff
    refine ⟨(P.ord, j), ⟨a.tgt, P.pos, P.flags.set fi w⟩, ?_, ⟨rfl, h2, sameFlags_set S.tables.fnodup h3 hF hw⟩, by rw [hord]; exact hj⟩
    refine .flag P s j _ _ (by rw [hord]; exact hs) ht ?_ ?_ ?_
    · show (Ss.map encodeStr).idxOf (encodeStr a.inp) ≠ _
      omega
    · show (Ss.map encodeStr).idxOf (encodeStr a.inp) < _
      rw [e]
      exact (below_normal S hn).2 (.inr h64)
    · show FlagStep f P.flags ((Ss.map encodeStr).idxOf (encodeStr a.inp)) _
      rw [e]
      unfold FlagStep
      rw [if_neg (by omega)]
      exact ⟨_, o, w, hd, ho1, hrel, rfl⟩

/-! ### Runs -/

/-- The transitions of a run of the tables are lines. -/
def Linked (K : Nat → List Nat) (as : List (Nat × Nat)) : Prop := ∀ a ∈ as, (K a.1)[a.2]? = some (numberOf K a)

theorem takes_of_apath {word : List Wc} {P Q : APoint} {as : List (Nat × Nat)} (h : APath f states (word.map f.symOf) P as Q) :
    ∀ p, SamePlace F V P p → ∃ q, TakesAll ls word p (as.map (numberOf K)) q ∧ SamePlace F V Q q ∧ Linked K as := by
  induction h with
  | nil P => intro p hp; exact ⟨p, .nil, hp, by intro a ha; cases ha⟩
  | cons P Q R a as hs _ ih =>
    intro p hp
    obtain ⟨q, h1, h2, h3⟩ := takes_of_astep S hs hp
    obtain ⟨r, h4, h5, h6⟩ := ih q h2
    refine ⟨r, .cons h1 h4, h5, ?_⟩
    intro b hb
    rcases List.mem_cons.1 hb with rfl | hb
    · exact h3
    · exact h6 b hb

omit S in
theorem numberOf_eq {a : Nat × Nat} {k : Nat} (h : (K a.1)[a.2]? = some k) : numberOf K a = k := by
  simp only [numberOf, h, Option.getD_some]

theorem apath_of_takes {word : List Wc} {p q : Place} {ks : List Nat} (h : TakesAll ls word p ks q) :
    ∀ P, SamePlace F V P p → ∃ as Q, APath f states (word.map f.symOf) P as Q ∧ SamePlace F V Q q ∧ ks = as.map (numberOf K) := by
  induction h with
  | nil => intro P hP; exact ⟨[], P, .nil _, hP, rfl⟩
  | cons hs _ ih =>
    intro P hP
    obtain ⟨a, Q, h1, h2, h3⟩ := astep_of_takes S hs hP
    obtain ⟨as, R, h4, h5, h6⟩ := ih Q h2
    exact ⟨a :: as, R, .cons _ _ _ _ _ h1 h4, h5, by rw [List.map_cons, ← h6, numberOf_eq h3]⟩

theorem accepts_of {word : List Wc} {pfx : Bool} {run : List (Nat × Nat)} {n : Nat} (h : AAccepting f states (word.map f.symOf) pfx run n) :
    Accepts ls word pfx (run.map (numberOf K)) n ∧ Linked K run := by
  obtain ⟨as, P, j, s, t, rfl, hp, hi, hj, hfin, hn, hpf⟩ := h
  obtain ⟨p, h1, ⟨h2, h3, h4⟩, h5⟩ := takes_of_apath S hp _ (start_same S)
  obtain ⟨k, l, hk, hl, hsrc, rfl⟩ := line_of S hi hj
  have hnum := numberOf_eq (a := (P.ord, j)) hk
  have hfl : l = .final p.state := by
    cases l with
    | final s0 =>
      have : s0 = P.ord := hsrc
      rw [this, h2]
    | arc a =>
      obtain ⟨n', e, hn', hlt⟩ := code_spec S (List.mem_of_getElem? hl) (s := a.inp) (by simp [Line.symbols])
      have hcnt := S.count
      have : (Ss.map encodeStr).idxOf (encodeStr a.inp) = 0xFFFFFFFF := hfin
      omega
  refine ⟨⟨as.map (numberOf K), k, p, by simp [hnum], h1, by rw [hl, hfl], by rw [← h3]; exact hn, ?_⟩, ?_⟩
  · intro e
    have := hpf e
    rwa [List.length_map] at this
  · intro a ha
    rcases List.mem_append.1 ha with ha | ha
    · exact h5 a ha
    · rw [List.mem_singleton.1 ha, hnum]; exact hk

theorem of_accepts {word : List Wc} {pfx : Bool} {ks : List Nat} {n : Nat} (h : Accepts ls word pfx ks n) :
    ∃ run, AAccepting f states (word.map f.symOf) pfx run n ∧ ks = run.map (numberOf K) := by
  obtain ⟨ks, k, p, rfl, hp, hk, hn, hpf⟩ := h
  obtain ⟨as, P, h1, ⟨h2, h3, h4⟩, h5⟩ := apath_of_takes S hp _ (start_same S)
  obtain ⟨j, s, hj, hs, ht⟩ := trans_of S hk
  have hord : P.ord = (Line.final p.state).src := h2
  refine ⟨as ++ [(P.ord, j)], ⟨as, P, j, s, _, rfl, h1, by rw [hord]; exact hs, ht, rfl, by rw [h3]; exact hn, ?_⟩, ?_⟩
  · intro e
    rw [List.length_map]
    exact hpf e
  · rw [List.map_append, ← h5, List.map_singleton, numberOf_eq (a := (P.ord, j)) (by rw [hord]; exact hj)]

theorem numbers_inj {as bs : List (Nat × Nat)} (ha : Linked K as) (hb : Linked K bs) (h : as.map (numberOf K) = bs.map (numberOf K)) : as = bs := by
  induction as generalizing bs with
  | nil =>
    cases bs with
    | nil => rfl
    | cons b bs => cases h
  | cons a as ih =>
    cases bs with
    | nil => cases h
    | cons b bs =>
      rw [List.map_cons, List.map_cons, List.cons.injEq] at h
      have h1 := ha a List.mem_cons_self
      rw [h.1] at h1
      rw [link_inj S h1 (hb b List.mem_cons_self)]
      rw [ih (fun x hx => ha x (List.mem_cons_of_mem _ hx)) (fun x hx => hb x (List.mem_cons_of_mem _ hx)) h.2]

/-- The output. -/
theorem output_of {word : List Wc} {pfx : Bool} {run : List (Nat × Nat)} {n : Nat} (h : AAccepting f states (word.map f.symOf) pfx run n) :
    aOutput f states run = runOutput ls (run.map (numberOf K)) := by
  obtain ⟨ks, k, p, hr, _, hfin, _⟩ := (accepts_of S h).1
  have hlink := (accepts_of S h).2
  have hex : ∀ a ∈ run.dropLast, ∃ s t, states[a.1]? = some s ∧ s[a.2]? = some t := by
    obtain ⟨as, P, j, s, t, rfl, hp, hrest⟩ := h
    rw [List.dropLast_concat]
    clear hr hlink hrest
    generalize (⟨0, 0, _⟩ : APoint) = p0 at hp
    induction hp with
    | nil p => intro a ha; cases ha
    | cons p q r a as hs _ ih =>
      intro x hx
      rcases List.mem_cons.1 hx with rfl | hx
      · cases hs with
        | symbol s' j' t' hi' hj' _ _ _ => exact ⟨s', t', hi', hj'⟩
        | flag s' j' t' fl hi' hj' _ _ _ => exact ⟨s', t', hi', hj'⟩
      · exact ih x hx
  have hd : run.dropLast.map (numberOf K) = ks := by
    rw [List.map_dropLast, hr, List.dropLast_concat]
  have hout : runOutput ls (run.map (numberOf K)) = runOutput ls ks := by
    rw [hr]
    unfold runOutput
    rw [List.flatMap_append]
    simp [lineOutput, hfin]
  rw [hout, ← hd]
  unfold aOutput runOutput
  rw [List.flatMap_map]
  have hgen : ∀ L : List (Nat × Nat), (∀ a ∈ L, ∃ s t, states[a.1]? = some s ∧ s[a.2]? = some t) →
      (L.flatMap fun a => match (states[a.1]?).bind (·[a.2]?) with
        | none => []
        | some t => if f.firstNormal ≤ t.symOut then (f.symbols[t.symOut]?).getD [] else []) = L.flatMap fun a => lineOutput ls (numberOf K a) := by
    intro L hL
    induction L with
    | nil => rfl
    | cons a L ih =>
      rw [List.flatMap_cons, List.flatMap_cons, ih fun x hx => hL x (List.mem_cons_of_mem _ hx)]
      congr 1
      obtain ⟨s, t, hi, hj⟩ := hL a List.mem_cons_self
      obtain ⟨k, l, hk, hl, hsrc, rfl⟩ := line_of S hi hj
      rw [hi, Option.bind_some, hj, numberOf_eq hk]
      unfold lineOutput
      rw [hl]
      cases l with
      | final s0 =>
        have : ¬ f.firstNormal ≤ (lineTrans (Ss.map encodeStr) (bline (.final s0))).symOut := fun e => ((S.tables.normal 0 _ S.first).1 e).1 rfl
        simp only [if_neg this]
      | arc ar =>
        obtain ⟨n', e, hn', hlt⟩ := code_spec S (List.mem_of_getElem? hl) (s := ar.out) (by simp [Line.symbols])
        have e' : (lineTrans (Ss.map encodeStr) (bline (.arc ar))).symOut = n' := e
        simp only [e']
        rw [S.tables.symbols, hn', Option.getD_some]
        have hno := S.tables.normal n' _ hn'
        by_cases h0 : ar.out = []
        · rw [h0]; simp
        · by_cases h64 : ar.out.head? = some 64
          · rw [if_pos h64, if_neg (fun e => (hno.1 e).2 h64)]
          · rw [if_neg h64, if_pos (hno.2 ⟨h0, h64⟩)]
  exact hgen _ hex

end

/-! ### The order of the runs -/

theorem enc_mono {c d : Nat} (h : c < d) (hd : ValidCp d) : enc c < enc d := by
  unfold ValidCp at hd
  unfold enc
  have key : ∀ (a b : Nat) (x y : List Nat), a < b ∨ (a = b ∧ x < y) → a :: x < b :: y := fun a b x y h => List.cons_lt_cons_iff.2 h
  have last : ∀ a b : Nat, a < b → ([a] : List Nat) < [b] := fun a b h => key _ _ _ _ (.inl h)
  by_cases c1 : c < 0x80
  · rw [if_pos c1]
    by_cases d1 : d < 0x80
    · rw [if_pos d1]; exact last _ _ h
    · rw [if_neg d1]
      split
      · exact key _ _ _ _ (.inl (by omega))
      · split <;> exact key _ _ _ _ (.inl (by omega))
  rw [if_neg c1, if_neg (show ¬ d < 0x80 by omega)]
  by_cases c2 : c < 0x800
  · rw [if_pos c2]
    by_cases d2 : d < 0x800
    · rw [if_pos d2]
      by_cases e : c / 64 < d / 64
      · exact key _ _ _ _ (.inl (by omega))
      · exact key _ _ _ _ (.inr ⟨by omega, last _ _ (by omega)⟩)
    · rw [if_neg d2]
      split <;> exact key _ _ _ _ (.inl (by omega))
  rw [if_neg c2, if_neg (show ¬ d < 0x800 by omega)]
  by_cases c3 : c < 0x10000
  · rw [if_pos c3]
    by_cases d3 : d < 0x10000
    · rw [if_pos d3]
      by_cases e : c / 4096 < d / 4096
      · exact key _ _ _ _ (.inl (by omega))
      · refine key _ _ _ _ (.inr ⟨by omega, ?_⟩)
        by_cases e2 : c / 64 < d / 64
        · exact key _ _ _ _ (.inl (by omega))
        · exact key _ _ _ _ (.inr ⟨by omega, last _ _ (by omega)⟩)
    · rw [if_neg d3]
      exact key _ _ _ _ (.inl (by omega))
  rw [if_neg c3, if_neg (show ¬ d < 0x10000 by omega)]
  by_cases e0 : c / 262144 < d / 262144
  · exact key _ _ _ _ (.inl (by omega))
  refine key _ _ _ _ (.inr ⟨by omega, ?_⟩)
  by_cases e : c / 4096 < d / 4096
  · exact key _ _ _ _ (.inl (by omega))
  refine key _ _ _ _ (.inr ⟨by omega, ?_⟩)
  by_cases e2 : c / 64 < d / 64
  · exact key _ _ _ _ (.inl (by omega))
  · exact key _ _ _ _ (.inr ⟨by omega, last _ _ (by omega)⟩)

/-- The order of a symbol. -/
def symRank (s : List Wc) : Nat := if s = [] then 0 else if s.head? = some 64 then 2 else if s.head? = some 91 then 4 else 3

theorem sym_order {s t : List Wc} (hs : ProperSymbol s) (ht : ProperSymbol t) (h : attSymLt (encodeStr t) (encodeStr s) = false) :
    symRank s < symRank t ∨ (symRank s = symRank t ∧ ∀ c d, s = [c] → t = [d] → c ≤ d) := by
  by_cases hst : s = t
  · subst hst
    refine .inr ⟨rfl, ?_⟩
    intro c d h1 h2
    rw [h1] at h2
    cases h2
    exact Nat.le_refl _
  · have hne : encodeStr t ≠ encodeStr s := fun e => hst (encode_inj (proper_valid ht) (proper_valid hs) e).symm
    unfold attSymLt at h
    rw [if_neg hne] at h
    by_cases ht0 : t = []
    · rw [if_pos (encode_nil.2 ht0)] at h; cases h
    rw [if_neg (fun e => ht0 (encode_nil.1 e))] at h
    by_cases hs0 : s = []
    · left
      simp only [symRank, if_pos hs0, if_neg ht0]
      split
      · omega
      · split <;> omega
    rw [if_neg (fun e => hs0 (encode_nil.1 e))] at h
    simp only [ne_eq, encode_head (show 64 < 128 by decide), encode_head (show 91 < 128 by decide)] at h
    unfold symRank
    rw [if_neg hs0, if_neg ht0]
    have single : ∀ {u : List Wc} {c : Wc}, ProperSymbol u → u = [c] → u.head? ≠ some 64 ∧ u.head? ≠ some 91 := by
      intro u c hu e
      rcases hu.2 with rfl | ⟨op, x, v, hf⟩ | ⟨r, hr, rfl⟩ | ⟨c', rfl, h1, h2⟩
      · cases e
      · have := flag_long hf; rw [e] at this; simp at this
      · rw [List.cons.injEq] at e; exact absurd e.2 hr
      · exact ⟨by simpa using h1, by simpa using h2⟩
    by_cases hs64 : s.head? = some 64
    · rw [if_pos hs64]
      by_cases ht64 : t.head? = some 64
      · rw [if_pos ht64]
        exact .inr ⟨rfl, fun c d h1 _ => absurd hs64 (single hs h1).1⟩
      · rw [if_neg ht64]
        left
        split <;> omega
    · rw [if_neg hs64]
      by_cases ht64 : t.head? = some 64
      · rw [if_pos ⟨ht64, hs64⟩] at h; cases h
      · rw [if_neg ht64]
        rw [if_neg (fun e => ht64 e.1), if_neg (fun e => hs64 e.1)] at h
        by_cases ht91 : t.head? = some 91
        · rw [if_pos ht91]
          by_cases hs91 : s.head? = some 91
          · rw [if_pos hs91]
            exact .inr ⟨rfl, fun c d h1 _ => absurd hs91 (single hs h1).2⟩
          · rw [if_neg hs91]; left; omega
        · rw [if_neg ht91]
          rw [if_neg (fun e => ht91 e.1)] at h
          by_cases hs91 : s.head? = some 91
          · rw [if_pos ⟨hs91, ht91⟩] at h; cases h
          · rw [if_neg hs91]
            refine .inr ⟨rfl, ?_⟩
            rw [if_neg (fun e => hs91 e.1), if_neg (fun e => e.elim ht91 ht64)] at h
            intro c d h1 h2
            rcases Nat.lt_or_ge d c with hlt | hge
            · exfalso
              have := of_decide_eq_false h
              rw [h1, h2] at this
              apply this
              simp only [encodeStr, List.flatMap_cons, List.flatMap_nil, List.append_nil]
              exact enc_mono hlt (proper_valid hs c (by rw [h1]; exact List.mem_singleton.2 rfl))
            · exact hge

section
variable {ls : List Line} {states : List (List CTrans)} {f : Fst} {Ss F V : List (List Wc)} {K : Nat → List Nat}
  (S : Setting ls states f Ss F V K)
include S

theorem lines_order {l l' : Line} (hl : l ∈ ls) (hl' : l' ∈ ls)
    (h : fileOrderLt (lineTrans (Ss.map encodeStr) (bline l')) (lineTrans (Ss.map encodeStr) (bline l)) = false) : NotAfter l l' := by
  have hcnt := S.count
  unfold fileOrderLt at h
  cases l with
  | final s =>
    cases l' with
    | final s' => exact .inr ⟨rfl, by intro a b c d e; cases e⟩
    | arc a' =>
      obtain ⟨n, e, hn, hlt⟩ := code_spec S hl' (s := a'.inp) (by simp [Line.symbols])
      simp only [bline, lineTrans, e] at h
      left
      rw [if_neg (by omega)] at h
      by_cases h0 : n = 0
      · rw [if_pos h0] at h; cases h
      · have : a'.inp ≠ [] := fun e => h0 ((code_zero S hn).2 e)
        simp only [lineRank, if_neg this]
        split
        · omega
        · split <;> omega
  | arc a =>
    obtain ⟨n, e, hn, hlt⟩ := code_spec S hl (s := a.inp) (by simp [Line.symbols])
    cases l' with
    | final s' =>
      simp only [bline, lineTrans, e] at h
      left
      rw [if_neg (by omega), if_neg (by omega)] at h
      by_cases h0 : n = 0
      · simp only [lineRank, if_pos ((code_zero S hn).1 h0)]
        omega
      · rw [if_neg h0] at h; simp at h
    | arc a' =>
      obtain ⟨n', e', hn', hlt'⟩ := code_spec S hl' (s := a'.inp) (by simp [Line.symbols])
      simp only [bline, lineTrans, e, e'] at h
      have hle : n ≤ n' := by
        by_cases h1 : n' = n
        · omega
        · rw [if_neg h1] at h
          by_cases h2 : n' = 0
          · rw [if_pos h2] at h; cases h
          · rw [if_neg h2] at h
            by_cases h3 : n = 0
            · omega
            · rw [if_neg h3, if_neg (by omega), if_neg (by omega)] at h
              have := of_decide_eq_false h
              omega
      have hord : symRank a.inp < symRank a'.inp ∨ (symRank a.inp = symRank a'.inp ∧ ∀ c d, a.inp = [c] → a'.inp = [d] → c ≤ d) := by
        rcases Nat.lt_or_ge n n' with hlt2 | hge
        · refine sym_order (S.symbolsProper _ (List.mem_of_getElem? hn)) (S.symbolsProper _ (List.mem_of_getElem? hn')) ?_
          have g1 : (Ss.map encodeStr)[n]? = some (encodeStr a.inp) := by rw [List.getElem?_map, hn]; rfl
          have g2 : (Ss.map encodeStr)[n']? = some (encodeStr a'.inp) := by rw [List.getElem?_map, hn']; rfl
          obtain ⟨b1, e1⟩ := List.getElem?_eq_some_iff.1 g1
          obtain ⟨b2, e2⟩ := List.getElem?_eq_some_iff.1 g2
          have := List.pairwise_iff_getElem.1 S.symSorted n n' b1 b2 hlt2
          rwa [e1, e2] at this
        · have : n = n' := by omega
          subst this
          rw [hn] at hn'
          have heq := Option.some.inj hn'
          rw [← heq]
          refine .inr ⟨rfl, ?_⟩
          intro c d h1 h2
          rw [h1] at h2
          cases h2
          exact Nat.le_refl _
      rcases hord with h | ⟨h, h'⟩
      · exact .inl h
      · refine .inr ⟨h, ?_⟩
        intro x y c d e1 e2
        cases e1
        cases e2
        exact h' c d

theorem before_of {as bs : List (Nat × Nat)} (ha : Linked K as) (hb : Linked K bs) (hea : ∀ a ∈ as, a.1 < states.length)
    (heb : ∀ b ∈ bs, b.1 < states.length) (h : ABefore as bs) :
    RunBefore ls (as.map (numberOf K)) (bs.map (numberOf K)) := by
  induction as generalizing bs with
  | nil => exact h.elim
  | cons a as ih =>
    cases bs with
    | nil => exact h.elim
    | cons b bs =>
      have ha1 := ha a List.mem_cons_self
      have hb1 := hb b List.mem_cons_self
      rcases h with ⟨h1, h2⟩ | ⟨h1, h2⟩
      · left
        refine ⟨?_, ?_⟩
        · intro e
          rw [e] at ha1
          have := link_inj S ha1 hb1
          rw [this] at h2
          omega
        · obtain ⟨s, hs⟩ : ∃ s, states[a.1]? = some s := ⟨_, List.getElem?_eq_getElem (hea a List.mem_cons_self)⟩
          have htr := S.trans _ _ hs
          have len : s.length = (K a.1).length := by simpa using congrArg List.length htr
          rw [← h1] at hb1
          have la : a.2 < s.length := by rw [len]; exact (List.getElem?_eq_some_iff.1 ha1).1
          have lb : b.2 < s.length := by rw [len]; exact (List.getElem?_eq_some_iff.1 hb1).1
          obtain ⟨k, l, hk, hl, hsrc, e⟩ := line_of S hs (List.getElem?_eq_getElem la)
          obtain ⟨k', l', hk', hl', hsrc', e'⟩ := line_of S hs (List.getElem?_eq_getElem lb)
          rw [ha1] at hk
          rw [hb1] at hk'
          rw [Option.some.inj hk, Option.some.inj hk']
          refine ⟨l, l', hl, hl', by omega, lines_order S (List.mem_of_getElem? hl) (List.mem_of_getElem? hl') ?_⟩
          rw [← e, ← e']
          exact List.pairwise_iff_getElem.1 (S.sorted _ (List.mem_of_getElem? hs)) a.2 b.2 la lb h2
      · right
        exact ⟨by rw [h1], ih (fun x hx => ha x (List.mem_cons_of_mem _ hx)) (fun x hx => hb x (List.mem_cons_of_mem _ hx))
          (fun x hx => hea x (List.mem_cons_of_mem _ hx)) (fun x hx => heb x (List.mem_cons_of_mem _ hx)) h2⟩

theorem apath_ords {word : List Nat} {P Q : APoint} {as : List (Nat × Nat)} (h : APath f states word P as Q) : ∀ a ∈ as, a.1 < states.length := by
  induction h with
  | nil p => intro a ha; cases ha
  | cons p q r a as hs _ ih =>
    intro x hx
    rcases List.mem_cons.1 hx with rfl | hx
    · cases hs with
      | symbol s' j' t' hi' hj' _ _ _ => exact (List.getElem?_eq_some_iff.1 hi').1
      | flag s' j' t' fl hi' hj' _ _ _ => exact (List.getElem?_eq_some_iff.1 hi').1
    · exact ih x hx

theorem run_ords {word : List Nat} {pfx : Bool} {run : List (Nat × Nat)} {n : Nat} (h : AAccepting f states word pfx run n) :
    ∀ a ∈ run, a.1 < states.length := by
  obtain ⟨as, P, j, s, t, rfl, hp, hi, _⟩ := h
  intro a ha
  rcases List.mem_append.1 ha with ha | ha
  · exact apath_ords S hp a ha
  · rw [List.mem_singleton.1 ha]
    exact (List.getElem?_eq_some_iff.1 hi).1

/-- The limits of the look-up are limits of the text. -/
theorem exceeds_of {symbols : List (List Nat)} (g : GoodInput symbols states) (hf : Holds f states) {word : List Wc} {pfx : Bool}
    {bufferSize bufferLen : Nat} {r : NextRes} (h : Limit f (word.map f.symOf) pfx bufferSize bufferLen r) :
    Exceeds ls word pfx bufferSize bufferLen r := by
  have h0 : startPoint f = atOffset states ⟨0, 0, List.replicate f.featureCount 0⟩ := by
    simp [startPoint, atOffset, offsetOf, sizeOf']
  have hpos : 0 < states.length := List.length_pos_iff.2 g.initial
  have hpath : ∀ {q : List Nat} {e : Point}, Path f (word.map f.symOf) (startPoint f) q e →
      ∃ bs p, q = bs.map (addrOf states) ∧ Linked K bs ∧ TakesAll ls word ⟨0, 0, fun _ => []⟩ (bs.map (numberOf K)) p := by
    intro q e hq
    obtain ⟨bs, Q, h1, _, h3, _⟩ := apath_of_path g hf hq _ hpos h0
    obtain ⟨p, h4, _, h5⟩ := takes_of_apath S h3 _ (start_same S)
    exact ⟨bs, p, h1, h5, h4⟩
  cases r with
  | found _ _ => exact h
  | exhausted => exact h
  | outputLimit =>
    obtain ⟨q, n, hq, hlen⟩ := h
    obtain ⟨run, rfl, hr⟩ := (accepting_iff g hf).1 hq
    rw [output_eq g hf hr, output_of S hr] at hlen
    exact ⟨_, n, (accepts_of S hr).1, hlen⟩
  | stackLimit =>
    obtain ⟨q, e, hq, hlen⟩ := h
    obtain ⟨bs, p, rfl, _, hp⟩ := hpath hq
    exact ⟨_, p, hp, by rw [List.length_map] at hlen ⊢; exact hlen⟩
  | loopLimit =>
    obtain ⟨L, hnd, hlen, hL⟩ := h
    have hB : ∃ B : List (List (Nat × Nat)), L = B.map (List.map (addrOf states)) ∧
        ∀ bs ∈ B, Linked K bs ∧ ∃ p, TakesAll ls word ⟨0, 0, fun _ => []⟩ (bs.map (numberOf K)) p := by
      clear hnd hlen
      induction L with
      | nil => exact ⟨[], rfl, by intro b hb; cases hb⟩
      | cons q L ih =>
        obtain ⟨B, h1, h2⟩ := ih fun x hx => hL x (List.mem_cons_of_mem _ hx)
        obtain ⟨e, he⟩ := hL q List.mem_cons_self
        obtain ⟨bs, p, h3, h4, h5⟩ := hpath he
        refine ⟨bs :: B, by rw [List.map_cons, ← h1, ← h3], ?_⟩
        intro b hb
        rcases List.mem_cons.1 hb with rfl | hb
        · exact ⟨h4, p, h5⟩
        · exact h2 b hb
    obtain ⟨B, rfl, hB⟩ := hB
    have hBn : B.Nodup := List.Nodup.of_map _ hnd
    refine ⟨B.map (List.map (numberOf K)), ?_, by rw [List.length_map] at hlen ⊢; exact hlen, ?_⟩
    · rw [List.nodup_iff_pairwise_ne, List.pairwise_map]
      refine (List.nodup_iff_pairwise_ne.1 hBn).imp_of_mem ?_
      intro a b ha hb hab e
      exact hab (numbers_inj S (hB a ha).1 (hB b hb).1 e)
    · intro ks hks
      obtain ⟨bs, hbs, rfl⟩ := List.mem_map.1 hks
      exact (hB bs hbs).2

end

/-- Compiled and loaded, with known line numbers. -/
theorem setting_with {ls : List Line} {symbols : List (List Nat)} {states : List (List CTrans)} {f : Fst}
    (hp : Proper ls) (c : Compiled ls symbols states) {Ss F V : List (List Wc)} (h1 : symbols = Ss.map encodeStr)
    (h2 : ∀ s ∈ Ss, ProperSymbol s) (h3 : Tables Ss f F V) {K : Nat → List Nat} (h4 : ∀ i, (K i).Nodup)
    (h5 : ∀ i k, k ∈ K i ↔ ∃ l, ls[k]? = some l ∧ l.src = i)
    (h6 : ∀ (i : Nat) s, states[i]? = some s → s.map some = (K i).map fun k => (ls[k]?).map fun l => lineTrans symbols (bline l)) :
    Setting ls states f Ss F V K := by
  subst h1
  refine ⟨hp, h2, h3, List.Nodup.of_map _ c.nodup, by have := c.count; rwa [List.length_map] at this, ?_, c.sorted, c.order, ?_, c.srcs, h4, h5, h6⟩
  · have := c.first
    rw [List.getElem?_map, Option.map_eq_some_iff] at this
    obtain ⟨s, hs, e⟩ := this
    rw [hs, encode_nil.1 e]
  · intro l hl s hs
    have := c.all l hl _ (lineSyms_mem hs)
    obtain ⟨t, ht, e⟩ := List.mem_map.1 this
    rw [← encode_inj (proper_valid (h2 t ht)) (proper_valid (hp.symbols l hl s hs)) e]
    exact ht

/-- Compiled and loaded. -/
theorem setting_of {ls : List Line} {symbols : List (List Nat)} {states : List (List CTrans)}
    (hp : Proper ls) (c : Compiled ls symbols states) {sw : Bool} {file : List Nat} {f : Fst}
    (hw : writeFile sw symbols states = some file) (hl : loadFile file = some (some f)) :
    ∃ Ss F V K, Setting ls states f Ss F V K := by
  obtain ⟨Ss, F, V, h1, h2, h3⟩ := compiled_tables hp c hw hl
  obtain ⟨K, h4, h5, h6⟩ := arranged c
  exact ⟨Ss, F, V, K, setting_with hp c h1 h2 h3 h4 h5 h6⟩

end Verif.Att
