import Verif.Props.Hyphenator
/-! C40, C61 and the UTF-8 entry points of hyphenation. -/

namespace Verif.Props
open Verif
set_option linter.unusedSimpArgs false

/-! ### C61: compound borders -/

/-- An element of a STRUCTURE string: a character, a character with a compound border before it, or a hyphen that is a
border. -/
inductive StructTok where
  | plain (c : Wc)
  | border (c : Wc)
  | hyphen

namespace StructTok

/-- The string of an element. -/
def render : StructTok → List Wc
  | plain c => [c]
  | border c => [0x3D, c]
  | hyphen => [0x2D, 0x3D]

/-- The elements are separated correctly: a plain character is not `=`, and a plain hyphen is not followed by a border. -/
def Ok : List StructTok → Prop
  | [] => True
  | plain c :: ts => c ≠ 0 ∧ c ≠ 0x3D ∧ (c = 0x2D → ∀ d, ts.head? ≠ some (border d)) ∧ Ok ts
  | border _ :: ts => Ok ts
  | hyphen :: ts => Ok ts

/-- No compound border at this element. -/
def inner : StructTok → Bool
  | plain _ => true
  | border _ => false
  | hyphen => false

end StructTok
open StructTok

/-- The STRUCTURE string of a list of elements, with the initial border. -/
def structOf (ts : List StructTok) : List Wc := 0x3D :: ts.flatMap render

/-- The analysis has a STRUCTURE with these elements; the initial border is missing if the word begins with a hyphen. -/
def HasElements (a : MorAn) (ts : List StructTok) : Prop :=
  a.struct = some (structOf ts) ∨ (a.struct = some (ts.flatMap render) ∧ ∀ d, ts.head? ≠ some (border d))

theorem interpretLoop_tokens (ts : List StructTok) (hok : Ok ts) (k : Nat) (first : Bool) :
    ∃ r, interpretLoop k first (ts.flatMap render ++ [0]) = some r ∧ r.length = k ∧
      ∀ i < k, (∀ c, ts[i]? = some (plain c) → blankAt r i = true) ∧
        (∀ c, ts[i]? = some (border c) → r[i]? = some 0x2D) ∧
        (ts[i]? = some hyphen → r[i]? = some (if first = true ∧ i = 0 then 0x20 else 0x3D)) ∧
        (ts[i]? = none → blankAt r i = true) := by
  induction k generalizing ts first with
  | zero => exact ⟨[], rfl, rfl, by omega⟩
  | succ k ih =>
    have step : ∀ (x : Wc) (t : StructTok) (ts' : List StructTok), ts = t :: ts' → Ok ts' →
        interpretLoop (k + 1) first (ts.flatMap render ++ [0]) =
          ((interpretLoop k false (ts'.flatMap render ++ [0])).bind fun rest => some (x :: rest)) →
        (∀ c, t = plain c → x = 0x20 ∨ x = 0x58) → (∀ c, t = border c → x = 0x2D) →
        (t = hyphen → x = if first = true then 0x20 else 0x3D) →
        ∃ r, interpretLoop (k + 1) first (ts.flatMap render ++ [0]) = some r ∧ r.length = k + 1 ∧
          ∀ i < k + 1, (∀ c, ts[i]? = some (plain c) → blankAt r i = true) ∧
            (∀ c, ts[i]? = some (border c) → r[i]? = some 0x2D) ∧
            (ts[i]? = some hyphen → r[i]? = some (if first = true ∧ i = 0 then 0x20 else 0x3D)) ∧
            (ts[i]? = none → blankAt r i = true) := by
      intro x t ts' hts hok' he h1 h2 h3
      obtain ⟨r, e1, l, hr⟩ := ih ts' hok' false
      refine ⟨x :: r, by rw [he, e1]; rfl, by simp [l], ?_⟩
      subst hts
      intro i hi
      cases i with
      | zero =>
        refine ⟨?_, ?_, ?_, by simp⟩
        · intro c hc
          rw [List.getElem?_cons_zero, Option.some.injEq] at hc
          rw [blankAt_true_iff (List.getElem?_cons_zero)]
          exact h1 c hc
        · intro c hc
          rw [List.getElem?_cons_zero, Option.some.injEq] at hc
          rw [List.getElem?_cons_zero, h2 c hc]
        · intro hc
          rw [List.getElem?_cons_zero, Option.some.injEq] at hc
          rw [List.getElem?_cons_zero, h3 hc]
          simp
      | succ i =>
        obtain ⟨g1, g2, g3, g4⟩ := hr i (by omega)
        have hbl : blankAt (x :: r) (i + 1) = blankAt r i := by simp [blankAt]
        rw [hbl]
        simp only [List.getElem?_cons_succ]
        refine ⟨g1, g2, ?_, g4⟩
        intro h
        simpa using g3 h
    cases ts with
    | nil =>
      refine ⟨List.replicate (k + 1) 0x20, by simp [interpretLoop, rd], by simp, ?_⟩
      intro i hi
      refine ⟨by simp, by simp, by simp, fun _ => ?_⟩
      rw [blankAt_true_iff (c := 0x20) (by rw [List.getElem?_replicate, if_pos hi])]
      exact Or.inl rfl
    | cons t ts =>
      cases t with
      | plain c =>
        obtain ⟨hc0, hc1, hc2, hok'⟩ := hok
        refine step (if c = 0x6A ∨ c = 0x71 then 0x58 else 0x20) (plain c) ts rfl hok' ?_ ?_ (by simp) (by simp)
        · have hd : (plain c :: ts).flatMap render ++ [0] = c :: (ts.flatMap render ++ [0]) := rfl
          rw [hd]
          have hx : ((if c = 0x2D then (do let d ← rd (c :: (ts.flatMap render ++ [0])) 1; return d == 0x3D) else some false :
              UB Bool)) = some false := by
            by_cases hh : c = 0x2D
            · rw [if_pos hh]
              cases ts with
              | nil => rfl
              | cons t' ts' =>
                cases t' with
                | plain d =>
                  have : d ≠ 0x3D := hok'.2.1
                  simp [rd, render, this]
                | border d => exact absurd rfl (hc2 hh d)
                | hyphen => simp [rd, render]
            · rw [if_neg hh]
          conv => lhs; unfold interpretLoop
          rw [show rd (c :: (ts.flatMap render ++ [0])) 0 = some c from rfl]
          simp only [Option.bind_eq_bind, Option.bind_some, hc0, if_false]
          simp only [Option.bind_eq_bind] at hx
          rw [hx]
          simp only [Option.bind_some, Bool.false_eq_true, if_false, hc1]
          rfl
        · intro d _
          split
          · exact Or.inr rfl
          · exact Or.inl rfl
      | border c =>
        refine step 0x2D (border c) ts rfl hok ?_ (by simp) (by simp) (by simp)
        have hd : (border c :: ts).flatMap render ++ [0] = 0x3D :: c :: (ts.flatMap render ++ [0]) := rfl
        rw [hd]
        conv => lhs; unfold interpretLoop
        rw [show rd (0x3D :: c :: (ts.flatMap render ++ [0])) 0 = some 0x3D from rfl]
        simp
      | hyphen =>
        refine step (if first = true then 0x20 else 0x3D) hyphen ts rfl hok ?_ (by simp) (by simp) (by simp)
        have hd : (hyphen :: ts).flatMap render ++ [0] = 0x2D :: 0x3D :: (ts.flatMap render ++ [0]) := rfl
        rw [hd]
        conv => lhs; unfold interpretLoop
        rw [show rd (0x2D :: 0x3D :: (ts.flatMap render ++ [0])) 0 = some 0x2D from rfl]
        simp [rd]

/-- The pattern of an analysis whose STRUCTURE is given by elements. -/
theorem rawPattern_tokens (a : MorAn) (ts : List StructTok) (hok : Ok ts) (hs : HasElements a ts) (len : Nat)
    (dot : Bool) : ∃ p, rawPattern len dot a = some p ∧
      ∀ i < len - (if dot then 1 else 0), (∀ c, ts[i]? = some (plain c) → blankAt p i = true) ∧
        (∀ c, ts[i]? = some (border c) → p[i]? = some 0x2D) ∧
        (ts[i]? = some hyphen → p[i]? = some (if i = 0 then 0x20 else 0x3D)) ∧ (ts[i]? = none → blankAt p i = true) := by
  obtain ⟨r, e, l, hr⟩ := interpretLoop_tokens ts hok (len - (if dot then 1 else 0)) true
  refine ⟨r ++ (if dot then [0x20, 0] else [0]), ?_, ?_⟩
  · rcases hs with hs | ⟨hs, hh⟩
    · unfold rawPattern interpretAnalysis MorAn.structCells
      rw [hs]
      simp [structOf, rd, e]
    · have hc : ∃ c, rd (ts.flatMap render ++ [0]) 0 = some c ∧ c ≠ 0x3D := by
        cases ts with
        | nil => exact ⟨0, rfl, by decide⟩
        | cons t ts =>
          cases t with
          | plain c => exact ⟨c, rfl, hok.2.1⟩
          | border c => exact absurd rfl (hh c)
          | hyphen => exact ⟨0x2D, rfl, by decide⟩
      obtain ⟨c, hc, hne⟩ := hc
      unfold rawPattern interpretAnalysis MorAn.structCells
      rw [hs]
      simp only [Option.bind_eq_bind, Option.bind_some, hc, if_neg hne, e]
      simp
  · intro i hi
    have hg : ∀ x : List Wc, (r ++ x)[i]? = r[i]? := fun x => List.getElem?_append_left (by omega)
    have hb : ∀ x : List Wc, blankAt (r ++ x) i = blankAt r i := fun x => blankAt_congr (hg x)
    rw [hb, hg]
    simpa using hr i hi

/-- C61: with a single analysis, whose STRUCTURE has the given elements, each compound border of STRUCTURE appears in the
result: `-` before a character, `=` at a hyphen (unless it is the first character). -/
theorem C61_borders (o : HyphOpts) (an : Analyzer) (word r : List Wc) (h0 : 0 ∉ word) (hmin : o.minLength ≤ word.length)
    (a : MorAn) (ha : an word = [a]) (ts : List StructTok) (hok : Ok ts) (hs : HasElements a ts)
    (h : hyphenateUcs4 o an word = some (some r)) (i : Nat) (hi : i < word.length) :
    (∀ c, ts[i]? = some (border c) → r[i]? = some 0x2D) ∧ (ts[i]? = some hyphen → 0 < i → r[i]? = some 0x3D) := by
  have hdot : dotCut o an word = false := by simp [dotCut, ha]
  have hus : usedAnalyses o an word = [a] := by simp [usedAnalyses, hdot, ha]
  obtain ⟨hv, all, e⟩ := defined_cases intersectHyph o an word r hmin h
  obtain ⟨pats, rs, hr, _, e2⟩ := hyphenateWith_of intersectHyph o an word hv h0 hmin all e
  obtain ⟨p, hp, hcell⟩ := rawPattern_tokens a ts hok hs word.length false
  have hall : all = [p] := by
    have := interpretAll_eq _ _ _ _ e
    rw [hus, hdot] at this
    cases this with
    | cons h1 h2 =>
      cases h2
      rw [Option.some.inj (h1.symm.trans hp)]
  have hpats : pats = [p] := by
    by_cases hex : ∃ p ∈ all, ∀ i < word.length, blankAt p i = true
    · have := hr.split.unsplit (by rw [hall]; simp) hex
      rw [hall] at hex this
      obtain ⟨x, hx, hx2⟩ := hex
      rw [List.mem_singleton] at hx
      subst hx
      rw [List.filter_cons, if_pos (decide_eq_true hx2)] at this
      exact List.perm_singleton.1 this
    · rw [hr.split.split (by rw [hall]; simp) hex, hall]
  have hrules := hr.rules
  rw [hpats] at hrules
  cases hrules with
  | cons hc hnil =>
    rename_i q qs
    cases hnil
    have hlen : usedLen o an word = word.length := by unfold usedLen; rw [hdot]; simp
    have hpok := hr.split.ok p (by rw [hpats]; simp)
    have hpl := patOk_length hpok
    obtain ⟨q', f1, _, _, f4⟩ := compound_spec o.ugly o.minLength (word ++ [0]) (usedLen o an word) p
      (take_word_ne h0 _ (by omega)) (by simp; omega) (by omega)
    have : q' = q := Option.some.inj (f1.symm.trans hc)
    subst this
    have hkeep : blankAt p i = false → q'[i]? = p[i]? := by
      intro hb
      rcases f4 i with h | ⟨s, e, _, hpart, _, h2, h3, _⟩
      · exact h
      · have := hpart.inside i h2 h3
        rw [hb] at this; simp at this
    rw [show hyphenateUcs4 o an word = _ from e2, Option.map_eq_some_iff] at h
    obtain ⟨r', e3, h4⟩ := h
    rw [Option.some.injEq] at h4
    subst h4
    obtain ⟨r'', e5, _, g⟩ := intersect_spec word.length [q'] (by simp) hr.ok
    have : r'' = r' := Option.some.inj (e5.symm.trans e3)
    subst this
    obtain ⟨_, g2⟩ := g i hi
    have fin : ∀ x, p[i]? = some x → x = 0x2D ∨ x = 0x3D → r''[i]? = some x := by
      intro x hx hxx
      have hb : blankAt p i = false := (blankAt_false_iff hx).2 (by omega)
      have hq := hkeep hb
      rw [g2 (by
        intro y hy
        rw [List.mem_singleton] at hy
        subst hy
        rw [blankAt_congr hq]; exact hb)]
      simpa [hx] using hq
    obtain ⟨_, c2, c3, _⟩ := hcell i (by simpa using hi)
    refine ⟨fun c hc => fin _ (c2 c hc) (Or.inl rfl), fun hc hpos => fin _ ?_ (Or.inr rfl)⟩
    rw [c3 hc, if_neg (by omega)]

/-- What the condition of C37 means for the STRUCTURE: no border inside the word. -/
theorem C37_unsplit (o : HyphOpts) (an : Analyzer) (word : List Wc) (a : MorAn) (ts : List StructTok) (hok : Ok ts)
    (hs : HasElements a ts) :
    Unsplit o an word a ↔ ∀ i < usedLen o an word, ∀ t, ts[i]? = some t → t.inner = true ∨ (t = hyphen ∧ i = 0) := by
  obtain ⟨p, hp, hcell⟩ := rawPattern_tokens a ts hok hs word.length (dotCut o an word)
  have hU : Unsplit o an word a ↔ ∀ i < word.length, blankAt p i = true := by
    constructor
    · intro h; exact h p hp
    · intro h q hq
      rw [← Option.some.inj (hp.symm.trans hq)]; exact h
  rw [hU]
  unfold usedLen
  constructor
  · intro h i hi t ht
    obtain ⟨_, c2, c3, _⟩ := hcell i hi
    have hb := h i (by omega)
    cases t with
    | plain c => exact Or.inl rfl
    | border c =>
      rw [blankAt_true_iff (c2 c ht)] at hb
      omega
    | hyphen =>
      rw [blankAt_true_iff (c3 ht)] at hb
      right
      refine ⟨rfl, ?_⟩
      by_contra hne
      rw [if_neg hne] at hb
      omega
  · intro h i hi
    by_cases hlt : i < word.length - (if dotCut o an word then 1 else 0)
    · obtain ⟨c1, _, c3, c4⟩ := hcell i hlt
      cases ht : ts[i]? with
      | none => exact c4 ht
      | some t =>
        rcases h i hlt t ht with hin | ⟨rfl, hz⟩
        · cases t with
          | plain c => exact c1 c ht
          | border c => simp [inner] at hin
          | hyphen => simp [inner] at hin
        · rw [blankAt_true_iff (c3 ht), if_pos hz]
          exact Or.inl rfl
    · have hd : dotCut o an word = true := by
        cases hd : dotCut o an word with
        | true => rfl
        | false => rw [hd] at hlt; simp at hlt; omega
      rw [hd] at hlt hp
      simp only [if_true] at hlt
      unfold rawPattern at hp
      rw [Option.map_eq_some_iff] at hp
      obtain ⟨x, hx, hx2⟩ := hp
      obtain ⟨l, _⟩ := interpretAnalysis_sound _ _ _ hx
      simp only [if_true] at hx2 l
      rw [← hx2]
      have : i = x.length := by omega
      rw [blankAt_true_iff (c := 0x20) (by rw [List.getElem?_append_right (by omega), this]; simp)]
      exact Or.inl rfl

/-- "puutalo-osa" = puu + talo + - + osa. -/
def demoToks : List StructTok :=
  [plain 0x70, plain 0x70, plain 0x70, border 0x70, plain 0x70, plain 0x70, plain 0x70, hyphen, plain 0x70, plain 0x70, plain 0x70]

example : Ok demoToks ∧ structOf demoToks = lit "=ppp=pppp-=ppp" ∧
    hyphenateUcs4 {} (fun _ => [{ struct := some (structOf demoToks) }]) (lit "puutalo-osa") = some (some (lit "   - - = - ")) := by
  refine ⟨by simp [Ok, demoToks], by decide, by decide +kernel⟩

/-! ### C40 -/

/-- Output of the insertion loop without context changes: cutting the word before each `-` of the pattern and joining the
pieces with the hyphen. -/
theorem insertLoop_false (hyphen : List Wc) (pat : List Wc) (word rest : List Wc) (hl : pat.length = word.length) :
    ∃ (s : List Wc) (parts : List (List Wc)), insertLoop hyphen false pat (word ++ rest) = some s ∧ s = hyphen.intercalate parts ∧ parts.flatten = word ∧
      parts ≠ [] ∧ ∀ i, pat[i]? = some 0x2D ↔ ∃ k, 0 < k ∧ k < parts.length ∧ (parts.take k).flatten.length = i := by
  induction pat generalizing word with
  | nil =>
    have : word = [] := List.length_eq_zero_iff.1 (by simpa using hl.symm)
    subst this
    refine ⟨[], [[]], rfl, by simp [List.intercalate], by simp, by simp, ?_⟩
    intro i
    constructor
    · intro h; simp at h
    · rintro ⟨k, h1, h2, _⟩; simp at h2; omega
  | cons p ps ih =>
    cases word with
    | nil => simp at hl
    | cons c word =>
      obtain ⟨s, parts, e, hs, hf, hne, hcut⟩ := ih word (by simpa using hl)
      cases parts with
      | nil => exact absurd rfl hne
      | cons x xs =>
        have hrd : rd (c :: (word ++ rest)) 0 = some c := rfl
        have hdr : (c :: word ++ rest).drop 1 = word ++ rest := rfl
        have hic : ∀ y : List Wc, hyphen.intercalate ((c :: y) :: xs) = c :: hyphen.intercalate (y :: xs) := by
          intro y
          cases xs <;> simp [List.intercalate, List.intersperse]
        by_cases hp : p = 0x2D
        · refine ⟨hyphen ++ [c] ++ s, [] :: (c :: x) :: xs, ?_, ?_, ?_, by simp, ?_⟩
          · simp [insertLoop, hrd, hdr, e, hp]
          · rw [List.append_assoc]
            have : hyphen.intercalate ([] :: (c :: x) :: xs) = hyphen ++ hyphen.intercalate ((c :: x) :: xs) := by
              simp [List.intercalate, List.intersperse]
            rw [this, hic, hs]; rfl
          · simp at hf ⊢; exact hf
          · intro i
            cases i with
            | zero =>
              simp only [List.getElem?_cons_zero, hp, true_iff]
              exact ⟨1, by omega, by simp, by simp⟩
            | succ i =>
              rw [List.getElem?_cons_succ, hcut i]
              constructor
              · rintro ⟨k, k1, k2, k3⟩
                refine ⟨k + 1, by omega, by simpa using k2, ?_⟩
                obtain ⟨k, rfl⟩ : ∃ k', k = k' + 1 := ⟨k - 1, by omega⟩
                simp at k3 ⊢; omega
              · rintro ⟨k, k1, k2, k3⟩
                obtain ⟨k, rfl⟩ : ∃ k', k = k' + 1 := ⟨k - 1, by omega⟩
                cases k with
                | zero => simp at k3
                | succ k =>
                  refine ⟨k + 1, by omega, by simpa using k2, ?_⟩
                  simp at k3 ⊢; omega
        · refine ⟨[c] ++ s, (c :: x) :: xs, ?_, ?_, ?_, by simp, ?_⟩
          · simp [insertLoop, hrd, hdr, e, hp]
          · rw [hic, hs]; rfl
          · simp at hf ⊢; exact hf
          · intro i
            cases i with
            | zero =>
              simp only [List.getElem?_cons_zero, Option.some.injEq, hp, false_iff]
              rintro ⟨k, k1, k2, k3⟩
              obtain ⟨k, rfl⟩ : ∃ k', k = k' + 1 := ⟨k - 1, by omega⟩
              simp at k3
            | succ i =>
              rw [List.getElem?_cons_succ, hcut i]
              constructor
              · rintro ⟨k, k1, k2, k3⟩
                refine ⟨k, k1, by simpa using k2, ?_⟩
                obtain ⟨k, rfl⟩ : ∃ k', k = k' + 1 := ⟨k - 1, by omega⟩
                simp at k3 ⊢; omega
              · rintro ⟨k, k1, k2, k3⟩
                refine ⟨k, k1, by simpa using k2, ?_⟩
                obtain ⟨k, rfl⟩ : ∃ k', k = k' + 1 := ⟨k - 1, by omega⟩
                simp at k3 ⊢; omega

/-- Output of the insertion loop with context changes. -/
theorem insertLoop_true (hyphen : List Wc) (pat : List Wc) (word rest : List Wc) (hl : pat.length = word.length)
    (hp : ∀ c ∈ pat, c = 0x20 ∨ c = 0x2D ∨ c = 0x3D) :
    ∃ (s : List Wc) (pieces : List (List Wc)), insertLoop hyphen true pat (word ++ rest) = some s ∧ s = pieces.flatten ∧ pieces.length = word.length ∧
      ∀ (i : Nat) (c : Wc), word[i]? = some c → (pat[i]? = some 0x20 → pieces[i]? = some [c]) ∧
        (pat[i]? = some 0x2D → pieces[i]? = some (hyphen ++ [c])) ∧
        (pat[i]? = some 0x3D → pieces[i]? = some (if c = 0x2D then [0x2D] else hyphen)) := by
  induction pat generalizing word with
  | nil =>
    have : word = [] := List.length_eq_zero_iff.1 (by simpa using hl.symm)
    subst this
    exact ⟨[], [], rfl, rfl, rfl, by simp⟩
  | cons p ps ih =>
    cases word with
    | nil => simp at hl
    | cons c word =>
      obtain ⟨s, pieces, e, hs, hn, hpc⟩ := ih word (by simpa using hl) (fun c hc => hp c (by simp [hc]))
      have hrd : rd (c :: (word ++ rest)) 0 = some c := rfl
      have hdr : (c :: word ++ rest).drop 1 = word ++ rest := rfl
      have hp0 := hp p (by simp)
      refine ⟨(if p = 0x2D then hyphen ++ [c] else if p = 0x20 then [c] else if c = 0x2D then [0x2D] else hyphen) ++ s,
        (if p = 0x2D then hyphen ++ [c] else if p = 0x20 then [c] else if c = 0x2D then [0x2D] else hyphen) :: pieces,
        ?_, by simp [hs], by simp [hn], ?_⟩
      · rcases hp0 with rfl | rfl | rfl <;> simp [insertLoop, hrd, hdr, e]
      · intro i d hd
        cases i with
        | zero =>
          simp only [List.getElem?_cons_zero, Option.some.injEq] at hd
          subst hd
          rcases hp0 with rfl | rfl | rfl <;> simp
        | succ i =>
          simp only [List.getElem?_cons_succ] at hd ⊢
          exact hpc i d hd

theorem decoded (bytes w : List Nat) (hb : ∀ b ∈ bytes, b < 256) (h0 : 0 ∉ bytes) (h : ucs4FromUtf8 bytes = some (some w)) :
    (∀ c ∈ w, ValidCp c) ∧ bytes = encodeStr w ∧ 0 ∉ w := by
  obtain ⟨hv, he⟩ := (C15_decoder_exact bytes w hb).1 h
  refine ⟨hv, he, fun hm => h0 ?_⟩
  rw [he, encodeStr, List.mem_flatMap]
  exact ⟨0, hm, by decide⟩

theorem insert_cases (o : HyphOpts) (an : Analyzer) (word hyphen : List Nat) (ctx : Bool) (out : List Nat)
    (h : insertHyphensCstr o an word hyphen ctx = some (some out)) :
    ∃ w hy pat s, ucs4FromUtf8 word = some (some w) ∧ ucs4FromUtf8 hyphen = some (some hy) ∧
      hyphenateUcs4 o an (cstr w) = some (some pat) ∧ insertLoop (cstr hy) ctx pat (w ++ [0]) = some s ∧
      utf8FromUcs4 (cstr s) = some (some out) := by
  unfold insertHyphensCstr at h
  split at h
  · simp at h
  · cases h1 : ucs4FromUtf8 word with
    | none => rw [h1] at h; simp at h
    | some w =>
      rw [h1] at h
      cases w with
      | none => simp at h
      | some w =>
        simp only [Option.bind_eq_bind, Option.bind_some] at h
        cases h2 : ucs4FromUtf8 hyphen with
        | none => rw [h2] at h; simp at h
        | some hy =>
          rw [h2] at h
          cases hy with
          | none => simp at h
          | some hy =>
            simp only [Option.bind_eq_bind, Option.bind_some] at h
            cases h3 : hyphenateUcs4 o an (cstr w) with
            | none => rw [h3] at h; simp at h
            | some p =>
              rw [h3] at h
              cases p with
              | none => simp at h
              | some pat =>
                simp only [Option.bind_eq_bind, Option.bind_some] at h
                rw [Option.bind_eq_some_iff] at h
                obtain ⟨s, h4, h5⟩ := h
                exact ⟨w, hy, pat, s, rfl, rfl, h3, h4, h5⟩

theorem encodeStr_flatten (ps : List (List Nat)) : encodeStr ps.flatten = (ps.map encodeStr).flatten := by
  induction ps with
  | nil => rfl
  | cons p ps ih => simp only [List.flatten_cons, encodeStr_append, ih, List.map_cons]

theorem encodeStr_intercalate (h : List Nat) (ps : List (List Nat)) :
    encodeStr (h.intercalate ps) = (encodeStr h).intercalate (ps.map encodeStr) := by
  cases ps with
  | nil => rfl
  | cons p ps =>
    induction ps generalizing p with
    | nil => simp [List.intercalate, List.intersperse]
    | cons q ps ih =>
      have e1 : h.intercalate (p :: q :: ps) = p ++ (h ++ h.intercalate (q :: ps)) := by
        simp [List.intercalate, List.intersperse]
      have e2 : (encodeStr h).intercalate ((p :: q :: ps).map encodeStr) =
          encodeStr p ++ (encodeStr h ++ (encodeStr h).intercalate ((q :: ps).map encodeStr)) := by
        simp [List.intercalate, List.intersperse]
      rw [e1, e2, encodeStr_append, encodeStr_append, ih]

theorem mem_intercalate {h : List Nat} {ps : List (List Nat)} {c : Nat} (hm : c ∈ h.intercalate ps) : c ∈ h ∨ c ∈ ps.flatten := by
  cases ps with
  | nil => simp [List.intercalate] at hm
  | cons p ps =>
    induction ps generalizing p with
    | nil => simp [List.intercalate, List.intersperse] at hm; exact Or.inr (by simpa using hm)
    | cons q ps ih =>
      have e1 : h.intercalate (p :: q :: ps) = p ++ (h ++ h.intercalate (q :: ps)) := by
        simp [List.intercalate, List.intersperse]
      rw [e1, List.mem_append, List.mem_append] at hm
      rcases hm with hm | hm | hm
      · exact Or.inr (by simp [hm])
      · exact Or.inl hm
      · rcases ih q hm with h' | h'
        · exact Or.inl h'
        · exact Or.inr (by rw [List.flatten_cons, List.mem_append]; exact Or.inr h')

/-- C40: without context changes the result is the word, cut at some places, with a copy of the hyphen at each cut. The cuts
are exactly the `-` of the hyphenation pattern (`parts` are the pieces of the word as code points). -/
theorem C40_insert (o : HyphOpts) (an : Analyzer) (word hyphen out : List Nat) (hb : ∀ b ∈ word, b < 256) (h0 : 0 ∉ word)
    (hb' : ∀ b ∈ hyphen, b < 256) (h0' : 0 ∉ hyphen) (h : insertHyphensCstr o an word hyphen false = some (some out)) :
    ∃ (w pat : List Wc) (parts : List (List Wc)), ucs4FromUtf8 word = some (some w) ∧ hyphenateCstr o an word = some (some pat) ∧ parts.flatten = w ∧
      (parts.map encodeStr).flatten = word ∧ out = hyphen.intercalate (parts.map encodeStr) ∧
      ∀ i, pat[i]? = some 0x2D ↔ ∃ k, 0 < k ∧ k < parts.length ∧ (parts.take k).flatten.length = i := by
  obtain ⟨w, hy, pat, s, h1, h2, h3, h4, h5⟩ := insert_cases o an word hyphen false out h
  obtain ⟨hv, he, hw0⟩ := decoded word w hb h0 h1
  obtain ⟨hv', he', hw0'⟩ := decoded hyphen hy hb' h0' h2
  have hlen : ¬ word.length > maxWordChars := by
    intro hl
    unfold insertHyphensCstr at h
    rw [if_pos hl] at h
    simp at h
  have hcstr : hyphenateCstr o an word = some (some pat) := by
    unfold hyphenateCstr
    rw [if_neg hlen, h1]
    exact h3
  rw [cstr_eq w hw0] at h3
  rw [cstr_eq hy hw0'] at h4
  obtain ⟨l, _⟩ := C35_pattern o an w pat hw0 h3
  obtain ⟨s', parts, e, hs, hf, hne, hcut⟩ := insertLoop_false hy pat w [0] l
  have : s' = s := Option.some.inj (e.symm.trans h4)
  subst this
  have hmem : ∀ c ∈ s', c ∈ hy ∨ c ∈ w := by
    intro c hc
    rw [hs] at hc
    have := mem_intercalate hc
    rwa [hf] at this
  have hs0 : 0 ∉ s' := fun hm => (hmem 0 hm).elim hw0' hw0
  rw [cstr_eq s' hs0, (utf8FromUcs4_eq s').1 (fun c hc => (hmem c hc).elim (hv' c) (hv c)), Option.some.injEq,
    Option.some.injEq] at h5
  refine ⟨w, pat, parts, h1, hcstr, hf, ?_, ?_, hcut⟩
  · rw [← encodeStr_flatten, hf, he]
  · rw [← h5, hs, encodeStr_intercalate, he']

/-- C40: with context changes each character becomes one piece; only characters marked `=` are replaced, by the hyphen, and
a real hyphen is kept even then. -/
theorem C40_context (o : HyphOpts) (an : Analyzer) (word hyphen out : List Nat) (hb : ∀ b ∈ word, b < 256) (h0 : 0 ∉ word)
    (hb' : ∀ b ∈ hyphen, b < 256) (h0' : 0 ∉ hyphen) (h : insertHyphensCstr o an word hyphen true = some (some out)) :
    ∃ (w pat : List Wc) (pieces : List (List Nat)), ucs4FromUtf8 word = some (some w) ∧ hyphenateCstr o an word = some (some pat) ∧
      pieces.length = w.length ∧ out = pieces.flatten ∧
      ∀ (i : Nat) (c : Wc), w[i]? = some c → (pat[i]? = some 0x20 → pieces[i]? = some (enc c)) ∧
        (pat[i]? = some 0x2D → pieces[i]? = some (hyphen ++ enc c)) ∧
        (pat[i]? = some 0x3D → pieces[i]? = some (if c = 0x2D then enc c else hyphen)) := by
  obtain ⟨w, hy, pat, s, h1, h2, h3, h4, h5⟩ := insert_cases o an word hyphen true out h
  obtain ⟨hv, he, hw0⟩ := decoded word w hb h0 h1
  obtain ⟨hv', he', hw0'⟩ := decoded hyphen hy hb' h0' h2
  have hlen : ¬ word.length > maxWordChars := by
    intro hl
    unfold insertHyphensCstr at h
    rw [if_pos hl] at h
    simp at h
  have hcstr : hyphenateCstr o an word = some (some pat) := by
    unfold hyphenateCstr
    rw [if_neg hlen, h1]
    exact h3
  rw [cstr_eq w hw0] at h3
  rw [cstr_eq hy hw0'] at h4
  obtain ⟨l, hpc⟩ := C35_pattern o an w pat hw0 h3
  obtain ⟨s', pieces, e, hs, hn, hcell⟩ := insertLoop_true hy pat w [0] l hpc
  have : s' = s := Option.some.inj (e.symm.trans h4)
  subst this
  have hpiece : ∀ x ∈ pieces, ∀ c ∈ x, c ∈ hy ∨ c ∈ w := by
    intro x hx c hc
    rw [List.mem_iff_getElem] at hx
    obtain ⟨i, hi, rfl⟩ := hx
    have hiw : i < w.length := by omega
    have hip : i < pat.length := by omega
    obtain ⟨g1, g2, g3⟩ := hcell i w[i] (List.getElem?_eq_getElem hiw)
    rw [List.getElem?_eq_getElem hi, List.getElem?_eq_getElem hip] at g1 g2 g3
    simp only [Option.some.injEq] at g1 g2 g3
    have hwm : w[i] ∈ w := List.getElem_mem hiw
    rcases hpc _ (List.getElem_mem hip) with h | h | h
    · rw [g1 h, List.mem_singleton] at hc; rw [hc]; exact Or.inr hwm
    · rw [g2 h, List.mem_append, List.mem_singleton] at hc
      rcases hc with hc | hc
      · exact Or.inl hc
      · rw [hc]; exact Or.inr hwm
    · rw [g3 h] at hc
      split at hc
      · rename_i hd
        rw [List.mem_singleton] at hc; rw [hc, ← hd]; exact Or.inr hwm
      · exact Or.inl hc
  have hmem : ∀ c ∈ s', c ∈ hy ∨ c ∈ w := by
    intro c hc
    rw [hs, List.mem_flatten] at hc
    obtain ⟨x, hx, hc⟩ := hc
    exact hpiece x hx c hc
  have hs0 : 0 ∉ s' := fun hm => (hmem 0 hm).elim hw0' hw0
  rw [cstr_eq s' hs0, (utf8FromUcs4_eq s').1 (fun c hc => (hmem c hc).elim (hv' c) (hv c)), Option.some.injEq,
    Option.some.injEq] at h5
  refine ⟨w, pat, pieces.map encodeStr, h1, hcstr, by simp [hn], ?_, ?_⟩
  · rw [← h5, hs, encodeStr_flatten]
  · intro i c hc
    obtain ⟨g1, g2, g3⟩ := hcell i c hc
    rw [List.getElem?_map]
    have hone : encodeStr [c] = enc c := by simp [encodeStr]
    refine ⟨fun h => by rw [g1 h, Option.map_some, hone], fun h => ?_, fun h => ?_⟩
    · rw [g2 h, Option.map_some, encodeStr_append, hone, he']
    · rw [g3 h, Option.map_some]
      by_cases hd : c = 0x2D
      · rw [if_pos hd, if_pos hd, hd]; rfl
      · rw [if_neg hd, if_neg hd, he']

theorem insertLoop_mem (hyphen : List Wc) (ctx : Bool) (pat word rest : List Wc) (hl : pat.length = word.length) :
    ∃ s, insertLoop hyphen ctx pat (word ++ rest) = some s ∧ ∀ c ∈ s, c ∈ hyphen ∨ c ∈ word := by
  induction pat generalizing word with
  | nil => exact ⟨[], rfl, by simp⟩
  | cons p ps ih =>
    cases word with
    | nil => simp at hl
    | cons c word =>
      obtain ⟨s, e, hs⟩ := ih word (by simpa using hl)
      have hrd : rd (c :: (word ++ rest)) 0 = some c := rfl
      have hs' : ∀ d ∈ s, d ∈ hyphen ∨ d ∈ c :: word := fun d hd => (hs d hd).imp id (List.mem_cons_of_mem _)
      have key : ∀ piece : List Wc, (∀ d ∈ piece, d ∈ hyphen ∨ d ∈ c :: word) →
          ∀ d ∈ piece ++ s, d ∈ hyphen ∨ d ∈ c :: word := by
        intro piece h d hd
        rw [List.mem_append] at hd
        exact hd.elim (h d) (hs' d)
      unfold insertLoop
      simp only [List.cons_append, hrd, Option.bind_eq_bind, Option.bind_some, List.drop_succ_cons, List.drop_zero, e, Option.pure_def]
      refine ⟨_, rfl, key _ ?_⟩
      intro d hd
      split at hd
      · rw [List.mem_append, List.mem_singleton] at hd
        exact hd.imp id (fun h => by simp [h])
      · split at hd
        · rw [List.mem_singleton] at hd
          exact Or.inr (by simp [hd])
        · split at hd
          · split at hd
            · rename_i hc
              rw [List.mem_singleton] at hd
              exact Or.inr (by simp [hd, hc])
            · exact Or.inl hd
          · simp at hd

/-- C36/C40: with usable structures the insertion of hyphens is memory safe; no result exactly for words over 255 bytes and
for invalid UTF-8 in the word or the hyphen. -/
theorem C40_total_partial (o : HyphOpts) (an : Analyzer) (ha : StructuresOk an) (word hyphen : List Nat) (ctx : Bool)
    (hb : ∀ b ∈ word, b < 256) (h0 : 0 ∉ word) (hb' : ∀ b ∈ hyphen, b < 256) (h0' : 0 ∉ hyphen) :
    ∃ out, insertHyphensCstr o an word hyphen ctx = some out ∧
      (out = none ↔ word.length > 255 ∨ ucs4FromUtf8 word = some none ∨ ucs4FromUtf8 hyphen = some none) := by
  unfold insertHyphensCstr
  by_cases hlen : word.length > maxWordChars
  · rw [if_pos hlen]
    exact ⟨none, rfl, by simp; exact Or.inl hlen⟩
  · rw [if_neg hlen]
    have hlen' : ¬ word.length > 255 := hlen
    cases h1 : ucs4FromUtf8 word with
    | none => exact absurd h1 (C15_in_bounds word hb)
    | some w =>
      cases w with
      | none => exact ⟨none, rfl, by simp⟩
      | some w =>
        simp only [Option.bind_eq_bind, Option.bind_some]
        cases h2 : ucs4FromUtf8 hyphen with
        | none => exact absurd h2 (C15_in_bounds hyphen hb')
        | some hy =>
          cases hy with
          | none => exact ⟨none, rfl, by simp⟩
          | some hy =>
            simp only [Option.bind_eq_bind, Option.bind_some]
            obtain ⟨hv, he, hw0⟩ := decoded word w hb h0 h1
            obtain ⟨hv', he', hw0'⟩ := decoded hyphen hy hb' h0' h2
            rw [cstr_eq w hw0, cstr_eq hy hw0']
            obtain ⟨p, h3, hp⟩ := C36_partial o an ha w hw0
            cases p with
            | none => exact absurd hv (hp.1 rfl).2
            | some pat =>
              obtain ⟨l, hpc⟩ := C35_pattern o an w pat hw0 h3
              obtain ⟨s, e, hmem⟩ := insertLoop_mem hy ctx pat w [0] l
              have hs : ∀ c ∈ cstr s, ValidCp c := fun c hc =>
                (hmem c ((List.takeWhile_sublist _).subset hc)).elim (hv' c) (hv c)
              rw [h3]
              simp only [Option.bind_some, e]
              rw [(utf8FromUcs4_eq (cstr s)).1 hs]
              exact ⟨_, rfl, by simp; omega⟩

/-- "rei'issä": the apostrophe is replaced by the hyphen only with context changes. -/
example : insertHyphensCstr {} (fun _ => []) (lit "rei'issa") (lit "-") true = some (some (lit "rei-is-sa")) ∧
    insertHyphensCstr {} (fun _ => []) (lit "rei'issa") (lit "-") false = some (some (lit "rei'is-sa")) ∧
    0 ∉ lit "rei'issa" ∧ (∀ b ∈ lit "rei'issa", b < 256) := by decide +kernel

end Verif.Props
