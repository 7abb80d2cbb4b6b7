import Verif.Model.Spell
import Verif.Lemmas.SpellerCache
import Verif.Props.Case
import Verif.Props.Normalise
import Verif.Props.Nonword
import Verif.Props.TokenizerCstr
/-! Refinement of `voikkoSpellUcs4` to a declarative description. -/

namespace Verif.Props
open Verif

/-! ### Specification -/

/-- The word with the hyphens that are missing from its ends (none for words of fewer than two characters or
with both hyphens present). -/
def edgeHyphens (w : List Wc) : Option (List Wc) :=
  if w.length < 2 then none
  else if w.head? = some 0x2D then
    if w.getLast? = some 0x2D then none else some (w ++ [0x2D])
  else if w.getLast? = some 0x2D then some (0x2D :: w) else some (0x2D :: w ++ [0x2D])

/-- Dictionary that also knows words lacking edge hyphens. -/
def withEdges (dict : List Wc → SpellRes) (w : List Wc) : SpellRes :=
  if dict w = .failed then
    match edgeHyphens w with
    | some w' => dict w'
    | none => .failed
  else dict w

/-- The dictionary as seen under `ACCEPT_MISSING_HYPHENS`. -/
def effDict (dict : List Wc → SpellRes) (missing : Bool) : List Wc → SpellRes :=
  if missing then withEdges dict else dict

/-- Is the dictionary verdict `r` (for the lower case form) good enough for a word of case type `t`? -/
def caseOk (o : SpellOpts) : CaseType → SpellRes → Bool
  | .allLower, r => r == .ok
  | .firstUpper, r => (r == .ok && o.acceptFirstUppercase) || r == .capFirst
  | .allUpper, r => r != .failed
  | _, _ => false

/-- Only the first letter in lower case. -/
def lowerFirst : List Wc → List Wc
  | [] => []
  | c :: cs => lower c :: cs

/-- Acceptance of a normalised word by dictionary `d`. -/
def dictAccepts (d : List Wc → SpellRes) (o : SpellOpts) (w : List Wc) : Bool :=
  let dot := o.ignoreDot && w.getLast? == some 0x2E
  match effectiveCaps o (caseType w) with
  | .complex | .noLetters =>
    let ok := fun v => exactOk o (w.headD 0) (d v)
    ok (lowerFirst w) || (dot && ok (lowerFirst w).dropLast)
  | t =>
    let ok := fun v => caseOk o t (d v)
    ok (w.map lower) || (dot && ok (w.map lower).dropLast)

/-- `voikko_is_nonword` as a Boolean. -/
def nonwordB (w : List Wc) : Bool := isNonword w == some true

/-- Acceptance of a word by the spelling function. -/
def accepts (dict : List Wc → SpellRes) (o : SpellOpts) (word : List Wc) : Bool :=
  let w := normSpec word
  word.isEmpty || (decide (word.length ≤ 255) &&
    ((o.ignoreNumbers && w.any isDigit) || (o.ignoreUppercase && caseType w == .allUpper) ||
     (o.ignoreNonwords && nonwordB w) || dictAccepts (effDict dict o.acceptMissingHyphens) o w))

/-! ### Characters -/

theorem iteInd {P : Nat → Prop} {p : Prop} [Decidable p] {a b : Nat} (ha : p → P a) (hb : ¬ p → P b) :
    P (if p then a else b) := by
  split
  · exact ha ‹_›
  · exact hb ‹_›

theorem lower_eq_or (c : Wc) : lower c = c ∨ (0x61 ≤ lower c ∧ lower c < 0x530) := by
  show (fun r => r = c ∨ (0x61 ≤ r ∧ r < 0x530)) (lower c)
  unfold lower
  repeat refine iteInd (P := fun r => r = c ∨ (0x61 ≤ r ∧ r < 0x530)) (fun _ => by omega) (fun _ => ?_)
  exact Or.inl rfl

theorem upper_eq_or (c : Wc) : upper c = c ∨ (0x41 ≤ upper c ∧ upper c < 0x530) := by
  show (fun r => r = c ∨ (0x41 ≤ r ∧ r < 0x530)) (upper c)
  unfold upper
  repeat refine iteInd (P := fun r => r = c ∨ (0x41 ≤ r ∧ r < 0x530)) (fun _ => by omega) (fun _ => ?_)
  exact Or.inl rfl

theorem lower_dot (c : Wc) : lower c = 0x2E ↔ c = 0x2E := by
  constructor
  · intro h
    rcases lower_eq_or c with h1 | h1 <;> omega
  · rintro rfl; rfl

theorem wordOk_lower {w : List Wc} (h : WordOk w) : WordOk (w.map lower) := by
  intro c hc
  rw [List.mem_map] at hc
  obtain ⟨d, hd, rfl⟩ := hc
  have := h d hd
  rcases lower_eq_or d with h1 | h1 <;> omega

theorem convSingle_ok (c : Wc) (h : c ≠ 0 ∧ c ≤ 0x10FFFF) : WordOk (convSingle c) := by
  have t1 : ∀ e ∈ conv1to1, e.2 ≠ 0 ∧ e.2 ≤ 0x10FFFF := by decide
  have t2 : ∀ e ∈ conv1to2, (e.2.1 ≠ 0 ∧ e.2.1 ≤ 0x10FFFF) ∧ e.2.2 ≠ 0 ∧ e.2.2 ≤ 0x10FFFF := by decide
  have t3 : ∀ e ∈ conv1to3, (e.2.1 ≠ 0 ∧ e.2.1 ≤ 0x10FFFF) ∧ (e.2.2.1 ≠ 0 ∧ e.2.2.1 ≤ 0x10FFFF) ∧
      e.2.2.2 ≠ 0 ∧ e.2.2.2 ≤ 0x10FFFF := by decide
  unfold convSingle
  split
  · rename_i e he
    have := t1 e (List.mem_of_find?_eq_some he)
    intro x hx; simp only [List.mem_singleton] at hx; subst hx; exact this
  · split
    · rename_i e he
      have := t2 e (List.mem_of_find?_eq_some he)
      intro x hx; simp only [List.mem_cons, List.not_mem_nil, or_false] at hx
      rcases hx with rfl | rfl
      · exact this.1
      · exact this.2
    · split
      · rename_i e he
        have := t3 e (List.mem_of_find?_eq_some he)
        intro x hx; simp only [List.mem_cons, List.not_mem_nil, or_false] at hx
        rcases hx with rfl | rfl | rfl
        · exact this.1
        · exact this.2.1
        · exact this.2.2
      · intro x hx; simp only [List.mem_singleton] at hx; subst hx; exact h

theorem wordOk_normSpec {w : List Wc} (h : WordOk w) : WordOk (normSpec w) := by
  have t : ∀ e ∈ conv2to1, e.2.2 ≠ 0 ∧ e.2.2 ≤ 0x10FFFF := by decide
  induction w using normSpec.induct with
  | case1 => simp [normSpec, WordOk]
  | case2 c => rw [normSpec]; exact convSingle_ok c (h c (by simp))
  | case3 c d rest e he ih =>
    rw [normSpec, he]
    intro x hx
    rw [List.mem_cons] at hx
    rcases hx with rfl | hx
    · exact t _ (findPair_some he)
    · exact ih (fun y hy => h y (by simp [hy])) x hx
  | case4 c d rest he ih =>
    rw [normSpec, he]
    intro x hx
    rw [List.mem_append] at hx
    rcases hx with hx | hx
    · exact convSingle_ok c (h c (by simp)) x hx
    · exact ih (fun y hy => h y (by simp [List.mem_cons.1 hy])) x hx

theorem normSpec_ne_nil {w : List Wc} (h : w ≠ []) : normSpec w ≠ [] := by
  match w, h with
  | [c], _ =>
    rw [normSpec]; intro e
    have := (convSingle_length c).1
    rw [e] at this; simp at this
  | c :: d :: rest, _ =>
    rw [normSpec]
    split
    · simp
    · intro e
      have := (convSingle_length c).1
      rw [List.append_eq_nil_iff] at e
      rw [e.1] at this; simp at this

/-! ### The pieces -/

theorem hyphenAwareSpell_eq (dict : List Wc → SpellRes) (missing : Bool) (buf : List Wc) (len : Nat)
    (h : len ≤ buf.length) : hyphenAwareSpell dict missing buf len = some (effDict dict missing (buf.take len)) := by
  unfold hyphenAwareSpell dictSpell
  simp only [h, if_true, Option.pure_def, Option.bind_eq_bind, Option.bind_some]
  cases missing with
  | false => simp [effDict]
  | true =>
    simp only [effDict, if_true, Bool.not_true, Bool.or_false, withEdges]
    by_cases hf : dict (buf.take len) = .failed
    · simp only [hf, bne_self_eq_false, Bool.false_eq_true, if_false, if_true]
      unfold edgeHyphens
      have hlen : (buf.take len).length = len := by rw [List.length_take]; omega
      rw [hlen]
      by_cases h2 : len < 2
      · simp [h2]
      · have h0 : 0 < buf.length := by omega
        have h1 : len - 1 < buf.length := by omega
        have e0 : (buf.take len).head? = some buf[0] := by
          rw [List.head?_eq_getElem?, List.getElem?_take, if_pos (by omega), List.getElem?_eq_getElem h0]
        have e1 : (buf.take len).getLast? = some buf[len - 1] := by
          rw [List.getLast?_eq_getElem?, hlen, List.getElem?_take, if_pos (by omega), List.getElem?_eq_getElem h1]
        simp only [h2, if_false, rd_eq_some h0, rd_eq_some h1, Option.bind_some, e0, e1, Option.some.injEq]
        by_cases a : buf[0] = 0x2D <;> by_cases b : buf[len - 1] = 0x2D <;> simp [a, b]
    · simp [hf]

/-- Cache state invariant. -/
def CacheInv (f : List Wc → SpellRes) : Option SpellerCache → Prop
  | none => True
  | some c => CacheOk f c

theorem cachedSpell_eq (dict : List Wc → SpellRes) (missing : Bool) (cache : Option SpellerCache)
    (hc : CacheInv (effDict dict missing) cache) (buf : List Wc) (len : Nat) (h1 : 1 ≤ len) (h : len ≤ buf.length)
    (hw : WordOk (buf.take len)) :
    ∃ cache', cachedSpell dict missing cache buf len = some (effDict dict missing (buf.take len), cache') ∧
      CacheInv (effDict dict missing) cache' ∧ (cache = none → cache' = none) := by
  have hs := hyphenAwareSpell_eq dict missing buf len h
  have hlen : 1 ≤ (buf.take len).length := by rw [List.length_take]; omega
  cases cache with
  | none =>
    refine ⟨none, ?_, trivial, fun _ => rfl⟩
    unfold cachedSpell
    simp [hs]
  | some c =>
    unfold cachedSpell
    have hin : ∃ b, c.isInCache (buf.take len) = some b := by
      by_cases hl : (buf.take len).length ≤ 10
      · obtain ⟨_, b, _, _, hb, _⟩ := isInCache_spec c hc.1 _ hw hl
        exact ⟨b, hb⟩
      · exact ⟨false, by unfold SpellerCache.isInCache; rw [if_pos (by omega)]; rfl⟩
    obtain ⟨b, hb⟩ := hin
    simp only [hb, Option.bind_eq_bind, Option.bind_some]
    cases b with
    | true =>
      have := hc.2 _ hw hlen hb
      simp only [this, if_true, Option.bind_some]
      exact ⟨some c, rfl, hc, fun e => by simp at e⟩
    | false =>
      obtain ⟨c', h2, h3⟩ := setSpellResult_ok _ c hc _ hw hlen
      simp only [hs, h2, Bool.false_eq_true, if_false, Option.bind_some]
      exact ⟨some c', rfl, h3, fun e => by simp at e⟩

theorem spellExact_eq (dict : List Wc → SpellRes) (o : SpellOpts) (c : Wc) (cs buffer : List Wc)
    (hb : buffer.length = (c :: cs).length + 1) (dot : Option Nat) (hdot : ∀ d, dot = some d → d = cs.length) :
    spellExact dict o (c :: cs) buffer dot = some
      (if exactOk o c (effDict dict o.acceptMissingHyphens (lower c :: cs)) ||
          (dot.isSome && exactOk o c (effDict dict o.acceptMissingHyphens (lower c :: cs).dropLast))
       then .ok else .failed) := by
  simp only [List.length_cons] at hb
  have ew := wrList_eq (c :: cs) buffer 0 (by simp only [List.length_cons]; omega)
  simp only [List.take_zero, List.nil_append, Nat.zero_add, List.length_cons] at ew
  unfold spellExact
  simp only [ew, Option.bind_eq_bind, Option.bind_some, List.cons_append]
  have e0 : rd (c :: (cs ++ buffer.drop (cs.length + 1))) 0 = some c := rfl
  have e1 : rd (c :: cs) 0 = some c := rfl
  simp only [e0, e1, Option.bind_some]
  rw [wr_eq_some _ (by simp)]
  simp only [Option.bind_some, List.set_cons_zero, List.length_cons]
  rw [hyphenAwareSpell_eq _ _ _ _ (by simp)]
  simp only [Option.bind_some]
  have et : (lower c :: (cs ++ buffer.drop (cs.length + 1))).take (cs.length + 1) = lower c :: cs := by simp
  rw [et]
  cases h1 : exactOk o c (effDict dict o.acceptMissingHyphens (lower c :: cs))
  · simp only [Bool.false_or, Bool.false_eq_true, if_false]
    cases dot with
    | none => simp
    | some d =>
      obtain rfl := hdot d rfl
      simp only [Option.isSome_some, Bool.true_and]
      rw [wr_eq_some _ (by simp; omega)]
      simp only [Option.bind_some]
      rw [hyphenAwareSpell_eq _ _ _ _ (by simp; omega)]
      simp only [Option.bind_some, Nat.add_sub_cancel]
      have ed : ((lower c :: (cs ++ buffer.drop (cs.length + 1))).set cs.length 0).take cs.length =
          (lower c :: cs).dropLast := by
        rw [List.take_set_of_le (Nat.le_refl _), List.dropLast_eq_take, List.length_cons, Nat.add_sub_cancel]
        have : lower c :: (cs ++ buffer.drop (cs.length + 1)) = (lower c :: cs) ++ buffer.drop (cs.length + 1) := rfl
        rw [this, List.take_append_of_le_length (by simp)]
      rw [ed]
      split <;> rfl
  · simp

theorem judge_eq (o : SpellOpts) (t : CaseType) (r : SpellRes) (h : t ≠ .complex ∧ t ≠ .noLetters) :
    judge o t r = if caseOk o t r then .ok else .failed := by
  cases t with
  | allLower => rfl
  | firstUpper => rfl
  | allUpper => cases r <;> rfl
  | complex => simp at h
  | noLetters => simp at h

theorem dropLast_append_getLast? {w : List Wc} {x : Wc} (h : w.getLast? = some x) : w = w.dropLast ++ [x] := by
  rw [List.getLast?_eq_some_iff] at h
  obtain ⟨ys, rfl⟩ := h
  simp

theorem wordOk_dropLast {w : List Wc} (h : WordOk w) : WordOk w.dropLast :=
  fun c hc => h c ((List.dropLast_sublist w).subset hc)

theorem dropLast_ne_nil_of_cased (w : List Wc) (t : CaseType) (o : SpellOpts)
    (h : effectiveCaps o (caseType w) = t) (ht : t ≠ .complex ∧ t ≠ .noLetters) (hl : w.getLast? = some 0x2E) :
    1 ≤ w.dropLast.length := by
  rcases Nat.eq_zero_or_pos w.dropLast.length with h0 | h0
  · have hn := List.eq_nil_of_length_eq_zero h0
    have := dropLast_append_getLast? hl
    rw [hn] at this
    subst this
    exfalso
    have : caseType ([] ++ [0x2E]) = .noLetters := by decide
    rw [this] at h
    simp [effectiveCaps] at h
    exact ht.2 h.symm
  · exact h0

theorem spellFolded_eq (dict : List Wc → SpellRes) (o : SpellOpts) (t : CaseType) (cache : Option SpellerCache)
    (hc : CacheInv (effDict dict o.acceptMissingHyphens) cache) (v : List Wc) (hv : WordOk v) (h1 : 1 ≤ v.length)
    (ht : t ≠ .complex ∧ t ≠ .noLetters) (dot : Bool)
    (hdot : dot = true → 1 ≤ v.dropLast.length ∧ v.getLast? = some 0x2E) :
    ∃ cache', spellFolded dict o t cache v.length
        (if dot then v.dropLast ++ [0, 0] else v ++ [0]) (if dot then some (v.length - 1) else none) =
      some (if caseOk o t (effDict dict o.acceptMissingHyphens v) ||
          (dot && caseOk o t (effDict dict o.acceptMissingHyphens v.dropLast)) then .ok else .failed, cache') ∧
      CacheInv (effDict dict o.acceptMissingHyphens) cache' ∧ (cache = none → cache' = none) := by
  unfold spellFolded
  cases dot with
  | false =>
    simp only [Bool.false_eq_true, if_false, Bool.false_and, Bool.or_false]
    have et : (v ++ [0]).take v.length = v := by simp
    obtain ⟨c1, g1, g2, g3⟩ := cachedSpell_eq dict o.acceptMissingHyphens cache hc (v ++ [0]) v.length h1 (by simp)
      (by rw [et]; exact hv)
    rw [et] at g1
    simp only [g1, Option.bind_eq_bind, Option.bind_some, judge_eq o t _ ht]
    cases caseOk o t (effDict dict o.acceptMissingHyphens v)
    · exact ⟨c1, by simp, g2, g3⟩
    · exact ⟨c1, by simp, g2, g3⟩
  | true =>
    obtain ⟨d1, d2⟩ := hdot rfl
    simp only [if_true, Bool.true_and]
    have hdl : v.dropLast.length = v.length - 1 := List.length_dropLast
    have et : (v.dropLast ++ [0, 0]).take (v.length - 1) = v.dropLast := by
      rw [← hdl]; simp
    obtain ⟨c1, g1, g2, g3⟩ := cachedSpell_eq dict o.acceptMissingHyphens cache hc (v.dropLast ++ [0, 0]) (v.length - 1)
      (by omega) (by simp) (by rw [et]; exact wordOk_dropLast hv)
    rw [et] at g1
    simp only [g1, Option.bind_eq_bind, Option.bind_some, judge_eq o t _ ht]
    cases hk : caseOk o t (effDict dict o.acceptMissingHyphens v.dropLast)
    · have ew : wr (v.dropLast ++ [0, 0]) (v.length - 1) 0x2E = some (v ++ [0]) := by
        rw [wr_eq_some _ (by simp), Option.some.injEq, List.set_append_right _ _ (by omega), hdl, Nat.sub_self]
        conv => rhs; rw [dropLast_append_getLast? d2]
        simp
      have et2 : (v ++ [0]).take v.length = v := by simp
      obtain ⟨c2, k1, k2, k3⟩ := cachedSpell_eq dict o.acceptMissingHyphens c1 g2 (v ++ [0]) v.length h1 (by simp)
        (by rw [et2]; exact hv)
      rw [et2] at k1
      simp only [Bool.false_eq_true, if_false, ew, Option.bind_some, k1, Bool.or_false]
      refine ⟨c2, rfl, k2, fun h => k3 (g3 h)⟩
    · refine ⟨c1, by simp, g2, g3⟩

theorem map_lower_getLast? (w : List Wc) : (w.map lower).getLast? = some 0x2E ↔ w.getLast? = some 0x2E := by
  rw [List.getLast?_map]
  cases w.getLast? with
  | none => simp
  | some x => simp [lower_dot]

theorem dotIndex_eq (o : SpellOpts) (w : List Wc) (h : w ≠ []) :
    dotIndex o (w.map lower ++ [0]) w.length =
      some (if o.ignoreDot && w.getLast? == some 0x2E then some (w.length - 1) else none) := by
  have hl := List.length_pos_iff.2 h
  unfold dotIndex
  cases o.ignoreDot with
  | false => simp
  | true =>
    have h1 : w.length - 1 < (w.map lower ++ [0]).length := by simp; omega
    simp only [if_true, Bool.true_and]
    rw [if_neg (by omega), rd_eq_some h1]
    simp only [Option.bind_eq_bind, Option.bind_some]
    have e1 : (w.map lower ++ [0])[w.length - 1] = lower (w.getLast h) := by
      rw [List.getElem_append_left (by simp; omega), List.getElem_map, List.getLast_eq_getElem]
    rw [e1]
    have e2 : w.getLast? = some (w.getLast h) := List.getLast?_eq_some_getLast h
    rw [e2]
    by_cases hd : w.getLast h = 0x2E
    · rw [if_pos ((lower_dot _).2 hd), hd]; rfl
    · rw [if_neg (fun e => hd ((lower_dot _).1 e)), if_neg (by simpa using hd)]; rfl

/-- The dictionary part of `voikkoSpellUcs4` computes `dictAccepts`. -/
theorem spellDict_eq (dict : List Wc → SpellRes) (o : SpellOpts) (cache : Option SpellerCache)
    (hc : CacheInv (effDict dict o.acceptMissingHyphens) cache) (w : List Wc) (hw : WordOk w) (hne : w ≠ []) :
    ∃ cache', spellDict dict o cache w =
        some (if dictAccepts (effDict dict o.acceptMissingHyphens) o w then .ok else .failed, cache') ∧
      CacheInv (effDict dict o.acceptMissingHyphens) cache' ∧ (cache = none → cache' = none) := by
  have hl := List.length_pos_iff.2 hne
  unfold spellDict
  simp only [dotIndex_eq o w hne, Option.bind_eq_bind, Option.bind_some]
  generalize hdd : (o.ignoreDot && w.getLast? == some 0x2E) = dot
  have hbuf : cutDot (w.map lower ++ [0]) (if dot = true then some (w.length - 1) else none) =
      some (if dot then (w.map lower).dropLast ++ [0, 0] else w.map lower ++ [0]) := by
    cases dot with
    | false => rfl
    | true =>
      have hlast : w.getLast? = some 0x2E := by
        simp only [Bool.and_eq_true, beq_iff_eq] at hdd; exact hdd.2
      simp only [if_true, cutDot]
      rw [wr_eq_some _ (by simp; omega), Option.some.injEq, List.set_append_left _ _ (by simp; omega)]
      conv => lhs; rw [dropLast_append_getLast? ((map_lower_getLast? w).2 hlast)]
      rw [List.set_append_right _ _ (by simp), List.length_dropLast, List.length_map, Nat.sub_self]
      simp
  rw [hbuf]
  simp only [Option.bind_some]
  by_cases hcx : effectiveCaps o (caseType w) = .complex ∨ effectiveCaps o (caseType w) = .noLetters
  · have hb : (effectiveCaps o (caseType w) == .complex || effectiveCaps o (caseType w) == .noLetters) = true := by
      rcases hcx with h | h <;> rw [h] <;> rfl
    rw [hb]
    simp only [if_true]
    cases w with
    | nil => exact absurd rfl hne
    | cons c cs =>
      rw [spellExact_eq dict o c cs _ (by cases dot <;> simp) _ (by
        intro d hd
        cases dot
        · simp at hd
        · simp at hd; exact hd.symm)]
      refine ⟨cache, ?_, hc, id⟩
      simp only [Option.bind_some]
      have hda : dictAccepts (effDict dict o.acceptMissingHyphens) o (c :: cs) =
          (exactOk o c (effDict dict o.acceptMissingHyphens (lower c :: cs)) ||
          (dot && exactOk o c (effDict dict o.acceptMissingHyphens (lower c :: cs).dropLast))) := by
        unfold dictAccepts
        rw [hdd]
        rcases hcx with h | h <;> simp only [h] <;> rfl
      rw [hda]
      cases dot <;> rfl
  · have hb : (effectiveCaps o (caseType w) == .complex || effectiveCaps o (caseType w) == .noLetters) = false := by
      simp only [not_or] at hcx
      simp [hcx.1, hcx.2]
    rw [hb]
    simp only [Bool.false_eq_true, if_false]
    simp only [not_or] at hcx
    have := spellFolded_eq dict o _ cache hc (w.map lower) (wordOk_lower hw) (by rw [List.length_map]; exact hl) hcx dot (by
      intro hd
      have hlast : w.getLast? = some 0x2E := by
        rw [hd] at hdd
        simp only [Bool.and_eq_true, beq_iff_eq] at hdd; exact hdd.2
      refine ⟨?_, (map_lower_getLast? w).2 hlast⟩
      have := dropLast_ne_nil_of_cased w _ o rfl hcx hlast
      rw [List.length_dropLast] at this ⊢
      rw [List.length_map]; exact this)
    rw [List.length_map] at this
    obtain ⟨cache', g1, g2, g3⟩ := this
    refine ⟨cache', ?_, g2, g3⟩
    rw [g1]
    have hda : dictAccepts (effDict dict o.acceptMissingHyphens) o w =
        (caseOk o (effectiveCaps o (caseType w)) (effDict dict o.acceptMissingHyphens (w.map lower)) ||
        (dot && caseOk o (effectiveCaps o (caseType w)) (effDict dict o.acceptMissingHyphens (w.map lower).dropLast))) := by
      unfold dictAccepts
      rw [hdd]
      cases ht : effectiveCaps o (caseType w) with
      | complex => exact absurd ht hcx.1
      | noLetters => exact absurd ht hcx.2
      | allLower => rfl
      | firstUpper => rfl
      | allUpper => rfl
    rw [hda]

theorem isNonword_total (w : List Wc) : isNonword w = some (nonwordB w) := by
  obtain ⟨b, h, _⟩ := C29_exact w
  rw [h]; unfold nonwordB; rw [h]; cases b <;> rfl

/-- `voikkoSpellUcs4` computes `accepts`, whatever the (valid) state of the cache. -/
theorem spellUcs4_eq (dict : List Wc → SpellRes) (o : SpellOpts) (cache : Option SpellerCache)
    (hc : CacheInv (effDict dict o.acceptMissingHyphens) cache) (word : List Wc) (hw : WordOk word) :
    ∃ cache', spellUcs4 dict o cache word = some (if accepts dict o word then .ok else .failed, cache') ∧
      CacheInv (effDict dict o.acceptMissingHyphens) cache' ∧ (cache = none → cache' = none) := by
  unfold spellUcs4 accepts
  by_cases h0 : word = []
  · subst h0; exact ⟨cache, rfl, hc, id⟩
  · have hl := List.length_pos_iff.2 h0
    have he : word.isEmpty = false := by cases word <;> simp_all
    rw [if_neg (by omega)]
    simp only [he, Bool.false_or]
    by_cases h255 : word.length ≤ 255
    · rw [if_neg (by unfold maxWordChars; omega), normalise_eq]
      simp only [Option.bind_eq_bind, Option.bind_some, cstr_eq _ (zero_notMem (wordOk_normSpec hw)), h255,
        decide_true, Bool.true_and]
      cases hnum : (o.ignoreNumbers && (normSpec word).any isDigit) with
      | true => exact ⟨cache, by simp, hc, id⟩
      | false =>
        simp only [Bool.false_eq_true, if_false, Bool.false_or]
        have hnw : ignoredNonword o (normSpec word) =
            some (o.ignoreNonwords && nonwordB (normSpec word)) := by
          unfold ignoredNonword
          cases o.ignoreNonwords
          · rfl
          · simp only [if_true, Bool.true_and]; exact isNonword_total _
        rw [hnw]
        simp only [Option.bind_some]
        cases hup : ((o.ignoreUppercase && caseType (normSpec word) == .allUpper) ||
            (o.ignoreNonwords && nonwordB (normSpec word))) with
        | true => exact ⟨cache, by simp, hc, id⟩
        | false =>
          simp only [Bool.false_eq_true, if_false, Bool.false_or]
          exact spellDict_eq dict o cache hc (normSpec word) (wordOk_normSpec hw) (normSpec_ne_nil h0)
    · rw [if_pos (by unfold maxWordChars; omega)]
      refine ⟨cache, by simp [h255], hc, id⟩

end Verif.Props
