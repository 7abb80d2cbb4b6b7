import Verif.Model.SpellerCache
/-! Lemmas about the speller cache. -/

namespace Verif

/-- A word as handed to the cache: no NUL, Unicode code points. -/
def WordOk (w : List Wc) : Prop := ∀ c ∈ w, c ≠ 0 ∧ c ≤ 0x10FFFF

theorem int32_some {n : Nat} (h : n < 2 ^ 31) : int32 n = some n := if_pos h

theorem wrList_eq {α : Type} (xs buf : List α) (off : Nat) (h : off + xs.length ≤ buf.length) :
    wrList buf off xs = some (buf.take off ++ xs ++ buf.drop (off + xs.length)) := by
  induction xs generalizing buf off with
  | nil => simp [wrList]
  | cons x xs ih =>
    simp only [List.length_cons] at h
    have ho : off < buf.length := by omega
    rw [wrList, wr_eq_some x ho]
    simp only [Option.bind_eq_bind, Option.bind_some]
    rw [ih (buf.set off x) (off + 1) (by rw [List.length_set]; omega), Option.some.injEq]
    have e1 : (buf.set off x).take (off + 1) = buf.take off ++ [x] := by
      rw [List.take_add_one, List.take_set_of_le (Nat.le_refl _)]
      simp [ho]
    have e2 : (buf.set off x).drop (off + 1 + xs.length) = buf.drop (off + (xs.length + 1)) := by
      rw [List.drop_set_of_lt (by omega)]
      congr 1; omega
    rw [e1, e2, List.length_cons]
    simp

theorem wrList_length {α : Type} {xs buf b' : List α} {off : Nat} (h : off + xs.length ≤ buf.length)
    (e : wrList buf off xs = some b') : b'.length = buf.length := by
  rw [wrList_eq xs buf off h, Option.some.injEq] at e
  rw [← e]; simp; omega

/-- Elements outside the written range are unchanged. -/
theorem wrList_other {α : Type} {xs buf b' : List α} {off k : Nat} (h : off + xs.length ≤ buf.length)
    (e : wrList buf off xs = some b') (hk : k < off ∨ off + xs.length ≤ k) : b'[k]? = buf[k]? := by
  rw [wrList_eq xs buf off h, Option.some.injEq] at e
  rw [← e]
  rcases hk with hk | hk
  · rw [List.append_assoc, List.getElem?_append_left (by rw [List.length_take]; omega), List.getElem?_take, if_pos hk]
  · rw [List.getElem?_append_right (by simp; omega), List.getElem?_drop]
    congr 1; simp; omega

theorem wrList_in {α : Type} {xs buf b' : List α} {off k : Nat} (h : off + xs.length ≤ buf.length)
    (e : wrList buf off xs = some b') (hk : k < xs.length) : b'[off + k]? = xs[k]? := by
  rw [wrList_eq xs buf off h, Option.some.injEq] at e
  rw [← e]
  rw [List.getElem?_append_left (by simp; omega), List.getElem?_append_right (by simp; omega)]
  congr 1
  simp only [List.length_take]; omega

theorem wcsncmpBuf_spec (w buf : List Wc) (off : Nat) (hw : 0 ∉ w) (h : off + w.length ≤ buf.length) :
    ∃ b, wcsncmpBuf buf off w = some b ∧ (b = true ↔ ∀ k < w.length, buf[off + k]? = w[k]?) := by
  induction w generalizing off with
  | nil => exact ⟨true, rfl, by simp⟩
  | cons c cs ih =>
    simp only [List.length_cons] at h
    have ho : off < buf.length := by omega
    simp only [List.mem_cons, not_or] at hw
    obtain ⟨b, h1, h2⟩ := ih (off + 1) hw.2 (by omega)
    rw [wcsncmpBuf, rd_eq_some ho]
    simp only [Option.bind_eq_bind, Option.bind_some]
    by_cases hd : buf[off] = c
    · rw [if_neg (by simpa using hd), if_neg (by rw [hd]; exact fun e => hw.1 e.symm)]
      refine ⟨b, h1, h2.trans ?_⟩
      constructor
      · intro hk k hkl
        cases k with
        | zero => simp [ho, hd]
        | succ k =>
          have := hk k (by simpa using hkl)
          rw [show off + (k + 1) = off + 1 + k by omega, this]; simp
      · intro hk k hkl
        have := hk (k + 1) (by simpa using hkl)
        rw [show off + (k + 1) = off + 1 + k by omega] at this
        rw [this]; simp
    · rw [if_pos hd]
      refine ⟨false, rfl, ?_⟩
      simp only [Bool.false_eq_true, false_iff]
      intro hk
      have := hk 0 (by simp)
      simp only [Nat.add_zero, List.getElem?_eq_getElem ho, List.getElem?_cons_zero, Option.some.injEq] at this
      exact hd this

theorem voikkoHashLoop_spec (m h : Nat) (w : List Wc) (hm : 0 < m) (hm2 : m ≤ 2 ^ 25) (hh : h < m)
    (hw : ∀ c ∈ w, c ≤ 0x10FFFF) : ∃ r, voikkoHashLoop m h w = some r ∧ r < m := by
  induction w generalizing h with
  | nil => exact ⟨h, rfl, hh⟩
  | cons c cs ih =>
    have hc := hw c (by simp)
    rw [voikkoHashLoop, int32_some (by omega)]
    exact ih _ (Nat.mod_lt _ hm) (fun d hd => hw d (by simp [hd]))

/-- Orders, offsets and sizes of the slots for words of length `l`. -/
theorem cache_tables : ∀ l < 11, ∃ o b m, hashOrders[l]? = some o ∧ cacheOffsets[l]? = some b ∧
    metaOffsets[l]? = some m ∧ o ≤ 7 ∧ b + 2 ^ o * l ≤ 6544 ∧ m + 2 ^ o ≤ 1008 := by
  intro l hl
  have : ∀ l < 11, ∃ o ∈ hashOrders[l]?, ∃ b ∈ cacheOffsets[l]?, ∃ m ∈ metaOffsets[l]?,
      o ≤ 7 ∧ b + 2 ^ o * l ≤ 6544 ∧ m + 2 ^ o ≤ 1008 := by decide
  obtain ⟨o, h1, b, h2, m, h3, h4⟩ := this l hl
  exact ⟨o, b, m, h1, h2, h3, h4⟩

theorem pow_le_18 {sp : Nat} (h : sp ≤ 18) : 2 ^ sp ≤ 2 ^ 18 := Nat.pow_le_pow_right (by omega) h

theorem cacheHash_spec (sp : Nat) (w : List Wc) (hsp : sp ≤ 18) (hw : WordOk w) (hl : w.length ≤ 10) :
    ∃ o h, hashOrders[w.length]? = some o ∧ cacheHash sp w = some h ∧ h < 2 ^ o * 2 ^ sp := by
  obtain ⟨o, b, m, h1, h2, h3, h4, h5, h6⟩ := cache_tables w.length (by omega)
  have hp := pow_le_18 hsp
  have ho : 2 ^ o ≤ 2 ^ 7 := Nat.pow_le_pow_right (by omega) h4
  have hm : 2 ^ (o + sp) ≤ 2 ^ 25 := Nat.pow_le_pow_right (by omega) (by omega)
  obtain ⟨r, hr, hrm⟩ := voikkoHashLoop_spec (2 ^ (o + sp)) 0 w (Nat.pow_pos (by omega)) hm (Nat.pow_pos (by omega))
    (fun c hc => (hw c hc).2)
  refine ⟨o, r, h1, ?_, by rw [← Nat.pow_add]; exact hrm⟩
  unfold cacheHash voikkoHash rd
  rw [h1]
  simp only [Option.bind_eq_bind, Option.bind_some]
  rw [int32_some (by omega)]
  exact hr

/-- Where a word lives: its slot in `words` and in `results`. -/
theorem cacheSlot_spec (sp : Nat) (w : List Wc) (hsp : sp ≤ 18) (hw : WordOk w) (hl : w.length ≤ 10) :
    ∃ o b m h, hashOrders[w.length]? = some o ∧ cacheOffsets[w.length]? = some b ∧
      metaOffsets[w.length]? = some m ∧ cacheHash sp w = some h ∧ h < 2 ^ o * 2 ^ sp ∧
      cacheOffset sp w = some (b * 2 ^ sp + h * w.length) ∧ resultOffset sp w = some (m * 2 ^ sp + h) ∧
      b * 2 ^ sp + h * w.length + w.length ≤ 6544 * 2 ^ sp ∧ m * 2 ^ sp + h < 1008 * 2 ^ sp := by
  obtain ⟨o, b, m, h1, h2, h3, h4, h5, h6⟩ := cache_tables w.length (by omega)
  obtain ⟨o', h, h7, h8, h9⟩ := cacheHash_spec sp w hsp hw hl
  rw [h1, Option.some.injEq] at h7
  subst h7
  have hp := pow_le_18 hsp
  have k1 : (h + 1) * w.length ≤ 2 ^ o * 2 ^ sp * w.length := Nat.mul_le_mul_right _ h9
  have k2 : (b + 2 ^ o * w.length) * 2 ^ sp ≤ 6544 * 2 ^ sp := Nat.mul_le_mul_right _ h5
  have k3 : (m + 2 ^ o) * 2 ^ sp ≤ 1008 * 2 ^ sp := Nat.mul_le_mul_right _ h6
  have k4 : 2 ^ o * 2 ^ sp * w.length = 2 ^ o * w.length * 2 ^ sp := by
    rw [Nat.mul_assoc, Nat.mul_comm (2 ^ sp), ← Nat.mul_assoc]
  rw [Nat.add_mul] at k1 k2 k3
  refine ⟨o, b, m, h, h1, h2, h3, h8, h9, ?_, ?_, by omega, by omega⟩
  · unfold cacheOffset rd
    simp only [h8, h2, Option.bind_eq_bind, Option.bind_some]
    exact int32_some (by omega)
  · unfold resultOffset rd
    simp only [h8, h3, Option.bind_eq_bind, Option.bind_some]
    exact int32_some (by omega)

theorem cache_regions_table : ∀ l < 11, ∀ l' < 11, 1 ≤ l → l < l' →
    (do let o ← hashOrders[l]?; let b ← cacheOffsets[l]?; let m ← metaOffsets[l]?; let b' ← cacheOffsets[l']?
        let m' ← metaOffsets[l']?; return decide (b + 2 ^ o * l ≤ b' ∧ m + 2 ^ o ≤ m')) = some true := by decide

/-- Regions of different word lengths do not overlap. -/
theorem cache_regions (l l' : Nat) (hl' : l' < 11) (h1 : 1 ≤ l) (hlt : l < l') (o b m b' m' : Nat)
    (e1 : hashOrders[l]? = some o) (e2 : cacheOffsets[l]? = some b) (e3 : metaOffsets[l]? = some m)
    (e4 : cacheOffsets[l']? = some b') (e5 : metaOffsets[l']? = some m') :
    b + 2 ^ o * l ≤ b' ∧ m + 2 ^ o ≤ m' := by
  have := cache_regions_table l (by omega) l' hl' h1 hlt
  rw [e1, e2, e3, e4, e5] at this
  simpa using this

theorem slots_lt (sp : Nat) (w v : List Wc) (hsp : sp ≤ 18) (hw : WordOk w) (hv : WordOk v) (h1 : 1 ≤ w.length)
    (hlt : w.length < v.length) (hl' : v.length ≤ 10) (a b c d : Nat)
    (e1 : cacheOffset sp w = some a) (e2 : cacheOffset sp v = some b)
    (e3 : resultOffset sp w = some c) (e4 : resultOffset sp v = some d) : a + w.length ≤ b ∧ c < d := by
  obtain ⟨o, bw, mw, hh, a1, a2, a3, a4, a5, a6, a7, _, _⟩ := cacheSlot_spec sp w hsp hw (by omega)
  obtain ⟨o', bv, mv, hh', b1, b2, b3, b4, b5, b6, b7, _, _⟩ := cacheSlot_spec sp v hsp hv hl'
  obtain ⟨r1, r2⟩ := cache_regions w.length v.length (by omega) h1 hlt o bw mw bv mv a1 a2 a3 b2 b3
  rw [e1, Option.some.injEq] at a6
  rw [e2, Option.some.injEq] at b6
  rw [e3, Option.some.injEq] at a7
  rw [e4, Option.some.injEq] at b7
  have k1 : (hh + 1) * w.length ≤ 2 ^ o * 2 ^ sp * w.length := Nat.mul_le_mul_right _ a5
  have k4 : 2 ^ o * 2 ^ sp * w.length = 2 ^ o * w.length * 2 ^ sp := by
    rw [Nat.mul_assoc, Nat.mul_comm (2 ^ sp), ← Nat.mul_assoc]
  have k2 : (bw + 2 ^ o * w.length) * 2 ^ sp ≤ bv * 2 ^ sp := Nat.mul_le_mul_right _ r1
  have k3 : (mw + 2 ^ o) * 2 ^ sp ≤ mv * 2 ^ sp := Nat.mul_le_mul_right _ r2
  rw [Nat.add_mul] at k1 k2 k3
  omega

/-- Two words either share both slots (same length and hash) or neither. -/
theorem slots_disjoint (sp : Nat) (w v : List Wc) (hsp : sp ≤ 18) (hw : WordOk w) (hv : WordOk v)
    (hl1 : 1 ≤ w.length) (hl : w.length ≤ 10) (hl1' : 1 ≤ v.length) (hl' : v.length ≤ 10) (a b c d : Nat)
    (e1 : cacheOffset sp w = some a) (e2 : cacheOffset sp v = some b)
    (e3 : resultOffset sp w = some c) (e4 : resultOffset sp v = some d) :
    (w.length = v.length ∧ a = b ∧ c = d) ∨
    ((a + w.length ≤ b ∨ b + v.length ≤ a) ∧ c ≠ d) := by
  rcases Nat.lt_trichotomy w.length v.length with hlt | heq | hgt
  · right
    obtain ⟨k1, k2⟩ := slots_lt sp w v hsp hw hv hl1 hlt hl' a b c d e1 e2 e3 e4
    exact ⟨Or.inl k1, by omega⟩
  · obtain ⟨o, bw, mw, hh, a1, a2, a3, a4, a5, a6, a7, _, _⟩ := cacheSlot_spec sp w hsp hw (by omega)
    obtain ⟨o', bv, mv, hh', b1, b2, b3, b4, b5, b6, b7, _, _⟩ := cacheSlot_spec sp v hsp hv hl'
    rw [e1, Option.some.injEq] at a6
    rw [e2, Option.some.injEq] at b6
    rw [e3, Option.some.injEq] at a7
    rw [e4, Option.some.injEq] at b7
    rw [← heq] at b2 b3 b6
    rw [a2, Option.some.injEq] at b2
    rw [a3, Option.some.injEq] at b3
    subst b2 b3
    rcases Nat.lt_trichotomy hh hh' with h | h | h
    · right
      have : (hh + 1) * w.length ≤ hh' * w.length := Nat.mul_le_mul_right _ h
      rw [Nat.add_mul] at this
      exact ⟨Or.inl (by omega), by omega⟩
    · left; subst h; exact ⟨heq, by omega, by omega⟩
    · right
      have : (hh' + 1) * w.length ≤ hh * w.length := Nat.mul_le_mul_right _ h
      rw [Nat.add_mul] at this
      exact ⟨Or.inr (by omega), by omega⟩
  · right
    obtain ⟨k1, k2⟩ := slots_lt sp v w hsp hv hw hl1' hgt hl b a d c e2 e1 e4 e3
    exact ⟨Or.inr k1, by omega⟩

/-- Well-formed cache object. -/
def CacheShape (c : SpellerCache) : Prop :=
  c.sizeParam ≤ 18 ∧ c.words.length = 6544 * 2 ^ c.sizeParam ∧ c.results.length = 1008 * 2 ^ c.sizeParam

/-- Every hit returns the answer of `f`. -/
def CacheOk (f : List Wc → SpellRes) (c : SpellerCache) : Prop :=
  CacheShape c ∧ ∀ w, WordOk w → 1 ≤ w.length → c.isInCache w = some true → c.getSpellResult w = some (f w)

theorem zero_notMem {w : List Wc} (hw : WordOk w) : 0 ∉ w := fun h => (hw 0 h).1 rfl

theorem isInCache_spec (c : SpellerCache) (hc : CacheShape c) (w : List Wc) (hw : WordOk w) (hl : w.length ≤ 10) :
    ∃ off b, cacheOffset c.sizeParam w = some off ∧ off + w.length ≤ c.words.length ∧ c.isInCache w = some b ∧
      (b = true ↔ ∀ k < w.length, c.words[off + k]? = w[k]?) := by
  obtain ⟨o, bw, mw, hh, a1, a2, a3, a4, a5, a6, a7, a8, a9⟩ := cacheSlot_spec c.sizeParam w hc.1 hw hl
  rw [← hc.2.1] at a8
  obtain ⟨b, h1, h2⟩ := wcsncmpBuf_spec w c.words _ (zero_notMem hw) a8
  refine ⟨_, b, a6, a8, ?_, h2⟩
  unfold SpellerCache.isInCache
  rw [if_neg (by omega), a6]
  exact h1

theorem newCache_ok (f : List Wc → SpellRes) (sp : Nat) (hsp : sp ≤ 18) :
    ∃ c, newCache sp = some c ∧ c.sizeParam = sp ∧ CacheOk f c := by
  have hp := pow_le_18 hsp
  refine ⟨_, by unfold newCache; rw [int32_some (by omega)]; rfl, rfl, ⟨hsp, by simp, by simp⟩, ?_⟩
  intro w hw h1 hin
  exfalso
  by_cases hl : w.length ≤ 10
  · obtain ⟨off, b, g1, g2, g3, g4⟩ := isInCache_spec
      { sizeParam := sp, words := List.replicate (6544 * 2 ^ sp) 0, results := List.replicate (1008 * 2 ^ sp) 0 }
      ⟨hsp, by simp, by simp⟩ w hw hl
    rw [hin, Option.some.injEq] at g3
    have := g4.1 g3.symm 0 (by omega)
    simp only [List.length_replicate] at g2
    rw [Nat.add_zero, List.getElem?_replicate, if_pos (by omega), List.getElem?_eq_getElem (by omega),
      Option.some.injEq] at this
    exact zero_notMem hw (this ▸ List.getElem_mem _)
  · unfold SpellerCache.isInCache at hin
    rw [if_pos (by omega)] at hin
    simp at hin

theorem getSpellResult_some (c : SpellerCache) (hc : CacheShape c) (w : List Wc) (hw : WordOk w)
    (hl : w.length ≤ 10) : ∃ off r, resultOffset c.sizeParam w = some off ∧ c.results[off]? = some r ∧
      c.getSpellResult w = some (if r = 0x69 then .capFirst else .ok) := by
  obtain ⟨o, bw, mw, hh, a1, a2, a3, a4, a5, a6, a7, a8, a9⟩ := cacheSlot_spec c.sizeParam w hc.1 hw hl
  rw [← hc.2.2] at a9
  refine ⟨_, _, a7, List.getElem?_eq_getElem a9, ?_⟩
  unfold SpellerCache.getSpellResult
  rw [a7]
  simp only [Option.bind_eq_bind, Option.bind_some, rd_eq_some a9]
  split <;> rfl

/-- Storing the right answer keeps the cache right. -/
theorem setSpellResult_ok (f : List Wc → SpellRes) (c : SpellerCache) (hc : CacheOk f c) (v : List Wc)
    (hv : WordOk v) (h1v : 1 ≤ v.length) :
    ∃ c', c.setSpellResult v (f v) = some c' ∧ CacheOk f c' := by
  unfold SpellerCache.setSpellResult
  split
  · exact ⟨c, rfl, hc⟩
  · rename_i hcond
    simp only [Bool.or_eq_true, decide_eq_true_eq, Bool.and_eq_true, bne_iff_ne, ne_eq, not_or, not_and,
      Nat.not_lt, gt_iff_lt] at hcond
    obtain ⟨hl, hres⟩ := hcond
    obtain ⟨hshape, hmem⟩ := hc
    obtain ⟨offv, bv, v1, v2, v3, v4⟩ := isInCache_spec c hshape v hv hl
    obtain ⟨roffv, rv, u1, u2, u3⟩ := getSpellResult_some c hshape v hv hl
    have hr : roffv < c.results.length := (List.getElem?_eq_some_iff.1 u2).1
    have ew := wrList_eq v c.words offv v2
    rw [v1, u1]
    simp only [Option.bind_eq_bind, Option.bind_some, ew, wr_eq_some _ hr, Option.pure_def]
    refine ⟨_, rfl, ⟨hshape.1, ?_, ?_⟩, ?_⟩
    · rw [← hshape.2.1]; exact wrList_length v2 ew
    · simp only [List.length_set]; exact hshape.2.2
    · intro w hw h1w hin
      have hlw : w.length ≤ 10 := by
        rcases Nat.lt_or_ge 10 w.length with h | h
        · unfold SpellerCache.isInCache at hin
          rw [if_pos h] at hin
          simp at hin
        · exact h
      have hshape' : CacheShape { c with
          words := c.words.take offv ++ v ++ c.words.drop (offv + v.length),
          results := c.results.set roffv (if f v = .ok then 0x70 else 0x69) } :=
        ⟨hshape.1, by rw [← hshape.2.1]; exact wrList_length v2 ew, by simp only [List.length_set]; exact hshape.2.2⟩
      obtain ⟨offw, bw, w1, w2, w3, w4⟩ := isInCache_spec _ hshape' w hw hlw
      obtain ⟨roffw, rw', x1, x2, x3⟩ := getSpellResult_some _ hshape' w hw hlw
      rw [hin, Option.some.injEq] at w3
      have w4 := w4.1 w3.symm
      simp only at w4 x1 x2 w1
      rcases slots_disjoint c.sizeParam w v hshape.1 hw hv h1w hlw h1v hl offw offv roffw roffv w1 v1 x1 u1 with
        ⟨e1, e2, e3⟩ | ⟨hd, hne⟩
      · -- same slot: the word must be `v`
        have hwv : w = v := by
          apply List.ext_getElem? fun k => ?_
          by_cases hk : k < w.length
          · rw [← w4 k hk, e2, wrList_in v2 ew (by omega)]
          · rw [List.getElem?_eq_none (by omega), List.getElem?_eq_none (by omega)]
        subst hwv
        rw [x3]
        rw [e3, List.getElem?_set_self hr, Option.some.injEq] at x2
        rw [← x2]
        cases hf : f w with
        | ok => simp
        | capFirst => simp
        | failed => rw [hf] at hres; simp at hres
        | capError => rw [hf] at hres; simp at hres
      · -- different slot: unchanged
        have hold : c.isInCache w = some true := by
          obtain ⟨offw', bw', y1, y2, y3, y4⟩ := isInCache_spec c hshape w hw hlw
          rw [w1, Option.some.injEq] at y1
          subst y1
          rw [y3, Option.some.injEq, y4]
          intro k hk
          rw [← w4 k hk]
          exact (wrList_other v2 ew (by omega)).symm
        have hres' := hmem w hw h1w hold
        obtain ⟨roffw', rw'', z1, z2, z3⟩ := getSpellResult_some c hshape w hw hlw
        rw [x1, Option.some.injEq] at z1
        subst z1
        rw [x3, ← hres', z3]
        rw [List.getElem?_set_ne (Ne.symm hne), z2, Option.some.injEq] at x2
        rw [x2]

end Verif
