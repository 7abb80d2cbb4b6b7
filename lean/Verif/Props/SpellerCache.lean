import Verif.Lemmas.SpellerCache
/-! C23: the spelling cache stays inside its tables and slots do not overlap. -/

namespace Verif.Props
open Verif

/-- C23: for every size parameter from 0 to 18 the cache can be created, and for every cache of that shape
and every word (any length, no NUL, characters up to U+10FFFF) look-up, reading the stored verdict and
storing a verdict stay inside the tables; the shape is kept. -/
theorem C23_in_bounds (sp : Nat) (hsp : sp ≤ 18) :
    (∃ c, newCache sp = some c ∧ c.sizeParam = sp ∧ CacheShape c) ∧
    ∀ c, CacheShape c → c.sizeParam = sp → ∀ w, WordOk w →
      (c.isInCache w ≠ none) ∧ (c.isInCache w = some true → c.getSpellResult w ≠ none) ∧
      ∀ r, ∃ c', c.setSpellResult w r = some c' ∧ CacheShape c' ∧ c'.sizeParam = sp := by
  refine ⟨?_, ?_⟩
  · obtain ⟨c, h1, h2, h3⟩ := newCache_ok (fun _ => .ok) sp hsp
    exact ⟨c, h1, h2, h3.1⟩
  · intro c hc hcs w hw
    by_cases hl : w.length ≤ 10
    · obtain ⟨off, b, g1, g2, g3, g4⟩ := isInCache_spec c hc w hw hl
      obtain ⟨roff, v, k1, k2, k3⟩ := getSpellResult_some c hc w hw hl
      refine ⟨by rw [g3]; simp, fun _ => by rw [k3]; simp, ?_⟩
      intro r
      unfold SpellerCache.setSpellResult
      split
      · exact ⟨c, rfl, hc, hcs⟩
      · have hr : roff < c.results.length := by
          rw [List.getElem?_eq_some_iff] at k2; exact k2.1
        rw [g1, k1]
        simp only [Option.bind_eq_bind, Option.bind_some, wrList_eq w c.words off g2, wr_eq_some _ hr, Option.pure_def]
        refine ⟨_, rfl, ⟨hc.1, ?_, ?_⟩, hcs⟩
        · rw [← hc.2.1]; simp; omega
        · rw [← hc.2.2]; simp
    · have h1 : c.isInCache w = some false := by
        unfold SpellerCache.isInCache; rw [if_pos (by omega)]; rfl
      refine ⟨by rw [h1]; simp, by rw [h1]; simp, fun r => ⟨c, ?_, hc, hcs⟩⟩
      unfold SpellerCache.setSpellResult
      rw [if_pos (by simp; omega)]; rfl

/-- C23: the storage of two words (any lengths 1 to 10) is either the same slot, or disjoint in the word
table and different in the verdict table. -/
theorem C23_slots_disjoint (sp : Nat) (hsp : sp ≤ 18) (w v : List Wc) (hw : WordOk w) (hv : WordOk v)
    (hl1 : 1 ≤ w.length) (hl : w.length ≤ 10) (hl1' : 1 ≤ v.length) (hl' : v.length ≤ 10) :
    ∃ a b c d, cacheOffset sp w = some a ∧ cacheOffset sp v = some b ∧ resultOffset sp w = some c ∧
      resultOffset sp v = some d ∧
      ((w.length = v.length ∧ a = b ∧ c = d) ∨ ((a + w.length ≤ b ∨ b + v.length ≤ a) ∧ c ≠ d)) := by
  obtain ⟨_, _, _, _, _, _, _, _, _, a1, a2, _⟩ := cacheSlot_spec sp w hsp hw hl
  obtain ⟨_, _, _, _, _, _, _, _, _, b1, b2, _⟩ := cacheSlot_spec sp v hsp hv hl'
  exact ⟨_, _, _, _, a1, b1, a2, b2, slots_disjoint sp w v hsp hw hv hl1 hl hl1' hl' _ _ _ _ a1 b1 a2 b2⟩

/-- C23: a stored word is found and its verdict is the one stored. (That other words are not disturbed is
`C23_slots_disjoint`.) -/
theorem C23_set_get (c : SpellerCache) (hc : CacheShape c) (w : List Wc) (hw : WordOk w) (hl1 : 1 ≤ w.length)
    (hl : w.length ≤ 10) (r : SpellRes) (hr : r = .ok ∨ r = .capFirst) :
    ∃ c', c.setSpellResult w r = some c' ∧ c'.isInCache w = some true ∧ c'.getSpellResult w = some r := by
  obtain ⟨off, b, g1, g2, g3, g4⟩ := isInCache_spec c hc w hw hl
  obtain ⟨roff, v, k1, k2, k3⟩ := getSpellResult_some c hc w hw hl
  have hrr : roff < c.results.length := by
    rw [List.getElem?_eq_some_iff] at k2; exact k2.1
  have hif : ¬ ((decide (w.length > 10) || (r != .ok && r != .capFirst)) = true) := by
    rcases hr with rfl | rfl <;> simp <;> omega
  have hset : c.setSpellResult w r = some { c with
      words := c.words.take off ++ w ++ c.words.drop (off + w.length),
      results := c.results.set roff (if r = .ok then 0x70 else 0x69) } := by
    unfold SpellerCache.setSpellResult
    rw [if_neg hif, g1, k1]
    simp only [Option.bind_eq_bind, Option.bind_some, wrList_eq w c.words off g2, wr_eq_some _ hrr, Option.pure_def]
  refine ⟨_, hset, ?_, ?_⟩
  · have hs : CacheShape { c with
      words := c.words.take off ++ w ++ c.words.drop (off + w.length),
      results := c.results.set roff (if r = .ok then 0x70 else 0x69) } :=
      ⟨hc.1, by rw [← hc.2.1]; simp; omega, by rw [← hc.2.2]; simp⟩
    obtain ⟨off', b', e1, e2, e3, e4⟩ := isInCache_spec _ hs w hw hl
    simp only [g1, Option.some.injEq] at e1
    subst e1
    rw [e3, Option.some.injEq]
    rw [e4]
    intro k hk
    exact wrList_in g2 (wrList_eq w c.words off g2) hk
  · unfold SpellerCache.getSpellResult
    simp only [k1, Option.bind_eq_bind, Option.bind_some]
    rw [rd_eq_some (by simpa using hrr)]
    rcases hr with rfl | rfl <;> simp

/-- Finding: `VOIKKO_SPELLER_CACHE_SIZE` accepts any value, but from 19 on the computation of the table size
(`6544 << sizeParam`) overflows `int`: undefined behaviour. -/
theorem C23_size_overflow (sp : Nat) (h : 19 ≤ sp) : newCache sp = none := by
  have : 2 ^ 19 ≤ 2 ^ sp := Nat.pow_le_pow_right (by omega) h
  unfold newCache int32
  rw [if_neg (by omega)]; rfl

/-- Non-vacuity: "kissa" in a cache of size 0, with another word of the same length in another slot. -/
example : WordOk [0x6B, 0x69, 0x73, 0x73, 0x61] ∧ (cacheOffset 0 [0x6B, 0x69, 0x73, 0x73, 0x61]).isSome ∧
    cacheOffset 0 [0x6B, 0x6F, 0x69, 0x72, 0x61] ≠ cacheOffset 0 [0x6B, 0x69, 0x73, 0x73, 0x61] := by
  refine ⟨?_, by decide +kernel⟩
  unfold WordOk; decide

end Verif.Props
