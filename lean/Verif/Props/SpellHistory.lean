import Verif.Props.Spell
/-! C22: the spelling cache is invisible, over arbitrary histories of API calls. -/

namespace Verif.Props
open Verif

/-- API calls of a history. -/
inductive SpellOp where
  | setBool (option value : Int)
  | setInt (option value : Int)
  | spell (word : List Wc)

/-- One call: new handle and the spelling result, if the call was a spelling call. -/
def stepOp {G : Type} (dict : Bool → List Wc → SpellRes) (h : Handle G) : SpellOp → UB (Handle G × Option SpellCode)
  | .setBool n v => some ((setBooleanOption h n v).1, none)
  | .setInt n v => do
    let (h', _) ← setIntegerOption h n v
    return (h', none)
  | .spell w => do
    let (h', r) ← h.spellWord dict w
    return (h', some r)

/-- Run a history, collecting the spelling results. -/
def runOps {G : Type} (dict : Bool → List Wc → SpellRes) (h : Handle G) : List SpellOp → UB (List SpellCode)
  | [] => return []
  | op :: ops => do
    let (h', r) ← stepOp dict h op
    let rest ← runOps dict h' ops
    return r.toList ++ rest

/-- Reference semantics: no cache at all. The options evolve as before, every spelling call asks the
dictionary. -/
def refOps {G : Type} (dict : Bool → List Wc → SpellRes) (h : Handle G) : List SpellOp → UB (List SpellCode)
  | [] => return []
  | .setBool n v :: ops => refOps dict (setBooleanOption h n v).1 ops
  | .setInt _ _ :: ops => refOps dict h ops
  | .spell w :: ops => do
    let (r, _) ← spellUcs4 (dict h.acceptExtraHyphens) h.spell none w
    let rest ← refOps dict h ops
    return r :: rest

/-- Calls allowed in a history: no change of the two hyphen options, cache sizes up to 18, well formed
words. -/
def OpOk : SpellOp → Prop
  | .setBool n _ => n ≠ 11 ∧ n ≠ 12
  | .setInt n v => n = 17 → v ≤ 18
  | .spell w => WordOk w

/-- The verdict function of the current options. -/
def handleDict {G : Type} (dict : Bool → List Wc → SpellRes) (h : Handle G) : List Wc → SpellRes :=
  effDict (dict h.acceptExtraHyphens) h.spell.acceptMissingHyphens

theorem setBool_frame {G : Type} (h : Handle G) (n v : Int) :
    (setBooleanOption h n v).1.spellerCache = h.spellerCache ∧
    (n ≠ 11 → (setBooleanOption h n v).1.acceptExtraHyphens = h.acceptExtraHyphens) ∧
    (n ≠ 12 → (setBooleanOption h n v).1.spell.acceptMissingHyphens = h.spell.acceptMissingHyphens) := by
  have h11 : ¬ ((11 : Int) = 0) := by omega
  refine ⟨?_, ?_, ?_⟩
  · unfold setBooleanOption
    by_cases e0 : n = 0; · simp [e0]
    by_cases e1 : n = 1; · simp [e1]
    by_cases e3 : n = 3; · simp [e3]
    by_cases e6 : n = 6; · simp [e6]
    by_cases e7 : n = 7; · simp [e7]
    by_cases e4 : n = 4; · simp [e4]
    by_cases e8 : n = 8; · simp [e8]
    by_cases e10 : n = 10; · simp [e10]
    by_cases e11 : n = 11; · simp [e11]
    by_cases e12 : n = 12; · simp [e12]
    by_cases e13 : n = 13; · simp [e13]
    by_cases e14 : n = 14; · simp [e14]
    by_cases e16 : n = 16; · simp [e16]
    by_cases e15 : n = 15; · simp [e15]
    simp [*]
  · intro hn
    unfold setBooleanOption
    by_cases e0 : n = 0; · simp [e0]
    by_cases e1 : n = 1; · simp [e1]
    by_cases e3 : n = 3; · simp [e3]
    by_cases e6 : n = 6; · simp [e6]
    by_cases e7 : n = 7; · simp [e7]
    by_cases e4 : n = 4; · simp [e4]
    by_cases e8 : n = 8; · simp [e8]
    by_cases e10 : n = 10; · simp [e10]
    by_cases e12 : n = 12; · simp [e12]
    by_cases e13 : n = 13; · simp [e13]
    by_cases e14 : n = 14; · simp [e14]
    by_cases e16 : n = 16; · simp [e16]
    by_cases e15 : n = 15; · simp [e15]
    simp [*]
  · intro hn
    unfold setBooleanOption
    by_cases e0 : n = 0; · simp [e0]
    by_cases e1 : n = 1; · simp [e1]
    by_cases e3 : n = 3; · simp [e3]
    by_cases e6 : n = 6; · simp [e6]
    by_cases e7 : n = 7; · simp [e7]
    by_cases e4 : n = 4; · simp [e4]
    by_cases e8 : n = 8; · simp [e8]
    by_cases e10 : n = 10; · simp [e10]
    by_cases e11 : n = 11; · simp [e11]
    by_cases e13 : n = 13; · simp [e13]
    by_cases e14 : n = 14; · simp [e14]
    by_cases e16 : n = 16; · simp [e16]
    by_cases e15 : n = 15; · simp [e15]
    simp [*]

theorem makeCache_ok (f : List Wc → SpellRes) (v : Int) (h : v ≤ 18) :
    ∃ c, makeCache v = some c ∧ CacheInv f c := by
  unfold makeCache
  split
  · obtain ⟨c, h1, _, h3⟩ := newCache_ok f v.toNat (by omega)
    rw [h1]; exact ⟨some c, rfl, h3⟩
  · exact ⟨none, rfl, trivial⟩

theorem resizeCache_ok (f : List Wc → SpellRes) (c : Option SpellerCache) (hc : CacheInv f c) (v : Int)
    (h : v ≤ 18) : ∃ c', resizeCache c v = some c' ∧ CacheInv f c' := by
  unfold resizeCache
  cases c with
  | none => exact makeCache_ok f v h
  | some c =>
    simp only []
    split
    · exact ⟨some c, rfl, hc⟩
    · exact makeCache_ok f v h

theorem setBool_congr {G : Type} (h h' : Handle G) (hs : h.spell = h'.spell)
    (he : h.acceptExtraHyphens = h'.acceptExtraHyphens) (n v : Int) :
    (setBooleanOption h n v).1.spell = (setBooleanOption h' n v).1.spell ∧
    (setBooleanOption h n v).1.acceptExtraHyphens = (setBooleanOption h' n v).1.acceptExtraHyphens := by
  unfold setBooleanOption
  by_cases e0 : n = 0; · subst e0; simp [hs, he]
  by_cases e1 : n = 1; · subst e1; simp [hs, he]
  by_cases e3 : n = 3; · subst e3; simp [hs, he]
  by_cases e6 : n = 6; · subst e6; simp [hs, he]
  by_cases e7 : n = 7; · subst e7; simp [hs, he]
  by_cases e4 : n = 4; · subst e4; simp [hs, he]
  by_cases e8 : n = 8; · subst e8; simp [hs, he]
  by_cases e10 : n = 10; · subst e10; simp [hs, he]
  by_cases e11 : n = 11; · subst e11; simp [hs]
  by_cases e12 : n = 12; · subst e12; simp [hs, he]
  by_cases e13 : n = 13; · subst e13; simp [hs, he]
  by_cases e14 : n = 14; · subst e14; simp [hs, he]
  by_cases e16 : n = 16; · subst e16; simp [hs, he]
  by_cases e15 : n = 15; · subst e15; simp [hs, he]
  simp [*]

/-- The reference semantics only looks at the spelling options and ACCEPT_EXTRA_HYPHENS. -/
theorem refOps_congr {G : Type} (dict : Bool → List Wc → SpellRes) (ops : List SpellOp) (h h' : Handle G)
    (hs : h.spell = h'.spell) (he : h.acceptExtraHyphens = h'.acceptExtraHyphens) :
    refOps dict h ops = refOps dict h' ops := by
  induction ops generalizing h h' with
  | nil => rfl
  | cons op ops ih =>
    cases op with
    | setInt n v => exact ih h h' hs he
    | spell w => simp only [refOps]; rw [ih h h' hs he, hs, he]
    | setBool n v =>
      simp only [refOps]
      obtain ⟨h1, h2⟩ := setBool_congr h h' hs he n v
      exact ih _ _ h1 h2

theorem refOps_cache {G : Type} (dict : Bool → List Wc → SpellRes) (ops : List SpellOp) (h : Handle G)
    (c : Option SpellerCache) : refOps dict { h with spellerCache := c } ops = refOps dict h ops :=
  refOps_congr dict ops _ _ rfl rfl

theorem refOps_minLength {G : Type} (dict : Bool → List Wc → SpellRes) (ops : List SpellOp) (h : Handle G)
    (m : Nat) : refOps dict { h with hyph := { h.hyph with minLength := m } } ops = refOps dict h ops :=
  refOps_congr dict ops _ _ rfl rfl

/-- C22 from any handle whose cache answers like the dictionary under its current options (in particular an
empty or disabled cache): for every history of spelling calls, option changes and cache size changes that
leaves the two hyphen options alone, every call has defined behaviour and every spelling result is the one
obtained without any cache. -/
theorem C22_cache_transparent_partial {G : Type} (dict : Bool → List Wc → SpellRes) (ops : List SpellOp)
    (hops : ∀ op ∈ ops, OpOk op) (h : Handle G) (hinv : CacheInv (handleDict dict h) h.spellerCache) :
    ∃ rs, runOps dict h ops = some rs ∧ refOps dict h ops = some rs := by
  induction ops generalizing h with
  | nil => exact ⟨[], rfl, rfl⟩
  | cons op ops ih =>
    have hrest : ∀ op ∈ ops, OpOk op := fun x hx => hops x (by simp [hx])
    have hop := hops op (by simp)
    cases op with
    | setBool n v =>
      obtain ⟨f1, f2, f3⟩ := setBool_frame h n v
      have hinv' : CacheInv (handleDict dict (setBooleanOption h n v).1) (setBooleanOption h n v).1.spellerCache := by
        unfold handleDict
        rw [f1, f2 hop.1, f3 hop.2]; exact hinv
      obtain ⟨rs, r1, r2⟩ := ih hrest _ hinv'
      refine ⟨rs, ?_, r2⟩
      simp [runOps, stepOp, r1]
    | setInt n v =>
      by_cases h9 : n = 9
      · obtain ⟨rs, r1, r2⟩ := ih hrest { h with hyph := { h.hyph with minLength := intToSize v } } hinv
        refine ⟨rs, ?_, ?_⟩
        · simp [runOps, stepOp, setIntegerOption, h9, r1]
        · rw [refOps_minLength] at r2; exact r2
      · by_cases h17 : n = 17
        · obtain ⟨c', k1, k2⟩ := resizeCache_ok (handleDict dict h) h.spellerCache hinv v (hop h17)
          obtain ⟨rs, r1, r2⟩ := ih hrest { h with spellerCache := c' } k2
          refine ⟨rs, ?_, ?_⟩
          · simp [runOps, stepOp, setIntegerOption, h17, r1, k1]
          · rw [refOps_cache] at r2; exact r2
        · obtain ⟨rs, r1, r2⟩ := ih hrest h hinv
          refine ⟨rs, ?_, r2⟩
          simp [runOps, stepOp, setIntegerOption, h9, h17, r1]
    | spell w =>
      obtain ⟨c', k1, k2, _⟩ := spellUcs4_eq (dict h.acceptExtraHyphens) h.spell h.spellerCache hinv w hop
      obtain ⟨c'', m1, _, m3⟩ := spellUcs4_eq (dict h.acceptExtraHyphens) h.spell none trivial w hop
      obtain ⟨rs, r1, r2⟩ := ih hrest { h with spellerCache := c' } k2
      rw [refOps_cache] at r2
      refine ⟨(if accepts (dict h.acceptExtraHyphens) h.spell w then .ok else .failed) :: rs, ?_, ?_⟩
      · simp only [runOps, stepOp, Handle.spellWord, k1, Option.bind_eq_bind, Option.bind_some, Option.pure_def, r1]
        rfl
      · simp only [refOps, m1, Option.bind_eq_bind, Option.bind_some, r2, Option.pure_def]

/-- C22 from a new handle: first any settings (hyphen options included), then any history leaving the hyphen
options alone. Missing for the full claim: changes of ACCEPT_MISSING_HYPHENS or ACCEPT_EXTRA_HYPHENS after words
have been spelled, where the code violates it (`C22_violation`), and cache sizes above 18 (`C23_size_overflow`). -/
theorem C22_new_handle_partial {G : Type} (dict : Bool → List Wc → SpellRes) (settings : List (Int × Int))
    (ops : List SpellOp) (hops : ∀ op ∈ ops, OpOk op) (h0 : Handle G) (hinit : initHandle G = some h0) :
    ∃ rs, runOps dict h0 (settings.map (fun p => .setBool p.1 p.2) ++ ops) = some rs ∧
      refOps dict h0 (settings.map (fun p => .setBool p.1 p.2) ++ ops) = some rs := by
  have hany : ∀ f, CacheInv f h0.spellerCache := by
    intro f
    obtain ⟨c, h1, _, h3⟩ := newCache_ok f 0 (by omega)
    unfold initHandle at hinit
    rw [h1] at hinit
    simp only [Option.bind_eq_bind, Option.bind_some, Option.pure_def, Option.some.injEq] at hinit
    rw [← hinit]; exact h3
  clear hinit
  induction settings generalizing h0 with
  | nil => exact C22_cache_transparent_partial dict ops hops h0 (hany _)
  | cons p ps ih =>
    obtain ⟨rs, r1, r2⟩ := ih (setBooleanOption h0 p.1 p.2).1 (by
      intro f; rw [(setBool_frame h0 p.1 p.2).1]; exact hany f)
    refine ⟨rs, ?_, r2⟩
    simp [runOps, stepOp, r1]

/-- A dictionary knowing only "-ab-". -/
def edgeDict : Bool → List Wc → SpellRes := fun _ w => if w = [0x2D, 0x61, 0x62, 0x2D] then .ok else .failed

/-- A history: ACCEPT_MISSING_HYPHENS on, spell "ab", ACCEPT_MISSING_HYPHENS off, spell "ab". -/
def hyphenHistory : List SpellOp := [.setBool 12 1, .spell [0x61, 0x62], .setBool 12 0, .spell [0x61, 0x62]]

/-- C22 as stated is false: after spelling "ab" with ACCEPT_MISSING_HYPHENS on, switching the option off has
no effect on "ab", because the cached verdict is used. -/
theorem C22_violation :
    (initHandle Unit >>= fun h => runOps edgeDict h hyphenHistory) = some [.ok, .ok] ∧
    (initHandle Unit >>= fun h => refOps edgeDict h hyphenHistory) = some [.ok, .failed] := by
  decide +kernel

/-- Non-vacuity: a history with repeated words, option and cache size changes. -/
example : (∀ op ∈ [SpellOp.spell [0x61, 0x62], .setBool 0 1, .setInt 17 3, .spell [0x61, 0x62], .spell [0x41, 0x42]],
    OpOk op) := by
  intro op hop
  simp only [List.mem_cons, List.not_mem_nil, or_false] at hop
  rcases hop with rfl | rfl | rfl | rfl | rfl <;> simp [OpOk, WordOk]

end Verif.Props
