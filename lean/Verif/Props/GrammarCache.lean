import Verif.Lemmas.GrammarCache
import Verif.Props.TokenizerCstr
/-! C51–C53 and C55: the cached grammar errors and the answers of `voikkoNextGrammarErrorUcs4` and
`voikkoNextGrammarErrorCstr`. -/

namespace Verif.Props
open Verif
set_option linter.unusedSimpArgs false
set_option linter.unusedVariables false

/-! ### C51 -/

/-- `es` is `found` in text order: sorted by start position, with the same errors, and errors with the same start
position in the same order. -/
structure TextOrder (found es : List GErr) : Prop where
  sorted : es.Pairwise fun a b => a.start ≤ b.start
  perm : es.Perm found
  stable : ∀ p, es.filter (·.start == p) = found.filter (·.start == p)

/-- C51: appending errors one after the other to the empty cache gives them in text order. -/
theorem C51_text_order (found : List GErr) : TextOrder found (found.foldl appendError []) := by
  obtain ⟨h1, h2, h3⟩ := fold_append found [] List.Pairwise.nil
  exact ⟨h1, by simpa using h2, fun p => by simpa using h3 p⟩

/-- Four errors, two of them at the same place. -/
example : ([⟨1, 5, 1, []⟩, ⟨2, 0, 9, []⟩, ⟨3, 5, 2, []⟩, ⟨4, 3, 1, []⟩] : List GErr).foldl appendError [] =
    [⟨2, 0, 9, []⟩, ⟨4, 3, 1, []⟩, ⟨1, 5, 1, []⟩, ⟨3, 5, 2, []⟩] := by decide

/-! ### Histories -/

/-- States of a handle and of the autocorrection transducer after any sequence of calls: changes of options (except
`ACCEPT_EXTRA_HYPHENS`, 11), spelling and grammar checks. The wide character texts are terminated at `textlen`. A new
handle has an empty cache; it may have any options. -/
inductive GReach {σ : Type} (env : GramEnv σ) (dict : Bool → List Wc → SpellRes) : Handle GErr → σ → Prop where
  | init (h : Handle GErr) (c : σ) : h.gcCache = none → GReach env dict h c
  | setBool (h : Handle GErr) (c : σ) (n v : Int) : GReach env dict h c → n ≠ 11 →
      GReach env dict (setBooleanOption h n v).1 c
  | setInt (h h' : Handle GErr) (c : σ) (n v r : Int) : GReach env dict h c → setIntegerOption h n v = some (h', r) →
      GReach env dict h' c
  | spell (h h' : Handle GErr) (c : σ) (w : List Wc) (r : SpellCode) : GReach env dict h c →
      h.spellWord dict w = some (h', r) → GReach env dict h' c
  | check (h h' : Handle GErr) (c c' : σ) (text junk : List Wc) (startpos : Nat) (skip : Int) (r : Option GErr) :
      GReach env dict h c → 0 ∉ text →
      nextGrammarError env h c (text ++ 0 :: junk) text.length startpos skip = some (r, h', c') → GReach env dict h' c'
  | checkUtf8 (h h' : Handle GErr) (c c' : σ) (bytes : List Nat) (startpos : Nat) (skip : Int) (r : Option GErr) :
      GReach env dict h c → (∀ b ∈ bytes, b < 256) →
      nextGrammarErrorCstr env h c bytes startpos skip = some (r, h', c') → GReach env dict h' c'

/-- The environment: analyses have a STRUCTURE, look-ups in the autocorrection transducer have defined behaviour and do
not depend on earlier look-ups, and it has no correction for the empty string. -/
structure EnvOk {σ : Type} (env : GramEnv σ) : Prop where
  struct : HasStructure env.an
  auto : AutoOk env.auto
  stateless : Stateless env.auto

/-- The errors found in a text under the options of a handle, in the order in which they are found. -/
def Finds {σ : Type} (env : GramEnv σ) (h : Handle GErr) (text : List Wc) (found : List GErr) : Prop :=
  ∀ dot c, ∃ c', foundErrors env h.acceptExtraHyphens dot (gramOpts h) text c = some (c', found)

theorem finds_exists {σ : Type} (env : GramEnv σ) (he : EnvOk env) (h : Handle GErr) (c0 : σ) (text : List Wc)
    (h0 : text ≠ []) (hz : 0 ∉ text) : ∃ found, Finds env h text found ∧ ∀ e ∈ found, GoodErr text.length e := by
  obtain ⟨c', es, h1, h2⟩ := foundErrors_spec env he.struct he.auto h.acceptExtraHyphens false (gramOpts h) text h0 hz c0
  refine ⟨es, fun dot c => ?_, h2⟩
  rw [foundErrors_dot]
  exact foundErrors_stateless env he.stateless _ _ _ _ _ _ _ h1 c

theorem finds_unique {σ : Type} {env : GramEnv σ} {h : Handle GErr} {text : List Wc} {a b : List GErr} (c : σ)
    (ha : Finds env h text a) (hb : Finds env h text b) : a = b := by
  obtain ⟨c1, h1⟩ := ha false c
  obtain ⟨c2, h2⟩ := hb false c
  rw [h1, Option.some.injEq, Prod.mk.injEq] at h2
  exact h2.2

/-- The cache holds the errors of its paragraph under the current options. -/
def GInv {σ : Type} (env : GramEnv σ) (h : Handle GErr) : Prop :=
  ∀ para es, h.gcCache = some (para, es) → 0 ∉ para ∧ para ≠ [] ∧ ∃ found, Finds env h para found ∧ es = found.foldl appendError []

/-- The documented answer: the first error from `startpos` on among those after the first `skip` errors of the text. -/
def answer (es : List GErr) (startpos : Nat) (skip : Int) : Option GErr :=
  (es.drop skip.toNat).find? (startpos ≤ ·.start)

theorem realError_answer (found : List GErr) (N : Nat) (hg : ∀ e ∈ found, GoodErr N e) (startpos : Nat) (skip : Int) :
    realError (some (findError startpos skip 0 (found.foldl appendError []))) =
      answer (found.foldl appendError []) startpos skip := by
  rw [findError_eq, show skip - 0 = skip by omega]
  show realError (some (answer _ startpos skip)) = _
  cases ha : answer (found.foldl appendError []) startpos skip with
  | none => rfl
  | some e =>
    have hm : e ∈ found := by
      have h1 := List.mem_of_mem_drop (List.mem_of_find?_eq_some ha)
      exact (C51_text_order found).perm.mem_iff.1 h1
    have := (hg e hm).2.2
    simp only [realError]
    rw [if_neg (by omega)]

theorem errorFromCache_hit (para : List Wc) (es : List GErr) (junk : List Wc) (hz : 0 ∉ para) (startpos : Nat) (skip : Int) :
    errorFromCache (some (para, es)) (para ++ 0 :: junk) startpos skip = some (some (findError startpos skip 0 es)) := by
  simp only [errorFromCache, wcscmpEq_spec para para junk hz hz, Option.bind_eq_bind, Option.bind_some]
  simp

theorem errorFromCache_miss (para text : List Wc) (es : List GErr) (junk : List Wc) (hp : 0 ∉ para) (ht : 0 ∉ text)
    (hne : para ≠ text) (startpos : Nat) (skip : Int) :
    errorFromCache (some (para, es)) (text ++ 0 :: junk) startpos skip = some none := by
  simp only [errorFromCache, wcscmpEq_spec para text junk hp ht, Option.bind_eq_bind, Option.bind_some]
  simp [hne]

/-- One check of a terminated text. -/
theorem check_spec {σ : Type} (env : GramEnv σ) (he : EnvOk env) (h : Handle GErr) (hi : GInv env h) (c : σ)
    (text junk : List Wc) (h0 : text ≠ []) (hz : 0 ∉ text) (startpos : Nat) (skip : Int) (found : List GErr)
    (hf : Finds env h text found) :
    ∃ g c', nextGrammarError env h c (text ++ 0 :: junk) text.length startpos skip =
        some (answer (found.foldl appendError []) startpos skip, { h with gcCache := g }, c') ∧
      GInv env { h with gcCache := g } := by
  have hgood : ∀ e ∈ found, GoodErr text.length e := by
    obtain ⟨f2, k1, k2⟩ := finds_exists env he h c text h0 hz
    rw [finds_unique c hf k1]
    exact k2
  have hl : text.length ≠ 0 := by
    have := List.length_pos_iff.2 h0; omega
  -- a miss
  have miss : errorFromCache h.gcCache (text ++ 0 :: junk) startpos skip = some none →
      ∃ g c', nextGrammarError env h c (text ++ 0 :: junk) text.length startpos skip =
        some (answer (found.foldl appendError []) startpos skip, { h with gcCache := g }, c') ∧
        GInv env { h with gcCache := g } := by
    intro hm
    obtain ⟨c', hfe⟩ := hf h.spell.ignoreDot c
    have htake : (text ++ 0 :: junk).take text.length = text := by simp
    refine ⟨some (text, found.foldl appendError []), c', ?_, ?_⟩
    · unfold nextGrammarError
      rw [if_neg hl, hm]
      simp only [Option.bind_eq_bind, Option.bind_some]
      unfold paragraphToCache
      rw [if_neg (by simp), htake]
      simp only [hfe, Option.bind_eq_bind, Option.bind_some, Option.pure_def]
      rw [errorFromCache_hit text _ junk hz]
      simp only [Option.bind_some]
      rw [realError_answer found text.length hgood]
    · intro para es hpe
      simp only [Option.some.injEq, Prod.mk.injEq] at hpe
      obtain ⟨rfl, rfl⟩ := hpe
      exact ⟨hz, h0, found, hf, rfl⟩
  cases hc : h.gcCache with
  | none => exact miss (by rw [hc]; rfl)
  | some pe =>
    obtain ⟨para, es⟩ := pe
    obtain ⟨i1, i2, f2, i3, i4⟩ := hi para es hc
    by_cases hp : para = text
    · subst hp
      have : f2 = found := finds_unique c i3 hf
      subst this
      refine ⟨some (para, es), c, ?_, ?_⟩
      · unfold nextGrammarError
        rw [if_neg hl, hc, errorFromCache_hit para es junk hz]
        simp only [Option.bind_eq_bind, Option.bind_some, Option.pure_def]
        rw [i4, realError_answer f2 para.length hgood]
        have : { h with gcCache := some (para, f2.foldl appendError []) } = h := by
          rw [← i4, ← hc]
        rw [this]
      · have : { h with gcCache := some (para, es) } = h := by rw [← hc]
        rw [this]
        exact hi
    · exact miss (by rw [hc]; exact errorFromCache_miss para text es junk i1 hz hp startpos skip)

theorem splitNul (w : List Wc) : ∃ junk, w ++ [0] = cstr w ++ 0 :: junk ∧ 0 ∉ cstr w := by
  induction w with
  | nil => exact ⟨[], rfl, by simp [cstr]⟩
  | cons x w ih =>
    obtain ⟨junk, h1, h2⟩ := ih
    by_cases hx : x = 0
    · subst hx
      exact ⟨w ++ [0], by simp [cstr], by simp [cstr]⟩
    · refine ⟨junk, ?_, ?_⟩
      · have : cstr (x :: w) = x :: cstr w := by simp [cstr, hx]
        rw [this, List.cons_append, h1]
        rfl
      · have : cstr (x :: w) = x :: cstr w := by simp [cstr, hx]
        rw [this]
        simp only [List.mem_cons, not_or]
        exact ⟨Ne.symm hx, h2⟩

/-- The UTF-8 function finds nothing in text that is not valid UTF-8 or is empty; otherwise it is the wide character
function on a terminated text. -/
theorem cstr_reduces {σ : Type} (env : GramEnv σ) (bytes : List Nat) (hb : ∀ b ∈ bytes, b < 256) :
    (∀ h c startpos skip, nextGrammarErrorCstr env h c bytes startpos skip = some (none, h, c)) ∨
    ∃ w junk, ucs4FromUtf8 bytes = some (some w) ∧ cstr w ≠ [] ∧ 0 ∉ cstr w ∧ ∀ h c startpos skip,
      nextGrammarErrorCstr env h c bytes startpos skip =
        nextGrammarError env h c (cstr w ++ 0 :: junk) (cstr w).length startpos skip := by
  cases hu : ucs4FromUtf8 bytes with
  | none => exact absurd hu (C15_in_bounds bytes hb)
  | some ow =>
    cases ow with
    | none =>
      left
      intro h c startpos skip
      unfold nextGrammarErrorCstr
      split
      · rfl
      · rw [hu]; rfl
    | some w =>
      obtain ⟨junk, h1, h2⟩ := splitNul w
      by_cases he : cstr w = []
      · left
        intro h c startpos skip
        unfold nextGrammarErrorCstr
        split
        · rfl
        · rw [hu]
          simp only [Option.bind_eq_bind, Option.bind_some]
          unfold nextGrammarError
          rw [he]
          rfl
      · right
        refine ⟨w, junk, rfl, he, h2, fun h c startpos skip => ?_⟩
        unfold nextGrammarErrorCstr
        have hbne : bytes.length ≠ 0 := by
          intro hb0
          have : bytes = [] := List.length_eq_zero_iff.1 hb0
          subst this
          have hw : w = [] := by
            have : ucs4FromUtf8 [] = some (some []) := by decide
            rw [this] at hu
            simpa using hu.symm
          subst hw
          exact he rfl
        rw [if_neg hbne, hu]
        simp only [Option.bind_eq_bind, Option.bind_some]
        rw [h1]

/-! ### Changes of options -/

theorem setBool_gc (h : Handle GErr) (n v : Int) (hn : n ≠ 11) (x : List Wc × List GErr)
    (hx : (setBooleanOption h n v).1.gcCache = some x) :
    h.gcCache = some x ∧ gramOpts (setBooleanOption h n v).1 = gramOpts h ∧
      (setBooleanOption h n v).1.acceptExtraHyphens = h.acceptExtraHyphens := by
  refine ⟨?_, ?_, (setBool_frame h n v).2.1 hn⟩
  all_goals
    revert hx
    simp only [setBooleanOption, gcCacheAfter, gramOpts]
    by_cases e0 : n = 0; · subst e0; simp
    by_cases e1 : n = 1; · subst e1; simp
    by_cases e3 : n = 3; · subst e3; simp
    by_cases e6 : n = 6; · subst e6; simp
    by_cases e7 : n = 7; · subst e7; simp
    by_cases e4 : n = 4; · subst e4; simp
    by_cases e8 : n = 8; · subst e8; simp
    by_cases e10 : n = 10; · subst e10; simp
    by_cases e12 : n = 12; · subst e12; simp
    by_cases e13 : n = 13
    · subst e13; simp (config := { contextual := true })
    by_cases e14 : n = 14
    · subst e14; simp (config := { contextual := true })
    by_cases e16 : n = 16
    · subst e16; simp (config := { contextual := true })
    by_cases e15 : n = 15; · subst e15; simp
    simp [*]

theorem setInt_gc (h h' : Handle GErr) (n v r : Int) (hs : setIntegerOption h n v = some (h', r)) :
    h'.gcCache = h.gcCache ∧ gramOpts h' = gramOpts h ∧ h'.acceptExtraHyphens = h.acceptExtraHyphens := by
  unfold setIntegerOption at hs
  split at hs
  · simp only [Option.pure_def, Option.some.injEq, Prod.mk.injEq] at hs
    obtain ⟨rfl, _⟩ := hs
    exact ⟨rfl, rfl, rfl⟩
  · split at hs
    · cases hr : resizeCache h.spellerCache v with
      | none => rw [hr] at hs; simp at hs
      | some c =>
        rw [hr] at hs
        simp only [Option.bind_eq_bind, Option.bind_some, Option.pure_def, Option.some.injEq, Prod.mk.injEq] at hs
        obtain ⟨rfl, _⟩ := hs
        exact ⟨rfl, rfl, rfl⟩
    · simp only [Option.pure_def, Option.some.injEq, Prod.mk.injEq] at hs
      obtain ⟨rfl, _⟩ := hs
      exact ⟨rfl, rfl, rfl⟩

theorem spellWord_gc (dict : Bool → List Wc → SpellRes) (h h' : Handle GErr) (w : List Wc) (r : SpellCode)
    (hs : h.spellWord dict w = some (h', r)) :
    h'.gcCache = h.gcCache ∧ gramOpts h' = gramOpts h ∧ h'.acceptExtraHyphens = h.acceptExtraHyphens := by
  unfold Handle.spellWord at hs
  cases hr : spellUcs4 (dict h.acceptExtraHyphens) h.spell h.spellerCache w with
  | none => rw [hr] at hs; simp at hs
  | some x =>
    rw [hr] at hs
    simp only [Option.bind_eq_bind, Option.bind_some, Option.pure_def, Option.some.injEq, Prod.mk.injEq] at hs
    obtain ⟨rfl, _⟩ := hs
    exact ⟨rfl, rfl, rfl⟩

theorem GInv.congr {σ : Type} {env : GramEnv σ} {h h' : Handle GErr} (hi : GInv env h)
    (hx : ∀ x, h'.gcCache = some x → h.gcCache = some x ∧ gramOpts h' = gramOpts h ∧
      h'.acceptExtraHyphens = h.acceptExtraHyphens) : GInv env h' := by
  intro para es hc
  obtain ⟨k1, k2, k3⟩ := hx _ hc
  obtain ⟨i1, i2, found, i3, i4⟩ := hi para es k1
  refine ⟨i1, i2, found, ?_, i4⟩
  unfold Finds
  rw [k2, k3]
  exact i3

theorem check_inv {σ : Type} {env : GramEnv σ} (he : EnvOk env) {h h' : Handle GErr} (hi : GInv env h) {c c' : σ}
    {text junk : List Wc} (hz : 0 ∉ text) {startpos : Nat} {skip : Int} {r : Option GErr}
    (hr : nextGrammarError env h c (text ++ 0 :: junk) text.length startpos skip = some (r, h', c')) : GInv env h' := by
  by_cases h0 : text = []
  · subst h0
    simp only [nextGrammarError, List.length_nil, if_true, Option.pure_def, Option.some.injEq, Prod.mk.injEq] at hr
    rw [← hr.2.1]
    exact hi
  · obtain ⟨found, hf, _⟩ := finds_exists env he h c text h0 hz
    obtain ⟨g, c2, k1, k2⟩ := check_spec env he h hi c text junk h0 hz startpos skip found hf
    rw [hr, Option.some.injEq, Prod.mk.injEq, Prod.mk.injEq] at k1
    rw [k1.2.1]
    exact k2

theorem reach_inv {σ : Type} {env : GramEnv σ} {dict : Bool → List Wc → SpellRes} (he : EnvOk env) {h : Handle GErr} {c : σ}
    (hr : GReach env dict h c) : GInv env h := by
  induction hr with
  | init h c h0 => intro para es hc; rw [h0] at hc; simp at hc
  | setBool h c n v _ hn ih => exact ih.congr fun x hx => setBool_gc h n v hn x hx
  | setInt h h' c n v r _ hs ih =>
    obtain ⟨k1, k2, k3⟩ := setInt_gc h h' n v r hs
    exact ih.congr fun x hx => ⟨by rw [← k1]; exact hx, k2, k3⟩
  | spell h h' c w r _ hs ih =>
    obtain ⟨k1, k2, k3⟩ := spellWord_gc dict h h' w r hs
    exact ih.congr fun x hx => ⟨by rw [← k1]; exact hx, k2, k3⟩
  | check h h' c c' text junk startpos skip r _ hz hs ih => exact check_inv he ih hz hs
  | checkUtf8 h h' c c' bytes startpos skip r _ hb hs ih =>
    rcases cstr_reduces env bytes hb with k | ⟨w, junk, _, k1, k2, k⟩
    · rw [k, Option.some.injEq, Prod.mk.injEq, Prod.mk.injEq] at hs
      rw [← hs.2.1]
      exact ih
    · rw [k] at hs
      exact check_inv he ih k2 hs

/-! ### C53 -/

/-- C53 (partial): after any history a check of a terminated wide character text gives the answer that a check with an
empty cache and a new transducer gives, and has defined behaviour. Missing: texts that continue after `textlen`, and
histories that change `ACCEPT_EXTRA_HYPHENS`; see `C53_violation_*`. -/
theorem C53_invisible_partial {σ : Type} (env : GramEnv σ) (he : EnvOk env) (dict : Bool → List Wc → SpellRes)
    (h : Handle GErr) (c c0 : σ) (hr : GReach env dict h c) (text junk : List Wc) (hz : 0 ∉ text) (startpos : Nat)
    (skip : Int) :
    ∃ a h1 c1 h2 c2, nextGrammarError env h c (text ++ 0 :: junk) text.length startpos skip = some (a, h1, c1) ∧
      nextGrammarError env { h with gcCache := none } c0 (text ++ 0 :: junk) text.length startpos skip = some (a, h2, c2) := by
  by_cases h0 : text = []
  · subst h0
    exact ⟨none, h, c, { h with gcCache := none }, c0, rfl, rfl⟩
  · obtain ⟨found, hf, _⟩ := finds_exists env he h c text h0 hz
    obtain ⟨g, c1, k1, _⟩ := check_spec env he h (reach_inv he hr) c text junk h0 hz startpos skip found hf
    obtain ⟨g2, c2, k2, _⟩ := check_spec env he { h with gcCache := none } (fun _ _ h => by simp at h) c0 text junk h0 hz
      startpos skip found hf
    exact ⟨_, _, _, _, _, k1, k2⟩

/-- C53 (partial): the same for the UTF-8 function, for all byte sequences. Missing: histories that change
`ACCEPT_EXTRA_HYPHENS`. -/
theorem C53_invisible_utf8_partial {σ : Type} (env : GramEnv σ) (he : EnvOk env) (dict : Bool → List Wc → SpellRes)
    (h : Handle GErr) (c c0 : σ) (hr : GReach env dict h c) (bytes : List Nat) (hb : ∀ b ∈ bytes, b < 256) (startpos : Nat)
    (skip : Int) :
    ∃ a h1 c1 h2 c2, nextGrammarErrorCstr env h c bytes startpos skip = some (a, h1, c1) ∧
      nextGrammarErrorCstr env { h with gcCache := none } c0 bytes startpos skip = some (a, h2, c2) := by
  rcases cstr_reduces env bytes hb with k | ⟨w, junk, _, _, k2, k⟩
  · exact ⟨none, h, c, { h with gcCache := none }, c0, k _ _ _ _, k _ _ _ _⟩
  · simp only [k]
    exact C53_invisible_partial env he dict h c c0 hr (cstr w) junk k2 startpos skip

/-- An analyser that knows all words as nouns. -/
def nounAn : List Wc → List GramAn := fun _ => [{ struct := some (lit "=ppppppp"), cls := some (lit "nimisana") }]

/-- A speller that accepts "a-b." if extra hyphens are accepted; no autocorrection. -/
def dotEnv : GramEnv Unit := ⟨nounAn, fun extra w => extra && w == lit "a-b.", none⟩

theorem dotEnv_ok : EnvOk dotEnv :=
  ⟨fun w a ha => by simp only [dotEnv, nounAn, List.mem_singleton] at ha; subst ha; simp,
   fun m h => by simp [dotEnv] at h, fun m h => by simp [dotEnv] at h⟩

/-- C53 fails when `ACCEPT_EXTRA_HYPHENS` changes: the old errors are reported ("On a-b. On x." is two sentences without
the option and one sentence with it). -/
theorem C53_violation_extra_hyphens :
    ((nextGrammarError dotEnv {} () (lit "On a-b. On x." ++ [0]) 13 0 0).bind fun r =>
      (nextGrammarError dotEnv (setBooleanOption r.2.1 11 1).1 () (lit "On a-b. On x." ++ [0]) 13 0 0).map (·.1)) =
      some (some ⟨17, 0, 7, []⟩) ∧
    (nextGrammarError dotEnv (setBooleanOption {} 11 1).1 () (lit "On a-b. On x." ++ [0]) 13 0 0).map (·.1) =
      some (some ⟨17, 0, 13, []⟩) := by
  refine ⟨by decide +kernel, by decide +kernel⟩

/-- C53 and C55 fail for a text that continues after `textlen`: after a check of "Ab cd  ef." a check of its first five
characters "Ab cd" reports the error at position 5; a new handle reports no error at all. -/
theorem C53_violation_continued :
    ((nextGrammarError dotEnv {} () (lit "Ab cd  ef." ++ [0]) 10 0 0).bind fun r =>
      (nextGrammarError dotEnv r.2.1 () (lit "Ab cd  ef." ++ [0]) 5 1 0).map (·.1)) = some (some ⟨2, 5, 2, [[0x20]]⟩) ∧
    (nextGrammarError dotEnv {} () (lit "Ab cd  ef." ++ [0]) 5 1 0).map (·.1) = some none := by
  refine ⟨by decide +kernel, by decide +kernel⟩

/-- A buffer of exactly `textlen` characters: the comparison with the cached paragraph reads past its end. -/
theorem C53_violation_unterminated : nextGrammarError dotEnv {} () (lit "Ab  cd.") 7 0 0 = none := by decide +kernel

/-- A history: check, change of an option that clears the cache, spelling, check. -/
example : ∃ h c, GReach dotEnv (fun _ _ => .ok) h c ∧ h.gcCache.isSome = true ∧ h.acceptTitles = true := by
  have h0 : GReach dotEnv (fun _ _ => .ok) {} () := .init _ _ rfl
  have h1 := GReach.setBool {} () 13 1 h0 (by omega)
  obtain ⟨found, hf, _⟩ := finds_exists dotEnv dotEnv_ok (setBooleanOption {} 13 1).1 () (lit "Ab  cd.") (by decide) (by decide)
  obtain ⟨g, c', k1, _⟩ := check_spec dotEnv dotEnv_ok _ (reach_inv dotEnv_ok h1) () (lit "Ab  cd.") [] (by decide) (by decide)
    0 0 found hf
  have h2 := GReach.check _ _ _ _ (lit "Ab  cd.") [] 0 0 _ h1 (by decide) k1
  refine ⟨_, _, h2, ?_, rfl⟩
  have : ((nextGrammarError dotEnv (setBooleanOption {} 13 1).1 () (lit "Ab  cd." ++ 0 :: []) (lit "Ab  cd.").length 0 0).map
    fun r => r.2.1.gcCache.isSome) = some true := by decide +kernel
  rw [k1] at this
  simpa using this

/-! ### C52 -/

/-- The loop of a client that asks for the errors of a text: `skiperrors` = `k`, `k + 1`, … until no error is returned. -/
def collectErrors {σ : Type} (call : Int → Handle GErr → σ → UB (Option GErr × Handle GErr × σ)) :
    Nat → Int → Handle GErr → σ → UB (List GErr)
  | 0, _, _, _ => ub
  | fuel + 1, k, h, c => do
    let (r, h, c) ← call k h c
    match r with
    | none => return []
    | some e => do
      let es ← collectErrors call fuel (k + 1) h c
      return e :: es

theorem answer_zero (es : List GErr) (k : Nat) : answer es 0 (k : Int) = es[k]? := by
  unfold answer
  rw [Int.toNat_natCast]
  have : (fun e : GErr => decide (0 ≤ e.start)) = fun _ => true := by funext e; simp
  rw [this]
  cases h : es[k]? with
  | none =>
    rw [List.getElem?_eq_none_iff] at h
    rw [List.drop_of_length_le h]
    rfl
  | some e =>
    obtain ⟨hk, rfl⟩ := List.getElem?_eq_some_iff.1 h
    rw [List.drop_eq_getElem_cons hk]
    rfl

theorem collect_spec {σ : Type} (env : GramEnv σ) (he : EnvOk env) (text junk : List Wc) (h0 : text ≠ []) (hz : 0 ∉ text)
    (found : List GErr) (fuel : Nat) : ∀ (k : Nat) (h : Handle GErr) (c : σ), GInv env h → Finds env h text found →
      k ≤ found.length → found.length < fuel + k →
      collectErrors (fun k h c => nextGrammarError env h c (text ++ 0 :: junk) text.length 0 k) fuel (k : Int) h c =
        some ((found.foldl appendError []).drop k) := by
  have hlen : (found.foldl appendError []).length = found.length := (C51_text_order found).perm.length_eq
  induction fuel with
  | zero => intro k h c _ _ h1 h2; omega
  | succ fuel ih =>
    intro k h c hi hf h1 h2
    obtain ⟨g, c', k1, k2⟩ := check_spec env he h hi c text junk h0 hz 0 k found hf
    rw [collectErrors, k1]
    simp only [Option.bind_eq_bind, Option.bind_some]
    rw [answer_zero]
    by_cases hk : k < found.length
    · rw [List.getElem?_eq_getElem (by omega)]
      simp only
      have := ih (k + 1) { h with gcCache := g } c' k2 hf (by omega) (by omega)
      rw [show ((k : Int) + 1) = ((k + 1 : Nat) : Int) by omega, this]
      simp only [Option.bind_some, Option.pure_def]
      rw [← List.drop_eq_getElem_cons]
    · rw [List.getElem?_eq_none (by omega), List.drop_of_length_le (by omega)]
      rfl

/-- C52 (partial): after any history, asking with `startpos` 0 and `skiperrors` 0, 1, 2, … returns the errors found in
the text in text order, each once, and then none. Missing: wide character texts that are not terminated at `textlen`
(no errors are found in them, `C52_violation_continued`). -/
theorem C52_iterate_partial {σ : Type} (env : GramEnv σ) (he : EnvOk env) (dict : Bool → List Wc → SpellRes)
    (h : Handle GErr) (c : σ) (hr : GReach env dict h c) (text junk : List Wc) (h0 : text ≠ []) (hz : 0 ∉ text) :
    ∃ found es, Finds env h text found ∧ TextOrder found es ∧ ∀ fuel, es.length < fuel →
      collectErrors (fun k h c => nextGrammarError env h c (text ++ 0 :: junk) text.length 0 k) fuel 0 h c = some es := by
  obtain ⟨found, hf, _⟩ := finds_exists env he h c text h0 hz
  have hlen : (found.foldl appendError []).length = found.length := (C51_text_order found).perm.length_eq
  refine ⟨found, _, hf, C51_text_order found, fun fuel hfu => ?_⟩
  have := collect_spec env he text junk h0 hz found fuel 0 h c (reach_inv he hr) hf (by omega) (by omega)
  simpa using this

/-- C52: the same for the UTF-8 function and all valid texts. -/
theorem C52_iterate_utf8 {σ : Type} (env : GramEnv σ) (he : EnvOk env) (dict : Bool → List Wc → SpellRes)
    (h : Handle GErr) (c : σ) (hr : GReach env dict h c) (text : List Wc) (h0 : text ≠ [])
    (hv : ∀ x ∈ text, ValidCp x ∧ x ≠ 0) :
    ∃ found es, Finds env h text found ∧ TextOrder found es ∧ ∀ fuel, es.length < fuel →
      collectErrors (fun k h c => nextGrammarErrorCstr env h c (encodeStr text) 0 k) fuel 0 h c = some es := by
  have hz : 0 ∉ text := fun h => (hv 0 h).2 rfl
  have hval : ∀ x ∈ text, ValidCp x := fun x hx => (hv x hx).1
  have hdec : ucs4FromUtf8 (encodeStr text) = some (some text) :=
    (C15_decoder_exact (encodeStr text) text (encodeStr_lt text hval)).2 ⟨hval, rfl⟩
  have hcall : ∀ (h : Handle GErr) (c : σ) (k : Int), nextGrammarErrorCstr env h c (encodeStr text) 0 k =
      nextGrammarError env h c (text ++ 0 :: []) text.length 0 k := by
    intro h c k
    unfold nextGrammarErrorCstr
    have := length_le_encodeStr text
    have := List.length_pos_iff.2 h0
    rw [if_neg (by omega), hdec]
    simp only [Option.bind_eq_bind, Option.bind_some]
    rw [cstr_eq text hz]
  simp only [hcall]
  exact C52_iterate_partial env he dict h c hr text [] h0 hz

/-- C52: other combinations of `startpos` and `skiperrors`: the first `skiperrors` errors of the text are passed over, and
of the others the first one from `startpos` on is returned. -/
theorem C52_startpos_partial {σ : Type} (env : GramEnv σ) (he : EnvOk env) (dict : Bool → List Wc → SpellRes)
    (h : Handle GErr) (c : σ) (hr : GReach env dict h c) (text junk : List Wc) (h0 : text ≠ []) (hz : 0 ∉ text) :
    ∃ found es, Finds env h text found ∧ TextOrder found es ∧ ∀ startpos skip,
      (nextGrammarError env h c (text ++ 0 :: junk) text.length startpos skip).map (·.1) =
        some ((es.drop skip.toNat).find? (startpos ≤ ·.start)) := by
  obtain ⟨found, hf, _⟩ := finds_exists env he h c text h0 hz
  refine ⟨found, _, hf, C51_text_order found, fun startpos skip => ?_⟩
  obtain ⟨g, c', k1, _⟩ := check_spec env he h (reach_inv he hr) c text junk h0 hz startpos skip found hf
  rw [k1]
  rfl

/-- C52 for any cached list: the loop over the cache gives the documented answer. -/
theorem C52_cached (es : List GErr) (startpos : Nat) (skip : Int) :
    findError startpos skip 0 es = (es.drop skip.toNat).find? (startpos ≤ ·.start) := by
  rw [findError_eq, show skip - 0 = skip by omega]

/-- C52 fails for a text that continues after `textlen`: the errors of "Ab  cd." are not reported. -/
theorem C52_violation_continued :
    (nextGrammarError dotEnv {} () (lit "Ab  cd." ++ [0]) 7 1 0).map (·.1) = some (some ⟨2, 2, 2, [[0x20]]⟩) ∧
    (nextGrammarError dotEnv {} () (lit "Ab  cd. Ef." ++ [0]) 7 1 0).map (·.1) = some none := by
  refine ⟨by decide +kernel, by decide +kernel⟩

/-- "Ab  cd." has two errors; the second one is the double space. -/
example : collectErrors (fun k h c => nextGrammarErrorCstr dotEnv h c (encodeStr (lit "Ab  cd.")) 0 k) 5 0 {} () =
    some [⟨17, 0, 7, []⟩, ⟨2, 2, 2, [[0x20]]⟩] := by decide +kernel

/-! ### C55 -/

/-- C55 (partial): after any history every error reported for a terminated text of `n` characters has
`startpos + errorlen ≤ n`, `errorlen > 0` and a code from 1 to 18. Missing: texts that continue after `textlen`
(`C53_violation_continued`: an error outside the text is reported). -/
theorem C55_inside_partial {σ : Type} (env : GramEnv σ) (he : EnvOk env) (dict : Bool → List Wc → SpellRes)
    (h h' : Handle GErr) (c c' : σ) (hr : GReach env dict h c) (text junk : List Wc) (hz : 0 ∉ text) (startpos : Nat)
    (skip : Int) (e : GErr)
    (hc : nextGrammarError env h c (text ++ 0 :: junk) text.length startpos skip = some (some e, h', c')) :
    e.start + e.len ≤ text.length ∧ 0 < e.len ∧ 0 < e.code ∧ e.code ≤ 18 := by
  by_cases h0 : text = []
  · subst h0
    simp [nextGrammarError] at hc
  · obtain ⟨found, hf, hg⟩ := finds_exists env he h c text h0 hz
    obtain ⟨g, c1, k1, _⟩ := check_spec env he h (reach_inv he hr) c text junk h0 hz startpos skip found hf
    rw [hc, Option.some.injEq, Prod.mk.injEq] at k1
    have h1 := List.mem_of_mem_drop (List.mem_of_find?_eq_some k1.1.symm)
    exact hg e ((C51_text_order found).perm.mem_iff.1 h1)

/-- C55: the same for the UTF-8 function, for all byte sequences. -/
theorem C55_inside_utf8 {σ : Type} (env : GramEnv σ) (he : EnvOk env) (dict : Bool → List Wc → SpellRes)
    (h h' : Handle GErr) (c c' : σ) (hr : GReach env dict h c) (bytes : List Nat) (hb : ∀ b ∈ bytes, b < 256) (startpos : Nat)
    (skip : Int) (e : GErr) (hc : nextGrammarErrorCstr env h c bytes startpos skip = some (some e, h', c')) :
    ∃ text, ucs4FromUtf8 bytes = some (some text) ∧ e.start + e.len ≤ text.length ∧ 0 < e.len ∧ 0 < e.code ∧ e.code ≤ 18 := by
  rcases cstr_reduces env bytes hb with k | ⟨w, junk, k0, _, k2, k⟩
  · rw [k] at hc
    simp at hc
  · rw [k] at hc
    have := C55_inside_partial env he dict h h' c c' hr (cstr w) junk k2 startpos skip e hc
    have hl : (cstr w).length ≤ w.length := (List.takeWhile_prefix _).length_le
    exact ⟨w, k0, by omega, this.2⟩

/-- C55 needs the hypothesis on the autocorrection transducer: with a correction for the empty string an error of
length 0 is reported. -/
theorem C55_violation_empty_prefix :
    (foundErrors (⟨nounAn, fun _ _ => false, some ⟨fun c _ => some (c, some ([], 0))⟩⟩ : GramEnv Unit) false false {}
      (lit "A b.") ()).map (·.2) = some [⟨17, 0, 4, []⟩, ⟨1, 0, 0, [[]]⟩, ⟨1, 2, 0, [[]]⟩] := by decide +kernel

/-- An autocorrection look-up that corrects "joten kuten". -/
def jotenAuto : Lookup Unit := ⟨fun c w => some (c, if (lit "joten kuten").isPrefixOf w then some (lit "jotenkuten", 11) else none)⟩

example : EnvOk (⟨nounAn, fun _ _ => false, some jotenAuto⟩ : GramEnv Unit) := by
  refine ⟨fun w a ha => by simp only [nounAn, List.mem_singleton] at ha; subst ha; simp, ?_, ?_⟩
  · rintro m h
    simp only [Option.some.injEq] at h
    subst h
    intro c w _
    refine ⟨c, _, rfl, ?_⟩
    intro out n hn
    simp only [Option.ite_none_right_eq_some, Option.some.injEq, Prod.mk.injEq] at hn
    omega
  · rintro m h
    simp only [Option.some.injEq] at h
    subst h
    intro w c1 c1' r hr c2
    simp only [jotenAuto, Option.some.injEq, Prod.mk.injEq] at hr
    exact ⟨c2, by simp only [jotenAuto]; rw [hr.2]⟩

example : (nextGrammarError (⟨nounAn, fun _ _ => false, some jotenAuto⟩ : GramEnv Unit) {} ()
    (lit "Se joten kuten." ++ [0]) 15 1 0).map (·.1) = some (some ⟨1, 3, 11, [lit "jotenkuten"]⟩) := by decide +kernel

end Verif.Props
