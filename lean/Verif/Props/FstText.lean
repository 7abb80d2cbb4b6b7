import Verif.Lemmas.FstTextSteps
/-!
# From the text of an automaton to the look-up (C82)
-/

set_option linter.unusedSimpArgs false
set_option linter.unusedVariables false

namespace Verif.Props
open Verif Verif.Att

/-! ## Look-up -/

/-- C82: a text that describes a proper automaton compiles, in both byte orders and however `std::sort` orders equal elements, the file loads,
and looking up a word in it gives the outputs of the accepting runs of the automaton that the text describes, each run once, in the order of the
lines. If the look-up reports exhaustion, all accepting runs were given; it ends otherwise only at one of the fixed limits. -/
theorem C82_look_up_partial {text : List Nat} {ls : List Line} (hd : Describes text ls) (hp : Proper ls)
    {srtS : List (Nat × List Nat) → List (Nat × List Nat)} {srtT : List CTrans → List CTrans}
    (hS : SortsBy (fun a b => attSymLt a.2 b.2) srtS) (hT : SortsBy fileOrderLt srtT) (sw : Bool) :
    ∃ file f, attCompile srtS srtT sw text = some (some file) ∧ loadFile file = some (some f) ∧
    ∀ (pfx : Bool) (word : List Wc) (bufferSize bufferLen : Nat), 2 ≤ bufferSize → word.length ≤ bufferSize → 0 < bufferLen → ∀ n,
    ∃ known c, prepare f (Conf.new f.featureCount bufferSize) word = some (known, c) ∧
    ∃ (runs : List (List Nat × Nat)) (tail : List NextRes) (c' : Conf),
      enumerate f pfx bufferLen n c = some (runs.map (fun r => .found (runOutput ls r.1) r.2) ++ tail, c') ∧
      (∀ r ∈ runs, Accepts ls word pfx r.1 r.2) ∧
      runs.Pairwise (fun a b => RunBefore ls a.1 b.1) ∧ (runs.map (·.1)).Nodup ∧
      ((tail = [] ∧ runs.length = n) ∨
        (tail = [.exhausted] ∧ ∀ r m, Accepts ls word pfx r m → (r, m) ∈ runs) ∨
        ∃ r, tail = [r] ∧ Exceeds ls word pfx bufferSize bufferLen r) := by
  obtain ⟨symbols, states, h1, hc⟩ := compile_tables hd hp hS hT sw
  have g := compiled_good hp hc
  have hload : ∀ s ∈ symbols, LoadableSymbol s := by
    intro t ht
    rcases hc.from' t ht with rfl | ⟨l, hl, h⟩
    · exact proper_loadable (s := []) ⟨by intro c hc; (cases hc), .inl rfl⟩
    · obtain ⟨s, hs, rfl⟩ := mem_lineSyms h
      exact proper_loadable (hp.symbols l hl s hs)
  obtain ⟨file, f, hw, hl⟩ := loads g hload sw
  obtain ⟨Ss, F, V, K, S⟩ := setting_of hp hc hw hl
  obtain ⟨st, _, hfe⟩ := loaded g hw hl
  have hf : Holds f states := holds_of g (by rw [hfe]; rfl)
  refine ⟨file, f, by rw [h1, hw], hl, ?_⟩
  intro pfx word bufferSize bufferLen hbs hlen hbl n
  obtain ⟨known, c, h2, runs, tail, c', h3, h4, h5, h6⟩ := C44_look_up g hw hl pfx word hbs hlen hbl n
  refine ⟨known, c, h2, runs.map (fun r => (r.1.map (numberOf K), r.2)), tail, c', ?_, ?_, ?_, ?_, ?_⟩
  · rw [h3, List.map_map]
    congr 3
    apply List.map_congr_left
    intro r hr
    simp only [Function.comp]
    rw [output_of S (h4 r hr)]
  · intro r hr
    obtain ⟨r', hr', rfl⟩ := List.mem_map.1 hr
    exact (accepts_of S (h4 r' hr')).1
  · rw [List.pairwise_map]
    refine h5.imp_of_mem ?_
    intro a b ha hb hab
    exact before_of S (accepts_of S (h4 a ha)).2 (accepts_of S (h4 b hb)).2 (run_ords S (h4 a ha)) (run_ords S (h4 b hb)) hab
  · rw [List.map_map, List.nodup_iff_pairwise_ne, List.pairwise_map]
    refine h5.imp_of_mem ?_
    intro a b ha hb hab e
    have e' := numbers_inj S (accepts_of S (h4 a ha)).2 (accepts_of S (h4 b hb)).2 e
    rw [e'] at hab
    have irr : ∀ q : List (Nat × Nat), ¬ ABefore q q := by
      intro q
      induction q with
      | nil => exact fun h => h
      | cons x q ih =>
        rintro (h | h)
        · exact Nat.lt_irrefl _ h.2
        · exact ih h.2
    exact irr _ hab
  · rcases h6 with ⟨h6, h7⟩ | ⟨h6, h7⟩ | ⟨r, h6, h7⟩
    · exact .inl ⟨h6, by rw [List.length_map]; exact h7⟩
    · refine .inr (.inl ⟨h6, ?_⟩)
      intro r m hr
      obtain ⟨run, h8, rfl⟩ := of_accepts S hr
      exact List.mem_map.2 ⟨(run, m), h7 run m h8, rfl⟩
    · exact .inr (.inr ⟨r, h6, exceeds_of S g hf h7⟩)

/-! ## The orders given to `std::sort` -/

/-- The order of a symbol given as bytes. -/
def byteRank (s : List Nat) : Nat := if s = [] then 0 else if s.head? = some 64 then 1 else if s.head? = some 91 then 3 else 2

theorem lt_irrefl' (a : List Nat) : ¬ a < a := List.lt_irrefl a

theorem symLt_iff (a b : List Nat) : attSymLt a b = true ↔ byteRank a < byteRank b ∨ (byteRank a = byteRank b ∧ a < b) := by
  have tails : ∀ x : Nat, ∀ {u v : List Nat}, u.head? = some x → v.head? = some x → (u.tail < v.tail ↔ u < v) := by
    intro x u v hu hv
    cases u with
    | nil => cases hu
    | cons p u =>
      cases v with
      | nil => cases hv
      | cons q v =>
        have e1 : p = x := by simpa using hu
        have e2 : q = x := by simpa using hv
        subst e1
        subst e2
        rw [List.cons_lt_cons_iff]
        simp
  unfold attSymLt
  by_cases hab : a = b
  · subst hab
    simp [lt_irrefl']
  rw [if_neg hab]
  by_cases ha : a = []
  · rw [if_pos ha]
    have hb : b ≠ [] := fun e => hab (by rw [ha, e])
    have : byteRank a < byteRank b := by
      unfold byteRank
      rw [if_pos ha, if_neg hb]
      split
      · omega
      · split <;> omega
    simp [this]
  rw [if_neg ha]
  by_cases hb : b = []
  · rw [if_pos hb]
    have : byteRank b < byteRank a := by
      unfold byteRank
      rw [if_pos hb, if_neg ha]
      split
      · omega
      · split <;> omega
    constructor
    · intro h; cases h
    · rintro (h | h) <;> omega
  rw [if_neg hb]
  unfold byteRank
  rw [if_neg ha, if_neg hb]
  by_cases ha64 : a.head? = some 64
  · by_cases hb64 : b.head? = some 64
    · have h91 : a.head? ≠ some 91 := by rw [ha64]; decide
      have h91' : b.head? ≠ some 91 := by rw [hb64]; decide
      rw [if_neg (fun e => e.2 hb64), if_neg (fun e => e.2 ha64), if_neg (fun e => h91 e.1), if_neg (fun e => h91' e.1), if_pos (Or.inr ha64),
        if_pos ha64, if_pos hb64, decide_eq_true_iff, tails 64 ha64 hb64]
      simp
    · rw [if_pos ⟨ha64, hb64⟩, if_pos ha64, if_neg hb64]
      split <;> simp
  · by_cases hb64 : b.head? = some 64
    · rw [if_neg (fun e => ha64 e.1), if_pos ⟨hb64, ha64⟩, if_neg ha64, if_pos hb64]
      split <;> simp
    · rw [if_neg (fun e => ha64 e.1), if_neg (fun e => hb64 e.1), if_neg ha64, if_neg hb64]
      by_cases ha91 : a.head? = some 91
      · by_cases hb91 : b.head? = some 91
        · rw [if_neg (fun e => e.2 hb91), if_neg (fun e => e.2 ha91), if_pos (Or.inl ha91), if_pos ha91, if_pos hb91, decide_eq_true_iff, tails 91 ha91 hb91]
          simp
        · rw [if_pos ⟨ha91, hb91⟩, if_pos ha91, if_neg hb91]
          simp
      · by_cases hb91 : b.head? = some 91
        · rw [if_neg (fun e => ha91 e.1), if_pos ⟨hb91, ha91⟩, if_neg ha91, if_pos hb91]
          simp
        · rw [if_neg (fun e => ha91 e.1), if_neg (fun e => hb91 e.1), if_neg (fun e => e.elim ha91 ha64), if_neg ha91, if_neg hb91, decide_eq_true_iff]
          simp

/-- C82: the order of the symbols is a strict total order, as `std::sort` demands. -/
theorem C82_symbol_order : (∀ a, attSymLt a a = false) ∧ (∀ a b c, attSymLt a b = true → attSymLt b c = true → attSymLt a c = true) ∧
    ∀ a b, a = b ∨ attSymLt a b = true ∨ attSymLt b a = true := by
  refine ⟨fun a => by simp [attSymLt], ?_, ?_⟩
  · intro a b c h1 h2
    rw [symLt_iff] at *
    rcases h1 with h1 | ⟨h1, h1'⟩
    · rcases h2 with h2 | ⟨h2, _⟩
      · left; omega
      · left; omega
    · rcases h2 with h2 | ⟨h2, h2'⟩
      · left; omega
      · right; exact ⟨by omega, List.lt_trans h1' h2'⟩
  · intro a b
    rw [symLt_iff, symLt_iff]
    rcases Nat.lt_trichotomy (byteRank a) (byteRank b) with h | h | h
    · exact .inr (.inl (.inl h))
    · by_cases h1 : a < b
      · exact .inr (.inl (.inr ⟨h, h1⟩))
      · by_cases h2 : b < a
        · exact .inr (.inr (.inr ⟨h.symm, h2⟩))
        · exact .inl (List.le_antisymm (List.not_lt.1 h2) (List.not_lt.1 h1))
    · exact .inr (.inr (.inl h))

/-- The place of an input symbol code in the order. -/
def codeRank (n : Nat) : Nat := if n = 0 then 0 else if n = 0xFFFFFFFF then 1 else n + 2

theorem codeLt_iff (a b : CTrans) : fileOrderLt a b = true ↔ codeRank a.symIn < codeRank b.symIn := by
  unfold fileOrderLt codeRank
  split
  · rename_i h; rw [h]; simp
  · split
    · rename_i h1 h2
      simp only [true_iff]
      split
      · omega
      · split <;> omega
    · split
      · constructor
        · intro h; cases h
        · intro h; omega
      · split
        · simp only [true_iff]
          split <;> omega
        · split
          · constructor
            · intro h; cases h
            · intro h; omega
          · rw [decide_eq_true_iff]; omega

/-- C82: the order of the transitions is a strict weak order, as `std::sort` demands; transitions are equivalent exactly if they have the same
input symbol. -/
theorem C82_transition_order : (∀ a, fileOrderLt a a = false) ∧
    (∀ a b c, fileOrderLt a b = true → fileOrderLt b c = true → fileOrderLt a c = true) ∧
    ∀ a b, (fileOrderLt a b = false ∧ fileOrderLt b a = false) ↔ a.symIn = b.symIn := by
  refine ⟨fun a => by simp [fileOrderLt], ?_, ?_⟩
  · intro a b c h1 h2
    rw [codeLt_iff] at *
    omega
  · intro a b
    have h1 := codeLt_iff a b
    have h2 := codeLt_iff b a
    have inj : codeRank a.symIn = codeRank b.symIn → a.symIn = b.symIn := by
      unfold codeRank
      intro h
      by_cases a0 : a.symIn = 0
      · rw [if_pos a0] at h
        split at h
        · omega
        · split at h <;> omega
      · rw [if_neg a0] at h
        by_cases a1 : a.symIn = 0xFFFFFFFF
        · rw [if_pos a1] at h
          split at h
          · omega
          · split at h <;> omega
        · rw [if_neg a1] at h
          split at h
          · omega
          · split at h <;> omega
    constructor
    · rintro ⟨e1, e2⟩
      apply inj
      have : ¬ codeRank a.symIn < codeRank b.symIn := fun h => by rw [h1.2 h] at e1; cases e1
      have : ¬ codeRank b.symIn < codeRank a.symIn := fun h => by rw [h2.2 h] at e2; cases e2
      omega
    · intro h
      simp [fileOrderLt, h]

/-- Such sorting functions exist. -/
def sortSymbols (l : List (Nat × List Nat)) : List (Nat × List Nat) := attSort (fun a b => !attSymLt b.2 a.2) l

def sortTransitions (l : List CTrans) : List CTrans := attSort (fun a b => !fileOrderLt b a) l

theorem sortSymbols_sorts : SortsBy (fun a b => attSymLt a.2 b.2) sortSymbols := by
  intro l
  refine ⟨sort_perm _ _, ?_⟩
  have h := sort_sorted (le := fun a b : Nat × List Nat => !attSymLt b.2 a.2) (by
      intro a b c h1 h2
      simp only [Bool.not_eq_true', ← Bool.not_eq_true, symLt_iff, not_or, not_and] at *
      refine ⟨by omega, fun e => ?_⟩
      have e1 : byteRank b.2 = byteRank a.2 := by omega
      have e2 : byteRank c.2 = byteRank b.2 := by omega
      exact List.not_lt.2 (List.le_trans (List.not_lt.1 (h1.2 e1)) (List.not_lt.1 (h2.2 e2)))) (by
      intro a b
      simp only [Bool.or_eq_true, Bool.not_eq_true']
      cases h1 : attSymLt b.2 a.2 with
      | false => exact .inl rfl
      | true =>
        right
        cases h2 : attSymLt a.2 b.2 with
        | false => rfl
        | true =>
          have := C82_symbol_order.2.1 _ _ _ h1 h2
          rw [C82_symbol_order.1] at this
          cases this) l
  exact h.imp fun h => by simpa using h

theorem sortTransitions_sorts : SortsBy fileOrderLt sortTransitions := by
  intro l
  refine ⟨sort_perm _ _, ?_⟩
  have h := sort_sorted (le := fun a b : CTrans => !fileOrderLt b a) (by
      intro a b c h1 h2
      simp only [Bool.not_eq_true', ← Bool.not_eq_true, codeLt_iff] at *
      omega) (by
      intro a b
      simp only [Bool.or_eq_true, Bool.not_eq_true']
      cases h1 : fileOrderLt b a with
      | false => exact .inl rfl
      | true =>
        right
        cases h2 : fileOrderLt a b with
        | false => rfl
        | true =>
          rw [codeLt_iff] at h1 h2
          omega) l
  exact h.imp fun h => by simpa using h

/-! ## Every text -/

/-- The codes of the transitions are codes of symbols. -/
def CodesKnown (st : AttTab) : Prop :=
  (∀ x ∈ st.syms, x.1 < st.syms.length) ∧ 0 < st.syms.length ∧
    ∀ s ∈ st.states, ∀ t ∈ s, t.symIn = 0xFFFFFFFF ∨ (t.symIn < st.syms.length ∧ t.symOut < st.syms.length)

theorem intern_known {text : List Nat} {syms syms' : List (Nat × List Nat)} {i : Nat} (hs : ∀ x ∈ syms, x.1 < syms.length)
    (h : attIntern text syms = some (i, syms')) : (∀ x ∈ syms', x.1 < syms'.length) ∧ i < syms'.length ∧ syms.length ≤ syms'.length := by
  unfold attIntern at h
  split at h
  · rename_i x hx
    cases h
    exact ⟨hs, hs x (List.mem_of_find?_eq_some hx), Nat.le_refl _⟩
  · split at h
    · cases h
    · rw [Option.some.injEq, Prod.mk.injEq] at h
      obtain ⟨rfl, rfl⟩ := h
      rw [List.length_append, List.length_singleton]
      have := Nat.mod_le syms.length 65536
      refine ⟨?_, by omega, by omega⟩
      intro x hx
      rcases List.mem_append.1 hx with hx | hx
      · have := hs x hx; omega
      · rw [List.mem_singleton.1 hx]; simp only; omega

theorem push_known {states states' : List (List CTrans)} {src : Nat} {t : CTrans} {P : CTrans → Prop} (hs : ∀ s ∈ states, ∀ t ∈ s, P t) (ht : P t)
    (h : attPush states src t = some states') : ∀ s ∈ states', ∀ t ∈ s, P t := by
  unfold attPush at h
  split at h
  · cases h
  · rw [Option.some.injEq] at h
    subst h
    have hb : ∀ s ∈ (if states.length = src then states ++ [[]] else states), ∀ t ∈ s, P t := by
      split
      · intro s hs' t ht'
        rcases List.mem_append.1 hs' with hs' | hs'
        · exact hs s hs' t ht'
        · rw [List.mem_singleton.1 hs'] at ht'; cases ht'
      · exact hs
    intro s hs' x hx
    obtain ⟨i, hi⟩ := List.getElem?_of_mem hs'
    rw [List.getElem?_modify, Option.map_eq_map, Option.map_eq_some_iff] at hi
    obtain ⟨s0, h0, e⟩ := hi
    have hm := List.mem_of_getElem? h0
    subst e
    split at hx
    · rcases List.mem_append.1 hx with hx | hx
      · exact hb s0 hm x hx
      · rw [List.mem_singleton.1 hx]; exact ht
    · exact hb s0 hm x hx

theorem add_known {st st' : AttTab} {l : AttLine} (hk : CodesKnown st) (h : attAdd st l = some st') : CodesKnown st' := by
  obtain ⟨h1, h2, h3⟩ := hk
  cases l with
  | final src =>
    rw [attAdd, Option.map_eq_some_iff] at h
    obtain ⟨states, hp, rfl⟩ := h
    exact ⟨h1, h2, push_known h3 (.inl rfl) hp⟩
  | arc src tgt inp out =>
    rw [attAdd] at h
    split at h
    · cases h
    · obtain ⟨⟨i, syms⟩, hi, h⟩ := Option.bind_eq_some_iff.1 h
      obtain ⟨⟨o, syms'⟩, ho, h⟩ := Option.bind_eq_some_iff.1 h
      obtain ⟨states, hp, h⟩ := Option.bind_eq_some_iff.1 h
      cases h
      obtain ⟨a1, a2, a3⟩ := intern_known h1 hi
      obtain ⟨b1, b2, b3⟩ := intern_known a1 ho
      refine ⟨b1, by show 0 < syms'.length; omega, push_known ?_ (.inr ⟨by show i < syms'.length; omega, b2⟩) hp⟩
      intro s hs t ht
      rcases h3 s hs t ht with h | ⟨h, h'⟩
      · exact .inl h
      · exact .inr ⟨by show _ < syms'.length; omega, by show _ < syms'.length; omega⟩

theorem addAll_known {st st' : AttTab} {lines : List (List Nat)} (hk : CodesKnown st) (h : attAddAll st lines = some st') : CodesKnown st' := by
  induction lines generalizing st with
  | nil => rw [attAddAll] at h; cases h; exact hk
  | cons l lines ih =>
    rw [attAddAll] at h
    obtain ⟨line, _, h⟩ := Option.bind_eq_some_iff.1 h
    obtain ⟨st1, h1, h⟩ := Option.bind_eq_some_iff.1 h
    exact ih (add_known hk h1) h

theorem mapM_total {α β : Type} {g : α → Option β} {l : List α} (h : ∀ x ∈ l, ∃ y, g x = some y) : ∃ ys, l.mapM g = some ys := by
  induction l with
  | nil => exact ⟨[], rfl⟩
  | cons x l ih =>
    obtain ⟨ys, h1⟩ := ih fun z hz => h z (List.mem_cons_of_mem _ hz)
    obtain ⟨y, h2⟩ := h x List.mem_cons_self
    exact ⟨y :: ys, by rw [List.mapM_cons, h2, h1]; rfl⟩

/-- C82: no text makes the compiler read outside of its tables: it writes a file or ends with an error message. -/
theorem C82_total {srtS : List (Nat × List Nat) → List (Nat × List Nat)} {srtT : List CTrans → List CTrans}
    (hS : SortsBy (fun a b => attSymLt a.2 b.2) srtS) (sw : Bool) (text : List Nat) : ∃ r, attCompile srtS srtT sw text = some r := by
  unfold attCompile
  cases h : attAddAll { syms := [(0, [])], states := [] } (attLines [] text) with
  | none => exact ⟨none, rfl⟩
  | some st =>
    obtain ⟨h1, h2, h3⟩ := addAll_known (st := { syms := [(0, [])], states := [] }) ⟨by simp, by simp, by intro s hs; cases hs⟩ h
    have hlen : (attPairs (srtS st.syms)).length = st.syms.length := by
      simp [attPairs, (sort_perm _ _).length_eq, (hS st.syms).1.length_eq]
    have hall : ∃ states, st.states.mapM (fun s => s.mapM (attRenumber (attPairs (srtS st.syms)))) = some states := by
      refine mapM_total fun s hs => mapM_total fun t ht => ?_
      unfold attRenumber
      rcases h3 s hs t ht with h | ⟨ha, hb⟩
      · rw [if_pos h]; exact ⟨t, rfl⟩
      · split
        · exact ⟨t, rfl⟩
        · rw [← hlen] at ha hb
          refine ⟨⟨(attPairs (srtS st.syms))[t.symIn].2, (attPairs (srtS st.syms))[t.symOut].2, t.targetOrd⟩, ?_⟩
          simp only [rd, List.getElem?_eq_getElem ha, List.getElem?_eq_getElem hb]
          rfl
    obtain ⟨states, hst⟩ := hall
    exact ⟨_, by simp only [hst]; rfl⟩

/-! ## A concrete text -/

/-- `0 1 a b`, `1 1 ä [Ä]` with a comment, `0 2 @P.F.X@ @0@`, `2 1 @R.F.X@ @0@`, `1`, each on a line. -/
def demoText : List Nat :=
  [48, 9, 49, 9, 97, 9, 98, 10, 49, 32, 49, 32, 195, 164, 32, 91, 195, 132, 93, 32, 35, 10,
   48, 9, 50, 9, 64, 80, 46, 70, 46, 88, 64, 9, 64, 48, 64, 10, 50, 9, 49, 9, 64, 82, 46, 70, 46, 88, 64, 9, 64, 48, 64, 10, 49, 10]

def demoLines : List Line :=
  [.arc ⟨0, 1, [97], [98]⟩, .arc ⟨1, 1, [0xE4], [91, 0xC4, 93]⟩, .arc ⟨0, 2, [64, 80, 46, 70, 46, 88, 64], []⟩,
   .arc ⟨2, 1, [64, 82, 46, 70, 46, 88, 64], []⟩, .final 1]

theorem names_plain {tok : List Nat} {s : List Wc} (h1 : ∀ e ∈ specialNames, tok ≠ e.1.toList.map (·.toNat)) (h2 : tok = encodeStr s) (h3 : Token tok) :
    Names tok s := .inr ⟨h1, h2, h3⟩

theorem demo_describes : Describes demoText demoLines := by
  have d : ∀ n < 10, Decimal [48 + n] n := by
    intro n hn
    refine ⟨by simp, by intro x hx; rw [List.mem_singleton.1 hx]; omega, by simp [decimalValue], by omega⟩
  have tab : Blank [9] := by intro b hb; rw [List.mem_singleton.1 hb]; exact .inl rfl
  have blank : Blank [32] := by intro b hb; rw [List.mem_singleton.1 hb]; simp
  have none' : Blank [] := by intro b hb; cases hb
  have eps : Names [64, 48, 64] [] := .inl ⟨("@0@", []), by simp [specialNames], by decide, rfl⟩
  refine .line (b := [48, 9, 49, 9, 97, 9, 98]) (t := _) (.arc (sp := []) (ds := [48]) (sp1 := [9]) (dt := [49]) (sp2 := [9]) (ti := [97]) (sp3 := [9])
    («to» := [98]) (rest := []) none' (d 0 (by omega)) tab (by simp) (d 1 (by omega)) tab (by simp)
    (names_plain (by decide) (by decide) ⟨by simp, by decide⟩) tab (by simp) (names_plain (by decide) (by decide) ⟨by simp, by decide⟩) (.inl rfl) (by simp)) ?_
  refine .line (b := [49, 32, 49, 32, 195, 164, 32, 91, 195, 132, 93, 32, 35]) (t := _) (.arc (sp := []) (ds := [49]) (sp1 := [32]) (dt := [49])
    (sp2 := [32]) (ti := [195, 164]) (sp3 := [32])
    («to» := [91, 195, 132, 93]) (rest := [32, 35]) none' (d 1 (by omega)) blank (by simp) (d 1 (by omega)) blank (by simp)
    (names_plain (by decide) (by decide) ⟨by simp, by decide⟩) blank (by simp) (names_plain (by decide) (by decide) ⟨by simp, by decide⟩)
    (.inr ⟨32, [35], rfl, blank⟩) (by simp)) ?_
  refine .line (b := [48, 9, 50, 9, 64, 80, 46, 70, 46, 88, 64, 9, 64, 48, 64]) (t := _) (.arc (sp := []) (ds := [48]) (sp1 := [9]) (dt := [50])
    (sp2 := [9]) (ti := [64, 80, 46, 70, 46, 88, 64]) (sp3 := [9])
    («to» := [64, 48, 64]) (rest := []) none' (d 0 (by omega)) tab (by simp) (d 2 (by omega)) tab (by simp)
    (names_plain (by decide) (by decide) ⟨by simp, by decide⟩) tab (by simp) eps (.inl rfl) (by simp)) ?_
  refine .line (b := [50, 9, 49, 9, 64, 82, 46, 70, 46, 88, 64, 9, 64, 48, 64]) (t := _) (.arc (sp := []) (ds := [50]) (sp1 := [9]) (dt := [49])
    (sp2 := [9]) (ti := [64, 82, 46, 70, 46, 88, 64]) (sp3 := [9])
    («to» := [64, 48, 64]) (rest := []) none' (d 2 (by omega)) tab (by simp) (d 1 (by omega)) tab (by simp)
    (names_plain (by decide) (by decide) ⟨by simp, by decide⟩) tab (by simp) eps (.inl rfl) (by simp)) ?_
  exact .line (b := [49]) (t := []) (.final (sp := []) (ds := [49]) none' (d 1 (by omega))) .nil

theorem demo_proper : Proper demoLines := by
  have fl : ∀ op, FlagText ([64, opLetter op, 46] ++ ([70] ++ 46 :: [88]) ++ [64]) op [70] [88] := fun op => .valued (by simp)
  refine ⟨?_, ?_, ?_, ⟨.arc ⟨0, 1, [97], [98]⟩, by simp [demoLines], 97, by simp, by simp, by simp [Line.symbols]⟩,
    ⟨demoLines.flatMap Line.symbols, by decide, fun l hl s hs => List.mem_flatMap.2 ⟨l, hl, hs⟩⟩, by decide⟩
  · intro k l hk s hs
    match k, hk with
    | 0, hk => cases hk; cases hs
    | 1, hk => cases hk; exact ⟨0, .arc ⟨0, 1, [97], [98]⟩, by omega, rfl, by simp only [Line.src] at *; omega⟩
    | 2, hk => cases hk; cases hs
    | 3, hk =>
      cases hk
      have : s = 0 ∨ s = 1 := by simp only [Line.src] at hs; omega
      rcases this with rfl | rfl
      · exact ⟨0, _, by omega, rfl, rfl⟩
      · exact ⟨1, _, by omega, rfl, rfl⟩
    | 4, hk =>
      cases hk
      have : s = 0 := by simp only [Line.src] at hs; omega
      subst this
      exact ⟨0, _, by omega, rfl, rfl⟩
    | k + 5, hk => simp [demoLines] at hk
  · intro a ha
    have h1 : a.tgt = 1 ∨ a.tgt = 2 := by
      simp only [demoLines, List.mem_cons, List.not_mem_nil, or_false, Line.arc.injEq] at ha
      rcases ha with rfl | rfl | rfl | rfl | h
      · exact .inl rfl
      · exact .inl rfl
      · exact .inr rfl
      · exact .inl rfl
      · cases h
    rcases h1 with h1 | h1
    · exact ⟨.final 1, by simp [demoLines], by rw [h1]; rfl⟩
    · exact ⟨.arc ⟨2, 1, [64, 82, 46, 70, 46, 88, 64], []⟩, by simp [demoLines], by rw [h1]; rfl⟩
  · intro l hl s hs
    have hm : s ∈ [[97], [98], [0xE4], [91, 0xC4, 93], [64, 80, 46, 70, 46, 88, 64], [64, 82, 46, 70, 46, 88, 64], []] := by
      simp only [demoLines, List.mem_cons, List.not_mem_nil, or_false] at hl
      rcases hl with rfl | rfl | rfl | rfl | rfl <;> simp only [Line.symbols, List.mem_cons, List.not_mem_nil, or_false] at hs ⊢
      · rcases hs with rfl | rfl <;> simp
      · rcases hs with rfl | rfl <;> simp
      · rcases hs with rfl | rfl <;> simp
      · rcases hs with rfl | rfl <;> simp
    simp only [List.mem_cons, List.not_mem_nil, or_false] at hm
    rcases hm with rfl | rfl | rfl | rfl | rfl | rfl | rfl
    · exact ⟨by unfold ValidCp; decide, .inr (.inr (.inr ⟨97, rfl, by simp, by simp⟩))⟩
    · exact ⟨by unfold ValidCp; decide, .inr (.inr (.inr ⟨98, rfl, by simp, by simp⟩))⟩
    · exact ⟨by unfold ValidCp; decide, .inr (.inr (.inr ⟨0xE4, rfl, by simp, by simp⟩))⟩
    · exact ⟨by unfold ValidCp; decide, .inr (.inr (.inl ⟨_, by simp, rfl⟩))⟩
    · exact ⟨by unfold ValidCp; decide, .inr (.inl ⟨.P, [70], [88], fl .P⟩)⟩
    · exact ⟨by unfold ValidCp; decide, .inr (.inl ⟨.R, [70], [88], fl .R⟩)⟩
    · exact ⟨by simp, .inl rfl⟩

/-- C82 applies to the text. -/
example (sw : Bool) := C82_look_up_partial demo_describes demo_proper sortSymbols_sorts sortTransitions_sorts sw

/-- One of the runs of the text: the word `ä`, over the two flag diacritics. -/
example : Accepts demoLines [0xE4] false [2, 3, 1, 4] 1 ∧ runOutput demoLines [2, 3, 1, 4] = [91, 0xC4, 93] := by
  refine ⟨⟨[2, 3, 1], 4, _, rfl, .cons (.flag (op := .P) (feature := [70]) (value := [88]) (new := [88]) rfl rfl (FlagText.valued (op := .P) (feature := [70]) (value := [88]) (by simp)) rfl)
    (.cons (.flag (op := .R) (feature := [70]) (value := [88]) (new := [88]) rfl rfl (FlagText.valued (op := .R) (feature := [70]) (value := [88]) (by simp)) ⟨rfl, .inr ⟨by simp, rfl⟩⟩)
      (.cons (.letter rfl rfl rfl rfl) .nil)), rfl, rfl, fun _ => rfl⟩, by decide⟩

/-! ## What the restrictions are for -/

/-- Compilation of a text and look-up of a word: at most three results. -/
def compileAndLook (text : List Nat) (word : List Wc) : UB (Option (Option (List NextRes))) := do
  match ← attCompile sortSymbols sortTransitions false text with
  | none => return none
  | some file =>
    match ← loadFile file with
    | none => return some none
    | some f =>
      let (_, c) ← prepare f (Conf.new f.featureCount 2000) word
      let (r, _) ← enumerate f false 100 3 c
      return some (some r)

/-- The text and the word of the example, as a check of the definition. -/
example : compileAndLook demoText [0xE4] = some (some (some [.found [91, 0xC4, 93] 1, .exhausted])) := by decide +kernel

/-- C82 fails: after `0 1 a b` and `1`, an empty line makes the initial state final: the empty word is found. -/
theorem C82_empty_line :
    compileAndLook [48, 9, 49, 9, 97, 9, 98, 10, 49, 10] [] = some (some (some [.exhausted])) ∧
    compileAndLook [48, 9, 49, 9, 97, 9, 98, 10, 49, 10, 10] [] = some (some (some [.found [] 0, .exhausted])) := by
  constructor <;> decide +kernel

/-- C82 fails: a symbol with more than one letter (`0 1 ab x`, `1`) is used for its first letter. -/
theorem C82_long_symbol :
    compileAndLook [48, 9, 49, 9, 97, 98, 9, 120, 10, 49, 10] [97, 98] = some (some (some [.exhausted])) ∧
    compileAndLook [48, 9, 49, 9, 97, 98, 9, 120, 10, 49, 10] [97] = some (some (some [.found [120] 1, .exhausted])) := by
  constructor <;> decide +kernel

/-- C82 fails: if the only symbols are flag diacritics (`0 1 @P.F.X@ @0@`, `1`), or only epsilon (`0 1 @0@ @0@`, `1`), the empty word is not
found. -/
theorem C82_no_letters :
    compileAndLook [48, 9, 49, 9, 64, 80, 46, 70, 46, 88, 64, 9, 64, 48, 64, 10, 49, 10] [] = some (some (some [.exhausted])) ∧
    compileAndLook [48, 9, 49, 9, 64, 48, 64, 9, 64, 48, 64, 10, 49, 10] [] = some (some (some [.exhausted])) ∧
    Accepts [.arc ⟨0, 1, [], []⟩, .final 1] [] false [0, 1] 0 := by
  refine ⟨by decide +kernel, by decide +kernel, [0], 1, _, rfl, .cons (.epsilon rfl rfl rfl) .nil, rfl, rfl, fun _ => rfl⟩

/-- C82 fails: an empty text compiles to a file that loads, and the look-up reads outside of the file. -/
theorem C82_empty_text : compileAndLook [] [] = none ∧ ∃ file, attCompile sortSymbols sortTransitions false [] = some (some file) := by
  refine ⟨by decide +kernel, ?_⟩
  exact ⟨_, rfl⟩

end Verif.Props
