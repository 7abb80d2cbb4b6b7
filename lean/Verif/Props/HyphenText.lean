import Verif.Props.GcProgram
import Verif.Props.SpellProgram
import Verif.Props.TweaksHyphens
/-!
# C110: words with hyphens, from the text of a Finnish dictionary

C99 says which words without hyphens inside of them are correct. Here are the rules for all words without soft hyphens: the verdict of the speller for each word follows from
the readings that the text of the dictionary gives to the word and to its parts.
-/

set_option linter.unusedSimpArgs false
set_option linter.unusedVariables false

namespace Verif.HyphenText
open Verif Verif.Att Verif.Args Verif.Props Verif.Threads Verif.SpellOutput
open Verif.Attrs (Attribute attributeName grammatical Organisation)
open Verif.HyphProgram (Reads reads_exist)
open Verif.GcProgram (View viewsOf wordViews value_key)

/-! ## The rules -/

/-- The letters of the word are as the reading asks for. -/
def Written (w : List Wc) (v : View) : Prop := Agrees v.letters w

/-- The letters of the word are as the reading asks for, except that a capital at the beginning is missing. -/
def NearlyWritten (w : List Wc) (v : View) : Prop := AgreesRest v.letters w

open Classical in
/-- What readings say of the capital letters of a word: the best that one of them allows. -/
noncomputable def judge (vs : List View) (w : List Wc) : SpellRes :=
  if vs = [] then .failed
  else if ∃ v ∈ vs, Written w v then .ok
  else if ∃ v ∈ vs, NearlyWritten w v then .capFirst
  else .capError

/-- The verdict `r` is better than `r0`. -/
def Improves (r0 r : SpellRes) : Prop := r ≠ .failed ∧ (r0 = .failed ∨ Better r r0 ∧ r ≠ r0)

/-- The hyphen between `a` and `b` is superfluous: without it the word is correct, and this is allowed. -/
def Superfluous (extra : Bool) (V : List Wc → SpellRes) (a b : List Wc) : Prop := extra = true ∧ 2 ≤ a.length ∧ b.head? ≠ some 0x2D ∧ V (a ++ b) = .ok

/-- The hyphen separates equal pairs (`pop-opisto`), and the dictionary knows the word without it. -/
def Paired (views : List Wc → List View) (w a b : List Wc) : Prop :=
  SamePair a b ∧ Improves (judge (views w) w) (judge (views (a ++ b)) (a ++ b))

/-- `d` can be appended to any word, and `c` is one. -/
def Appended (views : List Wc → List View) (V : List Wc → SpellRes) (c d : List Wc) : Prop :=
  V c ≠ .failed ∧ ∃ v ∈ views d, v.Is .vapaaJalkiosa "true"

open Classical in
/-- The readings of `a ++ b` with a border between `a` and `b`. -/
noncomputable def bordered (views : List Wc → List View) (a b : List Wc) : List View :=
  (views (a ++ b)).filter fun v => decide (Verif.Border v.its a.length)

/-- Without the hyphen it is not clear whether there is a border between `a` and `b`. -/
def Ambiguous (views : List Wc → List View) (w a b : List Wc) : Prop :=
  (∃ v ∈ views (a ++ b), ¬ Verif.Border v.its a.length) ∧ Improves (judge (views w) w) (judge (bordered views a b) (a ++ b))

/-- The verdict on a word by the rules for hyphens; `views` are the readings that the dictionary gives to words, and `V` is the verdict on shorter words. The hyphen between `a`
and `b` is the first one inside the word, that between `c` and `d` is the last one. The rules apply in this order. -/
inductive Ruled (extra : Bool) (views : List Wc → List View) (V : List Wc → SpellRes) (w : List Wc) : SpellRes → Prop
  | plain : judge (views w) w = .ok ∨ w.length ≤ 3 ∨ InnerFree w → Ruled extra views V w (judge (views w) w)
  | superfluous (a b : List Wc) : judge (views w) w ≠ .ok → 3 < w.length → FirstInner w a b → Superfluous extra V a b → Ruled extra views V w .ok
  | pair (a b : List Wc) : judge (views w) w ≠ .ok → 3 < w.length → FirstInner w a b → ¬ Superfluous extra V a b → Paired views w a b →
      Ruled extra views V w (judge (views (a ++ b)) (a ++ b))
  | appended (a b c d : List Wc) : judge (views w) w ≠ .ok → 3 < w.length → FirstInner w a b → LastInner w c d → ¬ Superfluous extra V a b →
      ¬ Paired views w a b → Appended views V c d → Ruled extra views V w (V c)
  | ambiguous (a b c d : List Wc) : judge (views w) w ≠ .ok → 3 < w.length → FirstInner w a b → LastInner w c d → ¬ Superfluous extra V a b →
      ¬ Paired views w a b → ¬ Appended views V c d → Ambiguous views w a b → Ruled extra views V w (judge (bordered views a b) (a ++ b))
  | unchanged (a b c d : List Wc) : judge (views w) w ≠ .ok → 3 < w.length → FirstInner w a b → LastInner w c d → ¬ Superfluous extra V a b →
      ¬ Paired views w a b → ¬ Appended views V c d → ¬ Ambiguous views w a b → Ruled extra views V w (judge (views w) w)

/-! ## The readings and the analyses -/

/-- The analysis `x` of the word `w` says what the view says. -/
def Fits (w : List Wc) (v : View) (x : MorAn) : Prop :=
  ∃ st, x.struct = some st ∧ 0 ∉ st ∧ strip st = v.letters ∧ (strip st).length = w.length ∧ (∀ j, j ∈ marks 0 st ↔ Verif.Border v.its j) ∧
    ∀ y, x.vapaaJalkiosa = some y ↔ v.Attr .vapaaJalkiosa y

theorem fits_of {w : List Wc} {v : View} {a : Ana} (hg : ∀ k ∈ grammatical, ∀ x, analysisValue a (attributeName k) = some x ↔ v.Attr k x) {st : List Wc}
    (h1 : analysisValue a (lit "STRUCTURE") = some st) (h2 : Props.Describes v.its st) (h3 : strip st = v.letters) (hn : 0 ∉ render v.its)
    (hl : (content v.its).length = w.length) : Fits w v (asMorAn a) := by
  refine ⟨st, ?_, h2.nul hn, h3, h2.count.trans hl, h2.borders, fun y => ?_⟩
  · show a.getValue .structure_ = some st
    rw [← h1]
    exact (Shown.value_of_name a (.structure_, "STRUCTURE") (by decide)).symm
  · show a.getValue .vapaaJalkiosa = some y ↔ _
    rw [value_key a (k := .vapaaJalkiosa) (by decide)]
    exact hg .vapaaJalkiosa (by decide) y

theorem reading_fits {v : List Wc} {its : List SItem} (hr : GoodReading v its) (hlen : (render its).length < 2 ^ 64) {w : List Wc} (hw : v.length = w.length) :
    ∃ l, analyzeOutput v.length false (render its) = some l ∧ List.Forall₂ (Fits w) (viewsOf its) (l.map asMorAn) := by
  obtain ⟨b, hb, hval⟩ := C77_valid its hr.plain
  cases b with
  | false =>
    refine ⟨[], ?_, ?_⟩
    · rw [analyzeOutput_eq, hb]; rfl
    · rw [viewsOf, if_neg fun h => by have := hval.2 h; cases this]
      exact .nil
  | true =>
    obtain ⟨l, hl, x, hx, hcase⟩ := C79_reading its false hr.regulated.wf hr.regulated.tidy hlen hb
    obtain ⟨a, r, st, e1, b1, b2, b3, b4⟩ := C85_reading_partial its false hr.regulated hlen hb
    rw [hl] at e1
    cases e1
    refine ⟨a :: r, by rw [← hr.length]; exact hl, ?_⟩
    have ha : x = a := by rcases hcase with ⟨_, e⟩ | ⟨_, b, _, e⟩ <;> (cases e; rfl)
    subst ha
    have hn := hr.noNul
    have hc := hr.length.trans hw
    have first : Fits w ⟨its, false⟩ (asMorAn x) := fits_of (v := ⟨its, false⟩) hx b1 b2 b3 hn hc
    rw [viewsOf, if_pos (hval.1 rfl)]
    rcases hcase with ⟨ho, e⟩ | ⟨ho, b, hb, e⟩
    · cases e
      rw [if_neg ho]
      exact .cons first .nil
    · cases e
      rw [if_pos ho]
      obtain ⟨st', g1, g2, g3⟩ := b4 b List.mem_cons_self
      exact .cons first (.cons (fits_of (v := ⟨its, true⟩) hb g1 g2 g3 hn hc) .nil)

theorem runs_fit {ls : List Att.Line} (hf : FinnishText ls) {v : List Wc} (hv : v.length ≤ 255) {rd : List Nat → List SItem} {w : List Wc} (hw : v.length = w.length) :
    ∀ L : List (List Nat), (∀ run ∈ L, Att.Accepts ls v false run v.length ∧ runOutput ls run = render (rd run) ∧ GoodReading v (rd run)) →
      ∃ l, analyzeOutputs v.length false (L.map (runOutput ls)) = some l ∧ List.Forall₂ (Fits w) (L.flatMap fun run => viewsOf (rd run)) (l.map asMorAn)
  | [], _ => ⟨[], rfl, .nil⟩
  | run :: L, h => by
    obtain ⟨l, h1, h2⟩ := runs_fit hf hv hw L fun r hr => h r (List.mem_cons_of_mem _ hr)
    obtain ⟨ha, e, hg⟩ := h run List.mem_cons_self
    have hsz := (hf.small v hv).out run _ ha
    obtain ⟨l0, g1, g2⟩ := reading_fits hg (by rw [← e]; omega) hw
    refine ⟨l0 ++ l, ?_, ?_⟩
    · rw [List.map_cons, analyzeOutputs, e, g1, h1]; rfl
    · rw [List.map_append, List.flatMap_cons]
      exact List.rel_append g2 h2

/-- The analyses of a word are those of its views. -/
theorem word_fits {ls : List Att.Line} (hf : FinnishText ls) {runsOf : List Wc → List (List Nat)} {next : List Wc → List (List Wc)}
    (hruns : ∀ v : List Wc, v.length ≤ 255 → AllRuns ls v (runsOf v)) (hnext : ∀ v : List Wc, v.length ≤ 255 → next v = (runsOf v).map (runOutput ls))
    {read : List Wc → List Nat → List SItem} (hread : Reads ls runsOf read) {an : Analyzer} (han : IsFinnishAnalyzer next an) (w : List Wc) :
    List.Forall₂ (Fits w) (wordViews runsOf read w) (an w) := by
  obtain ⟨l, e1, e2⟩ := han w
  rw [e2]
  by_cases hw : w.length ≤ 255
  · have hl : (setCase .allLower w).length = w.length := lowered_length w
    have hle : (setCase .allLower w).length ≤ 255 := by omega
    obtain ⟨l', h1, h2⟩ := runs_fit hf hle (rd := read (setCase .allLower w)) hl ((runsOf (setCase .allLower w)).take 99) fun run hr =>
      ⟨((hruns _ hle).mem run).1 (List.mem_of_mem_take hr), hread _ hle run (List.mem_of_mem_take hr)⟩
    rw [finnishAnalyze, if_neg (by omega), hnext _ hle, ← List.map_take, ← hl, h1] at e1
    cases e1
    rw [wordViews, if_pos hw]
    exact h2
  · rw [finnishAnalyze, if_pos (by omega)] at e1
    cases e1
    rw [wordViews, if_neg hw]
    exact .nil

/-! ## What an analysis says -/

section One
variable {w : List Wc} {v : View} {x : MorAn} (hx : Fits w v x)
include hx

theorem fits_gives : ∃ r, Gives w x r ∧ r ≠ .failed ∧ (r = .ok ↔ Written w v) ∧ (r = .ok ∨ r = .capFirst ↔ NearlyWritten w v) := by
  obtain ⟨st, g1, g3, g4, _⟩ := hx
  have hreq := requirements_strip st g3
  obtain ⟨r, hv, hok, hcf, hce⟩ := C26_verdict w st
  obtain ⟨v', hv', _, hg⟩ := gives_total w x ⟨st, g1⟩
  have hgv : Gives w x r := ⟨st, g1, hv⟩
  have hne : r ≠ .failed := by rw [(hg r).1 hgv]; exact hv'
  unfold WrongAt At at hok hce
  rw [hreq, g4] at hok hce
  refine ⟨r, hgv, hne, ?_, ?_⟩
  · rw [hok]
    constructor
    · intro h i c k hc hk
      exact ⟨fun t => h i (.inl ⟨c, k, hc, hk, t⟩), fun t => h i (.inr ⟨c, k, hc, hk, t⟩)⟩
    · rintro h i (⟨c, k, hc, hk, t⟩ | ⟨c, k, hc, hk, t⟩)
      · exact (h i c k hc hk).1 t
      · exact (h i c k hc hk).2 t
  · have : (r = .ok ∨ r = .capFirst) ↔ ¬ r = .capError := by cases r <;> simp at hne ⊢
    rw [this, hce]
    constructor
    · intro h i c k hc hk
      refine ⟨fun hi t => h (.inr ⟨i, hi, .inl ⟨c, k, hc, hk, t⟩⟩), fun t => ?_⟩
      rcases Nat.eq_zero_or_pos i with rfl | hi
      · exact h (.inl ⟨c, k, hc, hk, t⟩)
      · exact h (.inr ⟨i, hi, .inr ⟨c, k, hc, hk, t⟩⟩)
    · rintro h (⟨c, k, hc, hk, t⟩ | ⟨i, hi, ⟨c, k, hc, hk, t⟩ | ⟨c, k, hc, hk, t⟩⟩)
      · exact (h 0 c k hc hk).2 t
      · exact (h i c k hc hk).1 hi t
      · exact (h i c k hc hk).2 t

end One

theorem mem_marks {st : List Wc} : ∀ {k n : Nat}, n ∈ marks k st ↔ ∃ p q, st = p ++ 0x3D :: q ∧ k + structLetters p = n := by
  induction st with
  | nil =>
    intro k n
    simp only [marks, List.not_mem_nil, false_iff]
    rintro ⟨p, q, e, _⟩
    cases p <;> cases e
  | cons c st ih =>
    intro k n
    rw [marks]
    by_cases hc : c = 0x3D
    · rw [if_pos hc, List.mem_cons, ih]
      constructor
      · rintro (rfl | ⟨p, q, rfl, e⟩)
        · exact ⟨[], st, by rw [hc]; rfl, by simp [structLetters]⟩
        · exact ⟨c :: p, q, rfl, by simpa [structLetters, hc] using e⟩
      · rintro ⟨p, q, e, h⟩
        cases p with
        | nil => left; simpa [structLetters] using h.symm
        | cons d p =>
          cases e
          exact .inr ⟨p, q, rfl, by simpa [structLetters, hc] using h⟩
    · rw [if_neg hc, ih]
      constructor
      · rintro ⟨p, q, rfl, e⟩
        refine ⟨c :: p, q, rfl, ?_⟩
        rw [← e]
        simp [structLetters, hc]
        omega
      · rintro ⟨p, q, e, h⟩
        cases p with
        | nil => cases e; exact absurd rfl hc
        | cons d p =>
          cases e
          refine ⟨p, q, rfl, ?_⟩
          rw [← h]
          simp [structLetters, hc]
          omega

section Borders
variable {w : List Wc} {v : View} {x : MorAn} (hx : Fits w v x)
include hx

theorem fits_border (n : Nat) : BorderAfter x n ↔ Verif.Border v.its n := by
  obtain ⟨st, g1, g3, _, _, g5, _⟩ := hx
  rw [← g5, mem_marks]
  constructor
  · rintro ⟨s, p, q, hs, e, h⟩
    rw [g1] at hs
    cases hs
    rw [takeWhile_nul_self g3] at e
    exact ⟨p, q, e, by omega⟩
  · rintro ⟨p, q, e, h⟩
    exact ⟨st, p, q, g1, by rw [takeWhile_nul_self g3]; exact e, by omega⟩

theorem fits_noBorder {n : Nat} (hn : n ≤ w.length) : NoBorderAfter x n ↔ ¬ Verif.Border v.its n := by
  rw [← fits_border hx]
  refine ⟨fun ⟨_, _, _, h⟩ => h, fun h => ?_⟩
  obtain ⟨st, g1, g3, _, g4, _, _⟩ := hx
  refine ⟨st, g1, ?_, h⟩
  rw [takeWhile_nul_self g3]
  show n ≤ (strip st).length
  omega

theorem fits_free : x.vapaaJalkiosa = some (lit "true") ↔ v.Is .vapaaJalkiosa "true" := by
  obtain ⟨st, _, _, _, _, _, h⟩ := hx
  exact h _

end Borders

theorem forall2_left {α β : Type} {R : α → β → Prop} {l : List α} {m : List β} (h : List.Forall₂ R l m) : ∀ a ∈ l, ∃ b ∈ m, R a b := by
  induction h with
  | nil => simp
  | cons hr _ ih =>
    intro a ha
    rcases List.mem_cons.1 ha with rfl | ha
    · exact ⟨_, List.mem_cons_self, hr⟩
    · obtain ⟨b, hb, hr⟩ := ih a ha
      exact ⟨b, List.mem_cons_of_mem _ hb, hr⟩

theorem forall2_right {α β : Type} {R : α → β → Prop} {l : List α} {m : List β} (h : List.Forall₂ R l m) : ∀ b ∈ m, ∃ a ∈ l, R a b := by
  induction h with
  | nil => simp
  | cons hr _ ih =>
    intro b hb
    rcases List.mem_cons.1 hb with rfl | hb
    · exact ⟨_, List.mem_cons_self, hr⟩
    · obtain ⟨a, ha, hr⟩ := ih b hb
      exact ⟨a, List.mem_cons_of_mem _ ha, hr⟩

theorem gives_unique {w : List Wc} {x : MorAn} {r r' : SpellRes} (h : Gives w x r) (h' : Gives w x r') : r = r' := by
  obtain ⟨s, e1, e2⟩ := h
  obtain ⟨s', e1', e2'⟩ := h'
  rw [e1] at e1'
  cases e1'
  rw [e2] at e2'
  exact Option.some.inj e2'

/-- The best of some of the analyses is the judgement of the views that belong to them. -/
theorem judge_best {w : List Wc} {vs vs' : List View} {as : List MorAn} (h : List.Forall₂ (Fits w) vs as) {P : MorAn → Prop}
    (hs : ∀ v x, Fits w v x → v ∈ vs → (v ∈ vs' ↔ P x)) (hsub : ∀ v ∈ vs', v ∈ vs) {r : SpellRes} (h1 : r = .failed ∨ ∃ x ∈ as, P x ∧ Gives w x r)
    (h2 : ∀ x ∈ as, P x → ∀ r', Gives w x r' → r ≠ .failed ∧ r.toNat ≤ r'.toNat) : judge vs' w = r := by
  have hne : vs' ≠ [] ↔ r ≠ .failed := by
    constructor
    · intro hn
      obtain ⟨v, hv⟩ := List.exists_mem_of_ne_nil _ hn
      obtain ⟨x, hx, hf⟩ := forall2_left h v (hsub v hv)
      obtain ⟨r', g1, _⟩ := fits_gives hf
      exact (h2 x hx ((hs v x hf (hsub v hv)).1 hv) r' g1).1
    · intro hn e
      obtain ⟨x, hx, hP, _⟩ := h1.resolve_left hn
      obtain ⟨v, hv, hf⟩ := forall2_right h x hx
      have := (hs v x hf hv).2 hP
      rw [e] at this
      cases this
  unfold judge
  by_cases he : vs' = []
  · rw [if_pos he]
    exact (Classical.byContradiction fun hn => hne.2 (fun e => hn e.symm) he)
  rw [if_neg he]
  have hr := hne.1 he
  obtain ⟨x, hx, hP, hg⟩ := h1.resolve_left hr
  obtain ⟨v, hv, hf⟩ := forall2_right h x hx
  have hv' := (hs v x hf hv).2 hP
  obtain ⟨r0, k1, k2, k3, k4⟩ := fits_gives hf
  have e0 := gives_unique hg k1
  subst e0
  have all : ∀ u ∈ vs', ∃ r' : SpellRes, r.toNat ≤ r'.toNat ∧ r' ≠ .failed ∧ (r' = .ok ↔ Written w u) ∧ (r' = .ok ∨ r' = .capFirst ↔ NearlyWritten w u) := by
    intro u hu
    obtain ⟨y, hy, hfy⟩ := forall2_left h u (hsub u hu)
    obtain ⟨r', m1, m2, m3, m4⟩ := fits_gives hfy
    exact ⟨r', (h2 y hy ((hs u y hfy (hsub u hu)).1 hu) r' m1).2, m2, m3, m4⟩
  by_cases hok : ∃ u ∈ vs', Written w u
  · rw [if_pos hok]
    obtain ⟨u, hu, hw⟩ := hok
    obtain ⟨r', m1, _, m3, _⟩ := all u hu
    rw [m3.2 hw] at m1
    revert m1 hr
    cases r <;> simp [SpellRes.toNat]
  · rw [if_neg hok]
    have hnok : r ≠ .ok := fun e => hok ⟨v, hv', k3.1 e⟩
    by_cases hcf : ∃ u ∈ vs', NearlyWritten w u
    · rw [if_pos hcf]
      obtain ⟨u, hu, hw⟩ := hcf
      obtain ⟨r', m1, _, m3, m4⟩ := all u hu
      rcases m4.2 hw with e | e
      · exact absurd ⟨u, hu, m3.1 e⟩ hok
      · rw [e] at m1
        revert m1 hr hnok
        cases r <;> simp [SpellRes.toNat]
    · rw [if_neg hcf]
      have : ¬ (r = .ok ∨ r = .capFirst) := fun e => hcf ⟨v, hv', k4.1 e⟩
      revert this hr
      cases r <;> simp

/-- The verdict of the dictionary alone. -/
theorem adapter_judge {an : Analyzer} {w : List Wc} {vs : List View} (h : List.Forall₂ (Fits w) vs (an w)) : adapterSpell an w = some (judge vs w) := by
  have hs : HasStructures (an w) := fun x hx => by
    obtain ⟨v, _, st, e, _⟩ := forall2_right h x hx
    exact ⟨st, e⟩
  obtain ⟨r, e1, e2, e3⟩ := C25_best an w hs
  rw [e1]
  congr 1
  refine (judge_best h (P := fun _ => True) (vs' := vs) (fun v x _ hv => ⟨fun _ => trivial, fun _ => hv⟩) (fun _ h => h) ?_ ?_).symm
  · by_cases he : an w = []
    · exact .inl (e2.2 he)
    · obtain ⟨⟨x, hx, hg⟩, _⟩ := e3 he
      exact .inr ⟨x, hx, trivial, hg⟩
  · intro x hx _ r' hg
    have he : an w ≠ [] := List.ne_nil_of_mem hx
    have hr : r ≠ .failed := fun e => he (e2.1 e)
    exact ⟨hr, (better_iff r r' hr (gives_ne_failed hg)).1 ((e3 he).2 x hx r' hg)⟩

theorem improves_iff (r0 r : SpellRes) : (r ≠ .failed ∧ improves r0 r = true) ↔ Improves r0 r := by
  unfold Improves
  cases r0 <;> cases r <;> simp [improves, Better, SpellRes.toNat]

theorem mem_bordered {views : List Wc → List View} {a b : List Wc} {v : View} :
    v ∈ bordered views a b ↔ v ∈ views (a ++ b) ∧ Verif.Border v.its a.length := by
  unfold bordered
  simp only [List.mem_filter, decide_eq_true_eq]

/-- The rule of ambiguous compounds. -/
theorem ambiguous_judge {an : Analyzer} {views : List Wc → List View} (hv : ∀ w, List.Forall₂ (Fits w) (views w) (an w)) (w a b : List Wc) (h0 : 0 ∉ a ++ b) :
    (Ambiguous views w a b → ambiguousCompound an (a ++ b) a.length (judge (views w) w) = some (judge (bordered views a b) (a ++ b))) ∧
    (¬ Ambiguous views w a b → ambiguousCompound an (a ++ b) a.length (judge (views w) w) = some (judge (views w) w)) := by
  have h := hv (a ++ b)
  have hs : HasStructures (an (a ++ b)) := fun x hx => by
    obtain ⟨v, _, st, e, _⟩ := forall2_right h x hx
    exact ⟨st, e⟩
  have hla : a.length ≤ (a ++ b).length := by simp
  unfold ambiguousCompound
  simp only [Option.bind_eq_bind, Option.pure_def]
  rw [takeWhile_nul_self h0]
  by_cases he : (an (a ++ b)).isEmpty = true
  · rw [if_pos he]
    have : ¬ Ambiguous views w a b := by
      rintro ⟨⟨v, hm, _⟩, _⟩
      obtain ⟨x, hx, _⟩ := forall2_left h v hm
      rw [List.isEmpty_iff.1 he] at hx
      cases hx
    exact ⟨fun h => absurd h this, fun _ => rfl⟩
  · rw [if_neg he]
    obtain ⟨r, ro, e, ⟨_, b2, b3⟩, ⟨_, c2, c3⟩⟩ := borderLoop_spec (a ++ b) a.length (an (a ++ b)) hs (.failed, .failed)
    rw [e]
    simp only [Option.bind_some]
    have hr : judge (bordered views a b) (a ++ b) = r := by
      refine judge_best h (P := (BorderAfter · a.length)) (fun v x hf hm => ?_) (fun v hm => (mem_bordered.1 hm).1) b2 b3
      rw [mem_bordered, fits_border hf]
      exact ⟨fun h => h.2, fun h => ⟨hm, h⟩⟩
    have hro : ro ≠ .failed ↔ ∃ v ∈ views (a ++ b), ¬ Verif.Border v.its a.length := by
      constructor
      · intro hn
        obtain ⟨x, hx, hP, _⟩ := c2.resolve_left hn
        obtain ⟨v, hm, hf⟩ := forall2_right h x hx
        exact ⟨v, hm, (fits_noBorder hf hla).1 hP⟩
      · rintro ⟨v, hm, hb⟩
        obtain ⟨x, hx, hf⟩ := forall2_left h v hm
        obtain ⟨r', g, _⟩ := fits_gives hf
        exact (c3 x hx ((fits_noBorder hf hla).2 hb) r' g).1
    have hiff : (r != .failed && ro != .failed && improves (judge (views w) w) r) = true ↔ Ambiguous views w a b := by
      unfold Ambiguous
      rw [← hro, hr, ← improves_iff]
      simp only [Bool.and_eq_true, bne_iff_ne, ne_eq]
      constructor
      · rintro ⟨⟨k1, k2⟩, k3⟩; exact ⟨k2, k1, k3⟩
      · rintro ⟨k2, k1, k3⟩; exact ⟨⟨k1, k2⟩, k3⟩
    rw [hr]
    constructor
    · intro h
      rw [if_pos (hiff.2 h)]
    · intro h
      rw [if_neg (fun e => h (hiff.1 e))]

theorem innerFree_of_none {w : List Wc} (h : firstInnerHyphen w = none) : InnerFree w := by
  intro i hi
  simp only [firstInnerHyphen, Option.map_eq_none_iff, List.findIdx?_eq_none_iff] at h
  refine Classical.byContradiction fun hn => ?_
  have hl := (List.getElem?_eq_some_iff.1 hi).1
  have := h 0x2D (by
    rw [List.mem_iff_getElem?]
    refine ⟨i - 1, ?_⟩
    rw [List.getElem?_take, if_pos (by omega), List.getElem?_drop, show 1 + (i - 1) = i by omega]
    exact hi)
  simp at this

theorem first_not_free {w a b : List Wc} (h : FirstInner w a b) : ¬ InnerFree w := by
  intro hi
  have := firstInnerHyphen_of h
  rw [noInnerHyphen hi] at this
  cases this

/-- The verdict of the speller is the one that the rules give. -/
theorem ruled_of {an : Analyzer} {views : List Wc → List View} (hv : ∀ w, List.Forall₂ (Fits w) (views w) (an w)) (extra : Bool)
    {V : List Wc → SpellRes} (hV : ∀ w, 0 ∉ w → finnishSpell extra an w = some (V w)) (w : List Wc) (h0 : 0 ∉ w) (hs : 0xAD ∉ w) :
    Ruled extra views V w (V w) := by
  have noshy : ∀ u : List Wc, 0xAD ∉ u → finnishSpell extra an u = spellNoShy (allPositions tweaksHyphOpts an) extra an u := by
    intro u hu
    rw [finnishSpell, spellTweaked_eq, if_neg hu]
  have hw := hV w h0
  rw [noshy w hs, spellNoShy_eq, noShyBody, adapter_judge (hv w)] at hw
  simp only [Option.bind_some] at hw
  by_cases hc : judge (views w) w = .ok ∨ w.length ≤ 3
  · rw [if_pos hc] at hw
    rw [← Option.some.inj hw]
    exact .plain (hc.imp_right .inl)
  rw [if_neg hc] at hw
  have hnok : judge (views w) w ≠ .ok := fun e => hc (.inl e)
  have hlen : 3 < w.length := by
    rcases Nat.lt_or_ge 3 w.length with h | h
    · exact h
    · exact absurd (.inr h) hc
  cases hfi : firstInnerHyphen w with
  | none =>
    rw [hfi] at hw
    rw [← Option.some.inj hw]
    exact .plain (.inr (.inr (innerFree_of_none hfi)))
  | some l =>
    rw [hfi] at hw
    obtain ⟨a, b, hfirst, rfl⟩ := firstInnerHyphen_some hfi
    have he := hfirst.1
    have hbuf : withoutHyphen w a.length = a ++ b := by rw [he] at h0 ⊢; exact withoutHyphen_eq h0
    have sub : ∀ x, x ∉ w → x ∉ a ++ b := by
      intro x hx h; apply hx; rw [he]
      rcases List.mem_append.1 h with h | h
      · exact List.mem_append.2 (.inl h)
      · exact List.mem_append.2 (.inr (List.mem_cons_of_mem _ h))
    have hb0 := sub 0 h0
    have hbs := sub 0xAD hs
    simp only [hbuf] at hw
    obtain ⟨b0, bs, hbb⟩ : ∃ b0 bs, b = b0 :: bs := by
      cases b with
      | nil => exact absurd rfl hfirst.2.2.1
      | cons x xs => exact ⟨x, xs, rfl⟩
    have hrd : rd ((a ++ b) ++ [0]) a.length = some b0 := by rw [hbb]; simp [rd]
    rw [hrd, ← noshy _ hbs, hV _ hb0] at hw
    simp only [Option.bind_some] at hw
    have hsup : ∀ early, (if (extra && decide (a.length > 1) && b0 != 0x2D) = true then some (V (a ++ b)) else some SpellRes.failed) = some early →
        (early = .ok ↔ Superfluous extra V a b) := by
      intro early h
      unfold Superfluous
      rw [hbb] at h ⊢
      simp only [List.head?_cons, ne_eq, Option.some.injEq]
      by_cases hx : (extra && decide (a.length > 1) && b0 != 0x2D) = true
      · rw [if_pos hx] at h
        simp only [Bool.and_eq_true, decide_eq_true_eq, bne_iff_ne, ne_eq] at hx
        rw [← Option.some.inj h]
        exact ⟨fun e => ⟨hx.1.1, hx.1.2, hx.2, e⟩, fun e => e.2.2.2⟩
      · rw [if_neg hx] at h
        rw [← Option.some.inj h]
        refine ⟨fun e => (by cases e), fun ⟨k1, k2, k3, _⟩ => absurd ?_ hx⟩
        simp only [Bool.and_eq_true, decide_eq_true_eq, bne_iff_ne, ne_eq]
        exact ⟨⟨k1, k2⟩, k3⟩
    obtain ⟨early, h1, hw⟩ := Option.bind_eq_some_iff.1 hw
    have hsup := hsup early h1
    by_cases hek : early = .ok
    · rw [if_pos hek] at hw
      rw [← Option.some.inj hw]
      exact .superfluous a b hnok hlen hfirst (hsup.1 hek)
    rw [if_neg hek] at hw
    have hnsup : ¬ Superfluous extra V a b := fun h => hek (hsup.2 h)
    obtain ⟨vc, hvc, hw⟩ := Option.bind_eq_some_iff.1 hw
    have hvc' : vc = true ↔ SamePair a b := by
      rw [← sameVC_iff (by rw [← he]; exact h0), ← he, hvc]; simp
    rw [adapter_judge (hv (a ++ b))] at hw
    obtain ⟨sp, hsp, hw⟩ := Option.bind_eq_some_iff.1 hw
    have hpair : (sp ≠ .failed ∧ improves (judge (views w) w) sp = true ↔ Paired views w a b) ∧ (sp ≠ .failed → sp = judge (views (a ++ b)) (a ++ b)) := by
      unfold Paired
      by_cases hvt : vc = true
      · rw [if_pos hvt] at hsp
        rw [← Option.some.inj hsp, improves_iff]
        exact ⟨⟨fun h => ⟨hvc'.1 hvt, h⟩, fun h => h.2⟩, fun _ => rfl⟩
      · rw [if_neg hvt] at hsp
        rw [← Option.some.inj hsp]
        exact ⟨⟨fun h => absurd rfl h.1, fun h => absurd (hvc'.2 h.1) hvt⟩, fun h => absurd rfl h⟩
    by_cases hsi : sp ≠ .failed ∧ improves (judge (views w) w) sp = true
    · rw [if_pos hsi] at hw
      rw [← Option.some.inj hw, hpair.2 hsi.1]
      exact .pair a b hnok hlen hfirst hnsup (hpair.1.1 hsi)
    rw [if_neg hsi] at hw
    have hnpair : ¬ Paired views w a b := fun h => hsi (hpair.1.2 h)
    obtain ⟨amb1, amb2⟩ := ambiguous_judge hv w a b hb0
    cases ho : lastInnerHyphen w (w.length - 2) with
    | none => rw [ho] at hw; cases hw
    | some o =>
      rw [ho] at hw
      cases o with
      | none =>
        exfalso
        refine lastInnerHyphen_none ho a.length (List.length_pos_iff.2 hfirst.2.1) ?_ ?_
        · have := List.length_pos_iff.2 hfirst.2.2.1
          rw [he]
          simp
          omega
        · rw [he]; simp
      | some i =>
        have hli := lastInner_of_loop ho
        simp only at hw
        obtain ⟨c, hcw⟩ : ∃ c, w.take i = c := ⟨_, rfl⟩
        obtain ⟨d, hdw⟩ : ∃ d, w.drop (i + 1) = d := ⟨_, rfl⟩
        rw [hcw, hdw] at hw hli
        have hc0 : 0 ∉ c := fun h => h0 (by rw [← hcw] at h; exact List.mem_of_mem_take h)
        have hT : spellTweaked (allPositions tweaksHyphOpts an) extra an c = some (V c) := hV c hc0
        rw [hT, Option.bind_some] at hw
        have happ : (V c ≠ .failed ∧ trailingAcceptable (an d) = true) ↔ Appended views V c d := by
          unfold Appended
          rw [trailingAcceptable_iff]
          refine and_congr_right fun _ => ?_
          constructor
          · rintro ⟨x, hx, e⟩
            obtain ⟨v, hm, hf⟩ := forall2_right (hv d) x hx
            exact ⟨v, hm, (fits_free hf).1 e⟩
          · rintro ⟨v, hm, e⟩
            obtain ⟨x, hx, hf⟩ := forall2_left (hv d) v hm
            exact ⟨x, hx, (fits_free hf).2 e⟩
        by_cases hap : V c ≠ .failed ∧ trailingAcceptable (an d) = true
        · rw [if_pos hap] at hw
          rw [← Option.some.inj hw]
          exact .appended a b c d hnok hlen hfirst hli hnsup hnpair (happ.1 hap)
        · rw [if_neg hap] at hw
          have hnap : ¬ Appended views V c d := fun h => hap (happ.2 h)
          by_cases ham : Ambiguous views w a b
          · rw [amb1 ham] at hw
            rw [← Option.some.inj hw]
            exact .ambiguous a b c d hnok hlen hfirst hli hnsup hnpair hnap ham
          · rw [amb2 ham] at hw
            rw [← Option.some.inj hw]
            exact .unchanged a b c d hnok hlen hfirst hli hnsup hnpair hnap ham

/-! ## The rules determine the verdicts -/

/-- The verdicts `V` are those of the rules. -/
def RulesOf (extra : Bool) (views : List Wc → List View) (V : List Wc → SpellRes) : Prop := ∀ w, 0 ∉ w → 0xAD ∉ w → Ruled extra views V w (V w)

theorem first_exists {w : List Wc} (h : ¬ InnerFree w) : ∃ a b, FirstInner w a b := by
  cases hf : firstInnerHyphen w with
  | none => exact absurd (innerFree_of_none hf) h
  | some l =>
    obtain ⟨a, b, h, _⟩ := firstInnerHyphen_some hf
    exact ⟨a, b, h⟩

theorem last_exists {w a b : List Wc} (h : FirstInner w a b) : ∃ c d, LastInner w c d := by
  have ha := List.length_pos_iff.2 h.2.1
  have hb := List.length_pos_iff.2 h.2.2.1
  obtain ⟨o, ho⟩ := lastInnerHyphen_total w (w.length - 2) (by left; rw [h.1]; simp)
  cases o with
  | none =>
    exfalso
    refine lastInnerHyphen_none ho a.length ha ?_ ?_
    · rw [h.1]; simp; omega
    · rw [h.1]; simp
  | some i => exact ⟨_, _, lastInner_of_loop ho⟩

theorem split_unique {a b a' b' : List Wc} (h : a ++ 0x2D :: b = a' ++ 0x2D :: b') (hl : a.length = a'.length) : a = a' ∧ b = b' := by
  obtain ⟨h1, h2⟩ := List.append_inj h hl
  exact ⟨h1, (List.cons.inj h2).2⟩

theorem first_unique {w a b a' b' : List Wc} (h : FirstInner w a b) (h' : FirstInner w a' b') : a = a' ∧ b = b' := by
  have e := firstInnerHyphen_of h
  rw [firstInnerHyphen_of h'] at e
  exact split_unique (h.1.symm.trans h'.1) (Option.some.inj e).symm

theorem last_unique {w a b a' b' : List Wc} (h : LastInner w a b) (h' : LastInner w a' b') : a = a' ∧ b = b' := by
  have e := loop_of_lastInner h
  rw [loop_of_lastInner h'] at e
  exact split_unique (h.1.symm.trans h'.1) (Option.some.inj (Option.some.inj e)).symm

/-- What the rules say of a word with the hyphens given. -/
theorem ruled_cases {extra : Bool} {views : List Wc → List View} {V : List Wc → SpellRes} {w a b c d : List Wc} {r : SpellRes} (h : Ruled extra views V w r)
    (hn : ¬ (judge (views w) w = .ok ∨ w.length ≤ 3 ∨ InnerFree w)) (h1 : FirstInner w a b) (h2 : LastInner w c d) :
    (Superfluous extra V a b ∧ r = .ok) ∨ (¬ Superfluous extra V a b ∧ Paired views w a b ∧ r = judge (views (a ++ b)) (a ++ b)) ∨
    (¬ Superfluous extra V a b ∧ ¬ Paired views w a b ∧ Appended views V c d ∧ r = V c) ∨
    (¬ Superfluous extra V a b ∧ ¬ Paired views w a b ∧ ¬ Appended views V c d ∧ Ambiguous views w a b ∧ r = judge (bordered views a b) (a ++ b)) ∨
    (¬ Superfluous extra V a b ∧ ¬ Paired views w a b ∧ ¬ Appended views V c d ∧ ¬ Ambiguous views w a b ∧ r = judge (views w) w) := by
  cases h with
  | plain h => exact absurd h hn
  | superfluous a' b' _ _ hf hs =>
    obtain ⟨rfl, rfl⟩ := first_unique h1 hf
    exact .inl ⟨hs, rfl⟩
  | pair a' b' _ _ hf hs hp =>
    obtain ⟨rfl, rfl⟩ := first_unique h1 hf
    exact .inr (.inl ⟨hs, hp, rfl⟩)
  | appended a' b' c' d' _ _ hf hl hs hp ha =>
    obtain ⟨rfl, rfl⟩ := first_unique h1 hf
    obtain ⟨rfl, rfl⟩ := last_unique h2 hl
    exact .inr (.inr (.inl ⟨hs, hp, ha, rfl⟩))
  | ambiguous a' b' c' d' _ _ hf hl hs hp ha hm =>
    obtain ⟨rfl, rfl⟩ := first_unique h1 hf
    obtain ⟨rfl, rfl⟩ := last_unique h2 hl
    exact .inr (.inr (.inr (.inl ⟨hs, hp, ha, hm, rfl⟩)))
  | unchanged a' b' c' d' _ _ hf hl hs hp ha hm =>
    obtain ⟨rfl, rfl⟩ := first_unique h1 hf
    obtain ⟨rfl, rfl⟩ := last_unique h2 hl
    exact .inr (.inr (.inr (.inr ⟨hs, hp, ha, hm, rfl⟩)))

/-- **C110** (the rules are complete): for given readings there is only one verdict on each word. -/
theorem C110_unique {extra : Bool} {views : List Wc → List View} {V V' : List Wc → SpellRes} (h : RulesOf extra views V) (h' : RulesOf extra views V') :
    ∀ w, 0 ∉ w → 0xAD ∉ w → V w = V' w := by
  have main : ∀ n, ∀ w : List Wc, w.length ≤ n → 0 ∉ w → 0xAD ∉ w → V w = V' w := by
    intro n
    induction n with
    | zero =>
      intro w hl h0 hs
      have e : w.length ≤ 3 := by omega
      have one : ∀ U : List Wc → SpellRes, RulesOf extra views U → U w = judge (views w) w := by
        intro U hU
        have := hU w h0 hs
        generalize U w = r at this
        cases this with
        | plain _ => rfl
        | superfluous _ _ _ hl => omega
        | pair _ _ _ hl => omega
        | appended _ _ _ _ _ hl => omega
        | ambiguous _ _ _ _ _ hl => omega
        | unchanged _ _ _ _ _ hl => omega
      rw [one V h, one V' h']
    | succ n ih =>
      intro w hl h0 hs
      by_cases hn : judge (views w) w = .ok ∨ w.length ≤ 3 ∨ InnerFree w
      · have one : ∀ U : List Wc → SpellRes, RulesOf extra views U → U w = judge (views w) w := by
          intro U hU
          have := hU w h0 hs
          generalize U w = r at this
          have no : judge (views w) w ≠ .ok → 3 < w.length → ∀ a b, FirstInner w a b → False := by
            intro k1 k2 a b k3
            rcases hn with e | e | e
            · exact k1 e
            · omega
            · exact first_not_free k3 e
          cases this with
          | plain _ => rfl
          | superfluous a b k1 k2 k3 => exact (no k1 k2 a b k3).elim
          | pair a b k1 k2 k3 => exact (no k1 k2 a b k3).elim
          | appended a b _ _ k1 k2 k3 => exact (no k1 k2 a b k3).elim
          | ambiguous a b _ _ k1 k2 k3 => exact (no k1 k2 a b k3).elim
          | unchanged a b _ _ k1 k2 k3 => exact (no k1 k2 a b k3).elim
        rw [one V h, one V' h']
      · obtain ⟨a, b, h1⟩ := first_exists fun e => hn (.inr (.inr e))
        obtain ⟨c, d, h2⟩ := last_exists h1
        have mab : ∀ x, x ∈ a ++ b → x ∈ w := by
          intro x hx
          rw [h1.1]
          rcases List.mem_append.1 hx with hx | hx
          · exact List.mem_append_left _ hx
          · exact List.mem_append_right _ (List.mem_cons_of_mem _ hx)
        have mc : ∀ x, x ∈ c → x ∈ w := fun x hx => by rw [h2.1]; exact List.mem_append_left _ hx
        have e1 : V (a ++ b) = V' (a ++ b) := ih _ (by have := congrArg List.length h1.1; simp at this ⊢; omega) (fun e => h0 (mab _ e)) fun e => hs (mab _ e)
        have e2 : V c = V' c := ih _ (by have := congrArg List.length h2.1; simp at this ⊢; omega) (fun e => h0 (mc _ e)) fun e => hs (mc _ e)
        have s1 : Superfluous extra V a b ↔ Superfluous extra V' a b := by unfold Superfluous; rw [e1]
        have s2 : Appended views V c d ↔ Appended views V' c d := by unfold Appended; rw [e2]
        have q := ruled_cases (h w h0 hs) hn h1 h2
        have q' := ruled_cases (h' w h0 hs) hn h1 h2
        rw [s1, s2] at q
        rcases q with ⟨p1, p2⟩ | ⟨p1, p2, p3⟩ | ⟨p1, p2, p3, p4⟩ | ⟨p1, p2, p3, p4, p5⟩ | ⟨p1, p2, p3, p4, p5⟩ <;>
          rcases q' with ⟨q1, q2⟩ | ⟨q1, q2, q3⟩ | ⟨q1, q2, q3, q4⟩ | ⟨q1, q2, q3, q4, q5⟩ | ⟨q1, q2, q3, q4, q5⟩ <;>
          first
            | contradiction
            | simp only [p2, q2]
            | simp only [p3, q3]
            | simp only [p4, q4, e2]
            | simp only [p5, q5]
  exact fun w => main w.length w (Nat.le_refl _)

/-! ## The words that are accepted -/

open Classical in
/-- The verdict on a word, where with ACCEPT_MISSING_HYPHENS an unknown word gets that of the word with hyphens at its ends. -/
noncomputable def withEnds (missing : Bool) (V : List Wc → SpellRes) (w : List Wc) : SpellRes :=
  if h : missing = true ∧ V w = .failed ∧ ∃ w', Edged w w' then V h.2.2.choose else V w

/-- The word is correct by the rules for hyphens and capital letters and the options (`extra` is ACCEPT_EXTRA_HYPHENS). -/
def CorrectBy (views : List Wc → List View) (extra : Bool) (o : SpellOpts) (word : List Wc) : Prop :=
  ∃ V, RulesOf extra views V ∧ AcceptedWord (withEnds o.acceptMissingHyphens V) o word (normSpec word)

theorem withEnds_eq {V V' : List Wc → SpellRes} (h : ∀ w, 0 ∉ w → 0xAD ∉ w → V w = V' w) (missing : Bool) (w : List Wc) (h0 : 0 ∉ w) (hs : 0xAD ∉ w) :
    withEnds missing V w = effDict V' missing w := by
  have hw := h w h0 hs
  unfold withEnds effDict
  cases missing with
  | false => simp [hw]
  | true =>
    simp only [if_true, withEdges, true_and]
    by_cases hf : V w = .failed
    · rw [if_pos (hw ▸ hf)]
      cases e : edgeHyphens w with
      | none =>
        have : ¬ (true = true ∧ V w = .failed ∧ ∃ w', Edged w w') := fun ⟨_, _, w', h⟩ => by rw [(edged_iff w w').2 h] at e; cases e
        rw [dif_neg this]
        exact hf
      | some w' =>
        have hc : true = true ∧ V w = .failed ∧ ∃ w', Edged w w' := ⟨rfl, hf, w', (edged_iff w w').1 e⟩
        rw [dif_pos hc]
        have := hc.2.2.choose_spec
        have e' := (edged_iff _ _).2 this
        rw [e] at e'
        rw [← Option.some.inj e']
        have ed := (edged_iff w w').1 e
        exact h w' (edged_mem ed (by decide) h0) (edged_mem ed (by decide) hs)
    · rw [dif_neg fun h => hf h.2.1, if_neg (hw ▸ hf), hw]

/-- Only the verdicts on words without NUL and soft hyphens matter. -/
theorem accepted_mono {d d' : List Wc → SpellRes} (h : ∀ w, 0 ∉ w → 0xAD ∉ w → d w = d' w) {o : SpellOpts} {word n : List Wc} (h0 : 0 ∉ n) (hs : 0xAD ∉ n)
    (ha : AcceptedWord d o word n) : AcceptedWord d' o word n := by
  have looked : ∀ v, LookedUp o n v → ∀ x, x ∉ n → x ∉ v := by
    intro v hv x hx
    cases hv with
    | word => exact hx
    | noDot _ hd he => exact fun h => hx (by rw [he]; exact List.mem_append_left _ h)
  have mapped : ∀ (v : List Wc) (x : Wc), upper x = x → x ∉ v → x ∉ v.map lower := by
    intro v x hx h hm
    obtain ⟨c, hc, e⟩ := List.mem_map.1 hm
    exact h (lower_fixed hx e ▸ hc)
  have out : ∀ v w : List Wc, FirstLowered v w → ∀ x, upper x = x → x ∉ v → x ∉ w := by
    rintro v w (⟨rfl, rfl⟩ | ⟨c, rest, rfl, rfl⟩) x hx h
    · exact h
    · intro hm
      rcases List.mem_cons.1 hm with hm | hm
      · exact h (lower_fixed hx hm.symm ▸ List.mem_cons_self)
      · exact h (List.mem_cons_of_mem _ hm)
  rcases ha with h' | ⟨c, hl, h', hm, hl1, hl2⟩ | ⟨hl, h', hu⟩ | ⟨hl, h', hnw⟩ | ⟨v, hl, hv, hd⟩
  · exact .empty h'
  · exact .number c hl h' hm hl1 hl2
  · exact .capitals hl h' hu
  · exact .nonword hl h' hnw
  · have e1 := h (v.map lower) (mapped v 0 (by decide) (looked v hv 0 h0)) (mapped v 0xAD (by decide) (looked v hv 0xAD hs))
    have e2 : ∀ w, FirstLowered v w → d w = d' w := fun w hw =>
      h w (out v w hw 0 (by decide) (looked v hv 0 h0)) (out v w hw 0xAD (by decide) (looked v hv 0xAD hs))
    refine .dictionary v hl hv ?_
    cases hd with
    | lower a b => exact .lower a (e1 ▸ b)
    | properNoun a b => exact .properNoun a (e1 ▸ b)
    | capitalised a b c => exact .capitalised a b (e1 ▸ c)
    | capitals a b c => exact .capitals a b (e1 ▸ c)
    | exact w a b c => exact .exact w a b (e2 w b ▸ c)
    | exactNoun w c rest a b d e f g => exact .exactNoun w c rest a b d e f (e2 w b ▸ g)

/-- **C110** (spelling): the library accepts a word without soft hyphens exactly if it is correct by the rules. -/
theorem C110_accepted {views : List Wc → List View} {extra : Bool} {dict : List Wc → SpellRes} (hV : RulesOf extra views dict)
    (o : SpellOpts) (cache : Option SpellerCache) (hc : CacheInv (effDict dict o.acceptMissingHyphens) cache) (word : List Wc)
    (hw : WordOk word) (hs : 0xAD ∉ normSpec word) :
    ∃ r cache', spellUcs4 dict o cache word = some (r, cache') ∧ (r = .ok ∨ r = .failed) ∧ (r = .ok ↔ CorrectBy views extra o word) := by
  obtain ⟨r, cache', g1, g2, g3⟩ := C65_exact dict o cache hc word hw
  have h0 : 0 ∉ normSpec word := fun h => (wordOk_normSpec hw 0 h).1 rfl
  refine ⟨r, cache', g1, g2, g3.trans ⟨fun h => ⟨dict, hV, ?_⟩, fun ⟨V, h1, h2⟩ => ?_⟩⟩
  · exact accepted_mono (fun w k0 ks => (withEnds_eq (fun _ _ _ => rfl) _ w k0 ks).symm) h0 hs h
  · exact accepted_mono (fun w k0 ks => withEnds_eq (C110_unique h1 hV) _ w k0 ks) h0 hs h2

/-- A word of the characters that can be typed, without soft hyphens. -/
structure TypedWord (w : List Wc) : Prop where
  ok : WordOk w
  soft : 0xAD ∉ normSpec w

open Classical in
/-- **C110**: the text of a dictionary compiles to a file that loads. The verdicts of the speller on all words without soft hyphens are those of the rules, for the readings
that the text gives to the words. What `voikkospell` prints for a list of such words follows: with `-tt` the words that are not correct by the rules, and in the usual mode
for each word whether it is correct. Missing for the full claim, as in C104: fewer blocks of words than threads (`C86_violation_few_words`) and cache sizes over 18
(`C101_cache_undefined`); and words with soft hyphens (C27, C118). -/
theorem C110_program_partial {text : List Nat} {ls : List Line} (hd : Att.Describes text ls) (hp : Proper ls) (hf : FinnishText ls)
    {srtS : List (Nat × List Nat) → List (Nat × List Nat)} {srtT : List CTrans → List CTrans}
    (hS : SortsBy (fun a b => attSymLt a.2 b.2) srtS) (hT : SortsBy fileOrderLt srtT) (sw : Bool) :
    ∃ file f, attCompile srtS srtT sw text = some (some file) ∧ loadFile file = some (some f) ∧
      ∃ (runsOf : List Wc → List (List Nat)) (an : Analyzer) (dict : Bool → List Wc → SpellRes), (∀ v : List Wc, v.length ≤ 255 → AllRuns ls v (runsOf v)) ∧
        (∀ c, AnalysedBefore f (fun _ => True) c → ∀ w, ∃ l c', finnishAnalyzeFst f c w false = some (l, c') ∧ an w = l.map asMorAn) ∧
        (∀ extra w, 0 ∉ w → finnishSpell extra an w = some (dict extra w)) ∧
        ∀ read : List Wc → List Nat → List SItem, Reads ls runsOf read →
        (∀ extra, RulesOf extra (wordViews runsOf read) (dict extra)) ∧
        ∀ {G : Type} (init : Arg → Option Arg → Option (Handle G)) (args : List Arg) (items : List Item) (rest : Option Arg) (h : Args.Reads spellKeys args items rest)
          (hr : rest ≠ some (lit "-j")) (hitems : ∀ x ∈ items, NumbersOk x ∧ stopOf (α := SpellTool G) x = none)
          (hl : .word (lit "-l") ∉ items) (hL : .word (lit "-L") ∉ items) (hk : ∀ w, .word w ∈ items → SpellKnown w) (hc : wantedCache items ≤ 18)
          (hinit : ∃ h0, initHandle G = some h0 ∧ init ((lastOf (valueOf "-d") items).getD (lit "fi")) (lastOf (valueOf "-p") items) = some h0)
          (hx : ¬ ∃ w, .word w ∈ items ∧ lit "-x" <+: w)
          (words : List (List Wc)) (hw : ∀ w ∈ words, TypedWord w) (hb : (wantedThreads items).toNat ≤ blockCount words ∨ words = [])
          (suggest : List Wc → UB (Option (List (List Wc)))) (analyze : List Wc → UB (List (List (List Wc × List Wc))))
          (sugg : List Wc → List (List Wc)) (hs : ∀ w ∈ words, ∃ l, suggest w = some l ∧ l.getD [] = sugg w)
          (ana : List Wc → List (List (List Wc × List Wc))) (ha : ∀ w ∈ words, analyze w = some (ana w)) (hsl : SingleLines sugg ana words),
          ∃ t, spellToolArgs init args = some (.run t) ∧
            ∀ (n : Nat) (tool : Tool (Handle G)), ToolRun (checkWord (SpellProgram.handleApi dict suggest analyze) t.opts) n (startTool t.handles words) tool →
              ¬ CanStep (checkWord (SpellProgram.handleApi dict suggest analyze) t.opts) tool →
              let Right := CorrectBy (wordViews runsOf read) (handleAfter {} items : Handle G).acceptExtraHyphens (handleAfter {} items : Handle G).spell
              (lastOf modeOf items = some .onlyIncorrect → .word (lit "-s") ∉ items → .word (lit "-m") ∉ items → .word (lit "-M") ∉ items →
                tool.pc = .terminated ∧ linesOf tool.out = words.filter fun w => decide (¬ Right w)) ∧
              (lastOf modeOf items = some .onlyCW → .word (lit "-s") ∉ items → .word (lit "-m") ∉ items → .word (lit "-M") ∉ items →
                tool.pc = .terminated ∧ linesOf tool.out = words.map fun w => if Right w then [0x43] else [0x57]) ∧
              (lastOf modeOf items = none →
                tool.pc = .terminated ∧ entries tool.out = words.map fun w =>
                  { word := w, correct := decide (Right w),
                    attributes := if (.word (lit "-m") ∈ items ∨ .word (lit "-M") ∈ items) ∧ Right w then (SpellOutput.numbered 1 (ana w)).map some else [],
                    suggestions := if .word (lit "-s") ∈ items ∧ ¬ Right w then sugg w else [] }) := by
  obtain ⟨file, f, h1, h2, runsOf, an, h3, h4, h5⟩ := C99_dictionary hd hp hf hS hT sw
  have hdict : ∀ extra w, 0 ∉ w → finnishSpell extra an w = some ((fun extra w => (finnishSpell extra an w).getD .failed) extra w) := by
    intro extra w h0
    obtain ⟨r, e⟩ := h5.total extra w h0
    simp only [e, Option.getD_some]
  generalize (fun extra w => (finnishSpell extra an w).getD .failed) = dict at hdict
  refine ⟨file, f, h1, h2, runsOf, an, dict, h3, h4, hdict, ?_⟩
  intro read hread
  obtain ⟨next, _, n2, n3⟩ := h5.outputs
  have hrules : ∀ extra, RulesOf extra (wordViews runsOf read) (dict extra) :=
    fun extra w h0 hs => ruled_of (word_fits hf h3 n3 hread n2) extra (hdict extra) w h0 hs
  refine ⟨hrules, ?_⟩
  exact SpellProgram.program_judged (W := TypedWord) (C := CorrectBy (wordViews runsOf read))
    ⟨fun _ h => h.ok, fun extra o cache hc w p => C110_accepted (hrules extra) o cache hc w p.ok p.soft⟩

/-! ### A dictionary to which this applies -/

theorem haha_views {runsOf : List Wc → List (List Nat)} (hr : ∀ v : List Wc, v.length ≤ 255 → AllRuns hahaLines v (runsOf v)) (w : List Wc)
    (hw : 0x2D ∈ setCase .allLower w) (hl : w.length ≤ 255) : wordViews runsOf (fun v _ => hahaReading v) w = [] := by
  rw [wordViews, if_pos hl]
  have hl' : (setCase .allLower w).length ≤ 255 := by rw [lowered_length]; exact hl
  have : runsOf (setCase .allLower w) = [] := by
    refine List.eq_nil_iff_forall_not_mem.2 fun run hm => ?_
    obtain ⟨m, e, _⟩ := haha_runs (((hr _ hl').mem run).1 hm)
    rw [e] at hw
    rcases List.mem_cons.1 hw with h | h
    · cases h
    · have := List.eq_of_mem_replicate h; cases this
  rw [this]
  rfl

theorem haha_abb_valid : Validity.Valid (Validity.events (hahaReading (97 :: List.replicate 2 98))) := by
  obtain ⟨b, hb, hv⟩ := C77_valid _ (haha_good (m := 2)).plain
  rw [show isValidAnalysis (render (hahaReading (97 :: List.replicate 2 98))) = some true by decide +kernel] at hb
  cases hb
  exact hv.1 rfl

theorem haha_run_abb : Att.Accepts hahaLines (lit "abb") false [0, 1, 1, 2] 3 :=
  ⟨[0, 1, 1], 2, _, rfl, .cons (.letter rfl rfl rfl rfl) (.cons (.letter rfl rfl rfl rfl) (.cons (.letter rfl rfl rfl rfl) .nil)), rfl, rfl, fun _ => rfl⟩

/-- The word `abb` has one reading, and it is correct. -/
theorem haha_abb {runsOf : List Wc → List (List Nat)} (hr : ∀ v : List Wc, v.length ≤ 255 → AllRuns hahaLines v (runsOf v)) :
    wordViews runsOf (fun v _ => hahaReading v) (lit "abb") = [⟨hahaReading (lit "abb"), false⟩] ∧
    judge (wordViews runsOf (fun v _ => hahaReading v) (lit "abb")) (lit "abb") = .ok := by
  have l2 : setCase .allLower (lit "abb") = lit "abb" := by decide +kernel
  have ha := hr (lit "abb") (by decide)
  have hle := HyphProgram.haha_one hr (lit "abb") (by decide)
  have views : wordViews runsOf (fun v _ => hahaReading v) (lit "abb") = [⟨hahaReading (lit "abb"), false⟩] := by
    rw [wordViews, if_pos (by decide), l2]
    have hm : [0, 1, 1, 2] ∈ runsOf (lit "abb") := (ha.mem _).2 haha_run_abb
    match h : runsOf (lit "abb"), hle with
    | [], _ => rw [h] at hm; cases hm
    | [r], _ =>
      show viewsOf (hahaReading (97 :: List.replicate 2 98)) ++ [] = _
      rw [viewsOf, if_pos haha_abb_valid, if_neg (fun h => absurd h.2.1 (by decide))]
      rfl
    | r :: r' :: t, hle => simp at hle
  refine ⟨views, ?_⟩
  rw [views]
  unfold judge
  rw [if_neg (by simp), if_pos]
  refine ⟨_, List.mem_singleton.2 rfl, ?_⟩
  intro i c k h1 h2
  rw [show (View.mk (hahaReading (lit "abb")) false).letters = lit "ppp" by decide +kernel] at h2
  match i, h1, h2 with
  | 0, h1, h2 => cases h1; cases h2; simp [TooLow, TooHigh]; decide
  | 1, h1, h2 => cases h1; cases h2; simp [TooLow, TooHigh]; decide
  | 2, h1, h2 => cases h1; cases h2; simp [TooLow, TooHigh]; decide
  | i + 3, h1, _ => simp [lit] at h1

theorem haha_noBorder (w : List Wc) (j : Nat) (hj : 0 < j) : ¬ Verif.Border (hahaReading w) j := by
  have none' : ∀ (w : List Wc) (k j : Nat), ¬ BorderFrom k (w.map SItem.chr ++ []) j := by
    intro w
    induction w with
    | nil => intro k j h; exact h
    | cons c w ih => intro k j h; exact ih (k + 1) j h
  rintro (⟨h, _⟩ | h)
  · omega
  · exact none' w 0 j h

theorem abb_first : FirstInner (lit "ab-b") (lit "ab") (lit "b") := ⟨by decide, by decide, by decide, by decide⟩

theorem abb_last : LastInner (lit "ab-b") (lit "ab") (lit "b") := ⟨by decide, by decide, by decide, by decide⟩

/-- With the dictionary that knows the words `a`, `ab`, `abb`, ... the word `ab-b` is correct with ACCEPT_EXTRA_HYPHENS, and unknown without it. -/
theorem haha_hyphen {runsOf : List Wc → List (List Nat)} (hr : ∀ v : List Wc, v.length ≤ 255 → AllRuns hahaLines v (runsOf v)) (V : Bool → List Wc → SpellRes)
    (hV : ∀ extra, RulesOf extra (wordViews runsOf fun v _ => hahaReading v) (V extra)) : V true (lit "ab-b") = .ok ∧ V false (lit "ab-b") = .failed := by
  obtain ⟨views, good⟩ := haha_abb hr
  have none' := haha_views hr (lit "ab-b") (by decide +kernel) (by decide)
  have bad : judge (wordViews runsOf (fun v _ => hahaReading v) (lit "ab-b")) (lit "ab-b") = .failed := by rw [none', judge, if_pos rfl]
  have hn : ¬ (judge (wordViews runsOf (fun v _ => hahaReading v) (lit "ab-b")) (lit "ab-b") = .ok ∨ (lit "ab-b").length ≤ 3 ∨ InnerFree (lit "ab-b")) := by
    rw [bad]
    rintro (h | h | h)
    · cases h
    · exact absurd h (by decide)
    · exact first_not_free abb_first h
  have abb : V true (lit "abb") = .ok := by
    have := hV true (lit "abb") (by decide) (by decide)
    generalize V true (lit "abb") = r at this
    cases this with
    | plain _ => exact good
    | superfluous _ _ h => exact absurd good h
    | pair _ _ h => exact absurd good h
    | appended _ _ _ _ h => exact absurd good h
    | ambiguous _ _ _ _ h => exact absurd good h
    | unchanged _ _ _ _ h => exact absurd good h
  have noPair : ¬ Paired (wordViews runsOf fun v _ => hahaReading v) (lit "ab-b") (lit "ab") (lit "b") := by
    rintro ⟨⟨_, _, _, _, _, _, _, e, _⟩, _⟩
    have := congrArg List.length e
    simp [lit] at this
  have noBorder : bordered (wordViews runsOf fun v _ => hahaReading v) (lit "ab") (lit "b") = [] := by
    refine List.eq_nil_iff_forall_not_mem.2 fun v hv => ?_
    obtain ⟨h1, h2⟩ := mem_bordered.1 hv
    rw [show lit "ab" ++ lit "b" = lit "abb" by decide, views, List.mem_singleton] at h1
    subst h1
    exact haha_noBorder _ _ (by decide) h2
  constructor
  · have q := ruled_cases (hV true (lit "ab-b") (by decide) (by decide)) hn abb_first abb_last
    have sup : Superfluous true (V true) (lit "ab") (lit "b") := ⟨rfl, by decide, by decide, abb⟩
    rcases q with ⟨_, e⟩ | ⟨h, _⟩ | ⟨h, _⟩ | ⟨h, _⟩ | ⟨h, _⟩
    · exact e
    all_goals exact absurd sup h
  · have q := ruled_cases (hV false (lit "ab-b") (by decide) (by decide)) hn abb_first abb_last
    rcases q with ⟨h, _⟩ | ⟨_, h, _⟩ | ⟨_, _, ⟨_, v, h, _⟩, _⟩ | ⟨_, _, _, ⟨_, h, _⟩, _⟩ | ⟨_, _, _, _, e⟩
    · cases h.1
    · exact absurd h noPair
    · have l : setCase .allLower (lit "b") = lit "b" := by decide +kernel
      have : runsOf (lit "b") = [] := by
        refine List.eq_nil_iff_forall_not_mem.2 fun run hm => ?_
        obtain ⟨m, e, _⟩ := haha_runs (((hr (lit "b") (by decide)).mem run).1 hm)
        cases e
      rw [wordViews, if_pos (by decide), l, this] at h
      cases h
    · rw [noBorder, judge, if_pos rfl] at h
      exact absurd rfl h
    · rw [e, bad]

/-- Non-vacuity: the compiled dictionary gives these verdicts. -/
example (sw : Bool) : ∃ (an : Analyzer), finnishSpell true an (lit "ab-b") = some .ok ∧ finnishSpell false an (lit "ab-b") = some .failed := by
  obtain ⟨file, f, _, _, runsOf, an, dict, hr, _, hdict, main⟩ := C110_program_partial haha_describes haha_proper haha_finnish sortSymbols_sorts sortTransitions_sorts sw
  obtain ⟨hV, _⟩ := main (fun v _ => hahaReading v) (by
    intro v hv run hm
    obtain ⟨m, rfl, rfl⟩ := haha_runs (((hr v hv).mem run).1 hm)
    exact ⟨haha_output m, haha_good⟩)
  obtain ⟨h1, h2⟩ := haha_hyphen hr dict hV
  exact ⟨an, by rw [hdict _ _ (by decide), h1], by rw [hdict _ _ (by decide), h2]⟩

end Verif.HyphenText
