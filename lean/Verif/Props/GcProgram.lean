import Verif.Model.GrammarFst
import Verif.Props.AnalysisProgram
import Verif.Props.HyphProgram
import Verif.Props.TokenAttributes
import Verif.Props.GrammarAnalysis
import Verif.Props.LetterCase
import Verif.Props.Autocorrect
import Verif.Props.GcOutput
import Verif.Props.FinnishLetters
import Verif.Lemmas.ShownAnalyses
import Mathlib.Data.List.Forall2
/-!
# The grammar checking program from the text of a dictionary to its output (C109)

C99, C79, C85, C75, C74, C76, C83, C102 and C89 together: what `voikkogc` prints for its input follows from the text from which its dictionary was compiled and from its
command line.
-/

set_option linter.unusedVariables false
set_option linter.unusedSimpArgs false

namespace Verif.GcProgram
open Verif Verif.Att Verif.Args Verif.Props Verif.SpellOutput
open Verif.Attrs (Attribute attributeName grammatical Organisation)
open Verif.HyphProgram (Reads reads_exist asciiDecode)

/-! ### Specification: what the text says of a word -/

/-- A reading, as the word itself or as the name of an organisation. -/
structure View where
  its : List SItem
  name : Bool

/-- The grammatical attributes: a name has the class `nimi` and is no geographical name. -/
def View.Attr (v : View) (k : AKey) (x : List Wc) : Prop :=
  if v.name then (k = .cls ∧ x = lit "nimi") ∨ (k ≠ .cls ∧ k ≠ .geographical ∧ Attribute v.its k x) else Attribute v.its k x

def View.Is (v : View) (k : AKey) (s : String) : Prop := v.Attr k (lit s)

/-- The attribute has no value. -/
def View.Lacks (v : View) (k : AKey) : Prop := ∀ x, ¬ v.Attr k x

/-- Which letters have to be capital ones (`i`, `j`) and which need not (`p`, `q`). -/
def View.letters (v : View) : List Wc := if v.name then requiredName v.its else required v.its

def SmallLetter (c : Option Wc) : Prop := c = some 0x70 ∨ c = some 0x71

/-- The word begins with a small letter: the first one, or the second one if the word begins with a hyphen and no border is after it. -/
def View.Small (v : View) : Prop :=
  (Verif.Border v.its 0 ∧ SmallLetter v.letters[0]?) ∨ (¬ Verif.Border v.its 0 ∧ ¬ Verif.Border v.its 1 ∧ SmallLetter v.letters[1]?)

/-- A place name in the genitive, with a capital letter. -/
def View.Place (v : View) : Prop := ¬ v.Small ∧ v.Is .cls "paikannimi" ∧ v.Is .sijamuoto "omanto"

/-- A conjunction, or a negative verb such as `enkä`; `last` is the last letter of the word. -/
def View.Conj (last : Wc) (v : View) : Prop := v.Is .cls "sidesana" ∨ v.Is .cls "kieltosana" ∧ last = 0xE4

/-- Possibly the main verb of a sentence. -/
def View.MayBeMain (v : View) : Prop :=
  v.Lacks .cls ∨ v.Is .cls "teonsana" ∧ ¬ v.Is .mood "A-infinitive" ∧ ¬ v.Is .mood "E-infinitive" ∧ ¬ v.Is .negative "true"

/-- A verb in the indicative. -/
def View.Main (v : View) : Prop := v.Is .cls "teonsana" ∧ v.Is .mood "indicative"

/-- A verb form that is not used after a negative verb. -/
def View.NotNegated (v : View) : Prop :=
  v.Is .cls "teonsana" ∧ v.Is .negative "false" ∧ ¬ ((v.Lacks .mood ∨ v.Is .mood "conditional") ∧ (v.Lacks .person ∨ v.Is .person "3"))

open Classical in
/-- The infinitive that an attribute names. -/
noncomputable def View.infinitive (k : AKey) (v : View) : FollowingVerb :=
  if v.Is k "A-infinitive" then .aInf else if v.Is k "MA-infinitive" then .maInf else .none

/-- The agent participle in the abessive. -/
def View.Agent (v : View) : Prop := v.Is .participle "agent" ∧ v.Is .sijamuoto "vajanto"

/-- The value `x` for the kind: it is that of the first element that has one, and of all elements after it; elements after it without a value must not hide it. -/
def FirstKind {α : Type} (kind : α → FollowingVerb) (hides : α → Prop) (l : List α) (x : FollowingVerb) : Prop :=
  ∃ before a after, l = before ++ a :: after ∧ (∀ b ∈ before, kind b = .none) ∧ kind a = x ∧ ∀ b ∈ after, kind b = .none ∧ ¬ hides b ∨ kind b = x

/-- What the grammar checker knows about a word with these views. -/
structure WordIs (vs : List View) (last : Wc) (t : GTok) : Prop where
  known : t.isValidWord = true ↔ vs ≠ []
  small : t.firstLetterLcase = true ↔ ∀ v ∈ vs, v.Small
  place : t.isGeoGenitive = true ↔ ∃ v ∈ vs, v.Place
  maybePlace : t.possibleGeo = true ↔ ∃ v ∈ vs, v.Is .geographical "true"
  maybeConj : t.possibleConjunction = true ↔ ∃ v ∈ vs, v.Conj last
  conj : t.isConjunction = true ↔ vs ≠ [] ∧ ∀ v ∈ vs, v.Conj last
  maybeMain : t.possibleMainVerb = true ↔ ∃ v ∈ vs, v.MayBeMain
  main : t.isMainVerb = true ↔ vs ≠ [] ∧ ∀ v ∈ vs, v.Main
  negative : t.isVerbNegative = true ↔ vs ≠ [] ∧ ∀ v ∈ vs, v.Is .cls "kieltosana"
  positive : t.isPositiveVerb = true ↔ vs ≠ [] ∧ ∀ v ∈ vs, v.NotNegated
  requires : t.requireVerb = common (vs.map (View.infinitive .requireVerb))
  follower : ∀ x, x ≠ .none → (t.verbFollower = x ↔ FirstKind (View.infinitive .mood) View.Agent vs x)

open Classical in
/-- The views of a reading: none if its hyphens are wrong. -/
noncomputable def viewsOf (its : List SItem) : List View :=
  if Validity.Valid (Validity.events its) then ⟨its, false⟩ :: (if Organisation its then [⟨its, true⟩] else []) else []

/-- The views of a word: those of the readings of its first 99 runs. -/
noncomputable def wordViews (runsOf : List Wc → List (List Nat)) (read : List Wc → List Nat → List SItem) (w : List Wc) : List View :=
  if w.length ≤ 255 then ((runsOf (setCase .allLower w)).take 99).flatMap fun run => viewsOf (read (setCase .allLower w) run) else []

/-! ### Specification: the errors of a paragraph -/

/-- The words that separate sentences are those of the dictionary: `spellOk` for words of at most 255 characters without hyphens inside of them and without soft hyphens. -/
def SpellsText (ls : List Att.Line) (runsOf : List Wc → List (List Nat)) (spellOk : List Wc → Bool) : Prop :=
  ∀ w : List Wc, InnerFree w → 0xAD ∉ w →
    (spellOk w = true ↔ w.length ≤ 255 ∧ ∃ run ∈ (runsOf (setCase .allLower w)).take 99, ValidRun ls (setCase .allLower w) run)

/-- What is known of the tokens of a sentence of the paragraph `p`: each is a part of the text, and what the grammar checker knows of a word is what the readings of the
dictionary say of it. -/
def KnownTokens (views : List Wc → List View) (p : List Wc) (s : GSent) : Prop :=
  ∀ (i : Nat) (t : GTok), s.tokens[i]? = some t →
    t.str ≠ [] ∧ (p.drop t.pos).take t.str.length = t.str ∧
    (t.possibleSentenceStart = true ↔ t.type = .word ∧ AfterSeparator s.tokens i) ∧
    (t.type = .word → ∀ last, t.str.getLast? = some last → WordIs (views (withoutShy t.str)) last t)

/-- The errors of a paragraph with the sentences `ss`. -/
structure ErrorsIn {σ : Type} (auto : Option (Lookup σ)) (o : GramOpts) (ss : List GSent) (es : List GErr) : Prop where
  order : es.Pairwise fun a b => a.start ≤ b.start
  unchecked : ¬ Checked ss → es = []
  /-- all rules but letter case, brackets and fixed expressions -/
  rules : Checked ss → ∀ e : GErr, e.code ∉ [1, 6, 7, 12] → (e.code = 8 → ∀ s ∈ ss, WordsApart s.tokens) →
    (e ∈ es ↔ (∃ s ∈ ss, Props.Reported o s e) ∨ EndReported o ss e)
  /-- letter case and brackets -/
  letterCase : Checked ss → ∀ e : GErr, e.code ∈ [6, 7, 12] → (e ∈ es ↔ e ∈ letterCaseErrors o ss)
  /-- fixed expressions -/
  noPhrases : auto = none → ∀ e ∈ es, e.code ≠ 1
  phrases : Checked ss → (∀ s ∈ ss, Autocorrect.Clean s.tokens ∧ Autocorrect.extent s.tokens < 20000) →
    ∀ m first, auto = some m → Autocorrect.Answers m (fun _ => True) first → ∀ e : GErr, e.code = 1 → (e ∈ es ↔ ∃ s ∈ ss, Autocorrect.Reported first s e)

/-- What is said about a paragraph: nothing if one of its sentences has too many tokens, and otherwise the errors of its sentences. -/
def Judged {σ : Type} (an : List Wc → List GramAn) (spellOk : List Wc → Bool) (views : List Wc → List View) (auto : Option (Lookup σ)) (o : GramOpts) (p : List Wc)
    (es : List GErr) : Prop :=
  (analyseParagraph an spellOk false p = some none ∧ es = []) ∨
  ∃ ss, analyseParagraph an spellOk false p = some (some ss) ∧ (∀ s ∈ ss, KnownTokens views p s) ∧ ErrorsIn auto o ss es

/-- The options of the grammar checker that a command line sets. -/
def optionsOf (items : List Item) : GramOpts :=
  ⟨(lastOf (setting "accept_titles") items).getD false, (lastOf (setting "accept_unfinished_paragraphs") items).getD false,
    (lastOf (setting "accept_bulleted_lists") items).getD false⟩

/-! ### Lemmas -/

/-- The second character of STRUCTURE. -/
theorem second_letter {st : List Wc} (h : hasDouble st = false) : SmallLetter st[1]? ↔
    (0 ∈ marks 0 st ∧ SmallLetter (strip st)[0]?) ∨ (0 ∉ marks 0 st ∧ 1 ∉ marks 0 st ∧ SmallLetter (strip st)[1]?) := by
  have low : ∀ (s : List Wc) (k j : Nat), j < k → j ∉ marks k s := by
    intro s
    induction s with
    | nil => intro k j _ h; cases h
    | cons c r ih =>
      intro k j hj h
      rw [marks] at h
      split at h
      · rcases List.mem_cons.1 h with rfl | h
        · omega
        · exact ih k j hj h
      · exact ih (k + 1) j (by omega) h
  match st, h with
  | [], _ => simp [SmallLetter, marks, strip]
  | [c], _ =>
    by_cases hc : c = 0x3D
    · subst hc; simp [SmallLetter, marks, strip]
    · simp [SmallLetter, marks, strip, hc]
  | c :: d :: r, h =>
    by_cases hc : c = 0x3D
    · subst hc
      have hd : d ≠ 0x3D := by rintro rfl; simp [hasDouble] at h
      simp [SmallLetter, marks, strip, hd]
    · by_cases hd : d = 0x3D
      · subst hd
        have h1 : 0 ∉ marks 0 (c :: 0x3D :: r) := by
          simp only [marks, if_neg hc, if_pos]
          exact fun h => (List.mem_cons.1 h).elim (by omega) (low r 1 0 (by omega))
        have h2 : 1 ∈ marks 0 (c :: 0x3D :: r) := by simp [marks, if_neg hc]
        simp [SmallLetter, h1, h2]
      · have h1 : 0 ∉ marks 0 (c :: d :: r) := by
          simp only [marks, if_neg hc, if_neg hd]
          exact low r 2 0 (by omega)
        have h2 : 1 ∉ marks 0 (c :: d :: r) := by
          simp only [marks, if_neg hc, if_neg hd]
          exact low r 2 1 (by omega)
        simp [SmallLetter, h1, h2, strip, hc, hd]

/-- The analysis says what the view says. -/
structure Matches (v : View) (a : GramAn) : Prop where
  struct : ∃ st, a.struct = some st ∧ (SmallLetter st[1]? ↔ v.Small)
  cls : ∀ x, a.cls = some x ↔ v.Attr .cls x
  sijamuoto : ∀ x, a.sijamuoto = some x ↔ v.Attr .sijamuoto x
  mood : ∀ x, a.mood = some x ↔ v.Attr .mood x
  person : ∀ x, a.person = some x ↔ v.Attr .person x
  negative : ∀ x, a.negative = some x ↔ v.Attr .negative x
  participle : ∀ x, a.participle = some x ↔ v.Attr .participle x
  geo : ∀ x, a.possibleGeo = some x ↔ v.Attr .geographical x
  requires : ∀ x, a.requireVerb = some x ↔ v.Attr .requireVerb x

theorem none_iff {o : Option (List Wc)} {P : List Wc → Prop} (h : ∀ x, o = some x ↔ P x) : o = none ↔ ∀ x, ¬ P x := by
  cases o with
  | none => exact ⟨fun _ x hx => (by cases (h x).2 hx), fun _ => rfl⟩
  | some y => exact ⟨fun e => (by cases e), fun hx => absurd ((h y).1 rfl) (hx y)⟩

section Words
variable {v : View} {a : GramAn} (m : Matches v a)
include m

theorem m_small : SmallFirst a ↔ v.Small := by
  obtain ⟨st, h1, h2⟩ := m.struct
  rw [← h2]
  exact ⟨fun ⟨s, e, h⟩ => by rw [h1] at e; cases e; exact h, fun h => ⟨st, h1, h⟩⟩

theorem m_place : PlaceGenitive a ↔ v.Place := and_congr (not_congr (m_small m)) (and_congr (m.cls _) (m.sijamuoto _))

theorem m_geo : Has a.possibleGeo "true" ↔ v.Is .geographical "true" := m.geo _

theorem m_conj (last : Wc) : Conjunction last a ↔ v.Conj last := or_congr (m.cls _) (and_congr_left' (m.cls _))

theorem m_mayMain : MaybeMain a ↔ v.MayBeMain :=
  or_congr (none_iff m.cls) (and_congr (m.cls _) (and_congr (not_congr (m.mood _)) (and_congr (not_congr (m.mood _)) (not_congr (m.negative _)))))

theorem m_main : Indicative a ↔ v.Main := and_congr (m.cls _) (m.mood _)

theorem m_neg : Has a.cls "kieltosana" ↔ v.Is .cls "kieltosana" := m.cls _

theorem m_pos : Positive a ↔ v.NotNegated :=
  and_congr (m.cls _) (and_congr (m.negative _) (not_congr (and_congr (or_congr (none_iff m.mood) (m.mood _)) (or_congr (none_iff m.person) (m.person _)))))

open Classical in
theorem m_mood : infinitive a.mood = View.infinitive .mood v := by
  unfold infinitive View.infinitive
  exact if_congr (m.mood _) rfl (if_congr (m.mood _) rfl rfl)

open Classical in
theorem m_requires : infinitive a.requireVerb = View.infinitive .requireVerb v := by
  unfold infinitive View.infinitive
  exact if_congr (m.requires _) rfl (if_congr (m.requires _) rfl rfl)

theorem m_agent : AgentAbessive a ↔ v.Agent := and_congr (m.participle _) (m.sijamuoto _)

end Words

section Lists
variable {vs : List View} {as : List GramAn} (m : List.Forall₂ Matches vs as)
include m

theorem all_iff {P : View → Prop} {Q : GramAn → Prop} (h : ∀ v a, Matches v a → (Q a ↔ P v)) : (∀ a ∈ as, Q a) ↔ ∀ v ∈ vs, P v := by
  induction m with
  | nil => simp
  | cons hm _ ih => simp only [List.forall_mem_cons, ih, h _ _ hm]

theorem ex_iff {P : View → Prop} {Q : GramAn → Prop} (h : ∀ v a, Matches v a → (Q a ↔ P v)) : (∃ a ∈ as, Q a) ↔ ∃ v ∈ vs, P v := by
  induction m with
  | nil => simp
  | cons hm _ ih => simp only [List.exists_mem_cons_iff, ih, h _ _ hm]

theorem ne_iff : as ≠ [] ↔ vs ≠ [] := by cases m <;> simp

theorem map_eq {f : GramAn → FollowingVerb} {g : View → FollowingVerb} (h : ∀ v a, Matches v a → f a = g v) : as.map f = vs.map g := by
  induction m with
  | nil => rfl
  | cons hm _ ih => rw [List.map_cons, List.map_cons, ih, h _ _ hm]

end Lists

theorem firstKind_cons {α : Type} {kind : α → FollowingVerb} {hides : α → Prop} {a : α} {l : List α} {x : FollowingVerb} (hx : x ≠ .none) :
    FirstKind kind hides (a :: l) x ↔
      (kind a = x ∧ ∀ b ∈ l, kind b = .none ∧ ¬ hides b ∨ kind b = x) ∨ (kind a = .none ∧ FirstKind kind hides l x) := by
  constructor
  · rintro ⟨before, c, after, e, h1, h2, h3⟩
    cases before with
    | nil => cases e; exact .inl ⟨h2, h3⟩
    | cons b before =>
      cases e
      exact .inr ⟨h1 _ List.mem_cons_self, before, c, after, rfl, fun y hy => h1 y (List.mem_cons_of_mem _ hy), h2, h3⟩
  · rintro (⟨h1, h2⟩ | ⟨h1, before, c, after, rfl, h2, h3, h4⟩)
    · exact ⟨[], a, l, rfl, by simp, h1, h2⟩
    · exact ⟨a :: before, c, after, rfl, fun y hy => (List.mem_cons.1 hy).elim (fun e => by rw [e]; exact h1) (h2 y), h3, h4⟩

theorem kind_iff {vs : List View} {as : List GramAn} (m : List.Forall₂ Matches vs as) {x : FollowingVerb} (hx : x ≠ .none) :
    InfinitiveKind as x ↔ FirstKind (View.infinitive .mood) View.Agent vs x := by
  show FirstKind (fun a : GramAn => infinitive a.mood) AgentAbessive as x ↔ _
  induction m with
  | nil =>
    constructor
    · rintro ⟨b, _, _, e, _⟩
      cases b <;> cases e
    · rintro ⟨b, _, _, e, _⟩
      cases b <;> cases e
  | cons hm m ih =>
    rw [firstKind_cons hx, firstKind_cons hx, ih, m_mood hm]
    rw [all_iff m (P := fun v => View.infinitive .mood v = .none ∧ ¬ v.Agent ∨ View.infinitive .mood v = x)
      fun v a h => by rw [m_mood h, m_agent h]]

/-- The attributes of a word from the views of its readings. -/
theorem word_is {vs : List View} {as : List GramAn} (m : List.Forall₂ Matches vs as) {last : Wc} {t : GTok} (h : Attributes as last t)
    (hk : ∀ x, x ≠ .none → (t.verbFollower = x ↔ InfinitiveKind as x)) : WordIs vs last t where
  known := h.valid.trans (ne_iff m)
  small := h.small.trans (all_iff m fun _ _ => m_small)
  place := h.place.trans (ex_iff m fun _ _ => m_place)
  maybePlace := h.maybePlace.trans (ex_iff m fun _ _ => m_geo)
  maybeConj := h.maybeConj.trans (ex_iff m fun _ _ hm => m_conj hm last)
  conj := h.conj.trans (and_congr (ne_iff m) (all_iff m fun _ _ hm => m_conj hm last))
  maybeMain := h.maybeMain.trans (ex_iff m fun _ _ => m_mayMain)
  main := h.main.trans (and_congr (ne_iff m) (all_iff m fun _ _ => m_main))
  negative := h.negative.trans (and_congr (ne_iff m) (all_iff m fun _ _ => m_neg))
  positive := h.positive.trans (and_congr (ne_iff m) (all_iff m fun _ _ => m_pos))
  requires := by rw [h.requires, map_eq m fun _ _ => m_requires]
  follower := fun x hx => (hk x hx).trans (kind_iff m hx)

theorem key_name : ∀ k ∈ grammatical, ∃ x ∈ attributeNames, x.1 = k ∧ attributeName k = lit x.2 := by decide

theorem value_key (a : Ana) {k : AKey} (hk : k ∈ grammatical) : a.getValue k = analysisValue a (attributeName k) := by
  obtain ⟨x, hx, e1, e2⟩ := key_name k hk
  rw [e2, Shown.value_of_name a x hx, e1]

theorem matches_of {v : View} {a : Ana} (hg : ∀ k ∈ grammatical, ∀ x, analysisValue a (attributeName k) = some x ↔ v.Attr k x) {st : List Wc}
    (h1 : analysisValue a (lit "STRUCTURE") = some st) (h2 : Props.Describes v.its st) (h3 : strip st = v.letters) : Matches v (asGramAn a) := by
  have key : ∀ k ∈ grammatical, ∀ x, a.getValue k = some x ↔ v.Attr k x := fun k hk x => by rw [value_key a hk]; exact hg k hk x
  refine ⟨⟨st, ?_, ?_⟩, key _ (by decide), key _ (by decide), key _ (by decide), key _ (by decide), key _ (by decide), key _ (by decide), key _ (by decide), key _ (by decide)⟩
  · show a.getValue .structure_ = some st
    rw [← h1]
    exact (Shown.value_of_name a (.structure_, "STRUCTURE") (by decide)).symm
  · rw [second_letter h2.single, h2.borders, h2.borders, h3]
    rfl

/-- One reading. -/
theorem reading_views {v : List Wc} {its : List SItem} (hr : GoodReading v its) (hlen : (render its).length < 2 ^ 64) :
    ∃ l, analyzeOutput v.length false (render its) = some l ∧ List.Forall₂ Matches (viewsOf its) (l.map asGramAn) := by
  obtain ⟨b, hb, hval⟩ := C77_valid its hr.plain
  cases b with
  | false =>
    refine ⟨[], ?_, ?_⟩
    · rw [analyzeOutput_eq, hb]; rfl
    · rw [viewsOf, if_neg fun h => by have := hval.2 h; cases this]
      exact .nil
  | true =>
    obtain ⟨l, hl, x, hx, hcase⟩ := C79_reading its false hr.regulated.wf hr.regulated.tidy hlen hb
    obtain ⟨a, r, st, e1, b1, b2, b3, b4⟩ := C85_reading_partial its false hr.regulated hlen hb
    rw [hl] at e1
    cases e1
    refine ⟨a :: r, by rw [← hr.length]; exact hl, ?_⟩
    have ha : x = a := by rcases hcase with ⟨_, e⟩ | ⟨_, b, _, e⟩ <;> (cases e; rfl)
    subst ha
    have first : Matches ⟨its, false⟩ (asGramAn x) := matches_of (v := ⟨its, false⟩) hx b1 b2 b3
    rw [viewsOf, if_pos (hval.1 rfl)]
    rcases hcase with ⟨ho, e⟩ | ⟨ho, b, hb, e⟩
    · cases e
      rw [if_neg ho]
      exact .cons first .nil
    · cases e
      rw [if_pos ho]
      obtain ⟨st', g1, g2, g3⟩ := b4 b List.mem_cons_self
      exact .cons first (.cons (matches_of (v := ⟨its, true⟩) hb g1 g2 g3) .nil)

theorem runs_views {ls : List Att.Line} (hf : FinnishText ls) {v : List Wc} (hv : v.length ≤ 255) {rd : List Nat → List SItem} :
    ∀ L : List (List Nat), (∀ run ∈ L, Att.Accepts ls v false run v.length ∧ runOutput ls run = render (rd run) ∧ GoodReading v (rd run)) →
      ∃ l, analyzeOutputs v.length false (L.map (runOutput ls)) = some l ∧ List.Forall₂ Matches (L.flatMap fun run => viewsOf (rd run)) (l.map asGramAn)
  | [], _ => ⟨[], rfl, .nil⟩
  | run :: L, h => by
    obtain ⟨l, h1, h2⟩ := runs_views hf hv L fun r hr => h r (List.mem_cons_of_mem _ hr)
    obtain ⟨ha, e, hg⟩ := h run List.mem_cons_self
    have hsz := (hf.small v hv).out run _ ha
    obtain ⟨l0, g1, g2⟩ := reading_views hg (by rw [← e]; omega)
    refine ⟨l0 ++ l, ?_, ?_⟩
    · rw [List.map_cons, analyzeOutputs, e, g1, h1]; rfl
    · rw [List.map_append, List.flatMap_cons]
      exact List.rel_append g2 h2

/-- The analyses of a word are those of its views. -/
theorem word_views {ls : List Att.Line} (hf : FinnishText ls) {runsOf : List Wc → List (List Nat)} {next : List Wc → List (List Wc)}
    (hruns : ∀ v : List Wc, v.length ≤ 255 → AllRuns ls v (runsOf v)) (hnext : ∀ v : List Wc, v.length ≤ 255 → next v = (runsOf v).map (runOutput ls))
    {read : List Wc → List Nat → List SItem} (hread : Reads ls runsOf read) (w : List Wc) :
    ∃ l, finnishAnalyze next w false = some l ∧ List.Forall₂ Matches (wordViews runsOf read w) (l.map asGramAn) := by
  by_cases hw : w.length ≤ 255
  · have hl : (setCase .allLower w).length = w.length := lowered_length w
    have hle : (setCase .allLower w).length ≤ 255 := by omega
    obtain ⟨l, h1, h2⟩ := runs_views hf hle (rd := read (setCase .allLower w)) ((runsOf (setCase .allLower w)).take 99) fun run hr =>
      ⟨((hruns _ hle).mem run).1 (List.mem_of_mem_take hr), hread _ hle run (List.mem_of_mem_take hr)⟩
    refine ⟨l, ?_, by rw [wordViews, if_pos hw]; exact h2⟩
    rw [finnishAnalyze, if_neg (by omega), hnext _ hle, ← List.map_take, ← hl]
    exact h1
  · exact ⟨[], by rw [finnishAnalyze, if_pos (by omega)], by rw [wordViews, if_neg hw]; exact .nil⟩

theorem sentences_none {σ : Type} (o : GramOpts) {N : Nat} : ∀ p : List GSent,
    (∀ s ∈ p, Run N s.pos s.tokens ∧ s.tokens ≠ [] ∧ NulFree s.tokens ∧ ∀ t ∈ s.tokens, t.ch0 = 0x5D → t.type = .punctuation) →
    ∀ (c c' : σ) (es : List GErr), allSentences none o p c = some (c', es) → ∀ e ∈ es, e.code ≠ 1
  | [], _, c, c', es, h => by
    simp only [allSentences, Option.pure_def, Option.some.injEq, Prod.mk.injEq] at h
    rw [← h.2]
    simp
  | s :: p, hp, c, c', es, h => by
    rw [allSentences] at h
    obtain ⟨⟨c1, e1⟩, h1, h2⟩ := Option.bind_eq_some_iff.1 h
    obtain ⟨⟨c2, e2⟩, h3, h4⟩ := Option.bind_eq_some_iff.1 h2
    simp only [Option.pure_def, Option.some.injEq, Prod.mk.injEq] at h4
    rw [← h4.2]
    intro e he hc
    obtain ⟨a1, a2, a3, a4⟩ := hp s List.mem_cons_self
    rcases List.mem_append.1 he with he | he
    · exact Autocorrect.reported_code ((sentenceChecks_reported none o s c c1 e1 a1 a2 a3 a4 h1 e (.inl rfl) (by rw [hc]; intro h; cases h)).1 he) hc
    · exact sentences_none o p (fun s hs => hp s (List.mem_cons_of_mem _ hs)) c1 c2 e2 h3 e he hc

/-- Without corrections for fixed expressions no such error is found. -/
theorem found_none {σ : Type} {an : List Wc → List GramAn} {spellOk : Bool → List Wc → Bool} (hs : HasStructure an) (extra dot : Bool) (o : GramOpts)
    (text : List Wc) (h0 : text ≠ []) (hz : 0 ∉ text) (c c' : σ) (es : List GErr) (hf : foundErrors ⟨an, spellOk, none⟩ extra dot o text c = some (c', es)) :
    ∀ e ∈ es, e.code ≠ 1 := by
  unfold foundErrors at hf
  obtain ⟨r, hr, hf⟩ := Option.bind_eq_some_iff.1 hf
  cases r with
  | none =>
    simp only [Option.pure_def, Option.some.injEq, Prod.mk.injEq] at hf
    rw [← hf.2]
    simp
  | some p =>
    simp only at hf
    split at hf
    · simp only [Option.pure_def, Option.some.injEq, Prod.mk.injEq] at hf
      rw [← hf.2]
      simp
    · obtain ⟨hp0, hp'⟩ := C74_applies an hs (spellOk extra) dot text h0 hz p hr
      unfold ruleEngine at hf
      obtain ⟨⟨c1, e1⟩, h3, h4⟩ := Option.bind_eq_some_iff.1 hf
      obtain ⟨cap, h5, h6⟩ := Option.bind_eq_some_iff.1 h4
      obtain ⟨ep, h7, h9⟩ := Option.bind_eq_some_iff.1 h6
      simp only [Option.pure_def, Option.some.injEq, Prod.mk.injEq] at h9
      rw [← h9.2]
      intro e he hc
      rcases List.mem_append.1 he with he | he
      · rcases List.mem_append.1 he with he | he
        · exact sentences_none o p hp' _ _ _ h3 e he hc
        · rcases capCheck_code h5 e he with h | h | h
          all_goals rw [hc] at h; cases h
      · obtain ⟨s, hsl⟩ : ∃ s, p.getLast? = some s := ⟨_, List.getLast?_eq_some_getLast hp0⟩
        obtain ⟨t, htl⟩ : ∃ t, s.tokens.getLast? = some t := ⟨_, List.getLast?_eq_some_getLast (hp' s (List.mem_of_getLast? hsl)).2.1⟩
        rw [C74_end o p s t hsl htl] at h7
        cases h7
        split at he
        · rw [List.mem_singleton.1 he] at hc; cases hc
        · cases he

/-- One paragraph. -/
theorem judged_of {σ : Type} {an : List Wc → List GramAn} (hs : HasStructure an) {views : List Wc → List View} (hv : ∀ w, List.Forall₂ Matches (views w) (an w))
    (auto : Option (Lookup σ)) (c : σ) (h : Handle GErr) {p : List Wc} (h0 : p ≠ []) (hz : 0 ∉ p) {found es : List GErr} (hf : Finds (dictEnv an auto) h p found)
    (ho : TextOrder found es) : Judged an (dictSpellOk an h.acceptExtraHyphens) views auto (gramOpts h) p es := by
  obtain ⟨c', hf⟩ := hf false c
  have mem : ∀ e, e ∈ es ↔ e ∈ found := fun e => ho.perm.mem_iff
  have nil : found = [] → es = [] := fun h => by have := ho.perm; rw [h] at this; exact this.eq_nil
  have r1 := C74_reported_partial (dictEnv an auto) hs h.acceptExtraHyphens false (gramOpts h) p h0 hz c c' found hf
  have r2 := C76_reported (dictEnv an auto) hs h.acceptExtraHyphens false (gramOpts h) p h0 hz c c' found hf
  have r1' : (analyseParagraph an (dictSpellOk an h.acceptExtraHyphens) false p = some none ∧ found = []) ∨ _ := r1
  rcases r1' with ⟨a1, a2⟩ | ⟨ss, a1, a2, a3⟩
  · exact .inl ⟨a1, nil a2⟩
  have a1 : analyseParagraph an (dictSpellOk an h.acceptExtraHyphens) false p = some (some ss) := a1
  rcases r2 with ⟨b1, _⟩ | ⟨ss', b1, _, b3⟩
  · exact absurd (a1.symm.trans b1) (by simp)
  have b1 : analyseParagraph an (dictSpellOk an h.acceptExtraHyphens) false p = some (some ss') := b1
  rw [a1, Option.some.injEq, Option.some.injEq] at b1
  subst b1
  refine .inr ⟨ss, a1, ?_, ⟨ho.sorted, fun hc => nil (a2 hc), fun hc e h1 h2 => (mem e).trans (a3 hc e h1 h2), fun hc e h1 => (mem e).trans (b3 hc e h1), ?_, ?_⟩⟩
  · intro s hsm i t hi
    obtain ⟨t1, t2⟩ := C54_token_text an hs _ false p ss a1 s hsm t (List.mem_of_getElem? hi)
    obtain ⟨u1, -, u3⟩ := C75_paragraph an hs _ false p h0 hz ss a1 s hsm i t hi
    exact ⟨t1, t2, u1, fun ht last hl => word_is (hv _) (u3 ht last hl).1 (u3 ht last hl).2⟩
  · rintro rfl e he
    exact found_none hs _ _ _ p h0 hz c c' found hf e ((mem e).1 he)
  · intro hc hcl m first hm ha e h1
    subst hm
    exact (mem e).trans ((Autocorrect.C83_text_partial ha hs _ _ _ p h0 hz c c' trivial found hf ss a1 hc hcl).2 e h1)

/-! ### C109 -/

/-- **C109**: the text of a dictionary compiles to a file that loads; its analyser is a function of the word, whatever it has analysed before. `voikkogc`, started with this
dictionary and any command line of known options that asks for grammar checking without line numbers, runs; it reports for every paragraph of its input, in order, the errors
of the rules, under the options of the command line, where what is known of the words is what the readings of the text say of them. Missing: line numbers (C89), repeated
words if two words touch (C74), fixed expressions in sentences that are not clean (C83), suggestions with quotation marks (C89). -/
theorem C109_program_partial {text : List Nat} {ls : List Att.Line} (hd : Att.Describes text ls) (hp : Proper ls) (hf : FinnishText ls)
    {srtS : List (Nat × List Nat) → List (Nat × List Nat)} {srtT : List CTrans → List CTrans}
    (hS : SortsBy (fun a b => attSymLt a.2 b.2) srtS) (hT : SortsBy fileOrderLt srtT) (sw : Bool) :
    ∃ file f, attCompile srtS srtT sw text = some (some file) ∧ loadFile file = some (some f) ∧
      ∃ (runsOf : List Wc → List (List Nat)) (an : List Wc → List GramAn), (∀ v : List Wc, v.length ≤ 255 → AllRuns ls v (runsOf v)) ∧
        (∀ c, AnalysedBefore f (fun _ => True) c → ∀ w, ∃ l c', finnishAnalyzeFst f c w false = some (l, c') ∧ an w = l.map asGramAn) ∧
        (∀ (extra : Bool) (w : List Wc), 0 ∉ w → ∃ r, finnishSpell extra (fun w => (an w).map (·.toMorAn)) w = some r) ∧
        (∀ extra, SpellsText ls runsOf (dictSpellOk an extra)) ∧
        (∃ read, Reads ls runsOf read) ∧ ∀ read, Reads ls runsOf read →
        ∀ {σ : Type} (auto : Option (Lookup σ)) (hauto : AutoOk auto) (hst : Stateless auto) (c : σ)
          (init : Arg → Option Arg → Option (Handle GErr)) (args : List Arg) (items : List Item) (rest : Option Arg) (h : Args.Reads commonKeys args items rest)
          (hstop : ∀ x ∈ items, stopOf (α := GcTool GErr) x = none) (hk : ∀ w, .word w ∈ items → GcKnown w)
          (hop : lastOf operationOf items = none) (hnum : .word (lit "-n") ∉ items)
          (hinit : ∃ h0, initHandle GErr = some h0 ∧ init ((lastOf (valueOf "-d") items).getD (lit "fi")) (lastOf (valueOf "-p") items) = some h0)
          (decode : List Nat → Option (List Wc)) (hdec : ∀ b w, b ≠ [] → decode b = some w → w ≠ [] ∧ 0 ∉ w) (input : List Nat) (hnul : 0 ∉ input),
          ∃ t, gcToolArgs init args = some (.run t) ∧ t.op = .checkGrammar ∧
            ∃ errs, List.Forall₂ (Judged an (dictSpellOk an false) (wordViews runsOf read) auto (optionsOf items)) (inputParagraphs decode input) errs ∧
              ∀ fuel, (∀ es ∈ errs, es.length < fuel) → ∃ out, gcTool (dictEnv an auto) t.opts fuel (inputParagraphs decode input) t.handle c = some out ∧
                ((∀ es ∈ errs, Props.Plain es) → reports (linesOf out) = errs.map fun es => es.map fun e => some (e.code, e.start, e.len, e.sugg)) := by
  obtain ⟨file, f, h1, h2, runsOf, an0, next, h3, h4, h5, h6, h7⟩ := dictionary_outputs hd hp hf hS hT sw
  obtain ⟨read0, hread0⟩ := reads_exist hf h3
  have key := fun w => word_views hf h3 h6 hread0 w
  have fin : ∀ w l, finnishAnalyze next w false = some l → ∀ c, AnalysedBefore f (fun _ => True) c → ∃ c', finnishAnalyzeFst f c w false = some (l, c') := by
    intro w l hl c hc
    have e := h7 c hc w false
    rw [hl] at e
    obtain ⟨⟨l', c'⟩, e1, e2⟩ := Option.map_eq_some_iff.1 e
    exact ⟨c', by rw [e1, ← e2]⟩
  let an : List Wc → List GramAn := fun w => (key w).choose.map asGramAn
  have hview : ∀ read, Reads ls runsOf read → ∀ w, List.Forall₂ Matches (wordViews runsOf read w) (an w) := by
    intro read hread w
    obtain ⟨l, g1, g2⟩ := word_views hf h3 h6 hread w
    rw [(key w).choose_spec.1] at g1
    cases g1
    exact g2
  have hmor : (fun w => (an w).map (·.toMorAn)) = an0 := by
    funext w
    obtain ⟨l, c', g1, g2⟩ := h4 _ (AnalysedBefore.new) w
    obtain ⟨c'', g3⟩ := fin w _ (key w).choose_spec.1 _ AnalysedBefore.new
    rw [g3] at g1
    cases g1
    rw [g2]
    simp only [an, List.map_map]
    rfl
  have hstruct : HasStructure an := by
    intro w a ha
    have := hview read0 hread0 w
    generalize wordViews runsOf read0 w = vs at this
    generalize an w = as at this ha
    induction this with
    | nil => cases ha
    | cons hm _ ih =>
      rcases List.mem_cons.1 ha with rfl | ha
      · obtain ⟨st, e, _⟩ := hm.struct
        rw [e]; simp
      · exact ih ha
  refine ⟨file, f, h1, h2, runsOf, an, h3, fun c hc w => ?_, fun extra w hw => ?_, fun extra w hi hsh => ?_, ⟨read0, hread0⟩, ?_⟩
  · obtain ⟨c', e⟩ := fin w _ (key w).choose_spec.1 c hc
    exact ⟨_, c', e, rfl⟩
  · rw [hmor]
    exact h5.total extra w hw
  · unfold dictSpellOk
    rw [hmor, h5.simple extra w hi hsh]
    by_cases hl : w.length ≤ 255
    · obtain ⟨r, e, g, -⟩ := h5.verdict w hl
      rw [e, ← and_iff_right hl (b := ∃ run ∈ _, _)] at *
      simp only [bne_iff_ne, ne_eq, Option.some.injEq]
      exact ⟨fun hr => ⟨hl, g.1 hr⟩, fun hr => g.2 hr.2⟩
    · rw [h5.long w (by omega)]
      simp [hl]
  intro read hread σ auto hauto hst c init args items rest h hstop hk hop hnum hinit decode hdec input hnul
  obtain ⟨h0, e0, hi⟩ := hinit
  obtain ⟨t, t1, t2⟩ := ((C102_gc init args items rest h hstop).2 h0 hi).2 hk
  have e00 : h0.gcCache = none ∧ h0.acceptTitles = false ∧ h0.acceptUnfinished = false ∧ h0.acceptBulleted = false ∧ h0.acceptExtraHyphens = false := by
    unfold initHandle at e0
    obtain ⟨c0, _, e⟩ := Option.bind_eq_some_iff.1 e0
    cases e
    exact ⟨rfl, rfl, rfl, rfl, rfl⟩
  have hopts : t.opts = { language := t.opts.language } := by
    have a := t2.numbers
    have b := t2.first
    cases ht : t.opts with
    | mk n l g =>
      rw [ht] at a b
      simp only at a b
      have hn : n = false := by
        cases n with
        | false => rfl
        | true => exact absurd (a.1 rfl) hnum
      rw [hn, b]
  have hg : gramOpts t.handle = optionsOf items := by
    unfold gramOpts optionsOf
    rw [t2.titles, t2.unfinished, t2.bulleted, e00.2.1, e00.2.2.1, e00.2.2.2.1]
  have hx : t.handle.acceptExtraHyphens = false := by rw [t2.others.2.2.2.1]; exact e00.2.2.2.2
  have hps : ∀ p ∈ inputParagraphs decode input, p ≠ [] ∧ 0 ∉ p := by
    have hlines : ∀ (cur input : List Nat), 0 ∉ cur → 0 ∉ input → ∀ l ∈ inputLines cur input, 0 ∉ l := by
      intro cur input
      induction input generalizing cur with
      | nil =>
        intro hc _ l hl
        rw [inputLines] at hl
        split at hl
        · cases hl
        · rw [List.mem_singleton.1 hl]; exact hc
      | cons b r ih =>
        intro hc hr l hl
        rw [List.mem_cons, not_or] at hr
        rw [inputLines] at hl
        split at hl
        · rcases List.mem_cons.1 hl with rfl | hl
          · exact hc
          · exact ih [] (by simp) hr.2 l hl
        · refine ih (cur ++ [b]) ?_ hr.2 l hl
          simp only [List.mem_append, List.mem_singleton, not_or]
          exact ⟨hc, hr.1⟩
    intro p hp
    obtain ⟨l, hl1, hl⟩ := List.mem_filterMap.1 hp
    have hl0 := hlines [] input (by simp) hnul l hl1
    have htake : l.takeWhile (fun x => decide (x ≠ 0)) = l := by
      rw [List.takeWhile_eq_self_iff]
      intro x hx
      simp only [decide_eq_true_eq]
      rintro rfl
      exact hl0 hx
    rw [htake] at hl
    split at hl
    · cases hl
    · rename_i hne
      split at hl
      · rename_i w' hdw
        split at hl
        · cases hl
        · cases hl
          exact hdec _ _ hne hdw
      · cases hl
  refine ⟨t, t1, by rw [t2.op, hop]; rfl, ?_⟩
  obtain ⟨errs, g1, g2⟩ := C89_grammar_partial (dictEnv an auto) ⟨hstruct, hauto, hst⟩ (fun _ _ => .failed) t.handle c (.init _ _ (t2.cache e00.1)) t.opts.language
    (inputParagraphs decode input) hps
  refine ⟨errs, ?_, ?_⟩
  · clear g2
    generalize inputParagraphs decode input = ps at *
    induction g1 with
    | nil => exact .nil
    | cons hx1 _ ih =>
      obtain ⟨found, f1, f2⟩ := hx1
      obtain ⟨q1, q2⟩ := hps _ List.mem_cons_self
      have := judged_of hstruct (hview read hread) auto c t.handle q1 q2 f1 f2
      rw [hx, hg] at this
      exact .cons this (ih fun p hp => hps p (List.mem_cons_of_mem _ hp))
  · intro fuel hfuel
    rw [hopts]
    exact g2 fuel hfuel

/-! ### A dictionary and a command line to which this applies -/

/-- `voikkogc accept_unfinished_paragraphs=1`. -/
def gcItems : List Item := [.word (lit "accept_unfinished_paragraphs=1")]

def gcArgs : List Arg := [lit "accept_unfinished_paragraphs=1"]

/-- Non-vacuity: `voikkogc` with the dictionary of C98 (`a`, `ab`, `abb`, ...: interjections); what is known of the words `Ab` and `ab` is that they are interjections. -/
example (sw : Bool) (h0 : Handle GErr) (hh : initHandle GErr = some h0) :
    ∃ (an : List Wc → List GramAn) (views : List Wc → List View) (t : GcTool GErr) (errs : List (List GErr)),
      gcToolArgs (fun _ _ => some h0) gcArgs = some (.run t) ∧
      (∀ w ∈ [lit "Ab", lit "ab"], ∃ v, views w = [v] ∧ v.Is .cls "huudahdussana") ∧
      List.Forall₂ (Judged (σ := Unit) an (dictSpellOk an false) views none { unfinished := true }) [lit "Ab ab.", lit "Abb, a abb"] errs ∧
      ∀ fuel, (∀ es ∈ errs, es.length < fuel) → ∃ out, gcTool (dictEnv an none) t.opts fuel [lit "Ab ab.", lit "Abb, a abb"] t.handle () = some out ∧
        ((∀ es ∈ errs, Props.Plain es) → reports (linesOf out) = errs.map fun es => es.map fun e => some (e.code, e.start, e.len, e.sugg)) := by
  obtain ⟨file, f, _, _, runsOf, an, hr, _, _, _, _, main⟩ := C109_program_partial haha_describes haha_proper haha_finnish sortSymbols_sorts sortTransitions_sorts sw
  have hread : Reads hahaLines runsOf fun v _ => hahaReading v := by
    intro v hv run hm
    obtain ⟨m, rfl, rfl⟩ := haha_runs (((hr v hv).mem run).1 hm)
    exact ⟨haha_output m, haha_good⟩
  have hw : ∀ w, Item.word w ∈ gcItems → w = lit "accept_unfinished_paragraphs=1" := fun w hw => by injection List.mem_singleton.1 hw
  obtain ⟨t, ht, -, errs, g1, g2⟩ := main _ hread (σ := Unit) none (by intro m h; cases h) (by intro m h; cases h) () (fun _ _ => some h0) gcArgs gcItems none
    ⟨rfl, by simp [gcItems], fun w h => by rw [hw w h]; decide +kernel, by simp⟩ (fun x hx => by rw [List.mem_singleton.1 hx]; rfl)
    (fun w h => by rw [hw w h]; exact .inr (.inl ⟨"accept_unfinished_paragraphs", by simp, by decide +kernel⟩)) (by decide +kernel) (by decide +kernel)
    ⟨h0, hh, rfl⟩ asciiDecode
    (by
      intro b w hb h
      unfold asciiDecode at h
      split at h
      · rename_i hx
        cases h
        simp only [List.all_eq_true, decide_eq_true_eq] at hx
        exact ⟨hb, fun k => by have := hx _ k; omega⟩
      · cases h)
    (ascii "Ab ab.\nAbb, a abb\n") (by decide +kernel)
  have hps : inputParagraphs asciiDecode (ascii "Ab ab.\nAbb, a abb\n") = [lit "Ab ab.", lit "Abb, a abb"] := by decide +kernel
  have ho : optionsOf gcItems = { unfinished := true } := by decide +kernel
  rw [hps] at g1 g2
  rw [ho] at g1
  refine ⟨an, _, t, errs, ht, ?_, g1, g2⟩
  have low : ∀ w ∈ [lit "Ab", lit "ab"], w.length ≤ 255 ∧ setCase .allLower w = lit "ab" := by decide +kernel
  intro w hm
  obtain ⟨l1, l2⟩ := low w hm
  refine ⟨⟨hahaReading (97 :: List.replicate 1 98), false⟩, ?_, AnalysisProgram.haha_class⟩
  rw [wordViews, if_pos l1, l2, SpellProgram.haha_one hr]
  show viewsOf (hahaReading (97 :: List.replicate 1 98)) ++ [] = _
  rw [viewsOf, if_pos HyphProgram.haha_valid, if_neg (fun h => absurd h.2.1 (by decide))]
  rfl

/-- All parts of the model together: the text is compiled and loaded, and the program is run. Of the errors the code, the position and the length are given. -/
def compileAndCheckGrammar (text : List Nat) (args : List Arg) (input : List Nat) : Option (List (List (Option (Nat × Nat × Nat)))) := do
  let some file ← attCompile sortSymbols sortTransitions false text | none
  let some f ← loadFile file | none
  let .run t ← gcToolArgs (fun _ _ => initHandle GErr) args | none
  let an := fun w => ((finnishAnalyzeFst f (finnishInit f) w false).map (·.1.map asGramAn)).getD []
  let out ← gcTool (σ := Unit) (dictEnv an none) t.opts 10 (inputParagraphs asciiDecode input) t.handle ()
  return (reports (linesOf out)).map fun es => es.map fun e => e.map fun x => (x.1, x.2.1, x.2.2.1)

/-- The repeated word and the missing verb of the first paragraph are reported. -/
example : compileAndCheckGrammar hahaText gcArgs (ascii "Ab ab.\nAbb, a abb\n") = some [[some (8, 0, 5), some (17, 0, 6)], []] := by decide +kernel

/-- Without the option also the missing full stop of the second paragraph. -/
example : compileAndCheckGrammar hahaText [] (ascii "Ab ab.\nAbb, a abb\n") = some [[some (8, 0, 5), some (17, 0, 6)], [some (9, 7, 3)]] := by
  decide +kernel

end Verif.GcProgram
