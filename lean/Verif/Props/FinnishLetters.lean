import Verif.Lemmas.FinnishFix
import Verif.Props.FinnishGrammatical
import Verif.Props.FinnishDict
/-!
# C85: which letters of a Finnish word have to be capital letters

`Verif.Spec.Letters` says which letters of a reading are capital letters: `letters` for what the classes and patterns say, `adjusted` for what
derivation tags change.
-/

set_option linter.unusedSimpArgs false
set_option linter.unusedVariables false

namespace Verif.Props
open Verif Verif.Attrs Verif.Letters

/-- The pattern characters for the letters of the word: `i`, `j` for capital letters and `p`, `q` for small ones. -/
def required (its : List SItem) : List Wc := Letters.adjusted 0 false (letters {} its) its

/-- The same for the name of an organisation: a capital letter at the beginning. -/
def requiredName (its : List SItem) : List Wc := 0x69 :: (required its).tail

/-- Readings to which the theorems apply. -/
structure Regulated (its : List SItem) : Prop where
  wf : WellFormed its
  tidy : Tidy its
  orderly : Orderly {} false its
  plain : Letters.Plain its

theorem restOfAnalysis_exact (full : Bool) {out : List Wc} (h : out ≠ []) (hlen : out.length < 2 ^ 64) {st : List Wc}
    (hst : out.head? ≠ some 0x2D → 2 ≤ st.length) : Ok (restOfAnalysis full out st) (fun l => ∃ st', fixStructure st out = some st' ∧
      SameShape st st' ∧ ∃ a r, l = a :: r ∧ Keep (some st') a ∧ ∀ b ∈ r, Keep (some (st'.set 1 0x69)) b ∧ out.head? ≠ some 0x2D) := by
  rw [restOfAnalysis]
  refine okBind (parseBasicAttributes_keep h hlen) fun a ha => ?_
  have hfix : Ok (fixStructure st out) (fun st' => fixStructure st out = some st' ∧ SameShape st st') := by
    obtain ⟨st', e, h'⟩ := fixStructure_ok st out
    exact ⟨st', e, e, h'⟩
  refine okBind hfix fun st' hst' => ?_
  have ha1 : Keep (some st') (a.add .structure_ st') :=
    ⟨anaOk_add ha.ok _ _, by rw [getValue_add ha.ok, if_pos rfl, ha.str]; rfl⟩
  refine okBind (adjustAttributes_keep ha1) fun a ha => ?_
  refine okBind (duplicateOrgName_keep ha out (by rw [hst'.2.1]; exact hst)) fun dup hdup => ?_
  refine okBind (P := Keep (some st')) ?_ fun b hb => okPure ⟨st', hst'.1, hst'.2, b, _, rfl, hb, hdup⟩
  refine okIte (fun _ => ?_) fun _ => okSome ha
  refine okBind (parseBaseform_ok out st') fun bf _ => ?_
  refine parseDebugAttributes_keep ?_ out
  cases bf with
  | none => exact keep_add ha (by decide) _
  | some b => exact keep_add (keep_add ha (by decide) _) (by decide) _

/-- **C85** (one reading): the first analysis of a valid reading has a STRUCTURE with exactly the required letters and with marks exactly at the
borders; in a second analysis the first letter is a capital letter. -/
theorem C85_reading_partial (its : List SItem) (full : Bool) (hr : Regulated its) (hlen : (render its).length < 2 ^ 64)
    (hv : isValidAnalysis (render its) = some true) :
    ∃ a r st, analyzeOutput (content its).length full (render its) = some (a :: r) ∧ analysisValue a (lit "STRUCTURE") = some st ∧
      Describes its st ∧ strip st = required its ∧
      ∀ b ∈ r, ∃ st', analysisValue b (lit "STRUCTURE") = some st' ∧ Describes its st' ∧ strip st' = requiredName its := by
  obtain ⟨st, hst, hd, -⟩ := C59_structure_partial its hr.wf
  have hne : render its ≠ [] := by rw [Ne, render_nil]; exact items_ne hr.wf
  have hcnt : 0 < (strip st).length := by rw [hd.count]; exact List.length_pos_iff.2 hr.wf.2.2
  have hst2 : (render its).head? ≠ some 0x2D → 2 ≤ st.length := by
    intro hh
    have h1 := head_mark hd hh
    cases st with
    | nil => cases h1
    | cons c s =>
      cases s with
      | nil => cases h1; simp [strip] at hcnt
      | cons d s => simp
  obtain ⟨l, hl, st', hfix, hshape, a, r, rfl, ha, hb⟩ := restOfAnalysis_exact full hne hlen hst2
  have hd' := describes_shape hd hshape
  have hreq : strip st' = required its := by
    rw [required, ← parseStructure_letters hr.wf hr.orderly hst]
    exact fixStructure_letters hr.wf hr.tidy hr.plain hfix
  refine ⟨a, r, st', by rw [analyzeOutput_eq]; exact (bind_valid _ _ _ hv hst).trans hl, ha.str, hd', hreq, fun b hbr => ?_⟩
  obtain ⟨h1, h2⟩ := hb b hbr
  refine ⟨_, h1.str, describes_org hd' h2, ?_⟩
  have h0 := head_mark hd' h2
  rw [requiredName, ← hreq]
  cases st' with
  | nil => cases h0
  | cons c s =>
    cases h0
    cases s with
    | nil => have := hd'.count; simp [strip] at this; exact absurd (List.eq_nil_of_length_eq_zero this.symm) hr.wf.2.2
    | cons d s =>
      have hdd : d ≠ 0x3D := by
        rintro rfl
        have := hd'.single
        simp [hasDouble] at this
      simp [strip, hdd]

/-- The word is written with the capital and small letters that are asked for. -/
def Agrees (req w : List Wc) : Prop := ∀ (i : Nat) (c k : Wc), w[i]? = some c → req[i]? = some k → ¬ TooLow c k ∧ ¬ TooHigh c k

/-- What a reading allows. -/
def Allows (its : List SItem) (w : List Wc) : Prop := Agrees (required its) w ∨ (Organisation its ∧ Agrees (requiredName its) w)

/-- The structures of the analyses that some readings give are what the readings require. -/
theorem readings_structures (n : Nat) (P : List Wc → Prop) : ∀ R : List (List SItem),
    (∀ its ∈ R, Regulated its ∧ (content its).length = n ∧ (render its).length < 2 ^ 64) →
    ∀ l, analyzeOutputs n false (R.map render) = some l →
      ((∃ a ∈ l.map asMorAn, ∃ st, a.struct = some st ∧ (strip st).length = n ∧ P (strip st)) ↔
        ∃ its ∈ R, isValidAnalysis (render its) = some true ∧ (P (required its) ∨ Organisation its ∧ P (requiredName its))) := by
  intro R
  induction R with
  | nil =>
    intro _ l h
    cases h
    simp
  | cons its R ih =>
    intro hR l h
    obtain ⟨hreg, hc, hlen⟩ := hR its List.mem_cons_self
    have ih := ih fun x hx => hR x (List.mem_cons_of_mem _ hx)
    rw [List.map_cons, analyzeOutputs] at h
    obtain ⟨l1, f1, h⟩ := Option.bind_eq_some_iff.1 h
    obtain ⟨l2, f2, h⟩ := Option.bind_eq_some_iff.1 h
    cases h
    have first : (∃ a ∈ l1.map asMorAn, ∃ st, a.struct = some st ∧ (strip st).length = n ∧ P (strip st)) ↔
        isValidAnalysis (render its) = some true ∧ (P (required its) ∨ Organisation its ∧ P (requiredName its)) := by
      obtain ⟨v, hv⟩ := C60_validity (render its)
      cases v with
      | false =>
        have : analyzeOutput n false (render its) = some [] := by rw [analyzeOutput_eq]; exact bind_invalid _ _ _ hv
        rw [this] at f1
        cases f1
        simp [hv]
      | true =>
        obtain ⟨a, q, st, g1, g2, gd, g3, g4⟩ := C85_reading_partial its false hreg hlen hv
        obtain ⟨l', g5, a', -, g6⟩ := C79_reading its false hreg.wf hreg.tidy hlen hv
        rw [g1] at g5
        cases g5
        rw [hc] at g1
        rw [g1] at f1
        cases f1
        have one : ∀ (b : Ana) (st req : List Wc), analysisValue b (lit "STRUCTURE") = some st → Describes its st → strip st = req →
            ((∃ st, (asMorAn b).struct = some st ∧ (strip st).length = n ∧ P (strip st)) ↔ P req) := by
          intro b st req k1 k2 k3
          subst k3
          constructor
          · rintro ⟨s, k4, -, k5⟩
            have : s = st := Option.some.inj (k4.symm.trans k1)
            subst this; exact k5
          · intro k5
            exact ⟨st, k1, by rw [k2.count, hc], k5⟩
        rcases g6 with ⟨ho, k⟩ | ⟨ho, b, -, k⟩
        · injection k with k1 k2
          subst k2
          simp only [List.map_cons, List.map_nil, List.mem_cons, List.not_mem_nil, or_false, exists_eq_left]
          rw [one a st _ g2 gd g3]
          simp [hv, ho]
        · injection k with k1 k2
          subst k2
          obtain ⟨st', m1, m2, m3⟩ := g4 b (by simp)
          simp only [List.map_cons, List.map_nil, List.mem_cons, List.not_mem_nil, or_false, exists_eq_or_imp, exists_eq_left]
          rw [one a st _ g2 gd g3, one b st' _ m1 m2 m3]
          simp [hv, ho]
    rw [List.map_append]
    constructor
    · rintro ⟨a, ha, hag⟩
      rcases List.mem_append.1 ha with ha | ha
      · exact ⟨its, List.mem_cons_self, first.1 ⟨a, ha, hag⟩⟩
      · obtain ⟨x, hx, hx2⟩ := (ih l2 f2).1 ⟨a, ha, hag⟩
        exact ⟨x, List.mem_cons_of_mem _ hx, hx2⟩
    · rintro ⟨x, hx, hx2⟩
      rcases List.mem_cons.1 hx with rfl | hx
      · obtain ⟨a, ha, hag⟩ := first.2 hx2
        exact ⟨a, List.mem_append_left _ ha, hag⟩
      · obtain ⟨a, ha, hag⟩ := (ih l2 f2).2 ⟨x, hx, hx2⟩
        exact ⟨a, List.mem_append_right _ ha, hag⟩

/-- **C85** (looking words up): with a good dictionary and readings to which the other theorems apply, a word is correct exactly if one of its
valid readings allows its capital letters. -/
theorem C85_lookup_partial (next : List Wc → List (List Wc)) (hd : GoodDictionary next) (an : Analyzer) (ha : IsFinnishAnalyzer next an)
    (w : List Wc) (hw : w.length ≤ 255) (readings : List (List SItem)) (hnext : next (setCase .allLower w) = readings.map render)
    (hr : ∀ its ∈ readings, Regulated its ∧ (content its).length = w.length ∧ (render its).length < 2 ^ 64) :
    ∃ r, adapterSpell an w = some r ∧
      (r = .ok ↔ ∃ its ∈ readings.take 99, isValidAnalysis (render its) = some true ∧ Allows its w) := by
  obtain ⟨r, h1, -, h2⟩ := C70_lookup next hd an ha w
  refine ⟨r, h1, h2.trans ?_⟩
  obtain ⟨l, e1, e2⟩ := ha w
  rw [finnishAnalyze, if_neg (by omega), hnext, ← List.map_take] at e1
  rw [e2]
  exact readings_structures w.length (fun req => Agrees req w) _ (fun its h => hr its (List.mem_of_mem_take h)) l e1

/-- The word is written with the capital and small letters that are asked for, except that the first letter may be a small one. -/
def AgreesRest (req w : List Wc) : Prop :=
  ∀ (i : Nat) (c k : Wc), w[i]? = some c → req[i]? = some k → (0 < i → ¬ TooLow c k) ∧ ¬ TooHigh c k

/-- What a reading allows for a word that is written with a capital at its beginning. -/
def AllowsCapital (its : List SItem) (w : List Wc) : Prop :=
  AgreesRest (required its) w ∨ (Organisation its ∧ AgreesRest (requiredName its) w)

/-- **C85** (looking words up): the same for words that are written with a capital at their beginning and looked up without it. -/
theorem C85_lookup_capital_partial (next : List Wc → List (List Wc)) (hd : GoodDictionary next) (an : Analyzer) (ha : IsFinnishAnalyzer next an)
    (w : List Wc) (hw : w.length ≤ 255) (readings : List (List SItem)) (hnext : next (setCase .allLower w) = readings.map render)
    (hr : ∀ its ∈ readings, Regulated its ∧ (content its).length = w.length ∧ (render its).length < 2 ^ 64) :
    ∃ r, adapterSpell an w = some r ∧
      (r = .ok ∨ r = .capFirst ↔ ∃ its ∈ readings.take 99, isValidAnalysis (render its) = some true ∧ AllowsCapital its w) := by
  obtain ⟨r, h1, h2⟩ := C70_lookup_capital next hd an ha w
  refine ⟨r, h1, h2.trans ?_⟩
  obtain ⟨l, e1, e2⟩ := ha w
  rw [finnishAnalyze, if_neg (by omega), hnext, ← List.map_take] at e1
  rw [e2]
  exact readings_structures w.length (fun req => AgreesRest req w) _ (fun its h => hr its (List.mem_of_mem_take h)) l e1

/-! ### Names and common nouns -/

/-- A word of the class `x` with the tags of its case and number. -/
def formItems (x : SItem) (w : List Wc) (c n : String) : List SItem :=
  x :: (w.map .chr ++ [.tag (0x53 :: lit c), .tag (0x4E :: lit n)])

/-- The classes of names (`[Lem]`, `[Lep]`, ...). -/
def nameClass (k : Wc) : SItem := .cls2 0x65 k

theorem letters_small : ∀ (w : List Wc) (r : List SItem), 0x2D ∉ w → 0x3A ∉ w →
    letters {} (w.map .chr ++ r) = List.replicate w.length 0x70 ++ letters {} r := by
  intro w
  induction w with
  | nil => intro r _ _; rfl
  | cons c w ih =>
    intro r h1 h2
    simp only [List.mem_cons, not_or] at h1 h2
    have hp : Ctx.pass {} c = {} := by
      unfold Ctx.pass
      simp only [if_neg (fun e => h1.1 (Eq.symm e)), if_neg (fun e => h2.1 (Eq.symm e))]
    have hd : Ctx.describe {} c = 0x70 := by
      unfold Ctx.describe
      simp only
      rw [if_neg (by rintro (e | e); exact h1.1 e.symm; exact h2.1 e.symm)]
      rfl
    rw [List.map_cons, List.cons_append, letters, hp, hd, ih r h1.2 h2.2, List.length_cons, List.replicate_succ]
    rfl

theorem letters_title (w : List Wc) (r : List SItem) (hne : w ≠ []) (h1 : 0x2D ∉ w) (h2 : 0x3A ∉ w) :
    letters { title := true } (w.map .chr ++ r) = 0x69 :: List.replicate (w.length - 1) 0x70 ++ letters {} r := by
  cases w with
  | nil => exact absurd rfl hne
  | cons c w =>
    simp only [List.mem_cons, not_or] at h1 h2
    have hp : Ctx.pass { title := true } c = {} := by
      unfold Ctx.pass
      simp only [if_neg (fun e => h1.1 (Eq.symm e)), if_neg (fun e => h2.1 (Eq.symm e))]
    have hd : Ctx.describe { title := true } c = 0x69 := by
      unfold Ctx.describe
      simp only
      rw [if_neg (by rintro (e | e); exact h1.1 e.symm; exact h2.1 e.symm)]
      rfl
    rw [List.map_cons, List.cons_append, letters, hp, hd, letters_small w r h1.2 h2.2]
    simp

theorem adjusted_chars : ∀ (w : List Wc) (h : Nat) (de : Bool) (st : List Wc) (r : List SItem), 0x2D ∉ w →
    Letters.adjusted h de st (w.map .chr ++ r) = Letters.adjusted h de st r := by
  intro w
  induction w with
  | nil => intro h de st r _; rfl
  | cons c w ih =>
    intro h de st r hw
    simp only [List.mem_cons, not_or] at hw
    rw [List.map_cons, List.cons_append, Letters.adjusted, ih h de st r hw.2]
    · simp
    · simp
    · simpa using fun e => hw.1 e.symm

theorem adjusted_tags (h : Nat) (de : Bool) (st c n : List Wc) :
    Letters.adjusted h de st [.tag (0x53 :: c), .tag (0x4E :: n)] = st := by
  rw [Letters.adjusted, if_neg (by simp), if_neg (by simp), Letters.adjusted, if_neg (by simp), if_neg (by simp), Letters.adjusted]

/-- The letters of names and of other words. -/
theorem required_name (k : Wc) (w : List Wc) (c n : String) (hne : w ≠ []) (h1 : 0x2D ∉ w) (h2 : 0x3A ∉ w) :
    required (formItems (nameClass k) w c n) = 0x69 :: List.replicate (w.length - 1) 0x70 := by
  rw [required, formItems, nameClass, letters, Ctx.mark, letters_title w _ hne h1 h2, Letters.adjusted, adjusted_chars w _ _ _ _ h1, adjusted_tags]
  · simp [letters, Ctx.mark]
  all_goals simp

theorem required_noun (w : List Wc) (c n : String) (h1 : 0x2D ∉ w) (h2 : 0x3A ∉ w) :
    required (formItems (.cls 0x6E) w c n) = List.replicate w.length 0x70 := by
  rw [required, formItems, letters]
  · rw [show Ctx.mark {} (w.map .chr ++ [.tag (0x53 :: lit c), .tag (0x4E :: lit n)]) (.cls 0x6E) = {} by rfl,
      letters_small w _ h1 h2, Letters.adjusted, adjusted_chars w _ _ _ _ h1, adjusted_tags]
    simp [letters, Ctx.mark]
  · simp

theorem orderly_chars : ∀ (w : List Wc) (c : Ctx) (p : Bool) (r : List SItem), c.need = [] → 0x2D ∉ w → 0x3A ∉ w →
    (∀ c p, Orderly c p r) → Orderly c p (w.map .chr ++ r) := by
  intro w
  induction w with
  | nil => intro c p r _ _ _ h; exact h c p
  | cons x w ih =>
    intro c p r hn h1 h2 h
    simp only [List.mem_cons, not_or] at h1 h2
    rw [List.map_cons, List.cons_append, Orderly]
    refine ⟨fun _ e => absurd e.symm h2.1, ih _ _ r ?_ h1.2 h2.2 h⟩
    unfold Ctx.pass
    rw [hn]
    simp only [if_neg (fun e => h1.1 (Eq.symm e)), if_neg (fun e => h2.1 (Eq.symm e))]

theorem plain_chars : ∀ (w : List Wc) (r : List SItem), 0x2D ∉ w → Letters.Plain r → Letters.Plain (w.map .chr ++ r) := by
  intro w
  induction w with
  | nil => intro r _ h; exact h
  | cons x w ih =>
    intro r h1 h
    simp only [List.mem_cons, not_or] at h1
    rw [List.map_cons, List.cons_append, Letters.Plain]
    exact ⟨fun e => absurd e.symm h1.1, ih r h1.2 h⟩

theorem tables_plain : (∀ e ∈ cases, 0x2D ∉ lit e.1) ∧ ∀ e ∈ numbers, 0x2D ∉ lit e.1 := by decide

/-- A class of common nouns or of names. -/
def IsClass (x : SItem) : Prop := x = .cls 0x6E ∨ ∃ k, x = nameClass k ∧ k ≠ 0x5B ∧ k ≠ 0x5D ∧ k ≠ 0x2D

theorem form_regulated {x : SItem} (hx : IsClass x) {w : List Wc} (hne : w ≠ []) (h1 : 0x2D ∉ w) (h2 : 0x3A ∉ w) (h3 : 0x5B ∉ w) (h4 : 0x5D ∉ w)
    {e f : String × String} (he : e ∈ cases) (hf : f ∈ numbers) : Regulated (formItems x w e.1 f.1) := by
  have te := tables_tidy.1 e he
  have tf := tables_tidy.2 f hf
  have pe := tables_plain.1 e he
  have pf := tables_plain.2 f hf
  have hcont : content (formItems x w e.1 f.1) = w := by
    have : content (formItems x w e.1 f.1) = content (w.map .chr ++ [.tag (0x53 :: lit e.1), .tag (0x4E :: lit f.1)]) := by
      rcases hx with rfl | ⟨k, rfl, _⟩ <;> rfl
    rw [this, content_chars]
    show w ++ [] = w
    rw [List.append_nil]
  have htail : ∀ p, WfItems [] p (w.map .chr ++ [.tag (0x53 :: lit e.1), .tag (0x4E :: lit f.1)]) := fun p => by
    refine wf_chars w _ _ h3 fun p => ?_
    simp only [WfItems]
    refine ⟨⟨_, _, rfl, Or.inl (by decide)⟩, ?_, ⟨_, _, rfl, Or.inl (by decide)⟩, ?_, trivial⟩
    · simp only [List.mem_cons, not_or]; exact ⟨by decide, te.2⟩
    · simp only [List.mem_cons, not_or]; exact ⟨by decide, tf.2⟩
  constructor
  · refine ⟨?_, ?_, by rw [hcont]; exact hne⟩
    · rcases hx with rfl | ⟨k, rfl, _⟩
      · unfold formItems
        rw [WfItems]
        exact ⟨by decide, htail _⟩
      · unfold formItems nameClass
        rw [WfItems]
        exact ⟨Or.inl rfl, htail _⟩
    · rcases hx with rfl | ⟨k, rfl, _⟩ <;> trivial
  · intro y hy
    simp only [formItems, List.mem_cons, List.mem_append, List.mem_map, List.not_mem_nil, or_false] at hy
    rcases hy with rfl | ⟨c, hc, rfl⟩ | rfl | rfl
    · rcases hx with rfl | ⟨k, rfl, k1, k2, _⟩
      · exact ⟨by decide, by decide⟩
      · exact ⟨by decide, by decide, k1, k2⟩
    · exact ⟨fun e => h3 (e ▸ hc), fun e => h4 (e ▸ hc)⟩
    · refine ⟨by simp, ?_, ?_⟩
      · simp only [List.mem_cons, not_or]; exact ⟨by decide, te.1⟩
      · simp only [List.mem_cons, not_or]; exact ⟨by decide, te.2⟩
    · refine ⟨by simp, ?_, ?_⟩
      · simp only [List.mem_cons, not_or]; exact ⟨by decide, tf.1⟩
      · simp only [List.mem_cons, not_or]; exact ⟨by decide, tf.2⟩
  · have ht : ∀ c p, Orderly c p [SItem.tag (0x53 :: lit e.1), .tag (0x4E :: lit f.1)] := by
      intro c p
      simp [Orderly, Ctx.mark]
    rcases hx with rfl | ⟨k, rfl, _⟩
    · unfold formItems
      rw [Orderly]
      · exact ⟨fun e => Bool.noConfusion e, orderly_chars w _ _ _ (by rfl) h1 h2 ht⟩
      all_goals simp
    · unfold formItems nameClass
      rw [Orderly]
      · exact ⟨fun e => Bool.noConfusion e, orderly_chars w _ _ _ (by rfl) h1 h2 ht⟩
      all_goals simp
  · have ht : Letters.Plain [SItem.tag (0x53 :: lit e.1), .tag (0x4E :: lit f.1)] := by
      simp [Letters.Plain, SItem.render, pe, pf]
    rcases hx with rfl | ⟨k, rfl, _, _, hk⟩
    · unfold formItems
      rw [Letters.Plain]
      · exact ⟨by decide, plain_chars w _ h1 ht⟩
      all_goals simp
    · unfold formItems nameClass
      rw [Letters.Plain]
      · exact ⟨by simpa [SItem.render] using fun e => hk e.symm, plain_chars w _ h1 ht⟩
      all_goals simp

theorem form_not_org {x : SItem} (hx : IsClass x) (w : List Wc) (c n : String) : ¬ Organisation (formItems x w c n) := by
  rintro ⟨_, _, _, _, u, m, t, hm, hn, _⟩
  have hmem : m ∈ tags (formItems x w c n) := by rw [hm]; simp
  have htags : ∃ nm b1 b2, nm ≠ lit "Ion" ∧ tags (formItems x w c n) = [⟨[], nm⟩, ⟨b1, 0x53 :: lit c⟩, ⟨b2, 0x4E :: lit n⟩] := by
    rcases hx with rfl | ⟨k, rfl, _⟩
    · refine ⟨lit "Ln", [] ++ (SItem.cls 0x6E).render ++ w, [] ++ (SItem.cls 0x6E).render ++ w ++ (SItem.tag (0x53 :: lit c)).render, by decide, ?_⟩
      unfold tags formItems
      rw [tagsFrom, tags_chars]
      rfl
    · refine ⟨[0x4C, 0x65, k], [] ++ (nameClass k).render ++ w, [] ++ (nameClass k).render ++ w ++ (SItem.tag (0x53 :: lit c)).render, by simp [lit], ?_⟩
      unfold tags formItems
      rw [tagsFrom, tags_chars]
      rfl
  obtain ⟨nm, b1, b2, hnm, htags⟩ := htags
  rw [htags] at hmem
  simp only [List.mem_cons, List.not_mem_nil, or_false] at hmem
  rcases hmem with rfl | rfl | rfl
  · exact hnm hn
  · exact absurd (List.cons.inj hn).1 (by decide)
  · exact absurd (List.cons.inj hn).1 (by decide)

theorem agrees_small {w : List Wc} {n : Nat} (hn : w.length ≤ n) : Agrees (List.replicate n 0x70) w ↔ ∀ c ∈ w, isUpper c = false := by
  constructor
  · intro h c hc
    obtain ⟨i, hi⟩ := List.mem_iff_getElem?.1 hc
    have hlt : i < w.length := (List.getElem?_eq_some_iff.1 hi).1
    have := (h i c 0x70 hi (by rw [List.getElem?_replicate, if_pos (by omega)])).2
    cases hu : isUpper c with
    | false => rfl
    | true => exact absurd ⟨hu, Or.inl rfl⟩ this
  · intro h i c k hc hk
    have hk' : k = 0x70 := by
      rw [List.getElem?_replicate] at hk
      split at hk
      · exact (Option.some.inj hk).symm
      · cases hk
    subst hk'
    exact ⟨fun e => by rcases e with ⟨-, e⟩; revert e; decide, fun e => Bool.noConfusion ((h c (List.mem_of_getElem? hc)).symm.trans e.1)⟩

theorem agrees_capital {c : Wc} {w : List Wc} {n : Nat} (hn : w.length ≤ n) :
    Agrees (0x69 :: List.replicate n 0x70) (c :: w) ↔ isLower c = false ∧ ∀ d ∈ w, isUpper d = false := by
  rw [← agrees_small hn]
  constructor
  · intro h
    refine ⟨?_, fun i d k h1 h2 => h (i + 1) d k (by simpa using h1) (by simpa using h2)⟩
    have := (h 0 c 0x69 rfl rfl).1
    cases hl : isLower c with
    | false => rfl
    | true => exact absurd ⟨hl, Or.inl rfl⟩ this
  · rintro ⟨h1, h2⟩ i d k h3 h4
    cases i with
    | zero =>
      cases h3; cases h4
      exact ⟨fun e => Bool.noConfusion (h1.symm.trans e.1), fun e => by rcases e with ⟨-, e⟩; revert e; decide⟩
    | succ i => exact h2 i d k (by simpa using h3) (by simpa using h4)

/-- **C85** (common nouns): a word whose only reading is a common noun is correct exactly if it has no capital letters. -/
theorem C85_noun (next : List Wc → List (List Wc)) (hd : GoodDictionary next) (an : Analyzer) (ha : IsFinnishAnalyzer next an)
    (w v : List Wc) (e f : String × String) (he : e ∈ cases) (hf : f ∈ numbers) (hw : w.length ≤ 255) (hlen : v.length = w.length) (hne : v ≠ [])
    (h1 : 0x2D ∉ v) (h2 : 0x3A ∉ v) (h3 : 0x5B ∉ v) (h4 : 0x5D ∉ v)
    (hnext : next (setCase .allLower w) = [render (formItems (.cls 0x6E) v e.1 f.1)])
    (hv : isValidAnalysis (render (formItems (.cls 0x6E) v e.1 f.1)) = some true) :
    ∃ r, adapterSpell an w = some r ∧ (r = .ok ↔ ∀ c ∈ w, isUpper c = false) := by
  have hx : IsClass (.cls 0x6E) := Or.inl rfl
  have hc : content (formItems (.cls 0x6E) v e.1 f.1) = v := by
    show content (v.map .chr ++ _) = v
    rw [content_chars]
    show v ++ [] = v
    rw [List.append_nil]
  obtain ⟨r, k1, k2⟩ := C85_lookup_partial next hd an ha w hw [formItems (.cls 0x6E) v e.1 f.1] hnext (by
    intro its h
    rw [List.mem_singleton] at h
    subst h
    exact ⟨form_regulated hx hne h1 h2 h3 h4 he hf, by rw [hc]; exact hlen, (hd _ _ (by rw [hnext]; simp)).1⟩)
  refine ⟨r, k1, k2.trans ?_⟩
  simp only [List.take_succ_cons, List.take_nil, List.mem_singleton, exists_eq_left, hv, true_and, Allows, form_not_org hx, false_and, or_false]
  rw [required_noun v _ _ h1 h2]
  exact agrees_small (by omega)

/-- **C85** (names): a word whose only reading is a name is correct exactly if it begins with a capital letter and has no other capital letters. -/
theorem C85_name (next : List Wc → List (List Wc)) (hd : GoodDictionary next) (an : Analyzer) (ha : IsFinnishAnalyzer next an)
    (c : Wc) (w v : List Wc) (k : Wc) (hk : k ≠ 0x5B ∧ k ≠ 0x5D ∧ k ≠ 0x2D) (e f : String × String) (he : e ∈ cases) (hf : f ∈ numbers)
    (hw : w.length < 255) (hlen : v.length = w.length + 1) (h1 : 0x2D ∉ v) (h2 : 0x3A ∉ v) (h3 : 0x5B ∉ v) (h4 : 0x5D ∉ v)
    (hnext : next (setCase .allLower (c :: w)) = [render (formItems (nameClass k) v e.1 f.1)])
    (hv : isValidAnalysis (render (formItems (nameClass k) v e.1 f.1)) = some true) :
    ∃ r, adapterSpell an (c :: w) = some r ∧ (r = .ok ↔ isLower c = false ∧ ∀ d ∈ w, isUpper d = false) := by
  have hx : IsClass (nameClass k) := Or.inr ⟨k, rfl, hk⟩
  have hne : v ≠ [] := fun e => by rw [e] at hlen; simp at hlen
  have hc : content (formItems (nameClass k) v e.1 f.1) = v := by
    show content (v.map .chr ++ _) = v
    rw [content_chars]
    show v ++ [] = v
    rw [List.append_nil]
  obtain ⟨r, k1, k2⟩ := C85_lookup_partial next hd an ha (c :: w) (by simp; omega) [formItems (nameClass k) v e.1 f.1] hnext (by
    intro its h
    rw [List.mem_singleton] at h
    subst h
    exact ⟨form_regulated hx hne h1 h2 h3 h4 he hf, by rw [hc]; exact hlen, (hd _ _ (by rw [hnext]; simp)).1⟩)
  refine ⟨r, k1, k2.trans ?_⟩
  simp only [List.take_succ_cons, List.take_nil, List.mem_singleton, exists_eq_left, hv, true_and, Allows, form_not_org hx, false_and, or_false]
  rw [required_name k v _ _ hne h1 h2]
  exact agrees_capital (by omega)

/-! ### Readings that meet the hypotheses, and readings that do not -/

/-- A name of a place and its reading. -/
example : render (formItems (nameClass 0x70) (lit "turku") "n" "y") = lit "[Lep]turku[Sn][Ny]" ∧ ("n", "nimento") ∈ cases
    ∧ ("y", "singular") ∈ numbers ∧ isValidAnalysis (lit "[Lep]turku[Sn][Ny]") = some true
    ∧ required (formItems (nameClass 0x70) (lit "turku") "n" "y") = lit "ipppp" := by decide +kernel

/-- A dictionary with this name. -/
def nameDict : List Wc → List (List Wc) := fun v => if v = lit "turku" then [lit "[Lep]turku[Sn][Ny]"] else []

theorem nameDict_good : GoodDictionary nameDict := by
  intro v o ho
  unfold nameDict at ho
  split at ho
  · rename_i hv
    subst hv
    rw [List.mem_singleton] at ho
    subst ho
    refine ⟨by decide +kernel, by decide, formItems (nameClass 0x70) (lit "turku") "n" "y", by decide, ?_, by decide, fun i => ?_⟩
    · exact (form_regulated (Or.inr ⟨0x70, rfl, by decide⟩) (w := lit "turku") (by decide) (by decide) (by decide) (by decide) (by decide)
        (e := ("n", "nimento")) (f := ("y", "singular")) (by decide) (by decide)).wf
    · rw [show content (formItems (nameClass 0x70) (lit "turku") "n" "y") = lit "turku" by decide]
  · cases ho

/-- "Turku" is correct and "turku" and "TURKU" are not. -/
example : ∃ an, IsFinnishAnalyzer nameDict an ∧ adapterSpell an (lit "Turku") = some .ok ∧ adapterSpell an (lit "turku") ≠ some .ok
    ∧ adapterSpell an (lit "TURKU") ≠ some .ok := by
  obtain ⟨an, ha⟩ := (C70_analyser nameDict nameDict_good).1
  have key := fun c w (h : setCase .allLower (c :: w) = lit "turku") (hw : w.length = 4) =>
    C85_name nameDict nameDict_good an ha c w (lit "turku") 0x70 (by decide) ("n", "nimento") ("y", "singular") (by decide) (by decide)
      (by omega) (by rw [hw]; rfl) (by decide) (by decide) (by decide) (by decide) (by rw [h]; decide) (by decide +kernel)
  obtain ⟨r1, a1, b1⟩ := key 0x54 (lit "urku") (by decide) (by decide)
  obtain ⟨r2, a2, b2⟩ := key 0x74 (lit "urku") (by decide) (by decide)
  obtain ⟨r3, a3, b3⟩ := key 0x54 (lit "URKU") (by decide) (by decide)
  refine ⟨an, ha, ?_, ?_, ?_⟩
  · rw [show lit "Turku" = 0x54 :: lit "urku" from rfl, a1, b1.2 (by decide)]
  · rw [show lit "turku" = 0x74 :: lit "urku" from rfl, a2]
    exact fun e => absurd (b2.1 (Option.some.inj e)) (by decide)
  · rw [show lit "TURKU" = 0x54 :: lit "URKU" from rfl, a3]
    exact fun e => absurd (b3.1 (Option.some.inj e)) (by decide)

/-- The reading of "itä-suomi", where a name is derived from a direction. -/
def eastItems : List SItem :=
  [.cls2 0x6E 0x6C, .tag (lit "De")] ++ (lit "it\u00e4").map .chr ++ [.bound 0x63, .chr 0x2D, .bound 0x63, .cls2 0x65 0x70]
    ++ (lit "suomi").map .chr ++ [.tag (lit "Sn"), .tag (lit "Ny")]

/-- It is to be written with two capital letters. -/
example : Regulated eastItems ∧ render eastItems = lit "[Lnl][De]it\u00e4[Bc]-[Bc][Lep]suomi[Sn][Ny]"
    ∧ isValidAnalysis (render eastItems) = some true ∧ required eastItems = lit "ipp-ipppp" := by
  refine ⟨⟨⟨?_, trivial, by decide⟩, ?_, ?_, ?_⟩, by decide, by decide +kernel, by decide +kernel⟩
  · simp [eastItems, lit, WfItems, content, render, SItem.render]
  · intro x hx
    simp only [eastItems, lit, List.mem_append, List.mem_cons, List.not_mem_nil, or_false, List.mem_map] at hx
    rcases hx with ((((rfl | rfl) | ⟨c, hc, rfl⟩) | rfl | rfl | rfl | rfl) | ⟨c, hc, rfl⟩) | rfl | rfl
    · exact ⟨by decide, by decide, by decide, by decide⟩
    · exact ⟨by decide, by decide, by decide⟩
    · exact ⟨by rintro rfl; revert hc; decide, by rintro rfl; revert hc; decide⟩
    · exact ⟨by decide, by decide⟩
    · exact ⟨by decide, by decide⟩
    · exact ⟨by decide, by decide⟩
    · exact ⟨by decide, by decide, by decide, by decide⟩
    · exact ⟨by rintro rfl; revert hc; decide, by rintro rfl; revert hc; decide⟩
    · exact ⟨by decide, by decide, by decide⟩
    · exact ⟨by decide, by decide, by decide⟩
  · simp [eastItems, lit, Orderly, Ctx.mark, Ctx.pass]
  · simp [eastItems, lit, Letters.Plain, SItem.render]

/-- **C85**: a hyphen in a base form is counted as a hyphen of the word, so that the derived word keeps its capital letter. -/
theorem C85_violation_base_hyphen :
    (analyzeOutput 5 false (lit "[Lep]cd[Dg]efg")).map (·.map fun a => analysisValue a (lit "STRUCTURE")) = some [some (lit "=ppppp")]
    ∧ (analyzeOutput 5 false (lit "[Xp]a-b[X][Lep]cd[Dg]efg")).map (·.map fun a => analysisValue a (lit "STRUCTURE"))
      = some [some (lit "=ipppp")] := by decide +kernel

/-- **C85**: the class of a name in the middle of a part changes the letters before it. -/
theorem C85_violation_late_class :
    (analyzeOutput 3 false (lit "[Ln]ab[Lep]c")).map (·.map fun a => analysisValue a (lit "STRUCTURE")) = some [some (lit "=ipp")] := by
  decide +kernel

/-- **C85**: `[De]` before two hyphens at the end has no effect. -/
theorem C85_violation_two_hyphens :
    (analyzeOutput 2 false (lit "[Lnl][De]a-")).map (·.map fun a => analysisValue a (lit "STRUCTURE")) = some [some (lit "=i-")]
    ∧ (analyzeOutput 3 false (lit "[Lnl][De]a--")).map (·.map fun a => analysisValue a (lit "STRUCTURE")) = some [some (lit "=p--")] := by
  decide +kernel

end Verif.Props
