import Mathlib.Data.List.Induction
import Verif.Spec.Grammatical
import Verif.Lemmas.FinnishValidity
import Verif.Lemmas.FinnishAnalyze
/-!
# Reading the grammatical attributes from the tags (for C79)
-/

set_option linter.unusedSimpArgs false
set_option linter.unusedVariables false

namespace Verif.Attrs
open Verif
open Verif.Validity (cmpz_name drop_pre)

/-! ### Looking up texts of tags -/

theorem lookup_iff_mem {m : TagMap} (h : (m.map (·.1)).Nodup) (n v : List Wc) : m.lookup n = some v ↔ (n, v) ∈ m := by
  induction m with
  | nil => simp
  | cons e m ih =>
    obtain ⟨k, s⟩ := e
    rw [List.map_cons, List.nodup_cons] at h
    rw [List.lookup_cons, List.mem_cons]
    by_cases hk : n = k
    · subst hk
      simp only [beq_self_eq_true]
      constructor
      · intro e; cases e; exact Or.inl rfl
      · rintro (e | e)
        · cases e; rfl
        · exact absurd (List.mem_map.2 ⟨_, e, rfl⟩) h.1
    · have : (n == k) = false := by simpa using hk
      simp only [this, ih h.2]
      constructor
      · exact Or.inr
      · rintro (e | e)
        · cases e; exact absurd rfl hk
        · exact e

/-- A map of the model and a table of the specification agree. -/
def Agree (m : TagMap) (t : List (String × String)) : Prop :=
  ∀ n v, m.lookup n = some v ↔ ∃ k s, (k, s) ∈ t ∧ n = lit k ∧ v = lit s

theorem agree_of {m : TagMap} {t : List (String × String)} (h : (m.map (·.1)).Nodup)
    (hp : List.Perm m (t.map fun e => (lit e.1, lit e.2))) : Agree m t := by
  intro n v
  rw [lookup_iff_mem h, hp.mem_iff, List.mem_map]
  constructor
  · rintro ⟨⟨k, s⟩, h1, h2⟩
    cases h2
    exact ⟨k, s, h1, rfl, rfl⟩
  · rintro ⟨k, s, h1, rfl, rfl⟩
    exact ⟨(k, s), h1, rfl⟩

theorem agree_class : Agree classMap classes := agree_of (by decide) (by decide)
theorem agree_case : Agree sijamuotoMap cases := agree_of (by decide) (by decide)
theorem agree_comparison : Agree comparisonMap comparisons := agree_of (by decide) (by decide)
theorem agree_mood : Agree moodMap moods := agree_of (by decide) (by decide)
theorem agree_number : Agree numberMap numbers := agree_of (by decide) (by decide)
theorem agree_person : Agree personMap persons := agree_of (by decide) (by decide)
theorem agree_tense : Agree tenseMap tenses := agree_of (by decide) (by decide)
theorem agree_focus : Agree focusMap focuses := agree_of (by decide) (by decide)
theorem agree_possessive : Agree possessiveMap possessives := agree_of (by decide) (by decide)
theorem agree_negative : Agree negativeMap negatives := agree_of (by decide) (by decide)
theorem agree_participle : Agree participleMap participles := agree_of (by decide) (by decide)

theorem says_lookup {mp : TagMap} {t : List (String × String)} (h : Agree mp t) (c : Wc) (b n v : List Wc) :
    mp.lookup n = some v ↔ Says c t ⟨b, c :: n⟩ v := by
  rw [h]
  constructor
  · rintro ⟨k, s, h1, rfl, rfl⟩; exact ⟨k, s, h1, rfl, rfl⟩
  · rintro ⟨k, s, h1, h2, rfl⟩; exact ⟨k, s, h1, (List.cons.inj h2).2, rfl⟩

/-! ### The last tag that counts -/

theorem picks_nil {tells : Mk → List Wc → Prop} {ok : List Mk → Prop} {v : List Wc} : ¬ Picks [] tells ok v := by
  rintro ⟨u, m, t, h, _⟩
  cases u <;> cases h

theorem picks_exists {tells : Mk → List Wc → Prop} {ok : List Mk → Prop} : ∀ (w u : List Mk) (m : Mk) (t : List Mk) (v : List Wc),
    w = u ++ m :: t → ok t → tells m v → ∃ v, Picks w tells ok v := by
  intro w
  induction w with
  | nil => intro u m t v h; cases u <;> cases h
  | cons x w ih =>
    intro u m t v h h1 h2
    by_cases hw : ∃ v, Picks w tells ok v
    · obtain ⟨v, u, m, t, rfl, e⟩ := hw
      exact ⟨v, x :: u, m, t, rfl, e⟩
    · cases u with
      | nil =>
        cases h
        exact ⟨v, [], x, w, rfl, h1, h2, fun u' m' t' v' e a b => hw (ih u' m' t' v' e a b)⟩
      | cons y u => cases h; exact absurd (ih u m t v rfl h1 h2) hw

theorem picks_cons {tells : Mk → List Wc → Prop} {ok : List Mk → Prop} (m : Mk) (w : List Mk) (v : List Wc) :
    Picks (m :: w) tells ok v ↔ Picks w tells ok v ∨ ((∀ v', ¬ Picks w tells ok v') ∧ ok w ∧ tells m v) := by
  constructor
  · rintro ⟨u, m', t, h, h1, h2, h3⟩
    cases u with
    | nil =>
      cases h
      refine Or.inr ⟨?_, h1, h2⟩
      rintro v' ⟨u', m', t', e, a, b, _⟩
      exact h3 u' m' t' v' e a b
    | cons x u => cases h; exact Or.inl ⟨u, m', t, rfl, h1, h2, h3⟩
  · rintro (⟨u, m', t, rfl, e⟩ | ⟨h1, h2, h3⟩)
    · exact ⟨m :: u, m', t, rfl, e⟩
    · refine ⟨[], m, w, rfl, h2, h3, fun u' m' t' v' e a b => ?_⟩
      obtain ⟨v'', hv⟩ := picks_exists w u' m' t' v' e a b
      exact h1 v'' hv

/-- One more tag in front: what it tells is used if nothing was said before. -/
theorem picks_or {tells : Mk → List Wc → Prop} {ok : List Mk → Prop} {m : Mk} {w : List Mk} {o n : Option (List Wc)}
    (h : ∀ v, o = some v ↔ Picks w tells ok v) (hn : ∀ v, n = some v ↔ ok w ∧ tells m v) (v : List Wc) :
    o.or n = some v ↔ Picks (m :: w) tells ok v := by
  rw [picks_cons, ← h]
  cases o with
  | none =>
    have : ∀ v', ¬ Picks w tells ok v' := fun v' e => by have := (h v').2 e; cases this
    simp only [Option.none_or, hn]
    constructor
    · intro e; exact Or.inr ⟨this, e⟩
    · rintro (e | ⟨_, e⟩)
      · cases e
      · exact e
  | some x =>
    simp only [Option.some_or]
    constructor
    · exact Or.inl
    · rintro (e | ⟨e, _⟩)
      · exact e
      · exact absurd ((h x).1 rfl) (e x)

/-- A tag that tells nothing. -/
theorem picks_skip {tells : Mk → List Wc → Prop} {ok : List Mk → Prop} {m : Mk} {w : List Mk} (hm : ∀ v, ¬ tells m v) (v : List Wc) :
    Picks (m :: w) tells ok v ↔ Picks w tells ok v := by
  rw [picks_cons]
  exact ⟨fun h => h.resolve_right fun e => hm v e.2.2, Or.inl⟩

theorem says_letter {c : Wc} {t : List (String × String)} {m : Mk} {v : List Wc} (h : Says c t m v) : m.name.head? = some c := by
  obtain ⟨k, s, _, e, _⟩ := h
  rw [e]; rfl

/-! ### The class -/

theorem classIs_nil {out v : List Wc} : ¬ ClassIs out [] v := by
  rintro ⟨u, m, t, h, _⟩
  cases u <;> cases h

theorem classIs_cons (out : List Wc) (m : Mk) (w : List Mk) (v : List Wc) :
    ClassIs out (m :: w) v ↔ ClassIs out w v ∨ ((∀ x ∈ w, ¬ ClassMk x) ∧ ClassMk m ∧ ClassSays out m w v) := by
  constructor
  · rintro ⟨u, m', t, h, h1, h2, h3⟩
    cases u with
    | nil => cases h; exact Or.inr ⟨h2, h1, h3⟩
    | cons x u => cases h; exact Or.inl ⟨u, m', t, rfl, h1, h2, h3⟩
  · rintro (⟨u, m', t, rfl, e⟩ | ⟨h1, h2, h3⟩)
    · exact ⟨m :: u, m', t, rfl, e⟩
    · exact ⟨[], m, w, rfl, h2, h1, h3⟩

theorem classIs_mark {out : List Wc} {w : List Mk} {v : List Wc} (h : ClassIs out w v) : ∃ x ∈ w, ClassMk x := by
  obtain ⟨u, m, t, rfl, h1, _⟩ := h
  exact ⟨m, by simp, h1⟩

/-! ### The effect of one tag -/

/-- Sets an attribute that is not set. -/
def upd (a : Ana) (k : AKey) (o : Option (List Wc)) : Ana :=
  if (a.getValue k).isSome then a
  else
    match o with
    | none => a
    | some s => a.addConst k s

/-- A boundary or an adjective among these tags. -/
def laterIn (w : List Mk) : Bool := w.any fun x => x.name == lit "Bc" || x.name == lit "Ll"

def stClass (out n : List Wc) (b : BState) : BState :=
  if !b.classSet ∨ n = [] then
    if (lit "nl").isPrefixOf n then
      if b.convert ∨ b.a.getValue .comparison = some (lit "comparative") ∨ b.a.getValue .comparison = some (lit "superlative")
          ∨ (lit "[Lu]").isPrefixOf out then
        { b with a := b.a.addConst .cls (lit "laatusana"), classSet := true }
      else { b with a := b.a.addConst .cls (lit "nimisana_laatusana"), classSet := true }
    else { b with a := upd b.a .cls (classMap.lookup n), classSet := true }
  else b

abbrev infl (b : BState) : Prop :=
  b.a.getValue .cls = none ∨ (b.a.getValue .cls ≠ some (lit "etuliite") ∧ b.a.getValue .cls ≠ some (lit "seikkasana"))

def stParticiple (out n : List Wc) (b : BState) : BState :=
  if b.bcPassed = false ∧ (b.a.getValue .cls = none ∨ b.a.getValue .cls = some (lit "laatusana") ∨ out.drop (out.length - 4) = lit "[Ln]") then
    { b with a := upd b.a .participle (participleMap.lookup n) }
  else b

abbrev verbForm (a : Ana) : Prop :=
  (a.getValue .mood ≠ some (lit "E-infinitive") ∧ a.getValue .mood ≠ some (lit "MINEN-infinitive")
    ∧ a.getValue .mood ≠ some (lit "MA-infinitive")) ∧ (a.getValue .cls = none ∨ a.getValue .cls = some (lit "teonsana"))

def stInfo (out : List Wc) (w : List Mk) (n : List Wc) (a : Ana) : Ana :=
  if (lit "vj").isPrefixOf n then if out.head? ≠ some 0x2D then a.addConst .vapaaJalkiosa (lit "true") else a
  else if (lit "ca").isPrefixOf n then
    if laterIn w = false ∧ (a.getValue .cls = none ∨ (lit "nimisana").isPrefixOf ((a.getValue .cls).getD [])) then
      a.addConst .geographical (lit "true")
    else a
  else if verbForm a then
    if (lit "ra").isPrefixOf n then a.addConst .requireVerb (lit "A-infinitive")
    else if (lit "rm").isPrefixOf n then a.addConst .requireVerb (lit "MA-infinitive")
    else a
  else a

abbrev afterHyphen (l : List Wc) : Prop := lit "-" <:+ l ∨ lit "-[Bh]" <:+ l

def stBoundary (before n : List Wc) (b : BState) : BState :=
  if 5 ≤ before.length ∧ n.head? = some 0x63 then
    if b.classSet = false ∧ b.a.getValue .cls = none ∧ afterHyphen before then
      { b with a := b.a.addConst .cls (lit "etuliite"), classSet := true, bcPassed := true }
    else { b with bcPassed := true }
  else b

/-- The effect of the tag `m`; `w` are the tags after it. -/
def mkStep (out : List Wc) (w : List Mk) (m : Mk) (b : BState) : BState :=
  match m.name with
  | [] => b
  | c :: n =>
    if c = 0x4C then stClass out n b
    else if c = 0x4E then if infl b then { b with a := upd b.a .number (numberMap.lookup n) } else b
    else if c = 0x50 then { b with a := upd b.a .person (personMap.lookup n) }
    else if c = 0x53 then
      if infl b then { b with a := upd b.a .sijamuoto (sijamuotoMap.lookup n), convert := b.convert || (lit "sti").isPrefixOf n } else b
    else if c = 0x54 then if b.a.getValue .cls = none then { b with a := upd b.a .mood (moodMap.lookup n) } else b
    else if c = 0x41 then { b with a := upd b.a .tense (tenseMap.lookup n) }
    else if c = 0x46 then
      if (lit "ko").isPrefixOf n then { b with a := b.a.addConst .kysymysliite (lit "true") }
      else { b with a := upd b.a .focus (focusMap.lookup n) }
    else if c = 0x4F then { b with a := upd b.a .possessive (possessiveMap.lookup n) }
    else if c = 0x43 then if b.a.getValue .cls = none then { b with a := upd b.a .comparison (comparisonMap.lookup n) } else b
    else if c = 0x45 then { b with a := upd b.a .negative (negativeMap.lookup n) }
    else if c = 0x52 then stParticiple out n b
    else if c = 0x49 then { b with a := stInfo out w n b.a }
    else if c = 0x42 then stBoundary m.before n b
    else b

section tag
variable {pre n rest : List Wc} {c : Wc}

/-- The output around a tag. -/
abbrev around (pre : List Wc) (c : Wc) (n rest : List Wc) : List Wc := pre ++ 0x5B :: ((c :: n) ++ 0x5D :: rest)

theorem cmp2 (l : List Wc) (h0 : 0 ∉ l) (h1 : 0x5D ∉ l) :
    cmpz (around pre c n rest) (pre.length + 2) l = some (l.isPrefixOf n) :=
  cmpz_name (name := c :: n) 1 (by simp) h0 h1

theorem pba_eq (a : Ana) (k : AKey) (m : TagMap) :
    parseBasicAttribute a (around pre c n rest) (pre.length + n.length + 2) pre.length k m = some (upd a k (m.lookup n)) := by
  unfold parseBasicAttribute upd
  have e : ((around pre c n rest).drop (pre.length + 2)).take (pre.length + n.length + 2 - pre.length - 2) = n := by
    rw [drop_pre]
    have : pre.length + n.length + 2 - pre.length - 2 = n.length := by omega
    rw [this]
    show (n ++ 0x5D :: rest).take n.length = n
    simp
  by_cases h : (a.getValue k).isSome
  · rw [if_pos h, if_pos h]
  · rw [if_neg h, if_neg h, if_neg (by simp; omega), e]
    cases m.lookup n <;> rfl

theorem baSimple_eq (b : BState) (k : AKey) (m : TagMap) :
    baSimple (around pre c n rest) (pre.length + n.length + 2) pre.length b k m = some { b with a := upd b.a k (m.lookup n) } := by
  unfold baSimple
  rw [pba_eq]; rfl

theorem baClass_eq (b : BState) (hn : 0x5D ∉ n) :
    baClass (around pre c n rest) (pre.length + n.length + 2) pre.length b = some (stClass (around pre c n rest) n b) := by
  unfold baClass stClass
  have hc2 : ∃ c2, rdz (around pre c n rest) (pre.length + 2) = some c2 ∧ (c2 = 0x5D ↔ n = []) := by
    rw [rdz_app]
    cases n with
    | nil => exact ⟨_, rfl, by simp⟩
    | cons d n =>
      refine ⟨d, rfl, ?_⟩
      have : d ≠ 0x5D := fun e => hn (by simp [e])
      simp [this]
  obtain ⟨c2, h1, h2⟩ := hc2
  rw [h1]
  simp only [Option.bind_eq_bind, Option.bind_some, h2]
  by_cases hcond : (!b.classSet) = true ∨ n = []
  · rw [if_pos hcond, if_pos hcond, cmp2 _ (by decide) (by decide), cmpz_eq (by simp) (by decide)]
    simp only [Option.bind_some, List.drop_zero, pba_eq]
    by_cases hnl : (lit "nl").isPrefixOf n = true
    · rw [if_pos hnl, if_pos hnl]
      split <;> rfl
    · rw [if_neg hnl, if_neg hnl]; rfl
  · rw [if_neg hcond, if_neg hcond]; rfl

theorem baCase_eq (b : BState) :
    baCase (around pre c n rest) (pre.length + n.length + 2) pre.length b = some (if infl b then
      { b with a := upd b.a .sijamuoto (sijamuotoMap.lookup n), convert := b.convert || (lit "sti").isPrefixOf n } else b) := by
  unfold baCase infl
  simp only
  by_cases h : b.a.getValue .cls = none ∨ (b.a.getValue .cls ≠ some (lit "etuliite") ∧ b.a.getValue .cls ≠ some (lit "seikkasana"))
  · rw [if_pos h, if_pos h, pba_eq]
    simp only [Option.bind_eq_bind, Option.bind_some]
    by_cases hl : pre.length + 5 < (around pre c n rest).length
    · rw [if_pos hl, cmp2 _ (by decide) (by decide)]; rfl
    · rw [if_neg hl]
      have : (lit "sti").isPrefixOf n = false := by
        rw [Bool.eq_false_iff]
        intro hp
        have := (List.isPrefixOf_iff_prefix.1 hp).length_le
        have h3 : (lit "sti").length = 3 := rfl
        simp at hl
        omega
      rw [this]; rfl
  · rw [if_neg h, if_neg h]; rfl

theorem baParticiple_eq (b : BState) (hc : b.a.getValue .cls = none ∨ 4 ≤ (around pre c n rest).length) :
    baParticiple (around pre c n rest) (pre.length + n.length + 2) pre.length b = some (stParticiple (around pre c n rest) n b) := by
  unfold baParticiple stParticiple
  simp only [pba_eq]
  by_cases hb : b.bcPassed = true
  · rw [hb]; rfl
  · have hb' : b.bcPassed = false := by simpa using hb
    simp only [hb', Bool.not_false, if_true, true_and]
    by_cases h1 : b.a.getValue .cls = none ∨ b.a.getValue .cls = some (lit "laatusana")
    · rw [if_pos h1]
      rw [if_pos (by rcases h1 with h | h; exact Or.inl h; exact Or.inr (Or.inl h))]
      rfl
    · rw [if_neg h1]
      have h4 : ¬ (around pre c n rest).length < 4 := by
        rcases hc with h | h
        · exact absurd (Or.inl h) h1
        · omega
      rw [if_neg h4]
      simp only [Option.bind_eq_bind, Option.bind_some]
      by_cases h2 : (around pre c n rest).drop ((around pre c n rest).length - 4) = lit "[Ln]"
      · rw [if_pos (by rw [h2]; rfl), if_pos (Or.inr (Or.inr h2))]; rfl
      · rw [if_neg (by simpa using h2), if_neg]
        · rfl
        · rintro (h | h | h)
          · exact h1 (Or.inl h)
          · exact h1 (Or.inr h)
          · exact h2 h

theorem addInfoFlag_eq (a : Ana) (w : List Mk) (hw : (strstrz (around pre c n rest) (pre.length + 2) (lit "[Bc]")
      || strstrz (around pre c n rest) (pre.length + 2) (lit "[Ll]")) = laterIn w) :
    addInfoFlag a (around pre c n rest) (pre.length + 2) = some (stInfo (around pre c n rest) w n a) := by
  unfold addInfoFlag stInfo verbForm
  rw [cmp2 _ (by decide) (by decide), cmp2 _ (by decide) (by decide), cmp2 _ (by decide) (by decide), cmp2 _ (by decide) (by decide)]
  have h0 : ∃ c0, rdz (around pre c n rest) 0 = some c0 ∧ (around pre c n rest).head? = some c0 := by
    cases pre with
    | nil => exact ⟨_, rfl, rfl⟩
    | cons d p => exact ⟨_, rfl, rfl⟩
  obtain ⟨c0, h1, h2⟩ := h0
  rw [h1, h2, ← hw]
  simp only [Option.bind_eq_bind, Option.bind_some]
  by_cases hvj : (lit "vj").isPrefixOf n = true
  · rw [if_pos hvj, if_pos hvj]
    by_cases hc : c0 = 0x2D
    · rw [if_neg (by simpa using hc), if_neg (by simpa using hc)]; rfl
    · rw [if_pos (by simpa using hc), if_pos (by simpa using hc)]; rfl
  · rw [if_neg hvj, if_neg hvj]
    by_cases hca : (lit "ca").isPrefixOf n = true
    · rw [if_pos hca, if_pos hca]
      generalize strstrz (around pre c n rest) (pre.length + 2) (lit "[Bc]") = x
      generalize strstrz (around pre c n rest) (pre.length + 2) (lit "[Ll]") = y
      cases x
      · cases y
        · simp only [Bool.not_false, true_and, Bool.or_false]
          split <;> rfl
        · simp
      · simp
    · rw [if_neg hca, if_neg hca]
      split
      · split
        · rfl
        · split <;> rfl
      · rfl

theorem baBoundary_eq (b : BState) :
    baBoundary (around pre c n rest) pre.length b = some (stBoundary pre n b) := by
  unfold baBoundary stBoundary
  have hc2 : ∃ c2, rdz (around pre c n rest) (pre.length + 2) = some c2 ∧ (c2 = 0x63 ↔ n.head? = some 0x63) := by
    rw [rdz_app]
    cases n with
    | nil => exact ⟨_, rfl, by simp⟩
    | cons d n => exact ⟨d, rfl, by simp⟩
  obtain ⟨c2, h1, h2⟩ := hc2
  rw [h1]
  simp only [Option.bind_eq_bind, Option.bind_some, h2]
  by_cases h : 5 ≤ pre.length ∧ n.head? = some 0x63
  · rw [if_pos h, if_pos h]
    obtain ⟨p, l, rfl, hl⟩ : ∃ p l, pre = p ++ l ∧ l.length = 5 :=
      ⟨pre.take (pre.length - 5), pre.drop (pre.length - 5), by simp, by simp; omega⟩
    obtain ⟨q, d, rfl⟩ : ∃ q d, l = q ++ [d] := by
      rcases List.eq_nil_or_concat l with h | ⟨q, d, h⟩
      · rw [h] at hl; cases hl
      · exact ⟨q, d, by rw [h, List.concat_eq_append]⟩
    have e1 : (p ++ (q ++ [d])).length - 1 = (p ++ q).length := by simp
    have r1 : rdz (around (p ++ (q ++ [d])) c n rest) ((p ++ (q ++ [d])).length - 1) = some d := by
      rw [e1]
      have : around (p ++ (q ++ [d])) c n rest = (p ++ q) ++ (d :: (0x5B :: ((c :: n) ++ 0x5D :: rest))) := by simp [around]
      rw [this, rdz_app0]; rfl
    have e2 : (p ++ (q ++ [d])).length - 5 = p.length := by simp at hl ⊢; omega
    have r2 : cmpz (around (p ++ (q ++ [d])) c n rest) ((p ++ (q ++ [d])).length - 5) (lit "-[Bh]") = some (decide (q ++ [d] = lit "-[Bh]")) := by
      rw [e2, cmpz_eq (by simp) (by decide)]
      have : around (p ++ (q ++ [d])) c n rest = p ++ ((q ++ [d]) ++ (0x5B :: ((c :: n) ++ 0x5D :: rest))) := by simp [around]
      rw [this, List.drop_left]
      congr 1
      rw [Bool.eq_iff_iff, decide_eq_true_iff, List.isPrefixOf_iff_prefix]
      constructor
      · intro hp
        have : lit "-[Bh]" <+: q ++ [d] := List.prefix_of_prefix_length_le hp (List.prefix_append _ _) (by rw [hl]; decide)
        exact (this.eq_of_length (by rw [hl]; rfl)).symm
      · intro e; rw [e]; exact List.prefix_append _ _
    rw [r1, r2]
    simp only [Option.bind_some]
    have hah : afterHyphen (p ++ (q ++ [d])) ↔ (d = 0x2D ∨ decide (q ++ [d] = lit "-[Bh]") = true) := by
      unfold afterHyphen
      rw [decide_eq_true_iff]
      have s1 : lit "-" <:+ p ++ (q ++ [d]) ↔ d = 0x2D := by
        constructor
        · rintro ⟨s, hs⟩
          have : s ++ [0x2D] = (p ++ q) ++ [d] := by rw [List.append_assoc]; exact hs
          exact (List.append_inj' this rfl).2 |> fun e => (List.cons.inj e).1.symm
        · rintro rfl; exact ⟨p ++ q, by simp [lit]⟩
      have s2 : lit "-[Bh]" <:+ p ++ (q ++ [d]) ↔ q ++ [d] = lit "-[Bh]" := by
        constructor
        · rintro ⟨s, hs⟩
          exact ((List.append_inj' hs (by rw [hl]; rfl)).2).symm
        · intro e; rw [e]; exact List.suffix_append _ _
      rw [s1, s2]
    have : (!b.classSet) = true ↔ b.classSet = false := by simp
    simp only [hah, this]
    split <;> rfl
  · rw [if_neg h, if_neg h]; rfl

theorem baTag_eq (b : BState) (w : List Mk) (hn : 0x5D ∉ n) (hc : b.a.getValue .cls = none ∨ 4 ≤ (around pre c n rest).length)
    (hw : (strstrz (around pre c n rest) (pre.length + 2) (lit "[Bc]")
      || strstrz (around pre c n rest) (pre.length + 2) (lit "[Ll]")) = laterIn w) :
    baTag (around pre c n rest) (pre.length + n.length + 2) pre.length b = some (mkStep (around pre c n rest) w ⟨pre, c :: n⟩ b) := by
  have r1 : rdz (around pre c n rest) (pre.length + 1) = some c := by rw [rdz_app]; rfl
  unfold baTag mkStep
  rw [r1]
  simp only [Option.bind_eq_bind, Option.bind_some, baClass_eq b hn, baSimple_eq, baCase_eq, baParticiple_eq b hc, addInfoFlag_eq b.a w hw,
    baBoundary_eq, cmp2 (lit "ko") (by decide) (by decide)]
  unfold infl
  by_cases h0 : c = 0x4C
  · rw [if_pos h0, if_pos h0]
  rw [if_neg h0, if_neg h0]
  by_cases h1 : c = 0x4E
  · rw [if_pos h1, if_pos h1]
    split <;> rfl
  rw [if_neg h1, if_neg h1]
  by_cases h2 : c = 0x50
  · rw [if_pos h2, if_pos h2]
  rw [if_neg h2, if_neg h2]
  by_cases h3 : c = 0x53
  · rw [if_pos h3, if_pos h3]
  rw [if_neg h3, if_neg h3]
  by_cases h4 : c = 0x54
  · rw [if_pos h4, if_pos h4]
    split <;> rfl
  rw [if_neg h4, if_neg h4]
  by_cases h5 : c = 0x41
  · rw [if_pos h5, if_pos h5]
  rw [if_neg h5, if_neg h5]
  by_cases h6 : c = 0x46
  · rw [if_pos h6, if_pos h6]
    split <;> rfl
  rw [if_neg h6, if_neg h6]
  by_cases h7 : c = 0x4F
  · rw [if_pos h7, if_pos h7]
  rw [if_neg h7, if_neg h7]
  by_cases h8 : c = 0x43
  · rw [if_pos h8, if_pos h8]
    split <;> rfl
  rw [if_neg h8, if_neg h8]
  by_cases h9 : c = 0x45
  · rw [if_pos h9, if_pos h9]
  rw [if_neg h9, if_neg h9]
  by_cases h10 : c = 0x52
  · rw [if_pos h10, if_pos h10]
  rw [if_neg h10, if_neg h10]
  by_cases h11 : c = 0x49
  · rw [if_pos h11, if_pos h11]
    rfl
  rw [if_neg h11, if_neg h11]
  by_cases h12 : c = 0x42
  · rw [if_pos h12, if_pos h12]
  rw [if_neg h12, if_neg h12]
  rfl
end tag

/-! ### Searching for a tag -/

theorem wcsstr_skip {q : List Wc} : ∀ (s t : List Wc), 0x5B ∉ s → wcsstr (0x5B :: q) (s ++ t) = wcsstr (0x5B :: q) t := by
  intro s
  induction s with
  | nil => intro t _; rfl
  | cons c s ih =>
    intro t h
    have h1 : (0x5B == c) = false := by simpa using fun e => h (by simp [← e])
    rw [List.cons_append, wcsstr, ih t (fun e => h (by simp [e]))]
    simp only [List.isPrefixOf, h1, Bool.false_and, Bool.false_or]

theorem prefix_name {q : List Wc} (hq : 0x5D ∉ q) : ∀ (n t : List Wc), 0x5D ∉ n → (q ++ [0x5D]).isPrefixOf (n ++ 0x5D :: t) = (n == q) := by
  induction q with
  | nil =>
    intro n t hn
    cases n with
    | nil => rfl
    | cons c n =>
      have : (0x5D == c) = false := by simpa using fun e => hn (by simp [← e])
      simp [List.isPrefixOf, this]
  | cons d q ih =>
    intro n t hn
    have hd : (d == 0x5D) = false := by simpa using fun e => hq (by simp [e])
    cases n with
    | nil => simp [List.isPrefixOf, hd]
    | cons c n =>
      have := ih (fun e => hq (by simp [e])) n t (fun e => hn (by simp [e]))
      rw [List.cons_append, List.cons_append, List.isPrefixOf, this]
      rw [Bool.eq_iff_iff]
      simp only [Bool.and_eq_true, beq_iff_eq, List.cons.injEq]
      exact ⟨fun h => ⟨h.1.symm, h.2⟩, fun h => ⟨h.1.symm, h.2⟩⟩

theorem wcsstr_tag {q : List Wc} (hq : 0x5D ∉ q) (n t : List Wc) (hn : 0x5B ∉ n) (hn' : 0x5D ∉ n) :
    wcsstr (0x5B :: (q ++ [0x5D])) (0x5B :: (n ++ 0x5D :: t)) = ((n == q) || wcsstr (0x5B :: (q ++ [0x5D])) t) := by
  have e : n ++ 0x5D :: t = (n ++ [0x5D]) ++ t := by simp
  have h0 : 0x5B ∉ n ++ [0x5D] := by
    intro h
    rcases List.mem_append.1 h with h | h
    · exact hn h
    · revert h; decide
  rw [wcsstr]
  have h1 : List.isPrefixOf (0x5B :: (q ++ [0x5D])) (0x5B :: (n ++ 0x5D :: t)) = (n == q) := by
    rw [List.isPrefixOf, prefix_name hq n t hn']; rfl
  rw [h1, e, wcsstr_skip (n ++ [0x5D]) t h0]

theorem wcsstr_x {q : List Wc} (hq : q.head? ≠ some 0x58) (hne : q ≠ []) (s t : List Wc) (hs : 0x5B ∉ s) :
    wcsstr (0x5B :: (q ++ [0x5D])) (0x5B :: 0x58 :: (s ++ t)) = wcsstr (0x5B :: (q ++ [0x5D])) t := by
  obtain ⟨d, q, rfl⟩ : ∃ d r, q = d :: r := by cases q with | nil => exact absurd rfl hne | cons d r => exact ⟨d, r, rfl⟩
  have hd : (d == 0x58) = false := by simpa using hq
  rw [wcsstr]
  have h1 : List.isPrefixOf (0x5B :: (d :: q ++ [0x5D])) (0x5B :: 0x58 :: (s ++ t)) = false := by
    simp [List.isPrefixOf, hd]
  rw [h1, Bool.false_or]
  exact wcsstr_skip (0x58 :: s) t (fun h => by
    rcases List.mem_cons.1 h with h | h
    · cases h
    · exact hs h)

theorem wcsstr_render {q : List Wc} (hq : 0x5D ∉ q) (hx : q.head? ≠ some 0x58) (hne : q ≠ []) : ∀ (B : List SItem) (p : List Wc), Tidy B →
    wcsstr (0x5B :: (q ++ [0x5D])) (render B) = (tagsFrom p B).any (fun x => x.name == q) := by
  intro B
  induction B with
  | nil => intro p _; rfl
  | cons x B ih =>
    intro p hB
    have hx' : TidyItem x := hB x List.mem_cons_self
    have ihB := ih (p ++ x.render) (fun y hy => hB y (List.mem_cons_of_mem _ hy))
    rw [render, tagsFrom, List.any_append, ← ihB]
    have tag : ∀ n, x.render = 0x5B :: (n ++ [0x5D]) → nameOf x = some n → 0x5B ∉ n → 0x5D ∉ n →
        wcsstr (0x5B :: (q ++ [0x5D])) (x.render ++ render B)
          = (List.any ((nameOf x).map (Mk.mk p)).toList (fun x => x.name == q) || wcsstr (0x5B :: (q ++ [0x5D])) (render B)) := by
      intro n h1 h2 h3 h4
      rw [h1, h2]
      have : 0x5B :: (n ++ [0x5D]) ++ render B = 0x5B :: (n ++ 0x5D :: render B) := by simp
      rw [this, wcsstr_tag hq n _ h3 h4]
      simp
    have sec : ∀ c b, x.render = 0x5B :: 0x58 :: c :: 0x5D :: (b ++ [0x5B, 0x58, 0x5D]) → nameOf x = none → c ≠ 0x5B → 0x5B ∉ b →
        wcsstr (0x5B :: (q ++ [0x5D])) (x.render ++ render B)
          = (List.any ((nameOf x).map (Mk.mk p)).toList (fun x => x.name == q) || wcsstr (0x5B :: (q ++ [0x5D])) (render B)) := by
      intro c b h1 h2 h3 h4
      rw [h1, h2]
      have : 0x5B :: 0x58 :: c :: 0x5D :: (b ++ [0x5B, 0x58, 0x5D]) ++ render B
          = 0x5B :: 0x58 :: ((c :: 0x5D :: b) ++ 0x5B :: 0x58 :: ([0x5D] ++ render B)) := by simp
      rw [this, wcsstr_x hx hne _ _ (by
        intro h
        rcases List.mem_cons.1 h with h | h
        · exact h3 h.symm
        · rcases List.mem_cons.1 h with h | h
          · cases h
          · exact h4 h), wcsstr_x hx hne _ _ (by decide)]
      simp
    cases x with
    | cls c => exact tag [0x4C, c] rfl rfl (by simpa using fun e => hx'.1 e.symm) (by simpa using fun e => hx'.2 e.symm)
    | cls2 c d =>
      obtain ⟨h1, h2, h3, h4⟩ := hx'
      exact tag [0x4C, c, d] rfl rfl (by simp; exact ⟨fun e => h1 e.symm, fun e => h3 e.symm⟩)
        (by simp; exact ⟨fun e => h2 e.symm, fun e => h4 e.symm⟩)
    | tag n => exact tag n rfl rfl hx'.2.1 hx'.2.2
    | bound c => exact tag [0x42, c] rfl rfl (by simpa using fun e => hx'.1 e.symm) (by simpa using fun e => hx'.2 e.symm)
    | sect c b => exact sec c b rfl rfl hx'.1 hx'.2
    | pat b => exact sec 0x72 b rfl rfl (by decide) hx'
    | chr c =>
      show wcsstr _ ([c] ++ render B) = _
      rw [wcsstr_skip [c] _ (by simpa using fun e => hx'.1 e.symm)]
      simp [nameOf]

theorem laterIn_eq (pre n : List Wc) (c : Wc) (B : List SItem) (p : List Wc) (hB : Tidy B) (hn : 0x5B ∉ n) :
    (strstrz (around pre c n (render B)) (pre.length + 2) (lit "[Bc]")
      || strstrz (around pre c n (render B)) (pre.length + 2) (lit "[Ll]")) = laterIn (tagsFrom p B) := by
  have e : ∀ q : List Wc, 0x5D ∉ q → q.head? ≠ some 0x58 → q ≠ [] →
      strstrz (around pre c n (render B)) (pre.length + 2) (0x5B :: (q ++ [0x5D])) = (tagsFrom p B).any (fun x => x.name == q) := by
    intro q h1 h2 h3
    rw [strstrz, drop_pre]
    show wcsstr _ (n ++ 0x5D :: render B) = _
    have : n ++ 0x5D :: render B = (n ++ [0x5D]) ++ render B := by simp
    rw [this, wcsstr_skip _ _ (by
      intro h
      rcases List.mem_append.1 h with h | h
      · exact hn h
      · revert h; decide)]
    exact wcsstr_render h1 h2 h3 B p hB
  have e1 := e (lit "Bc") (by decide) (by decide) (by decide)
  have e2 := e (lit "Ll") (by decide) (by decide) (by decide)
  have l1 : lit "[Bc]" = 0x5B :: (lit "Bc" ++ [0x5D]) := rfl
  have l2 : lit "[Ll]" = 0x5B :: (lit "Ll" ++ [0x5D]) := rfl
  rw [l1, l2, e1, e2, laterIn]
  generalize tagsFrom p B = w
  induction w with
  | nil => rfl
  | cons x w ih =>
    simp only [List.any_cons] at ih ⊢
    rw [← ih]
    cases (x.name == lit "Bc") <;> cases (x.name == lit "Ll") <;> simp

/-! ### The loop -/

/-- From the first `n` characters on, the loop goes from `b` to `r`. -/
def At (out : List Wc) (n : Nat) (b r : BState) : Prop :=
  (n < 3 → r = b) ∧ (3 ≤ n → ∀ f, n ≤ f → baLoop out f (n - 1) b = some r)

theorem at_stop (out : List Wc) (f i : Nat) (b : BState) (h : i < 2) : baLoop out (f + 1) i b = some b := by
  rw [baLoop, if_neg (by omega)]

theorem at_char {pre rest : List Wc} {c : Wc} {b r : BState} (hc : c ≠ 0x5D) (h : At (pre ++ c :: rest) pre.length b r) :
    At (pre ++ c :: rest) (pre.length + 1) b r := by
  refine ⟨fun hl => h.1 (by omega), fun hl f hf => ?_⟩
  obtain ⟨f, rfl⟩ : ∃ g, f = g + 1 := ⟨f - 1, by omega⟩
  rw [baLoop, Nat.add_sub_cancel, if_pos (show pre.length ≥ 2 by omega)]
  have : rdz (pre ++ c :: rest) pre.length = some c := by rw [rdz_app0]; rfl
  rw [this]
  simp only [Option.bind_eq_bind, Option.bind_some]
  rw [if_neg hc]
  by_cases h3 : 3 ≤ pre.length
  · exact h.2 h3 f (by omega)
  · obtain ⟨f, rfl⟩ : ∃ g, f = g + 1 := ⟨f - 1, by omega⟩
    rw [at_stop _ _ _ _ (by omega), h.1 (by omega)]

theorem findOpen_eq {pre rest : List Wc} : ∀ (mid : List Wc), 0x5B ∉ mid →
    findOpen (pre ++ 0x5B :: (mid ++ rest)) (pre.length + 1 + mid.length) = some (true, pre.length) := by
  intro mid
  induction mid using List.reverseRecOn generalizing rest with
  | nil =>
    intro _
    show findOpen _ (pre.length + 1) = _
    rw [findOpen]
    have : rdz (pre ++ 0x5B :: ([] ++ rest)) pre.length = some 0x5B := by rw [rdz_app0]; rfl
    rw [this]; rfl
  | append_singleton mid d ih =>
    intro h
    have hd : d ≠ 0x5B := fun e => h (by simp [e])
    have e : pre.length + 1 + (mid ++ [d]).length = (pre.length + 1 + mid.length) + 1 := by simp; omega
    rw [e, findOpen]
    have e2 : pre ++ 0x5B :: ((mid ++ [d]) ++ rest) = (pre ++ 0x5B :: mid) ++ d :: rest := by simp
    have : rdz (pre ++ 0x5B :: ((mid ++ [d]) ++ rest)) (pre.length + 1 + mid.length) = some d := by
      have e3 : pre.length + 1 + mid.length = (pre ++ 0x5B :: mid).length := by simp; omega
      rw [e2, e3, rdz_app0]; rfl
    rw [this]
    simp only [Option.bind_eq_bind, Option.bind_some]
    rw [if_neg hd]
    have := ih (rest := d :: rest) (fun e => h (by simp [e]))
    simpa using this

theorem at_tag {pre mid rest : List Wc} {b b' r : BState} (hm : 0x5B ∉ mid) (hne : mid ≠ [])
    (ht : baTag (pre ++ 0x5B :: (mid ++ 0x5D :: rest)) (pre.length + mid.length + 1) pre.length b = some b')
    (h : At (pre ++ 0x5B :: (mid ++ 0x5D :: rest)) pre.length b' r) :
    At (pre ++ 0x5B :: (mid ++ 0x5D :: rest)) (pre.length + mid.length + 2) b r := by
  have hl := List.length_pos_iff.2 hne
  refine ⟨fun hl => by omega, fun _ f hf => ?_⟩
  obtain ⟨f, rfl⟩ : ∃ g, f = g + 1 := ⟨f - 1, by omega⟩
  have e : pre.length + mid.length + 2 - 1 = pre.length + mid.length + 1 := by omega
  rw [baLoop, e, if_pos (show pre.length + mid.length + 1 ≥ 2 by omega)]
  have e2 : pre ++ 0x5B :: (mid ++ 0x5D :: rest) = (pre ++ 0x5B :: mid) ++ 0x5D :: rest := by simp
  have hr : rdz (pre ++ 0x5B :: (mid ++ 0x5D :: rest)) (pre.length + mid.length + 1) = some 0x5D := by
    have e3 : pre.length + mid.length + 1 = (pre ++ 0x5B :: mid).length := by simp; omega
    rw [e2, e3, rdz_app0]; rfl
  have hfo := findOpen_eq (pre := pre) (rest := 0x5D :: rest) mid hm
  have e4 : pre.length + 1 + mid.length = pre.length + mid.length + 1 := by omega
  rw [e4] at hfo
  rw [hr]
  simp only [Option.bind_eq_bind, Option.bind_some]
  rw [if_pos (by trivial), hfo]
  simp only [Option.bind_some]
  rw [if_pos (by trivial), ht]
  simp only [Option.bind_some]
  by_cases h3 : pre.length < 3
  · rw [if_pos h3, h.1 h3]; rfl
  · rw [if_neg h3]
    exact h.2 (by omega) f (by omega)

theorem baTag_x {out : List Wc} {i j : Nat} {b : BState} (h : rdz out (j + 1) = some 0x58) : baTag out i j b = some b := by
  unfold baTag
  rw [h]; rfl

theorem at_body {pre : List Wc} {b r : BState} : ∀ (s rest : List Wc), 0x5B ∉ s → 0x5D ∈ s → At (pre ++ 0x5B :: 0x58 :: (s ++ rest)) pre.length b r →
    At (pre ++ 0x5B :: 0x58 :: (s ++ rest)) (pre.length + 2 + s.length) b r := by
  intro s
  induction s using List.reverseRecOn with
  | nil => intro rest _ h; cases h
  | append_singleton s d ih =>
    intro rest h1 h2 h3
    have hs : 0x5B ∉ s := fun e => h1 (by simp [e])
    have e1 : pre ++ 0x5B :: 0x58 :: ((s ++ [d]) ++ rest) = pre ++ 0x5B :: ((0x58 :: s) ++ d :: rest) := by simp
    rw [e1] at h3 ⊢
    by_cases hd : d = 0x5D
    · subst hd
      have hm : 0x5B ∉ 0x58 :: s := by
        intro h
        rcases List.mem_cons.1 h with h | h
        · cases h
        · exact hs h
      have := at_tag (pre := pre) (mid := 0x58 :: s) (rest := rest) (b := b) (b' := b) (r := r) hm (by simp)
        (baTag_x (by rw [rdz_app]; rfl)) h3
      have e : pre.length + 2 + (s ++ [0x5D]).length = pre.length + (0x58 :: s).length + 2 := by simp; omega
      rw [e]; exact this
    · have h2' : 0x5D ∈ s := by
        rcases List.mem_append.1 h2 with h | h
        · exact h
        · exact absurd (List.mem_singleton.1 h).symm hd
      have := ih (d :: rest) hs h2' h3
      have e2 : pre ++ 0x5B :: ((0x58 :: s) ++ d :: rest) = (pre ++ 0x5B :: 0x58 :: s) ++ d :: rest := by simp
      have e3 : pre.length + 2 + s.length = (pre ++ 0x5B :: 0x58 :: s).length := by simp; omega
      have e4 : pre ++ 0x5B :: 0x58 :: (s ++ d :: rest) = (pre ++ 0x5B :: 0x58 :: s) ++ d :: rest := by simp
      rw [e4, e3] at this
      have := at_char hd this
      have e : pre.length + 2 + (s ++ [d]).length = (pre ++ 0x5B :: 0x58 :: s).length + 1 := by simp; omega
      rw [e, e2]; exact this

theorem at_section {pre b rest : List Wc} {c : Wc} {s r : BState} (hc : c ≠ 0x5B) (hb : 0x5B ∉ b)
    (h : At (pre ++ (0x5B :: 0x58 :: c :: 0x5D :: (b ++ [0x5B, 0x58, 0x5D]) ++ rest)) pre.length s r) :
    At (pre ++ (0x5B :: 0x58 :: c :: 0x5D :: (b ++ [0x5B, 0x58, 0x5D]) ++ rest)) (pre.length + (b.length + 7)) s r := by
  have e1 : pre ++ (0x5B :: 0x58 :: c :: 0x5D :: (b ++ [0x5B, 0x58, 0x5D]) ++ rest)
      = pre ++ 0x5B :: 0x58 :: ((c :: 0x5D :: b) ++ (0x5B :: 0x58 :: 0x5D :: rest)) := by simp
  have e2 : pre ++ 0x5B :: 0x58 :: ((c :: 0x5D :: b) ++ (0x5B :: 0x58 :: 0x5D :: rest))
      = (pre ++ 0x5B :: 0x58 :: c :: 0x5D :: b) ++ 0x5B :: ([0x58] ++ 0x5D :: rest) := by simp
  rw [e1] at h ⊢
  have h2 := at_body (c :: 0x5D :: b) (0x5B :: 0x58 :: 0x5D :: rest) (by
    intro h
    rcases List.mem_cons.1 h with h | h
    · exact hc h.symm
    · rcases List.mem_cons.1 h with h | h
      · cases h
      · exact hb h) (by simp) h
  have e3 : pre.length + 2 + (c :: 0x5D :: b).length = (pre ++ 0x5B :: 0x58 :: c :: 0x5D :: b).length := by simp; omega
  rw [e2, e3] at h2
  have h3 := at_tag (mid := [0x58]) (b := s) (b' := s) (by decide) (by simp) (baTag_x (by rw [rdz_app]; rfl)) h2
  have e4 : pre.length + (b.length + 7) = (pre ++ 0x5B :: 0x58 :: c :: 0x5D :: b).length + [0x58].length + 2 := by simp; omega
  rw [e2, e4]
  exact h3

/-- The state of the loop after these tags. -/
def stateOf (out : List Wc) : List Mk → BState
  | [] => { a := {} }
  | m :: w => mkStep out w m (stateOf out w)

theorem render_app (A B : List SItem) : render (A ++ B) = render A ++ render B := by
  induction A with
  | nil => rfl
  | cons x A ih => rw [List.cons_append, render, render, ih, List.append_assoc]

theorem tidy_name {x : SItem} {n : List Wc} (hx : TidyItem x) (h : nameOf x = some n) :
    n ≠ [] ∧ 0x5B ∉ n ∧ 0x5D ∉ n ∧ x.render = 0x5B :: (n ++ [0x5D]) := by
  cases x with
  | cls c =>
    cases h
    exact ⟨by simp, by simpa using fun e => hx.1 e.symm, by simpa using fun e => hx.2 e.symm, rfl⟩
  | cls2 c d =>
    cases h
    obtain ⟨h1, h2, h3, h4⟩ := hx
    exact ⟨by simp, by simp; exact ⟨fun e => h1 e.symm, fun e => h3 e.symm⟩, by simp; exact ⟨fun e => h2 e.symm, fun e => h4 e.symm⟩, rfl⟩
  | tag m => cases h; exact ⟨hx.1, hx.2.1, hx.2.2, rfl⟩
  | bound c =>
    cases h
    exact ⟨by simp, by simpa using fun e => hx.1 e.symm, by simpa using fun e => hx.2 e.symm, rfl⟩
  | sect c b => cases h
  | pat p => cases h
  | chr c => cases h

theorem loop_tags : ∀ (A B : List SItem), Tidy (A ++ B) → (B ≠ [] → A ≠ [] → 4 ≤ (render (A ++ B)).length ∨ tagsFrom (render A) B = []) →
    At (render (A ++ B)) (render A).length (stateOf (render (A ++ B)) (tagsFrom (render A) B))
      (stateOf (render (A ++ B)) (tagsFrom [] (A ++ B))) := by
  intro A
  induction A using List.reverseRecOn with
  | nil =>
    intro B _ _
    exact ⟨fun _ => rfl, fun h => by simp [render] at h⟩
  | append_singleton A x ih =>
    intro B ht hlen
    have e0 : A ++ [x] ++ B = A ++ x :: B := by simp
    rw [e0] at ht hlen ⊢
    have hx : TidyItem x := ht x (by simp)
    have hB : Tidy B := fun y hy => ht y (by simp [hy])
    have er : render (A ++ [x]) = render A ++ x.render := by rw [render_app]; simp [render]
    have eo : render (A ++ x :: B) = render A ++ (x.render ++ render B) := by rw [render_app]; rfl
    have hxl : 1 ≤ x.render.length := by cases x <;> simp [SItem.render]
    cases hn : nameOf x with
    | none =>
      have et : tagsFrom (render (A ++ [x])) B = tagsFrom (render A) (x :: B) := by rw [tagsFrom, hn, er]; rfl
      have ih' := ih (x :: B) ht (fun _ hA => by
        rw [← et]
        by_cases hB' : B = []
        · right; rw [hB']; rfl
        · exact hlen hB' (by simp))
      rw [et]
      rw [er, List.length_append]
      rw [eo] at ih' ⊢
      cases x with
      | chr c => exact at_char hx.2 ih'
      | sect c b =>
        have := at_section (rest := render B) hx.1 hx.2 ih'
        have e : (SItem.sect c b).render.length = b.length + 7 := by simp [SItem.render]
        rw [e]; exact this
      | pat b =>
        have := at_section (rest := render B) (show (0x72 : Wc) ≠ 0x5B by decide) hx ih'
        have e : (SItem.pat b).render.length = b.length + 7 := by simp [SItem.render]
        rw [e]; exact this
      | cls c => cases hn
      | cls2 c d => cases hn
      | tag n => cases hn
      | bound c => cases hn
    | some n =>
      obtain ⟨h1, h2, h3, h4⟩ := tidy_name hx hn
      obtain ⟨c, n, rfl⟩ : ∃ c r, n = c :: r := by cases n with | nil => exact absurd rfl h1 | cons d r => exact ⟨d, r, rfl⟩
      have et : tagsFrom (render A) (x :: B) = ⟨render A, c :: n⟩ :: tagsFrom (render (A ++ [x])) B := by rw [tagsFrom, hn, er]; rfl
      have hxl3 : 3 ≤ x.render.length := by rw [h4]; simp
      have ih' := ih (x :: B) ht (fun _ hA => by
        left
        rw [eo]
        obtain ⟨y, A, rfl⟩ : ∃ c r, A = c :: r := by cases A with | nil => exact absurd rfl hA | cons d r => exact ⟨d, r, rfl⟩
        have : 1 ≤ y.render.length := by cases y <;> simp [SItem.render]
        simp only [render, List.length_append]
        omega)
      rw [et] at ih'
      have eo2 : render (A ++ x :: B) = around (render A) c n (render B) := by rw [eo, h4]; simp [around]
      rw [er, List.length_append]
      have e5 : (render A).length + x.render.length = (render A).length + (c :: n).length + 2 := by rw [h4]; simp; omega
      rw [e5]
      rw [eo2] at ih' ⊢
      rw [er] at ih' hlen
      have hcls : (stateOf (around (render A) c n (render B)) (tagsFrom (render A ++ x.render) B)).a.getValue .cls = none
          ∨ 4 ≤ (around (render A) c n (render B)).length := by
        by_cases hB' : B = []
        · left; rw [hB']; rfl
        · rcases hlen hB' (by simp) with h | h
          · right; rw [← eo2]; exact h
          · left; rw [h]; rfl
      have hn1 : 0x5B ∉ n := fun e => h2 (by simp [e])
      have hn2 : 0x5D ∉ n := fun e => h3 (by simp [e])
      refine at_tag h2 h1 ?_ ih'
      have := baTag_eq (stateOf (around (render A) c n (render B)) (tagsFrom (render A ++ x.render) B)) (tagsFrom (render A ++ x.render) B) hn2 hcls
        (laterIn_eq (render A) n c B (render A ++ x.render) hB hn1)
      have e6 : (render A).length + (c :: n).length + 1 = (render A).length + n.length + 2 := by simp; omega
      rw [e6]; exact this

theorem parseBasicAttributes_eq (its : List SItem) (ht : Tidy its) (hne : its ≠ []) (hlen : (render its).length < 2 ^ 64) :
    parseBasicAttributes {} (render its) = some (stateOf (render its) (tags its)).a := by
  have h := loop_tags its [] (by simpa using ht) (fun h => absurd rfl h)
  simp only [List.append_nil] at h
  unfold parseBasicAttributes
  have hpos : 1 ≤ (render its).length := by
    obtain ⟨y, A, rfl⟩ : ∃ c r, its = c :: r := by cases its with | nil => exact absurd rfl hne | cons d r => exact ⟨d, r, rfl⟩
    have : 1 ≤ y.render.length := by cases y <;> simp [SItem.render]
    simp only [render, List.length_append]
    omega
  have e : ((render its).length + (2 ^ 64 - 1)) % 2 ^ 64 = (render its).length - 1 := by omega
  rw [e]
  have : baLoop (render its) ((render its).length + 1) ((render its).length - 1) { a := {} } = some (stateOf (render its) (tags its)) := by
    by_cases h3 : 3 ≤ (render its).length
    · exact h.2 h3 _ (by omega)
    · rw [at_stop _ _ _ _ (by omega)]
      have := h.1 (by omega)
      rw [tags, this]; rfl
  rw [this]; rfl

/-! ### What the state means -/

structure Means (out : List Wc) (w : List Mk) (b : BState) : Prop where
  ok : AnaOk b.a
  told : ∀ k v, b.a.getValue k = some v ↔ Told out w k v
  cls : b.classSet = true ↔ ∃ x ∈ w, ClassMk x
  bc : b.bcPassed = true ↔ ∃ x ∈ w, Border x
  conv : (∀ x ∈ w, ¬ ClassMk x) → (b.convert = true ↔ ∃ x ∈ w, lit "Ssti" <+: x.name)

/-- The letters of the tags that tell an attribute. -/
def lettersOf : AKey → List Wc
  | .cls => [0x4C, 0x42]
  | .comparison => [0x43]
  | .focus => [0x46]
  | .kysymysliite => [0x46]
  | .vapaaJalkiosa => [0x49]
  | .mood => [0x54]
  | .negative => [0x45]
  | .number => [0x4E]
  | .participle => [0x52]
  | .person => [0x50]
  | .possessive => [0x4F]
  | .geographical => [0x49]
  | .requireVerb => [0x49]
  | .sijamuoto => [0x53]
  | .tense => [0x41]
  | _ => []

theorem pre_head {d : Wc} {l name : List Wc} (h : d :: l <+: name) : name.head? = some d := by
  obtain ⟨t, rfl⟩ := h; rfl

theorem picks_other {c d : Wc} {t : List (String × String)} {ok : List Mk → Prop} {m : Mk} {w : List Mk} (hm : m.name.head? = some c) (h : c ≠ d)
    (v : List Wc) : Picks (m :: w) (Says d t) ok v ↔ Picks w (Says d t) ok v :=
  picks_skip (fun v hs => h (Option.some.inj (hm.symm.trans (says_letter hs)))) v

theorem border_head {m : Mk} (h : Border m) : m.name.head? = some 0x42 := pre_head h.1

theorem told_skip {out : List Wc} {m : Mk} {w : List Mk} {c : Wc} (hm : m.name.head? = some c) : ∀ (k : AKey) (v : List Wc), c ∉ lettersOf k →
    (Told out (m :: w) k v ↔ Told out w k v) := by
  have pn : ∀ (d : Wc) (l : List Wc), c ≠ d → ¬ d :: l <+: m.name := fun d l h e => h (Option.some.inj (hm.symm.trans (pre_head e)))
  have one : ∀ {d : Wc}, c ∉ [d] → c ≠ d := fun h => by simpa using h
  intro k v hk
  cases k with
  | cls =>
    show ClassIs _ _ _ ↔ ClassIs _ _ _
    have hk' : c ≠ 0x4C ∧ c ≠ 0x42 := by simpa [lettersOf] using hk
    rw [classIs_cons]
    refine ⟨fun h => h.resolve_right ?_, Or.inl⟩
    rintro ⟨_, h1 | h1, _⟩
    · exact hk'.1 (Option.some.inj (hm.symm.trans h1))
    · exact hk'.2 (Option.some.inj (hm.symm.trans (border_head h1.1)))
  | comparison => exact picks_other hm (one hk) v
  | focus => exact picks_other hm (one hk) v
  | mood => exact picks_other hm (one hk) v
  | negative => exact picks_other hm (one hk) v
  | number => exact picks_other hm (one hk) v
  | participle => exact picks_other hm (one hk) v
  | person => exact picks_other hm (one hk) v
  | possessive => exact picks_other hm (one hk) v
  | sijamuoto => exact picks_other hm (one hk) v
  | tense => exact picks_other hm (one hk) v
  | kysymysliite =>
    show ((∃ x ∈ m :: w, _) ∧ _) ↔ ((∃ x ∈ w, _) ∧ _)
    have := pn 0x46 (lit "ko") (one hk)
    constructor
    · rintro ⟨⟨x, hx, h⟩, e⟩
      rcases List.mem_cons.1 hx with rfl | hx
      · exact absurd h this
      · exact ⟨⟨x, hx, h⟩, e⟩
    · rintro ⟨⟨x, hx, h⟩, e⟩; exact ⟨⟨x, List.mem_cons_of_mem _ hx, h⟩, e⟩
  | vapaaJalkiosa =>
    show ((∃ x ∈ m :: w, _) ∧ _) ↔ ((∃ x ∈ w, _) ∧ _)
    have := pn 0x49 (lit "vj") (one hk)
    constructor
    · rintro ⟨⟨x, hx, h⟩, e⟩
      rcases List.mem_cons.1 hx with rfl | hx
      · exact absurd h this
      · exact ⟨⟨x, hx, h⟩, e⟩
    · rintro ⟨⟨x, hx, h⟩, e⟩; exact ⟨⟨x, List.mem_cons_of_mem _ hx, h⟩, e⟩
  | geographical =>
    have := pn 0x49 (lit "ca") (one hk)
    constructor
    · rintro ⟨⟨u, x, t, e, h, r⟩, hv⟩
      cases u with
      | nil => cases e; exact absurd h this
      | cons y u => cases e; exact ⟨⟨u, x, t, rfl, h, r⟩, hv⟩
    · rintro ⟨⟨u, x, t, rfl, h, r⟩, hv⟩; exact ⟨⟨m :: u, x, t, rfl, h, r⟩, hv⟩
  | requireVerb =>
    refine picks_skip (fun v h => ?_) v
    rcases h with h | h
    · exact pn 0x49 (lit "ra") (one hk) h.1
    · exact pn 0x49 (lit "rm") (one hk) h.1
  | baseform => exact Iff.rfl
  | fstoutput => exact Iff.rfl
  | structure_ => exact Iff.rfl
  | weight => exact Iff.rfl
  | wordbases => exact Iff.rfl
  | wordids => exact Iff.rfl

theorem getValue_upd {a : Ana} (h : AnaOk a) (k : AKey) (o : Option (List Wc)) (x : AKey) :
    (upd a k o).getValue x = if x = k then (a.getValue x).or o else a.getValue x := by
  unfold upd
  by_cases hs : (a.getValue k).isSome = true
  · rw [if_pos hs]
    by_cases hx : x = k
    · subst hx
      rw [if_pos rfl]
      obtain ⟨y, hy⟩ := Option.isSome_iff_exists.1 hs
      rw [hy]; rfl
    · rw [if_neg hx]
  · rw [if_neg hs]
    cases o with
    | none => simp
    | some s => exact getValue_addConst h k s x

theorem anaOk_upd {a : Ana} (h : AnaOk a) (k : AKey) (o : Option (List Wc)) : AnaOk (upd a k o) := by
  unfold upd
  split
  · exact h
  · cases o with
    | none => exact h
    | some s => exact anaOk_addConst h k s

theorem told_one {out : List Wc} {m : Mk} {w : List Mk} {b : BState} (h : Means out w b) {a' : Ana} {k0 : AKey} {o : Option (List Wc)}
    (hval : ∀ x, a'.getValue x = if x = k0 then (b.a.getValue x).or o else b.a.getValue x)
    (hoth : ∀ k, k ≠ k0 → ∀ v, Told out (m :: w) k v ↔ Told out w k v)
    (hk0 : ∀ v, (b.a.getValue k0).or o = some v ↔ Told out (m :: w) k0 v) (k : AKey) (v : List Wc) :
    a'.getValue k = some v ↔ Told out (m :: w) k v := by
  rw [hval]
  by_cases hk : k = k0
  · subst hk; rw [if_pos rfl]; exact hk0 v
  · rw [if_neg hk, h.told, hoth k hk]

/-- Tags that say nothing of class, boundaries and adverbs. -/
theorem means_quiet {out : List Wc} {m : Mk} {w : List Mk} {b : BState} (h : Means out w b) {c : Wc} (hm : m.name.head? = some c)
    (h1 : c ≠ 0x4C) (h2 : c ≠ 0x42) (h3 : c ≠ 0x53) {a' : Ana} (ok : AnaOk a') (told : ∀ k v, a'.getValue k = some v ↔ Told out (m :: w) k v) :
    Means out (m :: w) { b with a := a' } := by
  have e1 : ¬ ClassMk m := by
    rintro (e | e)
    · exact h1 (Option.some.inj (hm.symm.trans e))
    · exact h2 (Option.some.inj (hm.symm.trans (border_head e.1)))
  have e2 : ¬ Border m := fun e => h2 (Option.some.inj (hm.symm.trans (border_head e)))
  have e3 : ¬ lit "Ssti" <+: m.name := fun e => h3 (Option.some.inj (hm.symm.trans (pre_head e)))
  have mem : ∀ P : Mk → Prop, ¬ P m → ((∃ x ∈ m :: w, P x) ↔ ∃ x ∈ w, P x) := by
    intro P hP
    constructor
    · rintro ⟨x, hx, h⟩
      rcases List.mem_cons.1 hx with rfl | hx
      · exact absurd h hP
      · exact ⟨x, hx, h⟩
    · rintro ⟨x, hx, h⟩; exact ⟨x, List.mem_cons_of_mem _ hx, h⟩
  exact ⟨ok, told, by rw [mem _ e1]; exact h.cls, by rw [mem _ e2]; exact h.bc, fun hw => by
    rw [mem _ e3]; exact h.conv fun x hx => hw x (List.mem_cons_of_mem _ hx)⟩

/-- A tag that tells one attribute, if a condition holds. -/
theorem means_simple {out : List Wc} {w : List Mk} {b : BState} (h : Means out w b) (before n : List Wc) (c : Wc) (k0 : AKey) (mp : TagMap)
    (table : List (String × String)) (counts : List Mk → Prop) (cond : Prop) [Decidable cond]
    (h1 : c ≠ 0x4C) (h2 : c ≠ 0x42) (h3 : c ≠ 0x53) (hag : Agree mp table)
    (hk0 : ∀ w v, Told out w k0 v ↔ Picks w (Says c table) counts v) (hcond : cond ↔ counts w)
    (hoth : ∀ k, k ≠ k0 → ∀ v, Told out (⟨before, c :: n⟩ :: w) k v ↔ Told out w k v) :
    Means out (⟨before, c :: n⟩ :: w) (if cond then { b with a := upd b.a k0 (mp.lookup n) } else b) := by
  have key : ∀ o, (∀ v, o = some v ↔ counts w ∧ Says c table ⟨before, c :: n⟩ v) →
      ∀ v, (b.a.getValue k0).or o = some v ↔ Told out (⟨before, c :: n⟩ :: w) k0 v := by
    intro o ho v
    rw [hk0]
    exact picks_or (fun v => by rw [h.told, hk0]) ho v
  by_cases hc : cond
  · rw [if_pos hc]
    refine means_quiet (c := c) h rfl h1 h2 h3 (anaOk_upd h.ok _ _) (told_one h (getValue_upd h.ok k0 _) hoth (key _ fun v => ?_))
    rw [says_lookup hag c before n v]
    exact ⟨fun e => ⟨hcond.1 hc, e⟩, fun e => e.2⟩
  · rw [if_neg hc]
    have : b = { b with a := b.a } := rfl
    rw [this]
    refine means_quiet (c := c) h rfl h1 h2 h3 h.ok (told_one (o := none) h (fun x => by split <;> simp) hoth (key none fun v => ?_))
    constructor
    · intro e; cases e
    · intro e; exact absurd (hcond.2 e.1) hc

theorem noClass_iff {out : List Wc} {w : List Mk} {b : BState} (h : Means out w b) : b.a.getValue .cls = none ↔ NoClass out w := by
  constructor
  · intro e c hc
    have := (h.told .cls c).2 hc
    rw [e] at this; cases this
  · intro e
    cases hg : b.a.getValue .cls with
    | none => rfl
    | some c => exact absurd ((h.told .cls c).1 hg) (e c)

theorem class_all {out : List Wc} {w : List Mk} {b : BState} (h : Means out w b) (P : List Wc → Prop) :
    (∀ c, ClassIs out w c → P c) ↔ (b.a.getValue .cls = none ∨ ∃ c, b.a.getValue .cls = some c ∧ P c) := by
  constructor
  · intro e
    cases hg : b.a.getValue .cls with
    | none => exact Or.inl rfl
    | some c => exact Or.inr ⟨c, rfl, e c ((h.told .cls c).1 hg)⟩
  · rintro (e | ⟨c, e1, e2⟩) d hd
    · exact absurd hd (fun x => (noClass_iff h).1 e d x)
    · have := (h.told .cls d).2 hd
      rw [e1] at this
      cases this; exact e2

theorem infl_iff {out : List Wc} {w : List Mk} {b : BState} (h : Means out w b) : infl b ↔ Inflected out w := by
  unfold Inflected
  rw [class_all h]
  unfold infl
  cases hg : b.a.getValue .cls with
  | none => simp
  | some c => simp

theorem mem_cons_iff {m : Mk} {w : List Mk} (P : Mk → Prop) : (∃ x ∈ m :: w, P x) ↔ P m ∨ ∃ x ∈ w, P x := by
  constructor
  · rintro ⟨x, hx, h⟩
    rcases List.mem_cons.1 hx with rfl | hx
    · exact Or.inl h
    · exact Or.inr ⟨x, hx, h⟩
  · rintro (h | ⟨x, hx, h⟩)
    · exact ⟨m, List.mem_cons_self, h⟩
    · exact ⟨x, List.mem_cons_of_mem _ hx, h⟩

theorem isPrefix_cons {d : Wc} {l n : List Wc} : d :: l <+: d :: n ↔ l.isPrefixOf n = true := by
  rw [List.isPrefixOf_iff_prefix, List.cons_prefix_cons]; simp

theorem adjective_iff {out : List Wc} {w : List Mk} {b : BState} (h : Means out w b) (hw : ∀ x ∈ w, ¬ ClassMk x) :
    (b.convert = true ∨ b.a.getValue .comparison = some (lit "comparative") ∨ b.a.getValue .comparison = some (lit "superlative")
      ∨ (lit "[Lu]").isPrefixOf out = true) ↔ Adjective out w := by
  have hno : ∀ u t, w = u ++ t → NoClass out t := by
    rintro u t rfl c hc
    obtain ⟨x, hx, hx2⟩ := classIs_mark hc
    exact hw x (List.mem_append_right _ hx) hx2
  have hcomp : (b.a.getValue .comparison = some (lit "comparative") ∨ b.a.getValue .comparison = some (lit "superlative"))
      ↔ ∃ x ∈ w, x.name = lit "Cc" ∨ x.name = lit "Cs" := by
    constructor
    · intro hh
      have : ∃ v, Told out w .comparison v := by
        rcases hh with hh | hh
        · exact ⟨_, (h.told _ _).1 hh⟩
        · exact ⟨_, (h.told _ _).1 hh⟩
      obtain ⟨v, u, m, t, rfl, _, ⟨k, s, h1, h2, _⟩, _⟩ := this
      refine ⟨m, by simp, ?_⟩
      rw [h2]
      simp only [comparisons, List.mem_cons, List.not_mem_nil, or_false, Prod.mk.injEq] at h1
      rcases h1 with ⟨rfl, _⟩ | ⟨rfl, _⟩
      · left; rfl
      · right; rfl
    · rintro ⟨x, hx, hn⟩
      obtain ⟨u, t, rfl⟩ := List.append_of_mem hx
      obtain ⟨v, hv⟩ : ∃ v, Picks (u ++ x :: t) (Says 0x43 comparisons) (NoClass out) v := by
        rcases hn with hn | hn
        · exact picks_exists _ u x t (lit "comparative") rfl (hno (u ++ [x]) t (by simp)) ⟨"c", "comparative", by simp [comparisons], hn, rfl⟩
        · exact picks_exists _ u x t (lit "superlative") rfl (hno (u ++ [x]) t (by simp)) ⟨"s", "superlative", by simp [comparisons], hn, rfl⟩
      have hv' := (h.told .comparison v).2 hv
      obtain ⟨_, m, _, _, _, ⟨k, s, h1, _, rfl⟩, _⟩ := hv
      simp only [comparisons, List.mem_cons, List.not_mem_nil, or_false, Prod.mk.injEq] at h1
      rcases h1 with ⟨_, rfl⟩ | ⟨_, rfl⟩
      · left; exact hv'
      · right; exact hv'
  unfold Adjective
  rw [List.isPrefixOf_iff_prefix, h.conv hw]
  constructor
  · rintro (⟨x, hx, e⟩ | e | e | e)
    · exact Or.inr ⟨x, hx, Or.inl e⟩
    · obtain ⟨x, hx, e⟩ := hcomp.1 (Or.inl e); exact Or.inr ⟨x, hx, Or.inr e⟩
    · obtain ⟨x, hx, e⟩ := hcomp.1 (Or.inr e); exact Or.inr ⟨x, hx, Or.inr e⟩
    · exact Or.inl e
  · rintro (e | ⟨x, hx, e | e⟩)
    · exact Or.inr (Or.inr (Or.inr e))
    · exact Or.inl ⟨x, hx, e⟩
    · rcases hcomp.2 ⟨x, hx, e⟩ with e | e
      · exact Or.inr (Or.inl e)
      · exact Or.inr (Or.inr (Or.inl e))

theorem means_class {out : List Wc} {w : List Mk} {b : BState} (h : Means out w b) (before n : List Wc) :
    Means out (⟨before, 0x4C :: n⟩ :: w) (stClass out n b) := by
  have hm : ClassMk ⟨before, 0x4C :: n⟩ := Or.inl rfl
  have hnb : ¬ Border ⟨before, 0x4C :: n⟩ := fun e => by have := border_head e; cases this
  have hns : ¬ lit "Ssti" <+: (0x4C :: n) := fun e => by have := pre_head e; cases this
  have hoth : ∀ k, k ≠ .cls → ∀ v, Told out (⟨before, 0x4C :: n⟩ :: w) k v ↔ Told out w k v := by
    intro k hk v
    refine told_skip (c := 0x4C) rfl k v ?_
    cases k <;> simp [lettersOf] at hk ⊢
  -- the other parts of the meaning
  have mk : ∀ b' : BState, AnaOk b'.a → (∀ k v, b'.a.getValue k = some v ↔ Told out (⟨before, 0x4C :: n⟩ :: w) k v) → b'.classSet = true →
      b'.bcPassed = b.bcPassed → Means out (⟨before, 0x4C :: n⟩ :: w) b' := by
    intro b' h1 h2 h3 h4
    refine ⟨h1, h2, by rw [h3]; simp only [true_iff]; exact ⟨_, List.mem_cons_self, hm⟩, ?_, fun hw => absurd hm (hw _ List.mem_cons_self)⟩
    rw [h4, h.bc, mem_cons_iff]
    simp [hnb]
  cases hcs : b.classSet with
  | true =>
    have hex := h.cls.1 hcs
    have hcl : ∀ v, ClassIs out (⟨before, 0x4C :: n⟩ :: w) v ↔ ClassIs out w v := by
      intro v
      rw [classIs_cons]
      refine ⟨fun e => e.resolve_right ?_, Or.inl⟩
      rintro ⟨e, _⟩
      obtain ⟨x, hx, hx2⟩ := hex
      exact e x hx hx2
    have htold : ∀ k v, b.a.getValue k = some v ↔ Told out (⟨before, 0x4C :: n⟩ :: w) k v :=
      told_one (o := none) (k0 := .cls) h (fun x => by split <;> simp) hoth (fun v => by
        rw [Option.or_none, h.told]; exact (hcl v).symm)
    unfold stClass
    rw [hcs]
    by_cases hn : n = []
    · subst hn
      rw [if_pos (Or.inr rfl), if_neg (by decide)]
      refine mk _ (anaOk_upd h.ok .cls (classMap.lookup [])) (fun k v => ?_) rfl rfl
      rw [← htold]
      show (upd b.a .cls (classMap.lookup [])).getValue k = _ ↔ _
      have : classMap.lookup [] = none := by decide
      rw [this, getValue_upd h.ok]
      split <;> simp
    · rw [if_neg (by simp [hn])]
      exact mk b h.ok htold hcs rfl
  | false =>
    have hnone : ∀ x ∈ w, ¬ ClassMk x := by
      intro x hx hc
      have := h.cls.2 ⟨x, hx, hc⟩
      rw [hcs] at this; cases this
    have hcn : b.a.getValue .cls = none := (noClass_iff h).2 (fun c hc => by
      obtain ⟨x, hx, hx2⟩ := classIs_mark hc
      exact hnone x hx hx2)
    have hcl : ∀ v, ClassIs out (⟨before, 0x4C :: n⟩ :: w) v ↔ ClassSays out ⟨before, 0x4C :: n⟩ w v := by
      intro v
      rw [classIs_cons]
      constructor
      · rintro (e | e)
        · obtain ⟨x, hx, hx2⟩ := classIs_mark e; exact absurd hx2 (hnone x hx)
        · exact e.2.2
      · intro e; exact Or.inr ⟨hnone, hm, e⟩
    have go : ∀ (a' : Ana) (o : Option (List Wc)), AnaOk a' →
        (∀ x, a'.getValue x = if x = .cls then (b.a.getValue x).or o else b.a.getValue x) →
        (∀ v, o = some v ↔ ClassSays out ⟨before, 0x4C :: n⟩ w v) →
        Means out (⟨before, 0x4C :: n⟩ :: w) { b with a := a', classSet := true } := by
      intro a' o h1 h2 h3
      refine mk _ h1 (told_one h h2 hoth fun v => ?_) rfl rfl
      rw [hcn, Option.none_or, h3]
      exact (hcl v).symm
    have e1 : lit "Lnl" <+: (0x4C :: n) ↔ (lit "nl").isPrefixOf n = true := isPrefix_cons
    have hnp : ¬ PrefixBorder ⟨before, 0x4C :: n⟩ := fun e => hnb e.1
    unfold stClass
    rw [hcs, if_pos (show (!false) = true ∨ n = [] from Or.inl rfl)]
    by_cases hnl : (lit "nl").isPrefixOf n = true
    · have e2 := e1.2 hnl
      rw [if_pos hnl]
      by_cases hadj : Adjective out w
      · rw [if_pos ((adjective_iff h hnone).2 hadj)]
        refine go _ (some (lit "laatusana")) (anaOk_addConst h.ok _ _) (getValue_addConst h.ok _ _) fun v => ?_
        constructor
        · intro e; cases e; exact Or.inl ⟨e2, hadj, rfl⟩
        · rintro (⟨_, _, e⟩ | ⟨_, e, _⟩ | ⟨e, _⟩ | ⟨e, _⟩)
          · rw [e]
          · exact absurd hadj e
          · exact absurd e2 e
          · exact absurd e hnp
      · rw [if_neg (fun e => hadj ((adjective_iff h hnone).1 e))]
        refine go _ (some (lit "nimisana_laatusana")) (anaOk_addConst h.ok _ _) (getValue_addConst h.ok _ _) fun v => ?_
        constructor
        · intro e; cases e; exact Or.inr (Or.inl ⟨e2, hadj, rfl⟩)
        · rintro (⟨_, e, _⟩ | ⟨_, _, e⟩ | ⟨e, _⟩ | ⟨e, _⟩)
          · exact absurd e hadj
          · rw [e]
          · exact absurd e2 e
          · exact absurd e hnp
    · have e2 : ¬ lit "Lnl" <+: (0x4C :: n) := fun e => hnl (e1.1 e)
      rw [if_neg hnl]
      refine go _ (classMap.lookup n) (anaOk_upd h.ok _ _) (getValue_upd h.ok _ _) fun v => ?_
      rw [says_lookup agree_class 0x4C before n v]
      constructor
      · intro e; exact Or.inr (Or.inr (Or.inl ⟨e2, e⟩))
      · rintro (⟨e, _⟩ | ⟨e, _⟩ | ⟨_, e⟩ | ⟨e, _⟩)
        · exact absurd e e2
        · exact absurd e e2
        · exact e
        · exact absurd e hnp

theorem means_boundary {out : List Wc} {w : List Mk} {b : BState} (h : Means out w b) (before n : List Wc) :
    Means out (⟨before, 0x42 :: n⟩ :: w) (stBoundary before n b) := by
  have hns : ¬ lit "Ssti" <+: (0x42 :: n) := fun e => by have := pre_head e; cases this
  have hnL : ¬ (0x42 :: n).head? = some (0x4C : Wc) := by intro e; cases e
  have hB : Border ⟨before, 0x42 :: n⟩ ↔ (5 ≤ before.length ∧ n.head? = some 0x63) := by
    unfold Border
    have : lit "Bc" <+: (0x42 :: n) ↔ n.head? = some 0x63 := by
      rw [show lit "Bc" = 0x42 :: [0x63] from rfl, List.cons_prefix_cons]
      cases n with
      | nil => simp
      | cons d n => simp [List.cons_prefix_cons, eq_comm]
    show lit "Bc" <+: (0x42 :: n) ∧ 5 ≤ before.length ↔ _
    rw [this]
    exact ⟨fun e => ⟨e.2, e.1⟩, fun e => ⟨e.2, e.1⟩⟩
  have hM : ClassMk ⟨before, 0x42 :: n⟩ ↔ (5 ≤ before.length ∧ n.head? = some 0x63) ∧ afterHyphen before := by
    unfold ClassMk PrefixBorder
    rw [hB]
    constructor
    · rintro (e | e)
      · exact absurd e hnL
      · exact e
    · exact Or.inr
  have hoth : ∀ k, k ≠ .cls → ∀ v, Told out (⟨before, 0x42 :: n⟩ :: w) k v ↔ Told out w k v := by
    intro k hk v
    refine told_skip (c := 0x42) rfl k v ?_
    cases k <;> simp [lettersOf] at hk ⊢
  have hL : ¬ lit "Lnl" <+: (0x42 :: n) := fun e => by have := pre_head e; cases this
  have hS : ∀ v, ¬ Says 0x4C classes ⟨before, 0x42 :: n⟩ v := fun v e => by have := says_letter e; cases this
  -- without a class
  have quiet : (∀ v, ClassIs out (⟨before, 0x42 :: n⟩ :: w) v ↔ ClassIs out w v) → ∀ k v, b.a.getValue k = some v ↔ Told out (⟨before, 0x42 :: n⟩ :: w) k v := by
    intro hcl
    exact told_one (o := none) (k0 := .cls) h (fun x => by split <;> simp) hoth (fun v => by
        rw [Option.or_none, h.told]; exact (hcl v).symm)
  have hskip : ¬ (ClassMk ⟨before, 0x42 :: n⟩ ∧ ∀ x ∈ w, ¬ ClassMk x) → ∀ v, ClassIs out (⟨before, 0x42 :: n⟩ :: w) v ↔ ClassIs out w v := by
    intro hh v
    rw [classIs_cons]
    exact ⟨fun e => e.resolve_right fun x => hh ⟨x.2.1, x.1⟩, Or.inl⟩
  unfold stBoundary
  by_cases hb : 5 ≤ before.length ∧ n.head? = some 0x63
  · rw [if_pos hb]
    have hbc : ∀ b' : Bool, b' = true → (b' = true ↔ ∃ x ∈ (⟨before, 0x42 :: n⟩ : Mk) :: w, Border x) := by
      intro b' e
      rw [e]
      simp only [true_iff]
      exact ⟨_, List.mem_cons_self, hB.2 hb⟩
    by_cases hg : b.classSet = false ∧ b.a.getValue .cls = none ∧ afterHyphen before
    · rw [if_pos hg]
      have hm := hM.2 ⟨hb, hg.2.2⟩
      have hnone : ∀ x ∈ w, ¬ ClassMk x := by
        intro x hx hc
        have := h.cls.2 ⟨x, hx, hc⟩
        rw [hg.1] at this; cases this
      refine ⟨anaOk_addConst h.ok _ _, told_one h (getValue_addConst h.ok _ _) hoth fun v => ?_,
        by simp only [true_iff]; exact ⟨_, List.mem_cons_self, hm⟩, hbc true rfl, fun hw => absurd hm (hw _ List.mem_cons_self)⟩
      rw [hg.2.1, Option.none_or]
      show _ ↔ ClassIs out _ v
      rw [classIs_cons]
      constructor
      · intro e
        cases e
        exact Or.inr ⟨hnone, hm, Or.inr (Or.inr (Or.inr ⟨⟨hB.2 hb, hg.2.2⟩, rfl⟩))⟩
      · rintro (e | ⟨_, _, ⟨e, _⟩ | ⟨e, _⟩ | ⟨_, e⟩ | ⟨_, e⟩⟩)
        · obtain ⟨x, hx, hx2⟩ := classIs_mark e; exact absurd hx2 (hnone x hx)
        · exact absurd e hL
        · exact absurd e hL
        · exact absurd e (hS v)
        · rw [e]
    · rw [if_neg hg]
      have hno : ¬ (ClassMk ⟨before, 0x42 :: n⟩ ∧ ∀ x ∈ w, ¬ ClassMk x) := by
        rintro ⟨e1, e2⟩
        refine hg ⟨?_, (noClass_iff h).2 fun c hc => ?_, (hM.1 e1).2⟩
        · rw [Bool.eq_false_iff]
          intro e
          obtain ⟨x, hx, hx2⟩ := h.cls.1 e
          exact e2 x hx hx2
        · obtain ⟨x, hx, hx2⟩ := classIs_mark hc
          exact e2 x hx hx2
      refine ⟨h.ok, quiet (hskip hno), ?_, hbc true rfl, fun hw => ?_⟩
      · show b.classSet = true ↔ _
        rw [h.cls, mem_cons_iff]
        refine ⟨Or.inr, fun e => ?_⟩
        rcases e with e | e
        · apply Classical.byContradiction
          intro hn
          exact hno ⟨e, fun x hx hx2 => hn ⟨x, hx, hx2⟩⟩
        · exact e
      · show b.convert = true ↔ _
        rw [h.conv fun x hx => hw x (List.mem_cons_of_mem _ hx), mem_cons_iff]
        simp [hns]
  · rw [if_neg hb]
    have hno : ¬ ClassMk ⟨before, 0x42 :: n⟩ := fun e => hb (hM.1 e).1
    have hnb : ¬ Border ⟨before, 0x42 :: n⟩ := fun e => hb (hB.1 e)
    refine ⟨h.ok, quiet (hskip fun e => hno e.1), ?_, ?_, fun hw => ?_⟩
    · rw [h.cls, mem_cons_iff]; simp [hno]
    · rw [h.bc, mem_cons_iff]; simp [hnb]
    · rw [h.conv fun x hx => hw x (List.mem_cons_of_mem _ hx), mem_cons_iff]; simp [hns]

theorem means_case {out : List Wc} {w : List Mk} {b : BState} (h : Means out w b) (before n : List Wc) :
    Means out (⟨before, 0x53 :: n⟩ :: w) (if infl b then
      { b with a := upd b.a .sijamuoto (sijamuotoMap.lookup n), convert := b.convert || (lit "sti").isPrefixOf n } else b) := by
  have hm : ¬ ClassMk ⟨before, 0x53 :: n⟩ := by
    rintro (e | e)
    · cases e
    · have := border_head e.1; cases this
  have hnb : ¬ Border ⟨before, 0x53 :: n⟩ := fun e => by have := border_head e; cases this
  have hoth : ∀ k, k ≠ .sijamuoto → ∀ v, Told out (⟨before, 0x53 :: n⟩ :: w) k v ↔ Told out w k v := by
    intro k hk v
    refine told_skip (c := 0x53) rfl k v ?_
    cases k <;> simp [lettersOf] at hk ⊢
  have hst : lit "Ssti" <+: (0x53 :: n) ↔ (lit "sti").isPrefixOf n = true := isPrefix_cons
  have hnc : (∀ x ∈ (⟨before, 0x53 :: n⟩ : Mk) :: w, ¬ ClassMk x) → ∀ x ∈ w, ¬ ClassMk x := fun hw x hx => hw x (List.mem_cons_of_mem _ hx)
  by_cases hc : infl b
  · rw [if_pos hc]
    refine ⟨anaOk_upd h.ok _ _, told_one h (getValue_upd h.ok .sijamuoto _) hoth (picks_or (h.told .sijamuoto) fun v => ?_), ?_, ?_, fun hw => ?_⟩
    · rw [says_lookup agree_case 0x53 before n v]
      exact ⟨fun e => ⟨(infl_iff h).1 hc, e⟩, fun e => e.2⟩
    · show b.classSet = true ↔ _
      rw [h.cls, mem_cons_iff]; simp [hm]
    · show b.bcPassed = true ↔ _
      rw [h.bc, mem_cons_iff]; simp [hnb]
    · show (b.convert || (lit "sti").isPrefixOf n) = true ↔ _
      rw [mem_cons_iff, hst, Bool.or_eq_true, h.conv (hnc hw)]
      exact Or.comm
  · rw [if_neg hc]
    have hno : ¬ (∀ x ∈ w, ¬ ClassMk x) := by
      intro hw
      apply hc
      rw [infl_iff h]
      intro c hcc
      obtain ⟨x, hx, hx2⟩ := classIs_mark hcc
      exact absurd hx2 (hw x hx)
    refine ⟨h.ok, told_one (o := none) h (fun x => by split <;> simp) hoth (picks_or (h.told .sijamuoto) fun v => ?_), ?_, ?_, fun hw => ?_⟩
    · constructor
      · intro e; cases e
      · intro e; exact absurd ((infl_iff h).2 e.1) hc
    · rw [h.cls, mem_cons_iff]; simp [hm]
    · rw [h.bc, mem_cons_iff]; simp [hnb]
    · exact absurd (hnc hw) hno

theorem means_focus {out : List Wc} {w : List Mk} {b : BState} (h : Means out w b) (before n : List Wc) :
    Means out (⟨before, 0x46 :: n⟩ :: w) (if (lit "ko").isPrefixOf n then { b with a := b.a.addConst .kysymysliite (lit "true") }
      else { b with a := upd b.a .focus (focusMap.lookup n) }) := by
  have hko : lit "Fko" <+: (0x46 :: n) ↔ (lit "ko").isPrefixOf n = true := isPrefix_cons
  by_cases hc : (lit "ko").isPrefixOf n = true
  · rw [if_pos hc]
    refine means_quiet (c := 0x46) h rfl (by decide) (by decide) (by decide) (anaOk_addConst h.ok _ _)
      (told_one h (getValue_addConst h.ok .kysymysliite _) (fun k hk v => ?_) fun v => ?_)
    · by_cases hf : k = .focus
      · subst hf
        refine picks_skip (fun v e => ?_) v
        obtain ⟨k, s, h1, h2, _⟩ := e
        have h2' : n = lit k := (List.cons.inj h2).2
        simp only [focuses, List.mem_cons, List.not_mem_nil, or_false, Prod.mk.injEq] at h1
        rw [h2'] at hc
        rcases h1 with ⟨rfl, _⟩ | ⟨rfl, _⟩ <;> revert hc <;> decide
      · refine told_skip (c := 0x46) rfl k v ?_
        cases k <;> simp [lettersOf] at hk hf ⊢
    · show _ ↔ (∃ x ∈ _, _) ∧ _
      rw [mem_cons_iff]
      have hold := h.told .kysymysliite
      cases ho : b.a.getValue .kysymysliite with
      | none =>
        rw [Option.none_or]
        constructor
        · intro e; cases e; exact ⟨Or.inl (hko.2 hc), rfl⟩
        · rintro ⟨_, e⟩; rw [e]
      | some x =>
        have := (hold x).1 ho
        rw [Option.some_or, this.2]
        constructor
        · intro e; cases e; exact ⟨Or.inl (hko.2 hc), rfl⟩
        · rintro ⟨_, e⟩; rw [e]
  · rw [if_neg hc]
    have := means_simple h before n 0x46 .focus focusMap focuses (fun _ => True) True (by decide) (by decide) (by decide) agree_focus
      (fun _ _ => Iff.rfl) (by simp) (fun k hk v => ?_)
    · rw [if_pos trivial] at this; exact this
    · by_cases hf : k = .kysymysliite
      · subst hf
        show (∃ x ∈ _, _) ∧ _ ↔ _
        rw [mem_cons_iff]
        constructor
        · rintro ⟨e | e, e2⟩
          · exact absurd (hko.1 e) hc
          · exact ⟨e, e2⟩
        · rintro ⟨e, e2⟩; exact ⟨Or.inr e, e2⟩
      · refine told_skip (c := 0x46) rfl k v ?_
        cases k <;> simp [lettersOf] at hk hf ⊢

theorem drop_suffix {out l : List Wc} (h : l.length ≤ out.length) : out.drop (out.length - l.length) = l ↔ l <:+ out := by
  constructor
  · intro e; rw [← e]; exact List.drop_suffix _ _
  · rintro ⟨s, rfl⟩
    rw [List.length_append, Nat.add_sub_cancel, List.drop_left]

theorem suffix4 {out : List Wc} : out.drop (out.length - 4) = lit "[Ln]" ↔ lit "[Ln]" <:+ out := by
  by_cases h : 4 ≤ out.length
  · exact drop_suffix (l := lit "[Ln]") h
  · constructor
    · intro e
      have := congrArg List.length e
      rw [List.length_drop] at this
      have h4 : (lit "[Ln]").length = 4 := rfl
      omega
    · intro e
      have := e.length_le
      have h4 : (lit "[Ln]").length = 4 := rfl
      omega

theorem means_participle {out : List Wc} {w : List Mk} {b : BState} (h : Means out w b) (before n : List Wc) :
    Means out (⟨before, 0x52 :: n⟩ :: w) (stParticiple out n b) := by
  unfold stParticiple
  refine means_simple h before n 0x52 .participle participleMap participles (MayBeParticiple out) _ (by decide) (by decide) (by decide)
    agree_participle (fun _ _ => Iff.rfl) ?_ (fun k hk v => ?_)
  · unfold MayBeParticiple
    rw [class_all h, suffix4]
    have : b.bcPassed = false ↔ ∀ m ∈ w, ¬ Border m := by
      rw [Bool.eq_false_iff, ne_eq, h.bc]
      exact ⟨fun e m hm hb => e ⟨m, hm, hb⟩, fun e ⟨m, hm, hb⟩ => e m hm hb⟩
    rw [this]
    refine and_congr_right fun _ => ?_
    cases b.a.getValue .cls with
    | none => simp
    | some c => simp
  · refine told_skip (c := 0x52) rfl k v ?_
    cases k <;> simp [lettersOf] at hk ⊢

theorem laterIn_false {w : List Mk} : laterIn w = false ↔ ∀ x ∈ w, x.name ≠ lit "Bc" ∧ x.name ≠ lit "Ll" := by
  unfold laterIn
  rw [List.any_eq_false]
  constructor
  · intro h x hx
    have := h x hx
    simpa [not_or] using this
  · intro h x hx
    have := h x hx
    simpa [not_or] using this

theorem means_info {out : List Wc} {w : List Mk} {b : BState} (h : Means out w b) (before n : List Wc) :
    Means out (⟨before, 0x49 :: n⟩ :: w) { b with a := stInfo out w n b.a } := by
  have p1 : ∀ l : List Wc, 0x49 :: l <+: (0x49 :: n) ↔ l.isPrefixOf n = true := fun l => isPrefix_cons
  have pvj : lit "Ivj" <+: (0x49 :: n) ↔ (lit "vj").isPrefixOf n = true := p1 _
  have pca : lit "Ica" <+: (0x49 :: n) ↔ (lit "ca").isPrefixOf n = true := p1 _
  have pra : lit "Ira" <+: (0x49 :: n) ↔ (lit "ra").isPrefixOf n = true := p1 _
  have prm : lit "Irm" <+: (0x49 :: n) ↔ (lit "rm").isPrefixOf n = true := p1 _
  -- two different beginnings
  have excl : ∀ x y x' y' : Wc, ([x, y] ≠ [x', y']) → List.isPrefixOf [x, y] n = true → ¬ List.isPrefixOf [x', y'] n = true := by
    intro x y x' y' hne h1 h2
    obtain ⟨t, rfl⟩ := List.isPrefixOf_iff_prefix.1 h1
    obtain ⟨t', e⟩ := List.isPrefixOf_iff_prefix.1 h2
    exact hne (List.append_inj e rfl).1.symm
  have svj : (¬ (lit "vj").isPrefixOf n = true) → ∀ v, Told out (⟨before, 0x49 :: n⟩ :: w) .vapaaJalkiosa v ↔ Told out w .vapaaJalkiosa v := by
    intro hn v
    show (∃ x ∈ _, _) ∧ _ ↔ _
    rw [mem_cons_iff]
    constructor
    · rintro ⟨e | e, e2⟩
      · exact absurd (pvj.1 e) hn
      · exact ⟨e, e2⟩
    · rintro ⟨e, e2⟩; exact ⟨Or.inr e, e2⟩
  have sca : (¬ ((lit "ca").isPrefixOf n = true ∧ (∀ x ∈ w, x.name ≠ lit "Bc" ∧ x.name ≠ lit "Ll") ∧ ∀ c, ClassIs out w c → lit "nimisana" <+: c)) →
      ∀ v, Told out (⟨before, 0x49 :: n⟩ :: w) .geographical v ↔ Told out w .geographical v := by
    intro hn v
    constructor
    · rintro ⟨⟨u, x, t, e, hx, r⟩, hv⟩
      cases u with
      | nil => cases e; exact absurd ⟨pca.1 hx, r⟩ hn
      | cons y u => cases e; exact ⟨⟨u, x, t, rfl, hx, r⟩, hv⟩
    · rintro ⟨⟨u, x, t, rfl, hx, r⟩, hv⟩; exact ⟨⟨_ :: u, x, t, rfl, hx, r⟩, hv⟩
  have sr : (¬ (lit "ra").isPrefixOf n = true) → (¬ (lit "rm").isPrefixOf n = true) →
      ∀ v, Told out (⟨before, 0x49 :: n⟩ :: w) .requireVerb v ↔ Told out w .requireVerb v := by
    intro h1 h2 v
    refine picks_skip (fun v e => ?_) v
    rcases e with e | e
    · exact h1 (pra.1 e.1)
    · exact h2 (prm.1 e.1)
  have oth : ∀ k, k ≠ .vapaaJalkiosa → k ≠ .geographical → k ≠ .requireVerb → ∀ v, Told out (⟨before, 0x49 :: n⟩ :: w) k v ↔ Told out w k v := by
    intro k h1 h2 h3 v
    refine told_skip (c := 0x49) rfl k v ?_
    cases k <;> simp [lettersOf] at h1 h2 h3 ⊢
  -- nothing changes
  have same : (∀ k v, Told out (⟨before, 0x49 :: n⟩ :: w) k v ↔ Told out w k v) → ∀ k v, b.a.getValue k = some v ↔ Told out (⟨before, 0x49 :: n⟩ :: w) k v :=
    fun e k v => by rw [h.told, e]
  have all : (∀ v, Told out (⟨before, 0x49 :: n⟩ :: w) .vapaaJalkiosa v ↔ Told out w .vapaaJalkiosa v) →
      (∀ v, Told out (⟨before, 0x49 :: n⟩ :: w) .geographical v ↔ Told out w .geographical v) →
      (∀ v, Told out (⟨before, 0x49 :: n⟩ :: w) .requireVerb v ↔ Told out w .requireVerb v) →
      ∀ k v, Told out (⟨before, 0x49 :: n⟩ :: w) k v ↔ Told out w k v := by
    intro h1 h2 h3 k v
    by_cases e1 : k = .vapaaJalkiosa
    · subst e1; exact h1 v
    by_cases e2 : k = .geographical
    · subst e2; exact h2 v
    by_cases e3 : k = .requireVerb
    · subst e3; exact h3 v
    exact oth k e1 e2 e3 v
  have fin : ∀ a', AnaOk a' → (∀ k v, a'.getValue k = some v ↔ Told out (⟨before, 0x49 :: n⟩ :: w) k v) →
      Means out (⟨before, 0x49 :: n⟩ :: w) { b with a := a' } := fun a' h1 h2 =>
    means_quiet (c := 0x49) h rfl (by decide) (by decide) (by decide) h1 h2
  -- a flag that is always the same
  have flag : ∀ (k : AKey) (s : List Wc), (∀ v, Told out w k v → v = s) → (∀ v, Told out (⟨before, 0x49 :: n⟩ :: w) k v ↔ v = s) →
      ∀ v, (b.a.getValue k).or (some s) = some v ↔ Told out (⟨before, 0x49 :: n⟩ :: w) k v := by
    intro k s h1 h2 v
    rw [h2]
    cases ho : b.a.getValue k with
    | none => rw [Option.none_or]; exact ⟨fun e => (Option.some.inj e).symm, fun e => by rw [e]⟩
    | some x =>
      have := h1 x ((h.told k x).1 ho)
      subst this
      rw [Option.some_or]; exact ⟨fun e => (Option.some.inj e).symm, fun e => by rw [e]⟩
  unfold stInfo
  by_cases hvj : (lit "vj").isPrefixOf n = true
  · have nca := excl 0x76 0x6A 0x63 0x61 (by decide) hvj
    have nra := excl 0x76 0x6A 0x72 0x61 (by decide) hvj
    have nrm := excl 0x76 0x6A 0x72 0x6D (by decide) hvj
    rw [if_pos hvj]
    by_cases hh : out.head? ≠ some 0x2D
    · rw [if_pos hh]
      refine fin _ (anaOk_addConst h.ok _ _) (told_one h (getValue_addConst h.ok .vapaaJalkiosa _) (fun k hk v => ?_)
        (flag _ _ (fun v e => e.2.2) fun v => ⟨fun e => e.2.2, fun e => ⟨⟨_, List.mem_cons_self, pvj.2 hvj⟩, hh, e⟩⟩))
      by_cases e2 : k = .geographical
      · subst e2; exact sca (fun e => nca e.1) v
      by_cases e3 : k = .requireVerb
      · subst e3; exact sr nra nrm v
      exact oth k hk e2 e3 v
    · rw [if_neg hh]
      refine fin _ h.ok (same (all (fun v => ?_) (sca fun e => nca e.1) (sr nra nrm)))
      exact ⟨fun e => absurd e.2.1 hh, fun e => absurd e.2.1 hh⟩
  · rw [if_neg hvj]
    by_cases hca : (lit "ca").isPrefixOf n = true
    · have nra := excl 0x63 0x61 0x72 0x61 (by decide) hca
      have nrm := excl 0x63 0x61 0x72 0x6D (by decide) hca
      rw [if_pos hca]
      have hiff : (laterIn w = false ∧ (b.a.getValue .cls = none ∨ (lit "nimisana").isPrefixOf ((b.a.getValue .cls).getD []) = true)) ↔
          ((∀ x ∈ w, x.name ≠ lit "Bc" ∧ x.name ≠ lit "Ll") ∧ ∀ c, ClassIs out w c → lit "nimisana" <+: c) := by
        rw [laterIn_false, class_all h]
        refine and_congr_right fun _ => ?_
        cases b.a.getValue .cls with
        | none => simp
        | some c => simp [List.isPrefixOf_iff_prefix]
      by_cases hh : laterIn w = false ∧ (b.a.getValue .cls = none ∨ (lit "nimisana").isPrefixOf ((b.a.getValue .cls).getD []) = true)
      · rw [if_pos hh]
        have hh' := hiff.1 hh
        refine fin _ (anaOk_addConst h.ok _ _) (told_one h (getValue_addConst h.ok .geographical _) (fun k hk v => ?_)
          (flag _ _ (fun v e => e.2) fun v => ⟨fun e => e.2, fun e => ⟨⟨[], _, w, rfl, pca.2 hca, hh'⟩, e⟩⟩))
        by_cases e2 : k = .vapaaJalkiosa
        · subst e2; exact svj hvj v
        by_cases e3 : k = .requireVerb
        · subst e3; exact sr nra nrm v
        exact oth k e2 hk e3 v
      · rw [if_neg hh]
        exact fin _ h.ok (same (all (svj hvj) (sca fun e => hh (hiff.2 e.2)) (sr nra nrm)))
    · rw [if_neg hca]
      have hoth : ∀ k, k ≠ .requireVerb → ∀ v, Told out (⟨before, 0x49 :: n⟩ :: w) k v ↔ Told out w k v := by
        intro k hk v
        by_cases e2 : k = .vapaaJalkiosa
        · subst e2; exact svj hvj v
        by_cases e3 : k = .geographical
        · subst e3; exact sca (fun e => hca e.1) v
        exact oth k e2 e3 hk v
      have hform : verbForm b.a ↔ VerbForm out w := by
        unfold verbForm VerbForm
        rw [class_all h]
        have hmood : (∀ v, MoodIs out w v → ¬ NounInfinitive v) ↔ (b.a.getValue .mood ≠ some (lit "E-infinitive")
            ∧ b.a.getValue .mood ≠ some (lit "MINEN-infinitive") ∧ b.a.getValue .mood ≠ some (lit "MA-infinitive")) := by
          have ht : ∀ v, MoodIs out w v ↔ b.a.getValue .mood = some v := fun v => (h.told .mood v).symm
          constructor
          · intro e
            exact ⟨fun x => e _ ((ht _).2 x) (Or.inl rfl), fun x => e _ ((ht _).2 x) (Or.inr (Or.inl rfl)), fun x => e _ ((ht _).2 x) (Or.inr (Or.inr rfl))⟩
          · rintro ⟨a1, a2, a3⟩ v hv (e | e | e)
            · rw [e] at hv; exact a1 ((ht _).1 hv)
            · rw [e] at hv; exact a2 ((ht _).1 hv)
            · rw [e] at hv; exact a3 ((ht _).1 hv)
        rw [hmood]
        cases b.a.getValue .cls with
        | none => simp
        | some c => simp [and_comm]
      by_cases hf : verbForm b.a
      · rw [if_pos hf]
        have key : ∀ s, (∀ v, some s = some v ↔ VerbSays ⟨before, 0x49 :: n⟩ v) →
            Means out (⟨before, 0x49 :: n⟩ :: w) { b with a := b.a.addConst .requireVerb s } := by
          intro s hs
          refine fin _ (anaOk_addConst h.ok _ _) (told_one h (getValue_addConst h.ok .requireVerb _) hoth
            (picks_or (h.told .requireVerb) fun v => ?_))
          rw [hs]
          exact ⟨fun e => ⟨hform.1 hf, e⟩, fun e => e.2⟩
        by_cases hra : (lit "ra").isPrefixOf n = true
        · have nrm := excl 0x72 0x61 0x72 0x6D (by decide) hra
          rw [if_pos hra]
          refine key _ fun v => ⟨fun e => ?_, fun e => ?_⟩
          · cases e; exact Or.inl ⟨pra.2 hra, rfl⟩
          · rcases e with e | e
            · rw [e.2]
            · exact absurd (prm.1 e.1) nrm
        · rw [if_neg hra]
          by_cases hrm : (lit "rm").isPrefixOf n = true
          · rw [if_pos hrm]
            refine key _ fun v => ⟨fun e => ?_, fun e => ?_⟩
            · cases e; exact Or.inr ⟨prm.2 hrm, rfl⟩
            · rcases e with e | e
              · exact absurd (pra.1 e.1) hra
              · rw [e.2]
          · rw [if_neg hrm]
            exact fin _ h.ok (same (all (hoth _ (by decide)) (hoth _ (by decide)) (sr hra hrm)))
      · rw [if_neg hf]
        refine fin _ h.ok (told_one (o := none) h (fun x => by split <;> simp) hoth (picks_or (h.told .requireVerb) fun v => ?_))
        constructor
        · intro e; cases e
        · intro e; exact absurd (hform.2 e.1) hf

theorem means_step {out : List Wc} {w : List Mk} {b : BState} (h : Means out w b) (m : Mk) (hne : m.name ≠ []) :
    Means out (m :: w) (mkStep out w m b) := by
  obtain ⟨before, name⟩ := m
  cases name with
  | nil => exact absurd rfl hne
  | cons c n =>
    have hoth : ∀ (k0 : AKey), (∀ k, k ≠ k0 → c ∉ lettersOf k) → ∀ k, k ≠ k0 → ∀ v, Told out (⟨before, c :: n⟩ :: w) k v ↔ Told out w k v :=
      fun k0 hl k hk v => told_skip (c := c) rfl k v (hl k hk)
    unfold mkStep
    simp only
    by_cases h0 : c = 0x4C
    · subst h0; rw [if_pos rfl]; exact means_class h before n
    rw [if_neg h0]
    by_cases h1 : c = 0x4E
    · subst h1; rw [if_pos rfl]
      exact means_simple h before n _ .number numberMap numbers _ _ (by decide) (by decide) (by decide) agree_number (fun _ _ => Iff.rfl)
        (infl_iff h) (hoth _ fun k hk => by cases k <;> simp [lettersOf] at hk ⊢)
    rw [if_neg h1]
    have plain : ∀ (k0 : AKey) (mp : TagMap) (table : List (String × String)), c ≠ 0x42 → c ≠ 0x53 → Agree mp table →
        (∀ w v, Told out w k0 v ↔ Picks w (Says c table) (fun _ => True) v) → (∀ k, k ≠ k0 → c ∉ lettersOf k) →
        Means out (⟨before, c :: n⟩ :: w) { b with a := upd b.a k0 (mp.lookup n) } := by
      intro k0 mp table e1 e2 e3 e4 e5
      have := means_simple h before n c k0 mp table (fun _ => True) True h0 e1 e2 e3 e4 (by simp) (hoth k0 e5)
      rw [if_pos trivial] at this
      exact this
    by_cases h2 : c = 0x50
    · subst h2; rw [if_pos rfl]
      exact plain .person _ _ (by decide) (by decide) agree_person (fun _ _ => Iff.rfl) (fun k hk => by cases k <;> simp [lettersOf] at hk ⊢)
    rw [if_neg h2]
    by_cases h3 : c = 0x53
    · subst h3; rw [if_pos rfl]; exact means_case h before n
    rw [if_neg h3]
    by_cases h4 : c = 0x54
    · subst h4; rw [if_pos rfl]
      exact means_simple h before n _ .mood moodMap moods _ _ (by decide) (by decide) (by decide) agree_mood (fun _ _ => Iff.rfl)
        (noClass_iff h) (hoth _ fun k hk => by cases k <;> simp [lettersOf] at hk ⊢)
    rw [if_neg h4]
    by_cases h5 : c = 0x41
    · subst h5; rw [if_pos rfl]
      exact plain .tense _ _ (by decide) (by decide) agree_tense (fun _ _ => Iff.rfl) (fun k hk => by cases k <;> simp [lettersOf] at hk ⊢)
    rw [if_neg h5]
    by_cases h6 : c = 0x46
    · subst h6; rw [if_pos rfl]; exact means_focus h before n
    rw [if_neg h6]
    by_cases h7 : c = 0x4F
    · subst h7; rw [if_pos rfl]
      exact plain .possessive _ _ (by decide) (by decide) agree_possessive (fun _ _ => Iff.rfl) (fun k hk => by cases k <;> simp [lettersOf] at hk ⊢)
    rw [if_neg h7]
    by_cases h8 : c = 0x43
    · subst h8; rw [if_pos rfl]
      exact means_simple h before n _ .comparison comparisonMap comparisons _ _ (by decide) (by decide) (by decide) agree_comparison (fun _ _ => Iff.rfl)
        (noClass_iff h) (hoth _ fun k hk => by cases k <;> simp [lettersOf] at hk ⊢)
    rw [if_neg h8]
    by_cases h9 : c = 0x45
    · subst h9; rw [if_pos rfl]
      exact plain .negative _ _ (by decide) (by decide) agree_negative (fun _ _ => Iff.rfl) (fun k hk => by cases k <;> simp [lettersOf] at hk ⊢)
    rw [if_neg h9]
    by_cases h10 : c = 0x52
    · subst h10; rw [if_pos rfl]; exact means_participle h before n
    rw [if_neg h10]
    by_cases h11 : c = 0x49
    · subst h11; rw [if_pos rfl]; exact means_info h before n
    rw [if_neg h11]
    by_cases h12 : c = 0x42
    · subst h12; rw [if_pos rfl]; exact means_boundary h before n
    rw [if_neg h12]
    have : b = { b with a := b.a } := rfl
    rw [this]
    refine means_quiet (c := c) h rfl h0 h12 h3 h.ok fun k v => ?_
    rw [h.told]
    refine (told_skip (c := c) rfl k v ?_).symm
    cases k <;> simp [lettersOf, *]

theorem means_state (out : List Wc) : ∀ w : List Mk, (∀ m ∈ w, m.name ≠ []) → Means out w (stateOf out w) := by
  intro w
  induction w with
  | nil =>
    intro _
    refine ⟨anaOk_empty, fun k v => ⟨fun e => (by cases e), fun e => ?_⟩, by simp [stateOf], by simp [stateOf], by simp [stateOf]⟩
    cases k with
    | cls => exact absurd e classIs_nil
    | comparison => exact absurd e picks_nil
    | focus => exact absurd e picks_nil
    | mood => exact absurd e picks_nil
    | negative => exact absurd e picks_nil
    | number => exact absurd e picks_nil
    | participle => exact absurd e picks_nil
    | person => exact absurd e picks_nil
    | possessive => exact absurd e picks_nil
    | requireVerb => exact absurd e picks_nil
    | sijamuoto => exact absurd e picks_nil
    | tense => exact absurd e picks_nil
    | kysymysliite => obtain ⟨⟨x, hx, _⟩, _⟩ := e; cases hx
    | vapaaJalkiosa => obtain ⟨⟨x, hx, _⟩, _⟩ := e; cases hx
    | geographical =>
      obtain ⟨⟨u, m, t, e, _⟩, _⟩ := e
      cases u <;> cases e
    | baseform => exact e.elim
    | fstoutput => exact e.elim
    | structure_ => exact e.elim
    | weight => exact e.elim
    | wordbases => exact e.elim
    | wordids => exact e.elim
  | cons m w ih =>
    intro h
    exact means_step (ih fun x hx => h x (List.mem_cons_of_mem _ hx)) m (h m List.mem_cons_self)

end Verif.Attrs
