import Verif.Lemmas.FinnishGrammatical
/-!
# From the tags to the analyses (for C79)
-/

set_option linter.unusedSimpArgs false
set_option linter.unusedVariables false

namespace Verif.Attrs
open Verif
open Verif.Validity (drop_pre)

/-! ### The corrections -/

def adjCls (g : AKey → Option (List Wc)) : Option (List Wc) :=
  if g .participle = some (lit "past_passive") then some (lit "laatusana") else g .cls

/-- The values after the corrections. -/
def adjusted (g : AKey → Option (List Wc)) : AKey → Option (List Wc)
  | .negative =>
    if ((g .cls).isSome ∧ g .cls ≠ some (lit "teonsana")) ∨ g .mood = some (lit "MINEN-infinitive") ∨ g .mood = some (lit "E-infinitive")
        ∨ g .mood = some (lit "MA-infinitive") then none else g .negative
  | .cls => adjCls g
  | .number => if g .sijamuoto = some (lit "kerrontosti") then none else g .number
  | .comparison =>
    if g .comparison = none then
      if adjCls g = some (lit "laatusana") ∨ adjCls g = some (lit "nimisana_laatusana") then some (lit "positive") else none
    else if adjCls g = some (lit "nimisana") then none else g .comparison
  | k => g k

theorem removeIf {a : Ana} (h : AnaOk a) (k : AKey) (c : Prop) [Decidable c] :
    Ok (if (a.getValue k).isSome ∧ c then a.remove k else some a : UB Ana)
      (fun b => AnaOk b ∧ ∀ x, b.getValue x = if x = k ∧ c then none else a.getValue x) := by
  by_cases hc : (a.getValue k).isSome ∧ c
  · rw [if_pos hc]
    obtain ⟨b, h1, h2, h3⟩ := remove_spec h k
    refine ⟨b, h1, h2, fun x => ?_⟩
    rw [h3]
    by_cases hx : x = k
    · rw [if_pos hx, if_pos ⟨hx, hc.2⟩]
    · rw [if_neg hx, if_neg (fun e => hx e.1)]
  · rw [if_neg hc]
    refine okSome ⟨h, fun x => ?_⟩
    by_cases hx : x = k ∧ c
    · rw [if_pos hx]
      obtain ⟨rfl, hcc⟩ := hx
      have hn : (a.getValue x).isSome ≠ true := fun e => hc ⟨e, hcc⟩
      simpa using hn
    · rw [if_neg hx]

theorem adjustAttributes_spec {a : Ana} (h : AnaOk a) :
    Ok (adjustAttributes a) (fun b => AnaOk b ∧ ∀ x, b.getValue x = adjusted a.getValue x) := by
  rw [adjustAttributes]
  simp only
  refine okBind (removeIf h .negative _) fun b hb => ?_
  obtain ⟨hb, vb⟩ := hb
  refine okBind (P := fun r => AnaOk r.1 ∧ r.2 = adjCls a.getValue ∧ ∀ x, r.1.getValue x = if x = .cls then adjCls a.getValue else b.getValue x) ?_ fun r hr => ?_
  · have hno : ∀ p : Option (List Wc), p = some (lit "past_passive") → p ≠ some (lit "laatusana") := by
      intro p e e2
      rw [e] at e2
      exact absurd e2 (by decide)
    have e1 : (a.getValue .participle = some (lit "past_passive") ∧ (a.getValue .cls = none ∨ a.getValue .participle ≠ some (lit "laatusana")))
        ↔ a.getValue .participle = some (lit "past_passive") := ⟨fun e => e.1, fun e => ⟨e, Or.inr (hno _ e)⟩⟩
    refine okIte (fun hc => ?_) fun hc => ?_
    · have hp := e1.1 hc
      have ec : adjCls a.getValue = some (lit "laatusana") := by unfold adjCls; rw [if_pos hp]
      obtain ⟨c, h1, h2, h3⟩ := remove_spec hb .cls
      rw [h1]
      refine okPure ⟨anaOk_addConst h2 _ _, ec.symm, fun x => ?_⟩
      show (c.addConst .cls (lit "laatusana")).getValue x = _
      rw [getValue_addConst h2, ec]
      by_cases hx : x = .cls
      · rw [if_pos hx, if_pos hx, h3, if_pos hx]; rfl
      · rw [if_neg hx, if_neg hx, h3, if_neg hx]
    · have hp : ¬ a.getValue .participle = some (lit "past_passive") := fun e => hc (e1.2 e)
      have ec : adjCls a.getValue = a.getValue .cls := by unfold adjCls; rw [if_neg hp]
      refine okSome ⟨hb, ec.symm, fun x => ?_⟩
      by_cases hx : x = .cls
      · rw [if_pos hx, hx, ec, vb, if_neg (fun e => by cases e.1)]
      · rw [if_neg hx]
  · obtain ⟨c, w⟩ := r
    obtain ⟨hc, rfl, vc⟩ := hr
    simp only at hc vc ⊢
    refine okBind (removeIf hc .number _) fun d hd => ?_
    obtain ⟨hd, vd⟩ := hd
    have vcomp : d.getValue .comparison = a.getValue .comparison := by
      rw [vd, if_neg (fun e => by cases e.1), vc, if_neg (by decide), vb, if_neg (fun e => by cases e.1)]
    -- all but the comparison
    have hoth : ∀ x, x ≠ .comparison → d.getValue x = adjusted a.getValue x := by
      intro x hx
      rw [vd, vc, vb]
      by_cases e1 : x = .number
      · subst e1
        rw [if_neg (show ¬ (AKey.number = .cls) by decide), if_neg (show ¬ (AKey.number = .negative ∧ _) from fun e => by cases e.1)]
        show _ = if _ then none else _
        by_cases hk : a.getValue .sijamuoto = some (lit "kerrontosti")
        · rw [if_pos ⟨rfl, hk⟩, if_pos hk]
        · rw [if_neg (fun e => hk e.2), if_neg hk]
      · rw [if_neg (fun e => e1 e.1)]
        by_cases e2 : x = .cls
        · subst e2; rw [if_pos rfl]; rfl
        · rw [if_neg e2]
          by_cases e3 : x = .negative
          · subst e3
            show _ = if _ then none else _
            split
            · rename_i hh; rw [if_pos hh.2]
            · rename_i hh; rw [if_neg (fun e => hh ⟨rfl, e⟩)]
          · rw [if_neg (fun e => e3 e.1)]
            cases x <;> first | rfl | contradiction
    have vcomp2 : adjusted a.getValue .comparison = if a.getValue .comparison = none then
      (if adjCls a.getValue = some (lit "laatusana") ∨ adjCls a.getValue = some (lit "nimisana_laatusana") then some (lit "positive") else none)
      else if adjCls a.getValue = some (lit "nimisana") then none else a.getValue .comparison := rfl
    rw [vcomp]
    refine okIte (fun hn => ?_) fun hn => ?_
    · rw [if_pos hn] at vcomp2
      refine okIte (fun hp => okPure ⟨anaOk_addConst hd _ _, fun x => ?_⟩) fun hp => okPure ⟨hd, fun x => ?_⟩
      · rw [getValue_addConst hd]
        by_cases hx : x = .comparison
        · rw [if_pos hx, hx, vcomp, hn, vcomp2, if_pos hp]; rfl
        · rw [if_neg hx, hoth x hx]
      · by_cases hx : x = .comparison
        · rw [hx, vcomp, hn, vcomp2, if_neg hp]
        · exact hoth x hx
    · rw [if_neg hn] at vcomp2
      refine okIte (fun hp => ?_) fun hp => okPure ⟨hd, fun x => ?_⟩
      · obtain ⟨e, h1, h2, h3⟩ := remove_spec hd .comparison
        refine ⟨e, h1, h2, fun x => ?_⟩
        rw [h3]
        by_cases hx : x = .comparison
        · rw [if_pos hx, hx, vcomp2, if_pos hp]
        · rw [if_neg hx, hoth x hx]
      · by_cases hx : x = .comparison
        · rw [hx, vcomp, vcomp2, if_neg hp]
        · exact hoth x hx

/-- The corrections as in the specification. -/
theorem adjusted_attribute {its : List SItem} {g : AKey → Option (List Wc)} (h : ∀ k ∈ grammatical, ∀ v, g k = some v ↔ Told (render its) (tags its) k v)
    (k : AKey) (hk : k ∈ grammatical) (v : List Wc) : adjusted g k = some v ↔ Attribute its k v := by
  have hcls : ∀ v, adjCls g = some v ↔ FinalClass (render its) (tags its) v := by
    intro v
    unfold adjCls FinalClass
    rw [← h .participle (by decide)]
    by_cases hp : g .participle = some (lit "past_passive")
    · rw [if_pos hp]
      constructor
      · intro e; cases e; exact Or.inl ⟨hp, rfl⟩
      · rintro (⟨_, e⟩ | ⟨e, _⟩)
        · rw [e]
        · exact absurd hp e
    · rw [if_neg hp, h .cls (by decide)]
      constructor
      · intro e; exact Or.inr ⟨hp, e⟩
      · rintro (⟨e, _⟩ | ⟨_, e⟩)
        · exact absurd e hp
        · exact e
  cases k with
  | cls => exact hcls v
  | negative =>
    have h1 : ((g .cls).isSome ∧ g .cls ≠ some (lit "teonsana")) ↔ ¬ ∀ c, ClassIs (render its) (tags its) c → c = lit "teonsana" := by
      constructor
      · rintro ⟨e1, e2⟩ hall
        obtain ⟨c, hc⟩ := Option.isSome_iff_exists.1 e1
        rw [hc] at e2
        exact e2 (by rw [hall c ((h .cls (by decide) c).1 hc)])
      · intro hn
        apply Classical.byContradiction
        intro hh
        apply hn
        intro c hc
        have hg := (h .cls (by decide) c).2 hc
        apply Classical.byContradiction
        intro hne
        exact hh ⟨by rw [hg]; rfl, by rw [hg]; intro e; exact hne (Option.some.inj e)⟩
    have h2 : (g .mood = some (lit "MINEN-infinitive") ∨ g .mood = some (lit "E-infinitive") ∨ g .mood = some (lit "MA-infinitive"))
        ↔ ¬ ∀ x, MoodIs (render its) (tags its) x → ¬ NounInfinitive x := by
      have hm : ∀ v, g .mood = some v ↔ MoodIs (render its) (tags its) v := fun v => h .mood (by decide) v
      constructor
      · rintro (e | e | e) hall
        · exact hall _ ((hm _).1 e) (Or.inr (Or.inl rfl))
        · exact hall _ ((hm _).1 e) (Or.inl rfl)
        · exact hall _ ((hm _).1 e) (Or.inr (Or.inr rfl))
      · intro hn
        apply Classical.byContradiction
        intro hh
        apply hn
        rintro x hx (e | e | e)
        · exact hh (Or.inr (Or.inl (by rw [← e]; exact (hm _).2 hx)))
        · exact hh (Or.inl (by rw [← e]; exact (hm _).2 hx))
        · exact hh (Or.inr (Or.inr (by rw [← e]; exact (hm _).2 hx)))
    show (if _ then none else _) = some v ↔ Told _ _ .negative v ∧ _ ∧ _
    rw [← h .negative (by decide)]
    split
    · rename_i hc
      constructor
      · intro e; cases e
      · rintro ⟨_, e1, e2⟩
        rcases hc with hc | hc
        · exact absurd e1 (h1.1 hc)
        · exact absurd e2 (h2.1 hc)
    · rename_i hc
      rw [not_or] at hc
      constructor
      · intro e
        exact ⟨e, Classical.byContradiction fun x => hc.1 (h1.2 x), Classical.byContradiction fun x => hc.2 (h2.2 x)⟩
      · intro e; exact e.1
  | number =>
    show (if _ then none else _) = some v ↔ Told _ _ .number v ∧ ¬ Told _ _ .sijamuoto _
    rw [← h .number (by decide), ← h .sijamuoto (by decide)]
    split
    · rename_i hc
      exact ⟨(fun e => by cases e), fun e => absurd hc e.2⟩
    · rename_i hc
      exact ⟨fun e => ⟨e, hc⟩, fun e => e.1⟩
  | comparison =>
    show (if _ then (if _ then _ else none) else (if _ then none else _)) = some v ↔ (Told _ _ .comparison v ∧ ¬ FinalClass _ _ _) ∨
      ((∀ x, ¬ Told _ _ .comparison x) ∧ _ ∧ (FinalClass _ _ _ ∨ FinalClass _ _ _))
    have hc : ∀ v, Told (render its) (tags its) .comparison v ↔ g .comparison = some v := fun v => (h .comparison (by decide) v).symm
    simp only [hc, ← hcls]
    cases hg : g .comparison with
    | none =>
      rw [if_pos rfl]
      split
      · rename_i hh
        constructor
        · intro e; cases e; exact Or.inr ⟨by simp, rfl, hh⟩
        · rintro (⟨e, _⟩ | ⟨_, e, _⟩)
          · cases e
          · rw [e]
      · rename_i hh
        constructor
        · intro e; cases e
        · rintro (⟨e, _⟩ | ⟨_, _, e⟩)
          · cases e
          · exact absurd e hh
    | some x =>
      rw [if_neg (by simp)]
      split
      · rename_i hh
        constructor
        · intro e; cases e
        · rintro (⟨_, e⟩ | ⟨e, _⟩)
          · exact absurd hh e
          · exact absurd rfl (e x)
      · rename_i hh
        constructor
        · intro e; exact Or.inl ⟨e, hh⟩
        · rintro (⟨e, _⟩ | ⟨e, _⟩)
          · exact e
          · exact absurd rfl (e x)
  | focus => exact h .focus hk v
  | kysymysliite => exact h .kysymysliite hk v
  | vapaaJalkiosa => exact h .vapaaJalkiosa hk v
  | mood => exact h .mood hk v
  | participle => exact h .participle hk v
  | person => exact h .person hk v
  | possessive => exact h .possessive hk v
  | geographical => exact h .geographical hk v
  | requireVerb => exact h .requireVerb hk v
  | sijamuoto => exact h .sijamuoto hk v
  | tense => exact h .tense hk v
  | baseform => exact absurd hk (by decide)
  | fstoutput => exact absurd hk (by decide)
  | structure_ => exact absurd hk (by decide)
  | weight => exact absurd hk (by decide)
  | wordbases => exact absurd hk (by decide)
  | wordids => exact absurd hk (by decide)

theorem value_name (a : Ana) {k : AKey} (hk : k ∈ grammatical) : analysisValue a (attributeName k) = a.getValue k := by
  have h : stringToKey.lookup (attributeName k) = some k := by
    revert hk; cases k <;> decide
  simp only [analysisValue, Ana.getValueS, h]

theorem reads_iff {its : List SItem} {a : Ana} : Reads its a ↔ ∀ k ∈ grammatical, ∀ v, a.getValue k = some v ↔ Attribute its k v :=
  ⟨fun h k hk v => by rw [← value_name a hk]; exact h k hk v, fun h k hk v => by rw [value_name a hk]; exact h k hk v⟩

/-! ### Tags by their places -/

theorem prefix_inside {q : List Wc} (hne : q ≠ []) {l : List Wc} {i : Nat} (h : (0x5B :: (q ++ [0x5D])).isPrefixOf (l.drop i) = true) :
    l[i]? = some 0x5B ∧ l[i + 1]? = q.head? := by
  obtain ⟨t, ht⟩ := List.isPrefixOf_iff_prefix.1 h
  obtain ⟨d, q, rfl⟩ : ∃ d r, q = d :: r := by cases q with | nil => exact absurd rfl hne | cons d r => exact ⟨d, r, rfl⟩
  have h0 : (l.drop i)[0]? = some 0x5B := by rw [← ht]; rfl
  have h1 : (l.drop i)[1]? = some d := by rw [← ht]; rfl
  rw [List.getElem?_drop] at h0 h1
  exact ⟨by simpa using h0, h1⟩

theorem tag_at {q : List Wc} (hq : 0x5D ∉ q) (hq1 : 0x5B ∉ q) (hx : q.head? ≠ some 0x58) (hne : q ≠ []) : ∀ (its : List SItem) (pre : List Wc) (i : Nat), Tidy its →
    ((0x5B :: (q ++ [0x5D])).isPrefixOf ((render its).drop i) = true ↔ ∃ x ∈ tagsFrom pre its, x.before.length = pre.length + i ∧ x.name = q) := by
  intro its
  induction its with
  | nil =>
    intro pre i _
    constructor
    · intro h
      have := (prefix_inside hne h).1
      simp [render] at this
    · rintro ⟨x, hx, _⟩; cases hx
  | cons y its ih =>
    intro pre i ht
    have hy : TidyItem y := ht y List.mem_cons_self
    have ht' : Tidy its := fun z hz => ht z (List.mem_cons_of_mem _ hz)
    by_cases hi : y.render.length ≤ i
    · -- behind this item
      have e : (render (y :: its)).drop i = (render its).drop (i - y.render.length) := by
        rw [render, List.drop_append, List.drop_eq_nil_of_le hi, List.nil_append]
      rw [e, ih (pre ++ y.render) _ ht', tagsFrom]
      have e2 : (pre ++ y.render).length + (i - y.render.length) = pre.length + i := by simp; omega
      rw [e2]
      constructor
      · rintro ⟨x, hx, h⟩; exact ⟨x, List.mem_append_right _ hx, h⟩
      · rintro ⟨x, hx, h⟩
        rcases List.mem_append.1 hx with hx | hx
        · cases hn : nameOf y with
          | none => rw [hn] at hx; cases hx
          | some n =>
            rw [hn] at hx
            have : x = ⟨pre, n⟩ := by simpa using hx
            rw [this] at h
            have hl : 1 ≤ y.render.length := by cases y <;> simp [SItem.render]
            have : pre.length = pre.length + i := h.1
            omega
        · exact ⟨x, hx, h⟩
    · have hi : i < y.render.length := by omega
      -- the tags of the items behind begin later
      have later : ∀ (l : List SItem) (p : List Wc), ∀ x ∈ tagsFrom p l, p.length ≤ x.before.length := by
        intro l
        induction l with
        | nil => intro p x hx; cases hx
        | cons z l ih2 =>
          intro p x hx
          rw [tagsFrom] at hx
          rcases List.mem_append.1 hx with hx | hx
          · cases hn : nameOf z with
            | none => rw [hn] at hx; cases hx
            | some n =>
              rw [hn] at hx
              have : x = ⟨p, n⟩ := by simpa using hx
              rw [this]; exact Nat.le_refl _
          · have := ih2 _ x hx
            simp at this; omega
      have front : (∃ x ∈ tagsFrom pre (y :: its), x.before.length = pre.length + i ∧ x.name = q) ↔ i = 0 ∧ nameOf y = some q := by
        rw [tagsFrom]
        constructor
        · rintro ⟨x, hx, h1, h2⟩
          rcases List.mem_append.1 hx with hx | hx
          · cases hn : nameOf y with
            | none => rw [hn] at hx; cases hx
            | some n =>
              rw [hn] at hx
              have : x = ⟨pre, n⟩ := by simpa using hx
              rw [this] at h1 h2
              have h1' : pre.length = pre.length + i := h1
              exact ⟨by omega, by rw [show n = q from h2]⟩
          · have := later _ _ x hx
            simp at this; omega
        · rintro ⟨rfl, hn⟩
          rw [hn]
          exact ⟨⟨pre, q⟩, by simp, rfl, rfl⟩
      rw [front]
      have inside : ∀ j, j < y.render.length → (render (y :: its))[j]? = y.render[j]? := by
        intro j hj; rw [render, List.getElem?_append_left hj]
      cases hn : nameOf y with
      | some n =>
        obtain ⟨n1, n2, n3, n4⟩ := tidy_name hy hn
        constructor
        · intro h
          have hb := (prefix_inside hne h).1
          rw [inside i hi, n4] at hb
          have hi0 : i = 0 := by
            cases i with
            | zero => rfl
            | succ i =>
              exfalso
              rw [List.getElem?_cons_succ] at hb
              have := List.mem_of_getElem? hb
              rcases List.mem_append.1 this with h | h
              · exact n2 h
              · revert h; decide
          subst hi0
          refine ⟨rfl, ?_⟩
          rw [List.drop_zero, render, n4] at h
          have e : (0x5B :: (n ++ [0x5D]) ++ render its) = 0x5B :: (n ++ 0x5D :: render its) := by simp
          rw [e, List.isPrefixOf, prefix_name hq n _ n3] at h
          have : n = q := by simpa using h
          rw [this]
        · rintro ⟨rfl, h⟩
          cases h
          rw [List.drop_zero, render, n4]
          have e : (0x5B :: (q ++ [0x5D]) ++ render its) = 0x5B :: (q ++ 0x5D :: render its) := by simp
          rw [e, List.isPrefixOf, prefix_name hq q _ n3]
          simp
      | none =>
        constructor
        · intro h
          exfalso
          obtain ⟨h1, h2⟩ := prefix_inside hne h
          rw [inside i hi] at h1
          have sec : ∀ c b, y.render = 0x5B :: 0x58 :: c :: 0x5D :: (b ++ [0x5B, 0x58, 0x5D]) → c ≠ 0x5B → 0x5B ∉ b → False := by
            intro c b e hc hb
            have key : i + 1 < y.render.length ∧ y.render[i + 1]? = some 0x58 := by
              rw [e] at h1 hi ⊢
              match i, h1, hi with
              | 0, _, _ => exact ⟨by simp, rfl⟩
              | 1, h1, _ => cases h1
              | 2, h1, _ => cases h1; exact absurd rfl hc
              | 3, h1, _ => cases h1
              | i + 4, h1, hi =>
                have h1' : (b ++ [0x5B, 0x58, 0x5D])[i]? = some 0x5B := h1
                by_cases hib : i < b.length
                · rw [List.getElem?_append_left hib] at h1'
                  exact absurd (List.mem_of_getElem? h1') hb
                · have hi' : i < b.length + 3 := by simp at hi; omega
                  rw [List.getElem?_append_right (by omega)] at h1'
                  have : i - b.length = 0 := by
                    have hh : i - b.length < 3 := by omega
                    match hk : i - b.length, hh with
                    | 0, _ => rfl
                    | 1, _ => rw [hk] at h1'; cases h1'
                    | 2, _ => rw [hk] at h1'; cases h1'
                  have hie : i = b.length := by omega
                  subst hie
                  refine ⟨by simp, ?_⟩
                  show (b ++ [0x5B, 0x58, 0x5D])[b.length + 1]? = _
                  rw [List.getElem?_append_right (by omega)]
                  simp
            rw [inside (i + 1) key.1, key.2] at h2
            exact hx h2.symm
          cases y with
          | sect c b => exact sec c b rfl hy.1 hy.2
          | pat b => exact sec 0x72 b rfl (by decide) hy
          | chr c =>
            have : i = 0 := by simp [SItem.render] at hi; omega
            subst this
            cases h1
            exact hy.1 rfl
          | cls c => cases hn
          | cls2 c d => cases hn
          | tag n => cases hn
          | bound c => cases hn
        · rintro ⟨_, e⟩; cases e

/-- Tags come one after the other. -/
theorem tags_order : ∀ (its : List SItem) (pre : List Wc), Tidy its →
    List.Pairwise (fun x y : Mk => x.before.length + x.name.length + 2 ≤ y.before.length) (tagsFrom pre its) ∧
    ∀ x ∈ tagsFrom pre its, pre.length ≤ x.before.length ∧ x.before.length + x.name.length + 2 ≤ pre.length + (render its).length := by
  intro its
  induction its with
  | nil => intro pre _; exact ⟨List.Pairwise.nil, fun x hx => by cases hx⟩
  | cons y its ih =>
    intro pre ht
    have hy : TidyItem y := ht y List.mem_cons_self
    obtain ⟨h1, h2⟩ := ih (pre ++ y.render) (fun z hz => ht z (List.mem_cons_of_mem _ hz))
    rw [tagsFrom]
    have h2' : ∀ x ∈ tagsFrom (pre ++ y.render) its, pre.length + y.render.length ≤ x.before.length
        ∧ x.before.length + x.name.length + 2 ≤ pre.length + (render (y :: its)).length := by
      intro x hx
      have := h2 x hx
      rw [render]
      simp only [List.length_append] at this ⊢
      omega
    cases hn : nameOf y with
    | none =>
      refine ⟨h1, fun x hx => ?_⟩
      have := h2' x hx
      omega
    | some n =>
      obtain ⟨_, _, _, n4⟩ := tidy_name hy hn
      have hl : y.render.length = n.length + 2 := by rw [n4]; simp
      refine ⟨List.pairwise_cons.2 ⟨fun x hx => ?_, h1⟩, fun x hx => ?_⟩
      · have := h2' x hx
        show pre.length + n.length + 2 ≤ _
        omega
      · rcases List.mem_cons.1 hx with rfl | hx
        · show pre.length ≤ pre.length ∧ pre.length + n.length + 2 ≤ _
          rw [render, List.length_append]
          omega
        · have := h2' x hx
          omega

/-! ### The names of organisations -/

theorem orgBc_spec (out : List Wc) : ∀ j, j ≤ out.length → ∃ r, orgBc out j = some r ∧
    (r = true ↔ ∃ k, 4 ≤ k ∧ k ≤ j ∧ (lit "[Bc]").isPrefixOf (out.drop k) = true) := by
  intro j
  induction j with
  | zero => intro _; exact ⟨false, rfl, ⟨(fun e => by cases e), (by rintro ⟨k, h1, h2, _⟩; omega)⟩⟩
  | succ j ih =>
    intro hj
    rw [orgBc]
    by_cases h4 : j + 1 ≥ 4
    · rw [if_pos h4, cmpz_eq hj (by decide)]
      simp only [Option.bind_eq_bind, Option.bind_some]
      by_cases hb : (lit "[Bc]").isPrefixOf (out.drop (j + 1)) = true
      · rw [if_pos hb]; exact ⟨true, rfl, by simp only [true_iff]; exact ⟨j + 1, h4, Nat.le_refl _, hb⟩⟩
      · rw [if_neg hb]
        obtain ⟨r, h1, h2⟩ := ih (by omega)
        refine ⟨r, h1, h2.trans ⟨?_, ?_⟩⟩
        · rintro ⟨k, a, b, c⟩; exact ⟨k, a, by omega, c⟩
        · rintro ⟨k, a, b, c⟩
          by_cases hk : k = j + 1
          · subst hk; exact absurd c hb
          · exact ⟨k, a, by omega, c⟩
    · rw [if_neg h4]
      exact ⟨false, rfl, ⟨(fun e => by cases e), (by rintro ⟨k, h1, h2, _⟩; omega)⟩⟩

theorem orgLoop_spec (out : List Wc) : ∀ i, i ≤ out.length → ∃ r, orgLoop out i = some r ∧
    (r = true ↔ ∃ k, 8 ≤ k ∧ k ≤ i ∧ (lit "[Ion]").isPrefixOf (out.drop k) = true
      ∧ (∀ k', k ≤ k' → k' ≤ i → ¬ (lit "[Bc]").isPrefixOf (out.drop k') = true)
      ∧ ∃ j, 4 ≤ j ∧ j ≤ k - 4 ∧ (lit "[Bc]").isPrefixOf (out.drop j) = true) := by
  intro i
  induction i with
  | zero => intro _; exact ⟨false, rfl, ⟨(fun e => by cases e), (by rintro ⟨k, h1, h2, _⟩; omega)⟩⟩
  | succ i ih =>
    intro hi
    rw [orgLoop]
    by_cases h8 : i + 1 ≥ 8
    · rw [if_pos h8, cmpz_eq hi (by decide)]
      simp only [Option.bind_eq_bind, Option.bind_some]
      by_cases hb : (lit "[Bc]").isPrefixOf (out.drop (i + 1)) = true
      · rw [if_pos hb]
        refine ⟨false, rfl, ?_⟩
        constructor
        · intro e; cases e
        · rintro ⟨k, _, h2, _, h4, _⟩; exact absurd hb (h4 _ h2 (Nat.le_refl _))
      · rw [if_neg hb, cmpz_eq hi (by decide)]
        simp only [Option.bind_some]
        obtain ⟨r, h1, h2⟩ := ih (by omega)
        have shift : (∃ k, 8 ≤ k ∧ k ≤ i ∧ (lit "[Ion]").isPrefixOf (out.drop k) = true
            ∧ (∀ k', k ≤ k' → k' ≤ i → ¬ (lit "[Bc]").isPrefixOf (out.drop k') = true)
            ∧ ∃ j, 4 ≤ j ∧ j ≤ k - 4 ∧ (lit "[Bc]").isPrefixOf (out.drop j) = true) ↔
            ∃ k, 8 ≤ k ∧ k ≤ i ∧ (lit "[Ion]").isPrefixOf (out.drop k) = true
            ∧ (∀ k', k ≤ k' → k' ≤ i + 1 → ¬ (lit "[Bc]").isPrefixOf (out.drop k') = true)
            ∧ ∃ j, 4 ≤ j ∧ j ≤ k - 4 ∧ (lit "[Bc]").isPrefixOf (out.drop j) = true := by
          constructor
          · rintro ⟨k, a, b, c, d, e⟩
            refine ⟨k, a, b, c, fun k' f g => ?_, e⟩
            by_cases hk : k' = i + 1
            · subst hk; exact hb
            · exact d k' f (by omega)
          · rintro ⟨k, a, b, c, d, e⟩
            exact ⟨k, a, b, c, fun k' f g => d k' f (by omega), e⟩
        have widen : (¬ ((lit "[Ion]").isPrefixOf (out.drop (i + 1)) = true ∧ ∃ j, 4 ≤ j ∧ j ≤ i + 1 - 4 ∧ (lit "[Bc]").isPrefixOf (out.drop j) = true)) →
            ((∃ k, 8 ≤ k ∧ k ≤ i ∧ (lit "[Ion]").isPrefixOf (out.drop k) = true
            ∧ (∀ k', k ≤ k' → k' ≤ i + 1 → ¬ (lit "[Bc]").isPrefixOf (out.drop k') = true)
            ∧ ∃ j, 4 ≤ j ∧ j ≤ k - 4 ∧ (lit "[Bc]").isPrefixOf (out.drop j) = true) ↔
            ∃ k, 8 ≤ k ∧ k ≤ i + 1 ∧ (lit "[Ion]").isPrefixOf (out.drop k) = true
            ∧ (∀ k', k ≤ k' → k' ≤ i + 1 → ¬ (lit "[Bc]").isPrefixOf (out.drop k') = true)
            ∧ ∃ j, 4 ≤ j ∧ j ≤ k - 4 ∧ (lit "[Bc]").isPrefixOf (out.drop j) = true) := by
          intro hno
          constructor
          · rintro ⟨k, a, b, c⟩; exact ⟨k, a, by omega, c⟩
          · rintro ⟨k, a, b, c, d, e⟩
            by_cases hk : k = i + 1
            · subst hk; exact absurd ⟨c, e⟩ hno
            · exact ⟨k, a, by omega, c, d, e⟩
        by_cases hion : (lit "[Ion]").isPrefixOf (out.drop (i + 1)) = true
        · rw [if_pos hion]
          obtain ⟨s, g1, g2⟩ := orgBc_spec out (i + 1 - 4) (by omega)
          rw [g1]
          simp only [Option.bind_some]
          cases s with
          | true =>
            rw [if_pos rfl]
            refine ⟨true, rfl, ?_⟩
            simp only [true_iff]
            exact ⟨i + 1, h8, Nat.le_refl _, hion, fun k' f g => by
              have : k' = i + 1 := by omega
              rw [this]; exact hb, g2.1 rfl⟩
          | false =>
            rw [if_neg (by simp)]
            exact ⟨r, h1, h2.trans (shift.trans (widen fun e => by have := g2.2 e.2; cases this))⟩
        · rw [if_neg hion]
          exact ⟨r, h1, h2.trans (shift.trans (widen fun e => hion e.1))⟩
    · rw [if_neg h8]
      exact ⟨false, rfl, ⟨(fun e => by cases e), (by rintro ⟨k, h1, h2, _⟩; omega)⟩⟩

/-- A part of the output that has nothing after it but a character has no boundary. -/
theorem bc_room : ∀ (its : List SItem) (need : List Wc) (pend : Bool) (pre : List Wc), WfItems need pend its →
    ∀ x ∈ tagsFrom pre its, x.name = lit "Bc" → x.before.length + 6 ≤ pre.length + (render its).length := by
  intro its
  induction its with
  | nil => intro _ _ _ _ x hx; cases hx
  | cons y its ih =>
    intro need pend pre hw x hx hn
    have rest : ∀ need' pend', WfItems need' pend' its → x ∈ tagsFrom (pre ++ y.render) its →
        x.before.length + 6 ≤ pre.length + (render (y :: its)).length := by
      intro need' pend' hw' hx'
      have := ih need' pend' (pre ++ y.render) hw' x hx' hn
      rw [render]
      simp only [List.length_append] at this ⊢
      omega
    have first : ∀ n, nameOf y = some n → (x = ⟨pre, n⟩ ∨ x ∈ tagsFrom (pre ++ y.render) its) := by
      intro n e
      rw [tagsFrom, e] at hx
      simpa using hx
    have quiet : nameOf y = none → x ∈ tagsFrom (pre ++ y.render) its := by
      intro e
      rw [tagsFrom, e] at hx
      simpa using hx
    cases y with
    | cls c =>
      rw [WfItems] at hw
      rcases first _ rfl with e | e
      · rw [e] at hn; cases hn
      · exact rest _ _ hw.2 e
    | cls2 c d =>
      rw [WfItems] at hw
      rcases first _ rfl with e | e
      · rw [e] at hn; cases hn
      · exact rest _ _ hw.2 e
    | tag n =>
      rw [WfItems] at hw
      rcases first _ rfl with e | e
      · rw [e] at hn
        have hn : n = lit "Bc" := hn
        obtain ⟨c, t, h1, h2⟩ := hw.1
        rw [hn] at h1
        cases h1
        rcases h2 with h2 | h2
        · exact absurd rfl h2.2.2
        · rw [hn] at h2; cases h2
      · exact rest _ _ hw.2.2 e
    | bound c =>
      rw [WfItems] at hw
      rcases first _ rfl with e | e
      · rw [e, render]
        have := hw.2.2.2.1
        simp [SItem.render]
        omega
      · exact rest _ _ hw.2.2.2.2 e
    | sect c b => rw [WfItems] at hw; exact rest _ _ hw.2.2 (quiet rfl)
    | pat b => rw [WfItems] at hw; exact rest _ _ hw.2.2.2.2.2.2 (quiet rfl)
    | chr c =>
      cases need with
      | nil => rw [WfItems] at hw; exact rest _ _ hw.2 (quiet rfl)
      | cons q qs => rw [WfItems] at hw; exact rest _ _ hw.2.2.2 (quiet rfl)

theorem orgLoop_tags {its : List SItem} (hw : WellFormed its) (ht : Tidy its) (hlen : 13 ≤ (render its).length) :
    ∃ r, orgLoop (render its) ((render its).length - 5) = some r ∧ (r = true ↔
      ∃ u m t, tags its = u ++ m :: t ∧ m.name = lit "Ion" ∧ 8 ≤ m.before.length ∧ (∀ x ∈ t, x.name ≠ lit "Bc")
    ∧ ∃ x ∈ u, x.name = lit "Bc" ∧ 4 ≤ x.before.length) := by
  obtain ⟨r, h1, h2⟩ := orgLoop_spec (render its) ((render its).length - 5) (by omega)
  refine ⟨r, h1, h2.trans ?_⟩
  have ion : ∀ i, (lit "[Ion]").isPrefixOf ((render its).drop i) = true ↔ ∃ x ∈ tags its, x.before.length = i ∧ x.name = lit "Ion" := by
    intro i
    have := tag_at (q := lit "Ion") (by decide) (by decide) (by decide) (by decide) its [] i ht
    rw [List.length_nil, Nat.zero_add] at this
    exact this
  have bc : ∀ i, (lit "[Bc]").isPrefixOf ((render its).drop i) = true ↔ ∃ x ∈ tags its, x.before.length = i ∧ x.name = lit "Bc" := by
    intro i
    have := tag_at (q := lit "Bc") (by decide) (by decide) (by decide) (by decide) its [] i ht
    rw [List.length_nil, Nat.zero_add] at this
    exact this
  obtain ⟨ho, hb⟩ := tags_order its [] ht
  simp only [ion, bc]
  change List.Pairwise _ (tags its) at ho
  constructor
  · rintro ⟨k, k1, k2, ⟨m, hm, m1, m2⟩, hno, j, j1, j2, x, hx, x1, x2⟩
    obtain ⟨u, t, e⟩ := List.append_of_mem hm
    rw [e] at ho
    obtain ⟨o1, o2, o3⟩ := List.pairwise_append.1 ho
    refine ⟨u, m, t, e, m2, by omega, ?_, x, ?_, x2, by omega⟩
    · intro y hy hyn
      have h3 := (List.pairwise_cons.1 o2).1 y hy
      have hy' : y ∈ tags its := by rw [e]; exact List.mem_append_right _ (List.mem_cons_of_mem _ hy)
      have h4 := bc_room its [] false [] hw.1 y hy' hyn
      rw [List.length_nil, Nat.zero_add] at h4
      exact hno y.before.length (by omega) (by omega) ⟨y, hy', rfl, hyn⟩
    · rw [e] at hx
      rcases List.mem_append.1 hx with hx | hx
      · exact hx
      · exfalso
        rcases List.mem_cons.1 hx with rfl | hx
        · rw [m2] at x2; exact absurd x2 (by decide)
        · have := (List.pairwise_cons.1 o2).1 x hx
          omega
  · rintro ⟨u, m, t, e, m2, m1, hno, x, hx, x2, x1⟩
    have hm : m ∈ tags its := by rw [e]; exact List.mem_append_right _ List.mem_cons_self
    have hx' : x ∈ tags its := by rw [e]; exact List.mem_append_left _ hx
    rw [e] at ho
    obtain ⟨o1, o2, o3⟩ := List.pairwise_append.1 ho
    have hend := (hb m hm).2
    have hl : m.name.length = 3 := by rw [m2]; rfl
    have hlx : x.name.length = 2 := by rw [x2]; rfl
    have hxm := o3 x hx m List.mem_cons_self
    rw [List.length_nil, Nat.zero_add] at hend
    refine ⟨m.before.length, m1, by omega, ⟨m, hm, rfl, m2⟩, ?_, x.before.length, x1, by omega, x, hx', rfl, x2⟩
    rintro k' k1 k2 ⟨y, hy, y1, y2⟩
    rw [e] at hy
    rcases List.mem_append.1 hy with hy | hy
    · have := o3 y hy m List.mem_cons_self
      omega
    · rcases List.mem_cons.1 hy with rfl | hy
      · rw [m2] at y2; exact absurd y2 (by decide)
      · exact hno y hy y2

/-- The values of the copy. -/
theorem orgCopy_values {old : Ana} : ∀ (ks : List AKey) (a : Ana) (ns : Option (List Wc)), (∀ k ∈ ks, (old.getValue k).isSome) → AnaOk a →
    Ok (orgCopy old ks (a, ns)) (fun r => AnaOk r.1 ∧ ∀ x, x ≠ .structure_ → r.1.getValue x = (a.getValue x).or
      (if x ∈ ks then (if x = .cls then some (lit "nimi") else if x = .geographical then none else old.getValue x) else none)) := by
  intro ks
  induction ks with
  | nil => intro a ns _ ha; exact okSome ⟨ha, fun x _ => by simp⟩
  | cons k ks ih =>
    intro a ns hk ha
    have hk' := fun x hx => hk x (List.mem_cons_of_mem _ hx)
    have other : ∀ x, x ≠ k → (x ∈ k :: ks ↔ x ∈ ks) := fun x hx => by simp [hx]
    rw [orgCopy]
    refine okIte (fun hc => ?_) fun hc => ?_
    · subst hc
      refine okMono (ih _ ns hk' (anaOk_addConst ha _ _)) fun r hr => ⟨hr.1, fun x hx => ?_⟩
      rw [hr.2 x hx, getValue_addConst ha]
      by_cases e : x = .cls
      · subst e
        rw [if_pos rfl, if_pos List.mem_cons_self, if_pos rfl]
        cases a.getValue .cls <;> simp
      · rw [if_neg e]
        simp only [other x e]
    · cases hg : old.getValue k with
      | none => have := hk k List.mem_cons_self; rw [hg] at this; cases this
      | some w =>
        simp only
        refine okIte (fun hs => okIte (fun _ => ?_) fun _ => ?_) fun hs => okIte (fun hgeo => ?_) fun hgeo => ?_
        · subst hs
          refine okMono (ih _ _ hk' (anaOk_add ha _ _)) fun r hr => ⟨hr.1, fun x hx => ?_⟩
          rw [hr.2 x hx, getValue_add ha, if_neg hx]
          simp only [other x hx]
        · subst hs
          refine okMono (ih _ _ hk' ha) fun r hr => ⟨hr.1, fun x hx => ?_⟩
          rw [hr.2 x hx]
          simp only [other x hx]
        · subst hgeo
          refine okMono (ih _ _ hk' ha) fun r hr => ⟨hr.1, fun x hx => ?_⟩
          rw [hr.2 x hx]
          by_cases e : x = .geographical
          · subst e
            simp [hc]
          · simp only [other x e]
        · refine okMono (ih _ _ hk' (anaOk_add ha _ _)) fun r hr => ⟨hr.1, fun x hx => ?_⟩
          rw [hr.2 x hx, getValue_add ha]
          by_cases e : x = k
          · subst e
            rw [if_pos rfl, if_pos List.mem_cons_self, if_neg hc, if_neg hgeo, hg]
            cases a.getValue x <;> simp
          · rw [if_neg e]
            simp only [other x e]

theorem mem_internalKeys {a : Ana} {k : AKey} (h : (a.getValue k).isSome) : k ∈ a.internalKeys := by
  rw [Ana.getValue] at h
  cases hlk : List.lookup k a.attributes with
  | none => rw [hlk] at h; cases h
  | some x =>
    obtain ⟨y, hy, hy2⟩ : ∃ y ∈ a.attributes, y.1 = k := by
      revert hlk
      generalize a.attributes = l
      intro hlk
      induction l with
      | nil => cases hlk
      | cons e l ih =>
        obtain ⟨k', w⟩ := e
        rw [lookup_cons_ana] at hlk
        split at hlk
        · rename_i he; exact ⟨_, List.mem_cons_self .., he.symm⟩
        · obtain ⟨y, h1, h2⟩ := ih hlk
          exact ⟨y, List.mem_cons_of_mem _ h1, h2⟩
    exact List.mem_map.2 ⟨y, hy, hy2⟩

theorem duplicateOrgName_spec {its : List SItem} (hw : WellFormed its) (ht : Tidy its) {a : Ana} (ha : AnaOk a) (hr : Reads its a) :
    Ok (duplicateOrgName a (render its)) (fun r => (¬ Organisation its ∧ r = none) ∨ (Organisation its ∧ ∃ b, ReadsName its b ∧ r = some b)) := by
  have hcls : a.getValue .cls = some (lit "nimisana") ↔ FinalClass (render its) (tags its) (lit "nimisana") := reads_iff.1 hr .cls (by decide) _
  rw [duplicateOrgName]
  refine okIte (fun h => okSome (Or.inl ⟨fun o => h (hcls.2 o.1), rfl⟩)) fun hc => ?_
  have hc : a.getValue .cls = some (lit "nimisana") := Classical.byContradiction hc
  refine okIte (fun h => okSome (Or.inl ⟨fun o => by have := o.2.1; omega, rfl⟩)) fun hlen => ?_
  have hlen : 13 ≤ (render its).length := by omega
  have h0 : (render its)[0]? = some (render its)[0] := List.getElem?_eq_getElem (by omega)
  rw [rdz_lt (by omega)]
  refine okBind (okSome (P := fun c => c = (render its)[0]) rfl) fun c0 hc0 => ?_
  refine okBind (okCmpz (by omega) (by decide)) fun la hla => ?_
  rw [List.drop_zero] at hla
  have hhead : c0 = 0x2D ↔ (render its).head? = some 0x2D := by
    rw [List.head?_eq_getElem?, h0, hc0]; simp
  have hlap : la = true ↔ lit "[La]" <+: render its := by rw [hla, List.isPrefixOf_iff_prefix]
  refine okIte (fun h => okPure (Or.inl ⟨fun o => ?_, rfl⟩)) fun h => ?_
  · rcases h with h | h
    · exact o.2.2.1 (hhead.1 h)
    · exact o.2.2.2.1 (hlap.1 h)
  obtain ⟨go, g1, g2⟩ := orgLoop_tags hw ht hlen
  rw [g1]
  refine okBind (okSome (P := fun x => x = go) rfl) fun go' hgo => ?_
  subst hgo
  have horg : Organisation its ↔ go' = true := by
    rw [g2]
    exact ⟨fun o => o.2.2.2.2, fun o => ⟨hcls.1 hc, hlen, fun e => h (Or.inl (hhead.2 e)), fun e => h (Or.inr (hlap.2 e)), o⟩⟩
  refine okIte (fun hgo => ?_) fun hgo => okPure (Or.inl ⟨fun o => hgo (horg.1 o), rfl⟩)
  refine okBind (orgCopy_values _ {} none (internalKeys_some ha) anaOk_empty) fun r hr2 => ?_
  obtain ⟨n, ns⟩ := r
  obtain ⟨hn, hv⟩ := hr2
  simp only at hn hv ⊢
  have hread : ReadsName its n := by
    intro k hk v
    have hs : k ≠ .structure_ := fun e => by subst e; exact absurd hk (by decide)
    rw [value_name _ hk, hv k hs]
    have he : ({} : Ana).getValue k = none := rfl
    rw [he, Option.none_or]
    by_cases hkc : k = .cls
    · subst hkc
      rw [if_pos (mem_internalKeys (by rw [hc]; rfl)), if_pos rfl]
      constructor
      · intro e; cases e; exact Or.inl ⟨rfl, rfl⟩
      · rintro (⟨_, e⟩ | ⟨e, _⟩)
        · rw [e]
        · exact absurd rfl e
    · rw [if_neg hkc]
      by_cases hkg : k = .geographical
      · subst hkg
        rw [if_pos rfl]
        constructor
        · intro e; split at e <;> cases e
        · rintro (⟨e, _⟩ | ⟨_, e, _⟩)
          · cases e
          · exact absurd rfl e
      · rw [if_neg hkg]
        have e : (if k ∈ a.internalKeys then a.getValue k else none) = a.getValue k := by
          by_cases hm : k ∈ a.internalKeys
          · rw [if_pos hm]
          · rw [if_neg hm]
            cases hg : a.getValue k with
            | none => rfl
            | some x => exact absurd (mem_internalKeys (by rw [hg]; rfl)) hm
        rw [e, reads_iff.1 hr k hk]
        exact ⟨fun x => Or.inr ⟨hkc, hkg, x⟩, fun x => x.elim (fun y => absurd y.1 hkc) fun y => y.2.2⟩
  cases ns with
  | none => exact okPure (Or.inr ⟨horg.2 hgo, n, hread, rfl⟩)
  | some s =>
    simp only
    refine okBind (parseBaseform_ok (render its) s) fun bf _ => ?_
    cases bf with
    | none => exact okPure (Or.inr ⟨horg.2 hgo, n, hread, rfl⟩)
    | some b =>
      refine okPure (Or.inr ⟨horg.2 hgo, n.add .baseform b, fun k hk v => ?_, rfl⟩)
      rw [value_name _ hk, getValue_add hn, if_neg (fun e => by subst e; exact absurd hk (by decide)), ← value_name n hk]
      exact hread k hk v

/-! ### One output -/

/-- Two analyses with the same grammatical attributes. -/
def Same (a b : Ana) : Prop := AnaOk b ∧ ∀ k ∈ grammatical, b.getValue k = a.getValue k

theorem same_add {a b : Ana} (h : Same a b) {k : AKey} (hk : k ∉ grammatical) (v : List Wc) : Same a (b.add k v) :=
  ⟨anaOk_add h.1 _ _, fun x hx => by rw [getValue_add h.1, if_neg (show ¬ x = k from fun e => hk (by rw [← e]; exact hx)), h.2 x hx]⟩

theorem parseDebugAttributes_same {a b : Ana} (h : Same a b) (out : List Wc) : Ok (parseDebugAttributes b out) (Same a) := by
  rw [parseDebugAttributes]
  refine okBind (dbLoop_ok out _ 0 {} (by omega) (by omega) ?_) fun d hd => ?_
  · exact ⟨by show 0 + 0 + cS 0 false false ≤ _; exact Nat.zero_le _, by show 0 + cP 0 false false false ≤ _; exact Nat.zero_le _, by simp,
      by simp, Or.inl rfl, fun h => (by cases h), by simp, by simp, fun h => by cases h⟩
  refine okBind (dbEnd_ok out.length d hd) fun r _ => ?_
  obtain ⟨ids, bases⟩ := r
  simp only
  refine okPure (same_add ?_ (by decide) _)
  split
  · exact same_add h (by decide) _
  · exact h

theorem restOfAnalysis_reads (full : Bool) {its : List SItem} (hw : WellFormed its) (ht : Tidy its) (hne : its ≠ [])
    (hlen : (render its).length < 2 ^ 64) (st : List Wc) : Ok (restOfAnalysis full (render its) st) (FromOutput its) := by
  rw [restOfAnalysis, parseBasicAttributes_eq its ht hne hlen]
  have hnames : ∀ m ∈ tags its, m.name ≠ [] := by
    have : ∀ (l : List SItem) (p : List Wc), Tidy l → ∀ m ∈ tagsFrom p l, m.name ≠ [] := by
      intro l
      induction l with
      | nil => intro p _ m hm; cases hm
      | cons y l ih =>
        intro p hl m hm
        rw [tagsFrom] at hm
        rcases List.mem_append.1 hm with hm | hm
        · cases hn : nameOf y with
          | none => rw [hn] at hm; cases hm
          | some n =>
            rw [hn] at hm
            have : m = ⟨p, n⟩ := by simpa using hm
            rw [this]
            exact (tidy_name (hl y List.mem_cons_self) hn).1
        · exact ih _ (fun z hz => hl z (List.mem_cons_of_mem _ hz)) m hm
    exact this its [] ht
  have hm := means_state (render its) (tags its) hnames
  refine okBind (okSome (P := fun x => x = (stateOf (render its) (tags its)).a) rfl) fun a0 ha0 => ?_
  subst ha0
  refine okBind (fixStructure_ok st (render its)) fun st' _ => ?_
  have h1 : Same (stateOf (render its) (tags its)).a ((stateOf (render its) (tags its)).a.add .structure_ st') :=
    same_add ⟨hm.ok, fun _ _ => rfl⟩ (by decide) _
  refine okBind (adjustAttributes_spec h1.1) fun a ha => ?_
  obtain ⟨ha, hv⟩ := ha
  have hread : Reads its a := by
    rw [reads_iff]
    intro k hk v
    rw [hv]
    exact adjusted_attribute (fun k hk v => by rw [h1.2 k hk]; exact hm.told k v) k hk v
  refine okBind (duplicateOrgName_spec hw ht ha hread) fun dup hdup => ?_
  refine okBind (P := Same a) ?_ fun b hb => okPure ?_
  · refine okIte (fun _ => ?_) fun _ => okSome ⟨ha, fun _ _ => rfl⟩
    refine okBind (parseBaseform_ok (render its) st') fun bf _ => ?_
    refine parseDebugAttributes_same ?_ _
    have h2 : Same a (a.add .fstoutput (render its)) := same_add ⟨ha, fun _ _ => rfl⟩ (by decide) _
    cases bf with
    | none => exact h2
    | some b => exact same_add h2 (by decide) _
  · refine ⟨b, reads_iff.2 fun k hk v => by rw [hb.2 k hk]; exact reads_iff.1 hread k hk v, ?_⟩
    rcases hdup with ⟨h, e⟩ | ⟨h, c, hc, e⟩
    · exact Or.inl ⟨h, by rw [e]; rfl⟩
    · exact Or.inr ⟨h, c, hc, by rw [e]; rfl⟩

end Verif.Attrs
