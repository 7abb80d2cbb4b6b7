import Verif.Lemmas.Tweaks
import Verif.Props.Spell
/-!
# C27, C28: soft hyphens and optional hyphens of the Finnish speller
-/

set_option linter.unusedSimpArgs false

namespace Verif.Props
open Verif

/-! ### Safety and termination -/

theorem tweaks_total_aux (hyph : List Wc → UB (Option (List Wc))) (hh : HyphOk hyph) (extra : Bool) (an : Analyzer)
    (ha : AnalyzerOk an) (n : Nat) :
    ∀ w : List Wc, w.length ≤ n →
      (∃ r, spellNoShy hyph extra an w = some r) ∧ ∃ r, spellTweaked hyph extra an w = some r := by
  induction n using Nat.strongRecOn with
  | ind n ih =>
    have hN : ∀ w : List Wc, w.length ≤ n → ∃ r, spellNoShy hyph extra an w = some r := by
      intro w hw
      rw [spellNoShy_eq]
      refine noShyBody_total _ _ extra an ha w (fun v hv => ?_) (fun v hv => ?_)
      · exact (ih v.length (by omega) v (Nat.le_refl _)).1
      · exact (ih v.length (by omega) v (Nat.le_refl _)).2
    intro w hw
    refine ⟨hN w hw, ?_⟩
    rw [spellTweaked_eq]
    by_cases hs : 0xAD ∈ w
    · rw [if_pos hs, shyBody, shyLoop_eq w [] [] (by simp) true (by simp)]
      by_cases hp : restPlaced true w = true
      · rw [if_pos hp]
        simp only [List.nil_append, List.append_nil, List.length_nil, List.reverse_reverse]
        obtain ⟨r, hr⟩ := hN (stripShy w) (Nat.le_trans (List.length_filter_le _ _) hw)
        rw [hr]
        simp only [Option.bind_some]
        split
        · obtain ⟨o, ho, hol⟩ := hh (stripShy w)
          rw [ho]
          simp only [Option.bind_some]
          cases o with
          | none => exact ⟨_, rfl⟩
          | some p =>
            have hlt := shyPos_lt 0 w true hp
            simp only
            rw [shyPositionsOk_eq p _ (by
              intro m hm; have := hlt m hm; rw [hol p rfl]; omega)]
            simp only [Option.bind_some]
            split <;> exact ⟨_, rfl⟩
        · exact ⟨_, rfl⟩
      · rw [if_neg hp]; exact ⟨_, rfl⟩
    · rw [if_neg hs]; exact hN w hw

/-- C27/C28 (safety): for every word, both values of ACCEPT_EXTRA_HYPHENS, every analyser giving structures and every
hyphenator of the right shape, the Finnish speller terminates, stays inside its buffers and dereferences no null
pointer. -/
theorem C28_total (hyph : List Wc → UB (Option (List Wc))) (hh : HyphOk hyph) (extra : Bool) (an : Analyzer)
    (ha : AnalyzerOk an) (w : List Wc) : ∃ r, spellTweaked hyph extra an w = some r :=
  (tweaks_total_aux hyph hh extra an ha w.length w (Nat.le_refl _)).2

/-! ### C27 -/

theorem stripShy_no_shy (w : List Wc) : 0xAD ∉ stripShy w := by simp [stripShy]

/-- C27: a word containing soft hyphens gets a verdict other than "unknown" exactly if no soft hyphen stands at an
end of the word or next to another one, the word without soft hyphens gets this verdict, and the hyphenator permits a
hyphen at each of them. -/
theorem C27_soft_hyphens (hyph : List Wc → UB (Option (List Wc))) (hh : HyphOk hyph) (extra : Bool) (an : Analyzer)
    (ha : AnalyzerOk an) (w : List Wc) (hw : 0xAD ∈ w) (r : SpellRes) (hr : r ≠ .failed) :
    spellTweaked hyph extra an w = some r ↔
      ShyPlaced w ∧ spellTweaked hyph extra an (stripShy w) = some r ∧
      ∃ p, hyph (stripShy w) = some (some p) ∧ ShyAllowed w p := by
  have hstrip : spellTweaked hyph extra an (stripShy w) = spellNoShy hyph extra an (stripShy w) := by
    rw [spellTweaked_eq, if_neg (stripShy_no_shy w)]
  rw [spellTweaked_eq, if_pos hw, shyBody, shyLoop_eq w [] [] (by simp) true (by simp), hstrip]
  by_cases hp : restPlaced true w = true
  · rw [if_pos hp]
    have hpl := (shyPlaced_iff w).1 hp
    simp only [List.nil_append, List.append_nil, List.length_nil, List.reverse_reverse]
    obtain ⟨r0, hr0⟩ := (tweaks_total_aux hyph hh extra an ha _ (stripShy w) (Nat.le_refl _)).1
    rw [hr0]
    simp only [Option.bind_some]
    by_cases h0 : r0 = .failed
    · subst h0
      simp only [ne_eq, not_true_eq_false, if_false, Option.some.injEq]
      exact ⟨fun e => absurd e.symm hr, fun e => absurd e.2.1.symm hr⟩
    · rw [if_pos h0]
      obtain ⟨o, ho, hol⟩ := hh (stripShy w)
      rw [ho]
      simp only [Option.bind_some]
      cases o with
      | none =>
        simp only [Option.some.injEq, reduceCtorEq, false_and, exists_false, and_false, iff_false]
        exact fun e => hr e.symm
      | some p =>
        have hlt := shyPos_lt 0 w true hp
        simp only
        rw [shyPositionsOk_eq p _ (by intro m hm; have := hlt m hm; rw [hol p rfl]; omega)]
        simp only [Option.bind_some]
        have hiff : (shyPos 0 w).all (fun n => p[n]? == some 0x2D) = true ↔ ShyAllowed w p := by
          rw [List.all_eq_true]
          constructor
          · intro h i hi
            have := h (stripShy (w.take i)).length ((mem_shyPos 0 w _).2 ⟨i, hi, by omega⟩)
            simpa using this
          · intro h m hm
            obtain ⟨i, hi, e⟩ := (mem_shyPos 0 w m).1 hm
            have := h i hi
            rw [Nat.zero_add] at e
            rw [e, this]; rfl
        have hex : (∃ q, some (some p) = some (some q) ∧ ShyAllowed w q) ↔ ShyAllowed w p := by
          constructor
          · rintro ⟨q, e, hq⟩; cases e; exact hq
          · exact fun h => ⟨p, rfl, h⟩
        rw [hex, ← hiff]
        cases hall : (shyPos 0 w).all (fun n => p[n]? == some 0x2D) with
        | true => simp [hpl]
        | false =>
          simp only [Bool.false_eq_true, if_false, Option.some.injEq, and_false, iff_false]
          exact fun e => hr e.symm
  · rw [if_neg hp]
    have hpl : ¬ ShyPlaced w := fun h => hp ((shyPlaced_iff w).2 h)
    simp only [Option.some.injEq, hpl, false_and, iff_false]
    exact fun e => hr e.symm

/-- C27: soft hyphens never make a word acceptable that is not acceptable without them. -/
theorem C27_only_restricts (hyph : List Wc → UB (Option (List Wc))) (hh : HyphOk hyph) (extra : Bool) (an : Analyzer)
    (ha : AnalyzerOk an) (w : List Wc) :
    spellTweaked hyph extra an w = some .failed ∨
      spellTweaked hyph extra an w = spellTweaked hyph extra an (stripShy w) := by
  by_cases hw : 0xAD ∈ w
  · obtain ⟨r, hr⟩ := C28_total hyph hh extra an ha w
    by_cases h0 : r = .failed
    · exact Or.inl (by rw [hr, h0])
    · right
      rw [hr, ((C27_soft_hyphens hyph hh extra an ha w hw r h0).1 hr).2.1]
  · right
    have : stripShy w = w := by
      rw [stripShy, List.filter_eq_self]
      intro c hc
      simp only [ne_eq, decide_not, Bool.not_eq_true', decide_eq_false_iff_not]
      rintro rfl; exact hw hc
    rw [this]

/-! ### C28 -/

theorem noShyBody_mono (recN recN' recT recT' : List Wc → UB SpellRes) (an : Analyzer) (h : AnalyzerOk an)
    (word : List Wc)
    (hN : ∀ v : List Wc, v.length < word.length → ∃ r, recN' v = some r)
    (hT : ∀ v : List Wc, v.length < word.length → ∃ r r', recT v = some r ∧ recT' v = some r' ∧ (r' = r ∨ r' = .ok)) :
    ∃ r r', noShyBody recN recT false an word = some r ∧ noShyBody recN' recT' true an word = some r' ∧
      (r' = r ∨ r' = .ok) := by
  have htot : ∃ r, noShyBody recN recT false an word = some r := by
    have hrew : noShyBody recN recT false an word = noShyBody recN' recT false an word := by
      unfold noShyBody; simp
    rw [hrew]
    exact noShyBody_total recN' recT false an h word hN (fun v hv => by
      obtain ⟨r, _, h1, _⟩ := hT v hv; exact ⟨r, h1⟩)
  have htot' := noShyBody_total recN' recT' true an h word hN (fun v hv => by
      obtain ⟨_, r', _, h1, _⟩ := hT v hv; exact ⟨r', h1⟩)
  obtain ⟨r, hr⟩ := htot
  obtain ⟨r', hr'⟩ := htot'
  refine ⟨r, r', hr, hr', ?_⟩
  unfold noShyBody at hr hr'
  obtain ⟨r0, hr0⟩ := adapterSpell_total an h word
  rw [hr0] at hr hr'
  simp only [Option.bind_some] at hr hr'
  by_cases hc : r0 = .ok ∨ word.length ≤ 3
  · rw [if_pos hc] at hr hr'; cases hr; cases hr'; exact Or.inl rfl
  rw [if_neg hc] at hr hr'
  cases hf : firstInnerHyphen word with
  | none => rw [hf] at hr hr'; cases hr; cases hr'; exact Or.inl rfl
  | some l =>
    have hl := firstInnerHyphen_lt hf
    have hb := withoutHyphen_length (word := word) (l := l) (by omega)
    rw [hf] at hr hr'
    simp only at hr hr'
    rw [rd_eq_some (by simp only [List.length_append, List.length_singleton]; omega)] at hr hr'
    simp only [Option.bind_some, Bool.false_and, Bool.false_eq_true, if_false, reduceCtorEq, Bool.true_and] at hr hr'
    generalize hE : (if (decide (l > 1) && (withoutHyphen word l ++ [0])[l]'(by
          simp only [List.length_append, List.length_singleton]; omega) != 0x2D) = true then
          recN' (withoutHyphen word l) else some .failed) = E at hr'
    cases E with
    | none => simp at hr'
    | some e =>
      simp only [Option.bind_some] at hr'
      by_cases he : e = .ok
      · rw [if_pos he] at hr'; cases hr'; exact Or.inr rfl
      rw [if_neg he] at hr'
      obtain ⟨vc, hvc⟩ := sameVC_total word l
      rw [hvc] at hr hr'
      simp only [Option.bind_some] at hr hr'
      generalize hS : (if vc = true then adapterSpell an (withoutHyphen word l) else some .failed) = S at hr hr'
      cases S with
      | none => simp at hr'
      | some s =>
        simp only [Option.bind_some] at hr hr'
        by_cases hs : s ≠ .failed ∧ improves r0 s = true
        · rw [if_pos hs] at hr hr'; cases hr; cases hr'; exact Or.inl rfl
        rw [if_neg hs] at hr hr'
        obtain ⟨o, ho⟩ := lastInnerHyphen_total word (word.length - 2) (by omega)
        rw [ho] at hr hr'
        cases o with
        | none => simp only at hr hr'; rw [hr] at hr'; cases hr'; exact Or.inl rfl
        | some i =>
          have hi := lastInnerHyphen_le ho
          obtain ⟨t, t', ht, ht', htt⟩ := hT (word.take i) (by simp only [List.length_take]; omega)
          simp only [ht, ht', Option.bind_some] at hr hr'
          by_cases hta : trailingAcceptable (an (word.drop (i + 1))) = true
          · simp only [hta, and_true] at hr hr'
            by_cases h2 : t' = .failed
            · have h1 : t = .failed := by
                rcases htt with e | e
                · rw [← e]; exact h2
                · rw [e] at h2; cases h2
              rw [if_neg (by simp [h1])] at hr
              rw [if_neg (by simp [h2])] at hr'
              rw [hr] at hr'; cases hr'; exact Or.inl rfl
            · rw [if_pos h2] at hr'
              cases hr'
              rcases htt with e | e
              · rw [e] at h2; rw [if_pos h2] at hr; cases hr; exact Or.inl e
              · exact Or.inr e
          · rw [if_neg (by simp [hta])] at hr hr'
            rw [hr] at hr'; cases hr'; exact Or.inl rfl

theorem extra_mono_aux (hyph : List Wc → UB (Option (List Wc))) (hh : HyphOk hyph) (an : Analyzer)
    (ha : AnalyzerOk an) (n : Nat) :
    ∀ w : List Wc, w.length ≤ n →
      (∃ r r', spellNoShy hyph false an w = some r ∧ spellNoShy hyph true an w = some r' ∧ (r' = r ∨ r' = .ok)) ∧
      ∃ r r', spellTweaked hyph false an w = some r ∧ spellTweaked hyph true an w = some r' ∧ (r' = r ∨ r' = .ok) := by
  induction n using Nat.strongRecOn with
  | ind n ih =>
    have hN : ∀ w : List Wc, w.length ≤ n →
        ∃ r r', spellNoShy hyph false an w = some r ∧ spellNoShy hyph true an w = some r' ∧ (r' = r ∨ r' = .ok) := by
      intro w hw
      rw [spellNoShy_eq, spellNoShy_eq]
      refine noShyBody_mono _ _ _ _ an ha w (fun v hv => ?_) (fun v hv => ?_)
      · exact (tweaks_total_aux hyph hh true an ha _ v (Nat.le_refl _)).1
      · exact (ih v.length (by omega) v (Nat.le_refl _)).2
    intro w hw
    refine ⟨hN w hw, ?_⟩
    by_cases hs : 0xAD ∈ w
    · obtain ⟨r, hr⟩ := C28_total hyph hh false an ha w
      obtain ⟨r', hr'⟩ := C28_total hyph hh true an ha w
      refine ⟨r, r', hr, hr', ?_⟩
      obtain ⟨q, q', hq, hq', hqq⟩ := hN (stripShy w) (Nat.le_trans (List.length_filter_le _ _) hw)
      have e : ∀ b, spellTweaked hyph b an (stripShy w) = spellNoShy hyph b an (stripShy w) := by
        intro b; rw [spellTweaked_eq, if_neg (stripShy_no_shy w)]
      have k : ∀ b x, x ≠ .failed → (spellTweaked hyph b an w = some x ↔ ShyPlaced w ∧
          spellNoShy hyph b an (stripShy w) = some x ∧ ∃ p, hyph (stripShy w) = some (some p) ∧ ShyAllowed w p) := by
        intro b x hx
        rw [C27_soft_hyphens hyph hh b an ha w hs x hx, e]
      by_cases h0 : r' = .failed
      · left
        by_contra hne
        have hrf : r ≠ .failed := fun h => hne (h0.trans h.symm)
        obtain ⟨a1, a2, a3⟩ := (k false r hrf).1 hr
        rw [hq] at a2; cases a2
        have hq'0 : q' ≠ .failed := by
          rcases hqq with x | x
          · rw [x]; exact hrf
          · rw [x]; simp
        have := (k true q' hq'0).2 ⟨a1, hq', a3⟩
        rw [hr'] at this; cases this
        exact hq'0 h0
      · obtain ⟨a1, a2, a3⟩ := (k true r' h0).1 hr'
        rw [hq'] at a2; cases a2
        rcases hqq with x | x
        · left
          rw [x] at h0
          have := (k false q h0).2 ⟨a1, hq, a3⟩
          rw [hr] at this; cases this
          exact x
        · exact Or.inr x
    · rw [spellTweaked_eq, spellTweaked_eq, if_neg hs, if_neg hs]
      exact hN w hw

/-- C28: turning ACCEPT_EXTRA_HYPHENS on leaves the verdict of the dictionary unchanged or turns it into OK. -/
theorem C28_verdict (hyph : List Wc → UB (Option (List Wc))) (hh : HyphOk hyph) (an : Analyzer) (ha : AnalyzerOk an)
    (w : List Wc) :
    ∃ r r', spellTweaked hyph false an w = some r ∧ spellTweaked hyph true an w = some r' ∧ (r' = r ∨ r' = .ok) :=
  (extra_mono_aux hyph hh an ha w.length w (Nat.le_refl _)).2

/-! #### Effect on the API -/

theorem exactOk_mono (o : SpellOpts) (c : Wc) (r r' : SpellRes) (h : r' = r ∨ r' = .ok) (hr : exactOk o c r = true) :
    exactOk o c r' = true := by
  rcases h with rfl | rfl
  · exact hr
  · rfl

theorem caseOk_mono (o : SpellOpts) (ho : o.acceptFirstUppercase = true) (t : CaseType) (r r' : SpellRes)
    (h : r' = r ∨ r' = .ok) (hr : caseOk o t r = true) : caseOk o t r' = true := by
  rcases h with rfl | rfl
  · exact hr
  · cases t <;> simp_all [caseOk]

theorem effDict_mono (d d' : List Wc → SpellRes) (hd : ∀ w, d' w = d w ∨ d' w = .ok) (m : Bool) (w : List Wc) :
    effDict d' m w = effDict d m w ∨ effDict d' m w = .ok := by
  unfold effDict
  cases m with
  | false => exact hd w
  | true =>
    simp only [if_true, withEdges]
    rcases hd w with e | e
    · rw [e]
      by_cases h : d w = .failed
      · simp only [h]
        cases edgeHyphens w with
        | none => exact Or.inl rfl
        | some v => exact hd v
      · cases hx : d w <;> simp_all
    · rw [e]; right; rfl

theorem dictAccepts_extra (d d' : List Wc → SpellRes) (hd : ∀ w, d' w = d w ∨ d' w = .ok) (o : SpellOpts)
    (ho : o.acceptFirstUppercase = true) (w : List Wc) (h : dictAccepts d o w = true) : dictAccepts d' o w = true := by
  unfold dictAccepts at h ⊢
  revert h
  cases effectiveCaps o (caseType w) <;>
  · simp only [Bool.or_eq_true, Bool.and_eq_true]
    rintro (h | ⟨h1, h2⟩)
    · left
      first | exact exactOk_mono o _ _ _ (hd _) h | exact caseOk_mono o ho _ _ _ (hd _) h
    · right
      refine ⟨h1, ?_⟩
      first | exact exactOk_mono o _ _ _ (hd _) h2 | exact caseOk_mono o ho _ _ _ (hd _) h2

/-- The dictionary component of a handle with a Finnish dictionary (total by `C28_total`). -/
def FinnishDict (hyph : List Wc → UB (Option (List Wc))) (an : Analyzer) (dict : Bool → List Wc → SpellRes) : Prop :=
  ∀ extra w, spellTweaked hyph extra an w = some (dict extra w)

/-- C28: with ACCEPT_FIRST_UPPERCASE on (the default), every word accepted with ACCEPT_EXTRA_HYPHENS off is accepted
with ACCEPT_EXTRA_HYPHENS on, whatever the other options. -/
theorem C28_api_partial (hyph : List Wc → UB (Option (List Wc))) (hh : HyphOk hyph) (an : Analyzer)
    (ha : AnalyzerOk an) (dict : Bool → List Wc → SpellRes) (hd : FinnishDict hyph an dict) (o : SpellOpts)
    (ho : o.acceptFirstUppercase = true) (w : List Wc) (hw : WordOk w) (h : Accepted (dict false) o w) :
    Accepted (dict true) o w := by
  have hmono : ∀ v, dict true v = dict false v ∨ dict true v = .ok := by
    intro v
    obtain ⟨r, r', h1, h2, h3⟩ := C28_verdict hyph hh an ha v
    rw [hd false v] at h1; cases h1
    rw [hd true v] at h2; cases h2
    exact h3
  rw [accepted_iff _ _ _ hw] at h ⊢
  unfold accepts at h ⊢
  simp only [Bool.or_eq_true, Bool.and_eq_true, decide_eq_true_eq] at h ⊢
  rcases h with h | ⟨h1, ((h2 | h2) | h2) | h2⟩
  · exact Or.inl h
  · exact Or.inr ⟨h1, Or.inl (Or.inl (Or.inl h2))⟩
  · exact Or.inr ⟨h1, Or.inl (Or.inl (Or.inr h2))⟩
  · exact Or.inr ⟨h1, Or.inl (Or.inr h2)⟩
  · exact Or.inr ⟨h1, Or.inr (dictAccepts_extra _ _ (effDict_mono _ _ hmono _) o ho _ h2)⟩

/-- An analyser knowing the proper name "Ab-cd" and the common noun "abcd". -/
def anAbcd : Analyzer := fun w =>
  if w = lit "ab-cd" then [{ struct := some (lit "=ip-pp") }]
  else if w = lit "abcd" then [{ struct := some (lit "=pppp") }] else []

theorem anAbcd_ok : AnalyzerOk anAbcd := by
  intro w a ha
  unfold anAbcd at ha
  split at ha
  · simp only [List.mem_singleton] at ha; subst ha; exact ⟨_, rfl⟩
  · split at ha
    · simp only [List.mem_singleton] at ha; subst ha; exact ⟨_, rfl⟩
    · simp at ha

theorem anAbcd_off (hyph : List Wc → UB (Option (List Wc))) :
    spellTweaked hyph false anAbcd (lit "ab-cd") = some .capFirst := by
  have h1 : lastInnerHyphen (lit "ab-cd") 3 = some (some 2) := by decide
  have h2 : spellTweaked hyph false anAbcd (lit "ab") = some .failed := by
    rw [spellTweaked_eq, if_neg (by decide), spellNoShy_eq]; rfl
  rw [spellTweaked_eq, if_neg (by decide), spellNoShy_eq]
  have ha : adapterSpell anAbcd (lit "ab-cd") = some .capFirst := by decide
  have hf : firstInnerHyphen (lit "ab-cd") = some 2 := by decide
  have hl : (lit "ab-cd").length = 5 := by decide
  have ht : (lit "ab-cd").take 2 = lit "ab" := by decide
  unfold noShyBody
  rw [ha, hf, hl]
  simp only [Option.bind_some, reduceCtorEq, Nat.reduceLeDiff, or_self, if_false, Bool.false_and, Bool.false_eq_true,
    Nat.reduceSub]
  rw [show rd (withoutHyphen (lit "ab-cd") 2 ++ [0]) 2 = some 0x63 from by decide,
    show sameVC (lit "ab-cd") 2 = some false from by decide, h1]
  simp only [Option.bind_some, Bool.false_eq_true, if_false, ne_eq, not_true_eq_false, false_and, ht, h2]
  decide

theorem anAbcd_on (hyph : List Wc → UB (Option (List Wc))) :
    spellTweaked hyph true anAbcd (lit "ab-cd") = some .ok := by
  have h2 : spellNoShy hyph true anAbcd (lit "abcd") = some .ok := by
    rw [spellNoShy_eq]
    unfold noShyBody
    rw [show adapterSpell anAbcd (lit "abcd") = some .ok from by decide]
    rfl
  rw [spellTweaked_eq, if_neg (by decide), spellNoShy_eq]
  have ha : adapterSpell anAbcd (lit "ab-cd") = some .capFirst := by decide
  have hf : firstInnerHyphen (lit "ab-cd") = some 2 := by decide
  have hl : (lit "ab-cd").length = 5 := by decide
  have hb : withoutHyphen (lit "ab-cd") 2 = lit "abcd" := by decide
  unfold noShyBody
  rw [ha, hf, hl]
  simp only [Option.bind_some, reduceCtorEq, Nat.reduceLeDiff, or_self, if_false, hb]
  rw [show rd (lit "abcd" ++ [0]) 2 = some 0x63 from by decide]
  simp only [Option.bind_some]
  rw [if_pos (by decide), h2]
  rfl

/-- C28 as stated is false when ACCEPT_FIRST_UPPERCASE is off: "Ab-cd" is accepted as a proper name; with
ACCEPT_EXTRA_HYPHENS on it is read as the common noun "abcd" and rejected because of its capital letter. -/
theorem C28_violation (hyph : List Wc → UB (Option (List Wc))) (hh : HyphOk hyph) :
    ∃ dict, FinnishDict hyph anAbcd dict ∧
      Accepted (dict false) { acceptFirstUppercase := false } (lit "Ab-cd") ∧
      ¬ Accepted (dict true) { acceptFirstUppercase := false } (lit "Ab-cd") := by
  obtain ⟨dict, hd⟩ : ∃ dict, FinnishDict hyph anAbcd dict := by
    refine ⟨fun b w => (spellTweaked hyph b anAbcd w).getD .failed, ?_⟩
    intro b w
    obtain ⟨r, hr⟩ := C28_total hyph hh b anAbcd anAbcd_ok w
    simp [hr]
  have hw : WordOk (lit "Ab-cd") := by unfold WordOk; decide
  have e1 : normSpec (lit "Ab-cd") = lit "Ab-cd" := by decide +kernel
  have e2 : caseType (lit "Ab-cd") = .firstUpper := by decide +kernel
  have e3 : (lit "Ab-cd").map lower = lit "ab-cd" := by decide +kernel
  have e4 : nonwordB (lit "Ab-cd") = false := by decide +kernel
  have e5 : (lit "Ab-cd").any isDigit = false := by decide +kernel
  have e6 : (lit "Ab-cd").isEmpty = false := by decide
  have e7 : (lit "Ab-cd").length = 5 := by decide
  have e8 : (lit "Ab-cd").getLast? = some 0x64 := by decide
  refine ⟨dict, hd, ?_, ?_⟩
  · rw [accepted_iff _ _ _ hw]
    have h1 : dict false (lit "ab-cd") = .capFirst := by
      have h := hd false (lit "ab-cd"); rw [anAbcd_off] at h; exact (Option.some.inj h).symm
    simp only [accepts, dictAccepts, e1, e2, e3, e4, e5, e6, e7, e8, effectiveCaps]
    simp [effDict, h1, caseOk]
  · rw [accepted_iff _ _ _ hw]
    have h1 : dict true (lit "ab-cd") = .ok := by
      have h := hd true (lit "ab-cd"); rw [anAbcd_on] at h; exact (Option.some.inj h).symm
    simp only [accepts, dictAccepts, e1, e2, e3, e4, e5, e6, e7, e8, effectiveCaps]
    simp [effDict, h1, caseOk]

/-- Non-vacuity: a hyphenator of the right shape exists, and with it the hypotheses of C27 and C28 are met by
`anAbcd`; "ab­cd" is accepted if a hyphen is permitted in the middle. -/
example : HyphOk (fun w => some (some (w.map fun _ => 0x2D))) := fun w => ⟨_, rfl, by rintro p ⟨⟩; simp⟩

example : spellTweaked (fun w => some (some (w.map fun _ => 0x2D))) false anAbcd [0x61, 0x62, 0xAD, 0x63, 0x64] =
    some .ok := by
  refine (C27_soft_hyphens _ (fun w => ⟨_, rfl, by rintro p ⟨⟩; simp⟩) false anAbcd anAbcd_ok _ (by decide) .ok
    (by decide)).2 ⟨?_, ?_, _, rfl, ?_⟩
  · rw [← shyPlaced_iff]; decide
  · rw [show stripShy [0x61, 0x62, 0xAD, 0x63, 0x64] = lit "abcd" from by decide, spellTweaked_eq, if_neg (by decide),
      spellNoShy_eq]
    unfold noShyBody
    rw [show adapterSpell anAbcd (lit "abcd") = some .ok from by decide]
    rfl
  · intro i hi
    have hi5 : i < 5 := by
      rcases Nat.lt_or_ge i 5 with h | h
      · exact h
      · rw [List.getElem?_eq_none (by simpa using h)] at hi; cases hi
    have : i = 2 := by
      have : i = 0 ∨ i = 1 ∨ i = 2 ∨ i = 3 ∨ i = 4 := by omega
      rcases this with rfl | rfl | rfl | rfl | rfl <;> simp at hi ⊢
    subst this
    decide

end Verif.Props
