import Verif.Lemmas.Autocorrect
import Verif.Lemmas.CharTables
import Verif.Lemmas.AutocorrectFst
import Verif.Props.GrammarRules
/-!
# C83: corrections of phrases
-/

set_option linter.unusedSimpArgs false
set_option linter.unusedVariables false

namespace Verif.Autocorrect
open Verif Verif.Props

theorem contains_iff (l : List Nat) (x : Nat) : l.contains x = false ↔ x ∉ l := by
  rw [← Bool.not_eq_true, List.contains_iff_mem]

/-- The state of the loop for a clean sentence. -/
def cleanSt (ts : List GTok) : AcSt :=
  { input := plain ts, lookups := wordMarks 0 0 ts, orig := 0 :: (marks 0 0 ts).map (·.2), norm := 0 :: (marks 0 0 ts).map (·.1), ucs := extent ts }

theorem entry_clean {first : List Wc → Option (List Wc × Nat)} {s : GSent} {lf : Bool} {ts : List GTok} (hc : Clean ts) {p : Nat} {e : GErr} :
    entry first s lf (cleanSt ts) (p, p) = some e ↔
      ∃ out n, first ((plain ts).drop p) = some (out, n) ∧ Boundary ts (p + n) ∧ e = ⟨1, s.pos + p, n, [acSuggestion lf out]⟩ := by
  have hb : ∀ x, x ∈ (cleanSt ts).norm ↔ Boundary ts x := by
    intro x
    have := mem_marks ts hc 0 x
    simp only [Nat.zero_add] at this
    exact this
  have hcorr : ∀ sp pl, acCorrection sp pl (0, 0) ((cleanSt ts).orig.zip (cleanSt ts).norm) 0 = 0 := by
    intro sp pl
    apply acCorrection_clean
    intro q hq
    simp only [cleanSt, List.zip_cons_cons, List.mem_cons, List.zip_map', List.mem_map] at hq
    rcases hq with rfl | ⟨x, hx, rfl⟩
    · rfl
    · exact (marks_clean ts hc 0 x hx).symm
  unfold entry
  simp only [show (cleanSt ts).input = plain ts from rfl]
  cases hf : first ((plain ts).drop p) with
  | none => simp
  | some x =>
    obtain ⟨out, n⟩ := x
    simp only [hcorr, Nat.add_zero, Option.some.injEq, Prod.mk.injEq]
    constructor
    · intro h
      split at h
      · cases h
      · rename_i hn
        refine ⟨out, n, ⟨rfl, rfl⟩, ?_, (Option.some.inj h).symm⟩
        rw [Bool.not_eq_false, List.contains_iff_mem] at hn
        exact (hb _).1 hn
    · rintro ⟨_, _, ⟨rfl, rfl⟩, h1, rfl⟩
      rw [if_neg (fun h => (contains_iff _ _).1 h ((hb _).2 h1))]

theorem lower_not_shy {c : Wc} (h : c ≠ 0xAD) : lower c ≠ 0xAD := by
  intro e
  rcases Nat.lt_or_ge c 0x530 with hl | hl
  · have : ∀ c < 0x530, lower c = 0xAD → c = 0xAD := by decide +kernel
    exact h (this c hl e)
  · rw [lower_of_ge c hl] at e
    exact h e

/-- C83: for a clean sentence shorter than 20000 characters the check reports exactly the phrases that are to be reported, each once. -/
theorem C83_reports_partial {σ : Type} {m : Lookup σ} {P : σ → Prop} {first : List Wc → Option (List Wc × Nat)} (hm : Answers m P first)
    (s : GSent) (hs : s.tokens ≠ []) (hc : Clean s.tokens) (hl : extent s.tokens < 20000) (c : σ) (hP : P c) :
    ∃ c' es, autocorrect m s c = some (c', es) ∧ P c' ∧ (∀ e, e ∈ es ↔ Reported first s e) ∧ (es.map (·.start)).Nodup := by
  obtain ⟨t0, ts, h0⟩ := List.exists_cons_of_ne_nil hs
  have st1 : acTokens false true s.tokens {} = some (some (cleanSt s.tokens)) := by
    rw [acTokens_state s.tokens hc.nonempty hc.nul true {} rfl (by simpa using hl)]
    simp [cleanSt]
  have hlen := plain_clean s.tokens hc
  obtain ⟨c1, h1, h2⟩ := acLookups_all hm s h0 (cleanSt s.tokens) (by simp only [cleanSt, hlen]; omega) (cleanSt s.tokens).lookups c hP
  have hlook : (cleanSt s.tokens).lookups = wordMarks 0 0 s.tokens := rfl
  rw [hlook] at h1
  have hwm : ∀ (ts : List GTok), Clean ts → ∀ q : Nat × Nat, q ∈ wordMarks 0 0 ts ↔ q.1 = q.2 ∧ WordAt ts q.2 := by
    intro ts hc q
    rw [mem_wordMarks]
    constructor
    · rintro ⟨a, w, b, rfl, hw, rfl⟩
      have ha : Clean a := ⟨fun x hx => hc.nonempty x (by simp [hx]), fun x hx => hc.nul x (by simp [hx]), fun x hx => hc.shy x (by simp [hx]),
        fun x hx => hc.single x (by simp [hx])⟩
      exact ⟨by simp only [plain_clean a ha], a, w, b, rfl, hw, by simp⟩
    · rintro ⟨he, a, w, b, rfl, hw, hq⟩
      have ha : Clean a := ⟨fun x hx => hc.nonempty x (by simp [hx]), fun x hx => hc.nul x (by simp [hx]), fun x hx => hc.shy x (by simp [hx]),
        fun x hx => hc.single x (by simp [hx])⟩
      refine ⟨a, w, b, rfl, hw, ?_⟩
      obtain ⟨x, y⟩ := q
      simp only at he hq
      rw [plain_clean a ha, he, hq]
      simp
  -- the first pass
  have hes1 : ∀ e, e ∈ (wordMarks 0 0 s.tokens).filterMap (entry first s false (cleanSt s.tokens)) ↔
      ∃ p out n, WordAt s.tokens p ∧ first ((plain s.tokens).drop p) = some (out, n) ∧ Boundary s.tokens (p + n) ∧ e = ⟨1, s.pos + p, n, [out]⟩ := by
    intro e
    rw [List.mem_filterMap]
    constructor
    · rintro ⟨⟨p, q⟩, hq, he⟩
      obtain ⟨hpq, hw⟩ := (hwm _ hc _).1 hq
      simp only at hpq hw
      subst hpq
      obtain ⟨out, n, k1, k2, k3⟩ := (entry_clean hc).1 he
      exact ⟨_, out, n, hw, k1, k2, by rw [k3]; cases out <;> rfl⟩
    · rintro ⟨p, out, n, hw, k1, k2, rfl⟩
      exact ⟨(p, p), (hwm _ hc _).2 ⟨rfl, hw⟩, (entry_clean hc).2 ⟨out, n, k1, k2, by cases out <;> rfl⟩⟩
  have hstart : ∀ q e, q ∈ wordMarks 0 0 s.tokens → entry first s false (cleanSt s.tokens) q = some e → e.start = s.pos + q.2 := by
    intro q e hq he
    obtain ⟨p, r⟩ := q
    obtain ⟨hpq, hw⟩ := (hwm _ hc _).1 hq
    simp only at hpq hw
    subst hpq
    obtain ⟨out, n, k1, k2, k3⟩ := (entry_clean hc).1 he
    rw [k3]
  have hnd : (((wordMarks 0 0 s.tokens).filterMap (entry first s false (cleanSt s.tokens))).map (·.start)).Nodup := by
    rw [List.Nodup, List.pairwise_map, List.pairwise_filterMap]
    refine (wordMarks_sorted s.tokens hc.nonempty 0 0).2.imp_of_mem ?_
    intro a b ha hb hab e he e' he'
    rw [hstart a e ha he, hstart b e' hb he']
    omega
  have hplain : ∃ c0 rest, t0.str = c0 :: rest := List.exists_cons_of_ne_nil (hc.nonempty t0 (by simp [h0]))
  obtain ⟨c0, cs0, hstr⟩ := hplain
  have hch : t0.ch0 = c0 := by unfold GTok.ch0; rw [hstr]
  have hw0 : WordAt s.tokens 0 ↔ t0.type = .word := by
    constructor
    · rintro ⟨a, w, b, hab, hw, he⟩
      cases a with
      | nil => rw [h0, List.nil_append, List.cons.injEq] at hab; rw [hab.1]; exact hw
      | cons u a =>
        rw [h0, List.cons_append, List.cons.injEq] at hab
        rw [extent_cons, ← hab.1, hstr] at he
        simp at he
        omega
    · intro hw; exact ⟨[], t0, ts, h0, hw, rfl⟩
  have hsp : t0.type = .word → spelled t0 = t0.str := by
    intro hw
    unfold spelled
    rw [if_neg (by rw [hw]; decide), List.filter_eq_self.2]
    intro c' hc'
    have : c' ≠ 0xAD := by rintro rfl; exact hc.shy t0 (by simp [h0]) hc'
    simp [this]
  have hany : ((wordMarks 0 0 s.tokens).any fun q => (first ((cleanSt s.tokens).input.drop q.1)).isNone && (q.1 == 0 && isUpper t0.ch0)) = true ↔
      t0.type = .word ∧ first (plain s.tokens) = none ∧ isUpper c0 = true := by
    rw [List.any_eq_true]
    simp only [Bool.and_eq_true, beq_iff_eq, Option.isNone_iff_eq_none, hch, show (cleanSt s.tokens).input = plain s.tokens from rfl]
    constructor
    · rintro ⟨⟨p, q⟩, hq, k1, k2, k3⟩
      obtain ⟨he, hw⟩ := (hwm _ hc _).1 hq
      simp only at k1 k2 he hw
      subst k2
      subst he
      rw [List.drop_zero] at k1
      exact ⟨hw0.1 hw, k1, k3⟩
    · rintro ⟨hw, k1, k3⟩
      exact ⟨(0, 0), (hwm _ hc _).2 ⟨rfl, hw0.2 hw⟩, by rw [List.drop_zero]; exact k1, rfl, k3⟩
  unfold autocorrect acPass
  simp only [st1, hlook, Option.bind_eq_bind, Option.bind_some, h1]
  split
  · -- the second pass
    rename_i hlow
    obtain ⟨hw, hf, hu⟩ := hany.1 hlow
    have hz0 := hc.nul t0 (by simp [h0])
    have hs0 := hc.shy t0 (by simp [h0])
    rw [hstr] at hz0 hs0
    simp only [List.mem_cons, not_or] at hz0 hs0
    have hpl : plain s.tokens = c0 :: (cs0 ++ plain ts) := by rw [h0, plain_cons, hsp hw, hstr]; rfl
    obtain ⟨t1, ht1⟩ : ∃ t1, t1 = { t0 with str := lower c0 :: cs0 } := ⟨_, rfl⟩
    have e1 : t1.str = lower c0 :: cs0 := by rw [ht1]
    have e2 : t1.type = .word := by rw [ht1]; exact hw
    have hc1 : Clean (t1 :: ts) := by
      have hct := h0 ▸ hc
      constructor
      · intro x hx
        rcases List.mem_cons.1 hx with rfl | hx
        · rw [e1]; simp
        · exact hct.nonempty x (by simp [hx])
      · intro x hx
        rcases List.mem_cons.1 hx with rfl | hx
        · rw [e1]
          simp only [List.mem_cons, not_or]
          exact ⟨(hyLower_ne_zero (Ne.symm hz0.1)).symm, hz0.2⟩
        · exact hct.nul x (by simp [hx])
      · intro x hx
        rcases List.mem_cons.1 hx with rfl | hx
        · rw [e1]
          simp only [List.mem_cons, not_or]
          exact ⟨(lower_not_shy (Ne.symm hs0.1)).symm, hs0.2⟩
        · exact hct.shy x (by simp [hx])
      · intro x hx hxw
        rcases List.mem_cons.1 hx with rfl | hx
        · rw [e2] at hxw; cases hxw
        · exact hct.single x (by simp [hx]) hxw
    have hext : ∀ a, extent (t1 :: a) = extent (t0 :: a) := by intro a; rw [extent_cons, extent_cons, e1, hstr]; rfl
    have hsp1 : spelled t1 = lower c0 :: cs0 := by
      unfold spelled
      rw [if_neg (by rw [e2]; decide), e1, List.filter_eq_self.2]
      intro c' hc'
      have : c' ≠ 0xAD := by rintro rfl; exact hc1.shy t1 (by simp) (by rw [e1]; exact hc')
      simp [this]
    have hpl1 : plain (t1 :: ts) = lower c0 :: (cs0 ++ plain ts) := by rw [plain_cons, hsp1]; rfl
    have hbd : ∀ x, Boundary (t1 :: ts) x ↔ Boundary s.tokens x := by
      intro x
      rw [h0]
      constructor
      · rintro ⟨a, b, hab, rfl⟩
        cases a with
        | nil => exact ⟨[], t0 :: ts, rfl, rfl⟩
        | cons u a =>
          rw [List.cons_append, List.cons.injEq] at hab
          exact ⟨t0 :: a, b, by rw [hab.2]; rfl, by rw [← hab.1, hext]⟩
      · rintro ⟨a, b, hab, rfl⟩
        cases a with
        | nil => exact ⟨[], t1 :: ts, rfl, rfl⟩
        | cons u a =>
          rw [List.cons_append, List.cons.injEq] at hab
          exact ⟨t1 :: a, b, by rw [hab.2]; rfl, by rw [← hab.1, hext]⟩
    have st2 : acTokens true true s.tokens {} = some (some (cleanSt (t1 :: ts))) := by
      have hl1 : extent (t1 :: ts) < 20000 := by rw [hext, ← h0]; exact hl
      have key := acTokens_state (t1 :: ts) hc1.nonempty hc1.nul true {} rfl (by simpa using hl1)
      have hrest : ∀ (ts : List GTok) st, acTokens true false ts st = acTokens false false ts st := by
        intro ts
        induction ts with
        | nil => intro st; rfl
        | cons t ts ih =>
          intro st
          rw [acTokens, acTokens]
          have : acToken true false t st = acToken false false t st := rfl
          rw [this]
          cases acToken false false t st with
          | none => rfl
          | some o =>
            cases o with
            | none => rfl
            | some st' => exact ih st'
      have htok : acToken true true t0 {} = acToken false true t1 {} := by
        have hz' : 0 ∉ t0.str := hc.nul t0 (by simp [h0])
        have hcs : cstr t0.str = t0.str := by
          unfold cstr
          rw [List.takeWhile_eq_self_iff.2]
          intro x hx
          simp only [bne_iff_ne, ne_eq]
          rintro rfl
          exact hz' hx
        have hstr1 : acTokenStr (true && true) t0 = some (lower c0 :: cs0) := by
          unfold acTokenStr
          rw [if_pos (by rfl), hcs, if_neg (by omega), hstr]
          rfl
        have hstr2 : acTokenStr (false && true) t1 = some (lower c0 :: cs0) := by
          unfold acTokenStr
          rw [if_neg (by simp), e1]
          rfl
        have hln : t1.len = t0.len := by unfold GTok.len; rw [e1, hstr]; rfl
        unfold acToken
        simp only [hstr1, hstr2, hln, hw, e2]
      rw [h0, acTokens, htok]
      rw [acTokens] at key
      cases hk : acToken false true t1 {} with
      | none => rw [hk] at key; cases key
      | some o =>
        rw [hk] at key
        cases o with
        | none => cases key
        | some st' =>
          simp only [Option.bind_eq_bind, Option.bind_some] at key ⊢
          rw [hrest, key]
          simp [cleanSt]
    have hL : ∃ L : List (Nat × Nat), (cleanSt (t1 :: ts)).lookups = (0, 0) :: L ∧ ∀ q ∈ L, 0 < q.1 := by
      refine ⟨wordMarks (0 + (spelled t1).length) (0 + t1.len) ts, ?_, ?_⟩
      · show wordMarks 0 0 (t1 :: ts) = _
        rw [wordMarks, if_pos e2]
        rfl
      · intro q hq
        obtain ⟨a, w, b, _, _, rfl⟩ := (mem_wordMarks _ _ _ _).1 hq
        rw [hsp1]
        simp only [List.length_cons]
        omega
    obtain ⟨L, hL1, hL2⟩ := hL
    have hlen1 : (cleanSt (t1 :: ts)).input.length ≤ 20000 := by
      have := plain_clean _ hc1
      rw [hext, ← h0] at this
      simp only [cleanSt, this]
      omega
    obtain ⟨c2, b2, g1, g2⟩ := acLookups_first hm s h0 (cleanSt (t1 :: ts)) hlen1 0 L hL2 c1 h2
    simp only [st2, Option.bind_some, hL1, g1]
    have hfirst0 : ∀ e ∈ (wordMarks 0 0 s.tokens).filterMap (entry first s false (cleanSt s.tokens)), e.start ≠ s.pos := by
      intro e he hst
      obtain ⟨p, out, n, k0, k1, k2, rfl⟩ := (hes1 e).1 he
      have hp : p = 0 := by simp only at hst; omega
      subst hp
      rw [List.drop_zero, hf] at k1
      cases k1
    have hsecond : ∀ e, e ∈ (entry first s true (cleanSt (t1 :: ts)) (0, 0)).toList ↔
        ∃ out n, first (lower c0 :: (cs0 ++ plain ts)) = some (out, n) ∧ Boundary s.tokens n ∧ e = ⟨1, s.pos, n, [capital out]⟩ := by
      intro e
      rw [Option.mem_toList, entry_clean hc1]
      rw [List.drop_zero, hpl1]
      simp only [Nat.zero_add, Nat.add_zero, hbd]
      constructor
      · rintro ⟨out, n, k1, k2, k3⟩; exact ⟨out, n, k1, k2, by rw [k3]; cases out <;> rfl⟩
      · rintro ⟨out, n, k1, k2, k3⟩; exact ⟨out, n, k1, k2, by rw [k3]; cases out <;> rfl⟩
    refine ⟨c2, _, rfl, g2, ?_, ?_⟩
    · intro e
      rw [List.mem_append, hes1, hsecond]
      constructor
      · rintro (⟨p, out, n, k0, k1, k2, rfl⟩ | ⟨out, n, k1, k2, rfl⟩)
        · exact .phrase k0 k1 k2
        · exact .capital (hw0.2 hw) hpl hu (by rw [← hpl]; exact hf) k1 k2
      · intro h
        cases h with
        | phrase k0 k1 k2 => exact .inl ⟨_, _, _, k0, k1, k2, rfl⟩
        | capital k0 k1 k2 k3 k4 k5 =>
          rw [hpl, List.cons.injEq] at k1
          obtain ⟨rfl, rfl⟩ := k1
          exact .inr ⟨_, _, k4, k5, rfl⟩
    · rw [List.map_append, List.nodup_append]
      refine ⟨hnd, ?_, ?_⟩
      · cases entry first s true (cleanSt (t1 :: ts)) (0, 0) <;> simp
      · intro a ha b hb hab
        obtain ⟨e, he, rfl⟩ := List.mem_map.1 ha
        obtain ⟨e', he', rfl⟩ := List.mem_map.1 hb
        obtain ⟨out, n, _, _, rfl⟩ := (hsecond e').1 he'
        exact hfirst0 e he hab
  · rename_i hlow
    refine ⟨c1, _, rfl, h2, ?_, hnd⟩
    intro e
    rw [hes1]
    constructor
    · rintro ⟨p, out, n, k0, k1, k2, rfl⟩; exact .phrase k0 k1 k2
    · intro h
      cases h with
      | phrase k0 k1 k2 => exact ⟨_, _, _, k0, k1, k2, rfl⟩
      | capital k0 k1 k2 k3 k4 k5 =>
        exfalso
        apply hlow
        rw [hany]
        have hw := hw0.1 k0
        have : plain s.tokens = c0 :: (cs0 ++ plain ts) := by rw [h0, plain_cons, hsp hw, hstr]; rfl
        rw [this, List.cons.injEq] at k1
        obtain ⟨rfl, rfl⟩ := k1
        exact ⟨hw, by rw [this]; exact k3, k2⟩

/-- C83 (soft hyphens): in the first sentence, with nothing but clean tokens before it, a phrase is reported although it is written with soft
hyphens or with several spaces; the length of the error is that of the phrase as it is written. Something has to follow the phrase. -/
theorem C83_soft_hyphens_partial {σ : Type} {m : Lookup σ} {P : σ → Prop} {first : List Wc → Option (List Wc × Nat)} (hm : Answers m P first)
    (s : GSent) (hpos : s.pos = 0) {before mid after : List GTok} {w x : GTok} (hs : s.tokens = before ++ w :: (mid ++ x :: after))
    (hb : Clean before) (hne : ∀ t ∈ s.tokens, t.str ≠ []) (hz : ∀ t ∈ s.tokens, 0 ∉ t.str) (hl : extent s.tokens < 20000)
    (hw : w.type = .word) (hx : spelled x ≠ []) {out : List Wc}
    (hf : first (plain (w :: (mid ++ x :: after))) = some (out, (plain (w :: mid)).length)) (c : σ) (hP : P c) :
    ∃ c' es, autocorrect m s c = some (c', es) ∧ P c' ∧ ⟨1, extent before, extent (w :: mid), [out]⟩ ∈ es := by
  have h0 : ∃ t0 ts, s.tokens = t0 :: ts := by
    cases before with
    | nil => exact ⟨_, _, hs⟩
    | cons u r => exact ⟨_, _, hs⟩
  obtain ⟨t0, ts, h0⟩ := h0
  have st1 : acTokens false true s.tokens {} = some (some (cleanSt s.tokens)) := by
    rw [acTokens_state s.tokens hne hz true {} rfl (by simpa using hl)]
    simp [cleanSt]
  have hle : ∀ l : List GTok, (∀ t ∈ l, t.str ≠ []) → (plain l).length ≤ extent l := by
    intro l hl
    induction l with
    | nil => exact Nat.le_refl _
    | cons t l ih =>
      have := spelled_le (hl t (by simp))
      have := ih (fun t ht => hl t (by simp [ht]))
      rw [plain_cons, extent_cons, List.length_append]
      omega
  have hlen : (cleanSt s.tokens).input.length ≤ 20000 := by
    have := hle s.tokens hne
    simp only [cleanSt]; omega
  obtain ⟨c1, h1, h2⟩ := acLookups_all hm s h0 (cleanSt s.tokens) hlen (cleanSt s.tokens).lookups c hP
  have hB := plain_clean before hb
  have hneM : ∀ t ∈ w :: mid, t.str ≠ [] := by
    intro t ht
    apply hne
    rw [hs]
    rcases List.mem_cons.1 ht with rfl | ht
    · simp
    · simp [ht]
  have hM := hle (w :: mid) hneM
  have hsplit : s.tokens = (before ++ (w :: mid)) ++ x :: after := by rw [hs]; simp
  have hmarks : marks 0 0 s.tokens = marks 0 0 (before ++ (w :: mid)) ++
      marks ((plain before).length + (plain (w :: mid)).length) (extent before + extent (w :: mid)) (x :: after) := by
    rw [hsplit, marks_append, plain_append, extent_append, List.length_append]
    simp only [Nat.zero_add]
  have hentry : entry first s false (cleanSt s.tokens) (extent before, extent before) = some ⟨1, extent before, extent (w :: mid), [out]⟩ := by
    unfold entry
    have hd : (cleanSt s.tokens).input.drop (extent before) = plain (w :: (mid ++ x :: after)) := by
      simp only [cleanSt]
      rw [hs, plain_append, ← hB, List.drop_left]
    simp only [hd, hf]
    have hmem : extent before + (plain (w :: mid)).length ∈ (cleanSt s.tokens).norm := by
      have hcl : ∀ (l : List GTok), l ≠ [] → ∀ n o, n + (plain l).length ∈ (marks n o l).map (·.1) := by
        intro l
        induction l with
        | nil => intro h; exact absurd rfl h
        | cons t l ih =>
          intro _ n o
          rw [marks, List.map_cons, plain_cons, List.length_append]
          cases l with
          | nil => simp [plain]
          | cons u l =>
            have := ih (by simp) (n + (spelled t).length) (o + t.len)
            rw [← Nat.add_assoc]
            exact List.mem_cons_of_mem _ this
      simp only [cleanSt]
      apply List.mem_cons_of_mem
      rw [hmarks, List.map_append]
      apply List.mem_append_left
      have := hcl (before ++ w :: mid) (by simp) 0 0
      rw [plain_append, List.length_append, Nat.zero_add, hB] at this
      exact this
    rw [if_neg (fun h => (contains_iff _ _).1 h hmem)]
    have hzip : (cleanSt s.tokens).orig.zip (cleanSt s.tokens).norm = (0, 0) :: (marks 0 0 s.tokens).map (fun q => (q.2, q.1)) := by
      simp only [cleanSt, List.zip_cons_cons, List.zip_map']
    have hcorr : acCorrection (s.pos + extent before) (plain (w :: mid)).length (0, 0) ((cleanSt s.tokens).orig.zip (cleanSt s.tokens).norm) 0
        = extent (w :: mid) - (plain (w :: mid)).length := by
      rw [hzip, acCorrection, hpos, Nat.zero_add]
      rw [if_neg (by omega)]
      have h00 : sizeSub 0 0 = 0 := by decide
      simp only [h00, ite_self]
      rw [hmarks, List.map_append]
      have hq : ∀ q ∈ marks 0 0 (before ++ w :: mid), q.2 ≤ extent before → q.1 = q.2 := by
        intro q hq hle
        rw [marks_append] at hq
        rcases List.mem_append.1 hq with hq | hq
        · exact marks_clean before hb 0 q hq
        · have := marks_gt (w :: mid) hneM _ _ q hq; omega
      rw [acCorrection_pass _ _ _ _ 0 0 (by rw [plain_append, List.length_append]; omega) hq, marks, List.map_cons, acCorrection]
      have hx' := List.length_pos_iff.2 hx
      have he : 0 < x.len := List.length_pos_iff.2 (hne x (by rw [hs]; simp))
      have hw' : 0 < w.len := List.length_pos_iff.2 (hneM w (by simp))
      have hwe : w.len ≤ extent (w :: mid) := by rw [extent_cons]; exact Nat.le_add_right _ _
      simp only [extent_append, plain_append, List.length_append, Nat.zero_add]
      rw [if_pos (by omega), if_neg (by omega), sizeSub_le (by omega), sizeSub_le (by omega)]
      omega
    rw [hcorr, hpos]
    have ho : acSuggestion false out = out := by cases out <;> rfl
    rw [ho]
    simp only [Nat.zero_add]
    congr 2
    omega
  have hmem : (⟨1, extent before, extent (w :: mid), [out]⟩ : GErr) ∈ (cleanSt s.tokens).lookups.filterMap (entry first s false (cleanSt s.tokens)) := by
    refine List.mem_filterMap.2 ⟨(extent before, extent before), ?_, hentry⟩
    show _ ∈ wordMarks 0 0 s.tokens
    rw [mem_wordMarks]
    exact ⟨before, w, _, hs, hw, by rw [hB]; simp⟩
  unfold autocorrect
  have hp1 : acPass m s false c = some (c1, (cleanSt s.tokens).lookups.filterMap (entry first s false (cleanSt s.tokens)),
      (cleanSt s.tokens).lookups.any fun q => (first ((cleanSt s.tokens).input.drop q.1)).isNone && (q.1 == 0 && isUpper t0.ch0)) := by
    unfold acPass
    simp only [st1, Option.bind_eq_bind, Option.bind_some]
    exact h1
  simp only [hp1, Option.bind_eq_bind, Option.bind_some]
  split
  · obtain ⟨c2, es2, b2, h3, h4⟩ := acPass_lower hm s h0 hne hz c1 h2
    simp only [h3, Option.bind_some]
    exact ⟨c2, _, rfl, h4, List.mem_append_left _ hmem⟩
  · exact ⟨c1, _, rfl, h2, hmem⟩

/-! ### A list of corrections that is given as a text -/

/-- C83 (from the list to the report): if the corrections are compiled from a text without flag diacritics, then in every clean sentence, after
any number of other sentences, exactly the phrases are reported that the automaton of the text accepts: where several are accepted the first
one in the order of its lines. -/
theorem C83_compiled_partial {text : List Nat} {ls : List Att.Line} (hd : Att.Describes text ls) (hp : Att.Proper ls)
    (hno : ∀ l ∈ ls, ∀ s ∈ l.symbols, s.head? ≠ some 64)
    {srtS : List (Nat × List Nat) → List (Nat × List Nat)} {srtT : List CTrans → List CTrans}
    (hS : SortsBy (fun a b => attSymLt a.2 b.2) srtS) (hT : SortsBy fileOrderLt srtT) (sw : Bool) :
    ∃ file f, attCompile srtS srtT sw text = some (some file) ∧ loadFile file = some (some f) ∧
    ∃ (used : Conf → Prop) (first : List Wc → Option (List Wc × Nat)), used (fstLookupInit f) ∧ Answers (fstLookup f) used first ∧
      (∀ w, w.length ≤ 20000 → Finds ls w (first w)) ∧
      ∀ s : GSent, s.tokens ≠ [] → Clean s.tokens → extent s.tokens < 20000 → ∀ c, used c →
        ∃ c' es, autocorrect (fstLookup f) s c = some (c', es) ∧ used c' ∧ (∀ e, e ∈ es ↔ Reported first s e) ∧ (es.map (·.start)).Nodup := by
  obtain ⟨file, f, h1, h2, h3, h4⟩ := compiled_first hd hp hno hS hT sw
  obtain ⟨first, h5, h6⟩ := fst_answers h3 h4
  refine ⟨file, f, h1, h2, _, first, ?_, h6, h5, ?_⟩
  · unfold fstLookupInit
    rw [h3]
    exact ⟨rfl, rfl⟩
  · intro s hs hc hl c hu
    exact C83_reports_partial h6 s hs hc hl c hu

/-- C83 (listed phrases): a phrase of the list that begins with a word and ends with a token is reported, with its correction, unless
other phrases begin at the same place or a limit is exceeded. -/
theorem C83_listed {ls : List Att.Line} {first : List Wc → Option (List Wc × Nat)} (hf : ∀ w, w.length ≤ 20000 → Finds ls w (first w))
    {s : GSent} (hc : Clean s.tokens) (hl : extent s.tokens < 20000) {p n : Nat} {run : List Nat} (hw : WordAt s.tokens p)
    (ha : Att.Accepts ls ((plain s.tokens).drop p) true run n)
    (honly : ∀ run' n', Att.Accepts ls ((plain s.tokens).drop p) true run' n' → run' = run ∧ n' = n)
    (hlim : ∀ r, ¬ Att.Exceeds ls ((plain s.tokens).drop p) true 20000 20000 r) (hb : Boundary s.tokens (p + n)) :
    Reported first s ⟨1, s.pos + p, n, [Att.runOutput ls run]⟩ := by
  have hlen := plain_clean s.tokens hc
  have h := hf ((plain s.tokens).drop p) (by rw [List.length_drop]; omega)
  cases ho : first ((plain s.tokens).drop p) with
  | none =>
    rw [ho] at h
    rcases h with h | ⟨r, h⟩
    · exact absurd ha (h _ _)
    · exact absurd h (hlim r)
  | some x =>
    obtain ⟨out, m⟩ := x
    rw [ho] at h
    obtain ⟨run', h1, h2, _⟩ := h
    obtain ⟨rfl, rfl⟩ := honly _ _ h1
    rw [← h2]
    exact .phrase hw ho hb

/-! ### Whole texts -/

theorem reported_code {o : GramOpts} {s : GSent} {e : GErr} (h : Props.Reported o s e) : e.code ≠ 1 := by
  have flat : ∀ (code : Nat) (t u : GTok), (fromTo code t u).code = code := fun _ _ _ => rfl
  rcases h with h | h | h | ⟨t, w, u, _, _, h | h | h | h⟩ | h | h
  · obtain ⟨x, _, hx⟩ := List.mem_flatMap.1 h
    unfold punctAt at hx
    repeat' split at hx
    all_goals first
      | (cases hx; done)
      | (rw [List.mem_singleton.1 hx]; simp)
  · obtain ⟨x, _, hx⟩ := List.mem_flatMap.1 h
    unfold quoteAt at hx
    repeat' split at hx
    all_goals first
      | (cases hx; done)
      | (rw [List.mem_singleton.1 hx]; simp)
  · obtain ⟨x, _, rfl⟩ := Option.map_eq_some_iff.1 h
    simp
  · rw [h.2.2.2]; simp
  · rw [h.2.2, flat]; simp
  · rw [h.2.2, flat]; simp
  · rw [h.2.2, flat]; simp
  · unfold verbErrors at h
    split at h
    · cases h
    · rcases List.mem_append.1 h with h | h
      · obtain ⟨x, _, hx⟩ := List.mem_flatMap.1 h
        obtain ⟨y, _, hy⟩ := List.mem_flatMap.1 hx
        unfold twoVerbs at hy
        split at hy
        · cases hy
        · rw [List.mem_singleton.1 hy, flat]; simp
      · obtain ⟨x, _, hx⟩ := List.mem_flatMap.1 h
        split at hx
        · rw [List.mem_singleton.1 hx]; simp
        · cases hx
  · obtain ⟨_, _, _, _, _, _, _, _, _, _, rfl⟩ := h
    simp

theorem sentenceChecks_auto {σ : Type} {m : Lookup σ} (o : GramOpts) {N : Nat} (s : GSent) (c c' : σ) (es : List GErr)
    (h : Run N s.pos s.tokens) (h0 : s.tokens ≠ []) (hz : NulFree s.tokens) (hb : ∀ t ∈ s.tokens, t.ch0 = 0x5D → t.type = .punctuation)
    (hes : sentenceChecks (some m) o s c = some (c', es)) :
    ∃ ac, autocorrect m s c = some (c', ac) ∧ ∀ e : GErr, e.code = 1 → (e ∈ es ↔ e ∈ ac) := by
  obtain ⟨si, hsi, hsi2⟩ := C74_conjunction s h0 hz
  have hnone : sentenceChecks (σ := Unit) none o s () = some ((), localPunct 0 true s.tokens ++ quotations s.tokens ++ repeatingWords 0 s.tokens ++
      verbErrors o s ++ negativeVerb s.tokens ++ compoundVerb s.tokens ++ si) := by
    unfold sentenceChecks
    rw [C74_verbs o s h hz h0, hsi]
    rfl
  unfold sentenceChecks at hes
  rw [C74_verbs o s h hz h0, hsi] at hes
  simp only [Option.bind_eq_bind, Option.bind_some] at hes
  obtain ⟨⟨c1, ac⟩, h1, h2⟩ := Option.bind_eq_some_iff.1 hes
  simp only [Option.pure_def, Option.some.injEq, Prod.mk.injEq] at h2
  obtain ⟨rfl, rfl⟩ := h2
  refine ⟨ac, h1, ?_⟩
  intro e he
  rw [List.mem_append]
  constructor
  · rintro (hm | hm)
    · have := (sentenceChecks_reported none o s () () _ h h0 hz hb hnone e (.inl rfl) (by rw [he]; intro h; cases h)).1 hm
      exact absurd he (reported_code this)
    · exact hm
  · exact .inr

theorem allSentences_auto {σ : Type} {m : Lookup σ} {P : σ → Prop} {first : List Wc → Option (List Wc × Nat)} (hm : Answers m P first)
    (o : GramOpts) {N : Nat} (p : List GSent) :
    (∀ s ∈ p, Run N s.pos s.tokens ∧ s.tokens ≠ [] ∧ NulFree s.tokens ∧ ∀ t ∈ s.tokens, t.ch0 = 0x5D → t.type = .punctuation) →
    (∀ s ∈ p, Clean s.tokens ∧ extent s.tokens < 20000) →
    ∀ (c c' : σ) (es : List GErr), P c → allSentences (some m) o p c = some (c', es) →
      P c' ∧ ∀ e : GErr, e.code = 1 → (e ∈ es ↔ ∃ s ∈ p, Reported first s e) := by
  induction p with
  | nil =>
    intro _ _ c c' es hP h
    simp only [allSentences, Option.pure_def, Option.some.injEq, Prod.mk.injEq] at h
    rw [← h.2, ← h.1]
    exact ⟨hP, by simp⟩
  | cons s p ih =>
    intro hp hcl c c' es hP h
    rw [allSentences] at h
    obtain ⟨⟨c1, e1⟩, h1, h2⟩ := Option.bind_eq_some_iff.1 h
    obtain ⟨⟨c2, e2⟩, h3, h4⟩ := Option.bind_eq_some_iff.1 h2
    simp only [Option.pure_def, Option.some.injEq, Prod.mk.injEq] at h4
    obtain ⟨a1, a2, a3, a4⟩ := hp s (by simp)
    obtain ⟨b1, b2⟩ := hcl s (by simp)
    obtain ⟨ac, k1, k2⟩ := sentenceChecks_auto o s c c1 e1 a1 a2 a3 a4 h1
    obtain ⟨c3, ac', k3, k4, k5, _⟩ := C83_reports_partial hm s a2 b1 b2 c hP
    rw [k1, Option.some.injEq, Prod.mk.injEq] at k3
    obtain ⟨rfl, rfl⟩ := k3
    obtain ⟨g1, g2⟩ := ih (fun s hs => hp s (by simp [hs])) (fun s hs => hcl s (by simp [hs])) _ _ _ k4 h3
    rw [← h4.1, ← h4.2]
    refine ⟨g1, ?_⟩
    intro e he
    rw [List.mem_append, k2 e he, k5, g2 e he]
    simp

/-- C83 (whole texts): the errors with code 1 of a text with clean sentences are those of its sentences. -/
theorem C83_text_partial {σ : Type} {an : List Wc → List GramAn} {spellOk : Bool → List Wc → Bool} {m : Lookup σ} {P : σ → Prop}
    {first : List Wc → Option (List Wc × Nat)} (hm : Answers m P first) (hs : HasStructure an) (extra dot : Bool) (o : GramOpts)
    (text : List Wc) (h0 : text ≠ []) (hz : 0 ∉ text) (c c' : σ) (hP : P c) (es : List GErr)
    (hf : foundErrors ⟨an, spellOk, some m⟩ extra dot o text c = some (c', es)) (p : List GSent)
    (hp : analyseParagraph an (spellOk extra) dot text = some (some p)) (hch : Checked p)
    (hcl : ∀ s ∈ p, Clean s.tokens ∧ extent s.tokens < 20000) :
    P c' ∧ ∀ e : GErr, e.code = 1 → (e ∈ es ↔ ∃ s ∈ p, Reported first s e) := by
  unfold foundErrors at hf
  simp only [hp, Option.bind_eq_bind, Option.bind_some] at hf
  rw [if_neg (fun hn => (notChecked_iff p).1 hn hch)] at hf
  obtain ⟨hp0, hp'⟩ := C74_applies an hs (spellOk extra) dot text h0 hz p hp
  unfold ruleEngine at hf
  obtain ⟨⟨c1, e1⟩, h3, h4⟩ := Option.bind_eq_some_iff.1 hf
  obtain ⟨cap, h5, h6⟩ := Option.bind_eq_some_iff.1 h4
  obtain ⟨ep, h7, h9⟩ := Option.bind_eq_some_iff.1 h6
  simp only [Option.pure_def, Option.some.injEq, Prod.mk.injEq] at h9
  obtain ⟨g1, g2⟩ := allSentences_auto hm o p hp' hcl _ _ _ hP h3
  rw [← h9.1, ← h9.2]
  refine ⟨g1, ?_⟩
  intro e he
  have hcap : e ∉ cap := by
    intro hx
    rcases capCheck_code h5 e hx with h | h | h
    all_goals rw [he] at h; cases h
  have hend : e ∉ ep := by
    intro hx
    obtain ⟨s, hsl⟩ : ∃ s, p.getLast? = some s := ⟨_, List.getLast?_eq_some_getLast hp0⟩
    obtain ⟨t, htl⟩ : ∃ t, s.tokens.getLast? = some t := ⟨_, List.getLast?_eq_some_getLast (hp' s (List.mem_of_getLast? hsl)).2.1⟩
    rw [C74_end o p s t hsl htl] at h7
    cases h7
    split at hx
    · rw [List.mem_singleton.1 hx] at he; cases he
    · cases hx
  rw [List.mem_append, List.mem_append, g2 e he]
  constructor
  · rintro ((h | h) | h)
    · exact h
    · exact absurd h hcap
    · exact absurd h hend
  · intro h; exact .inl (.inl h)

/-! ### Where it fails -/

/-- A word and a space, for examples; the attributes are not used. -/
def exTok (t : TokenType) (str : List Wc) : GTok := { type := t, str := str, pos := 0 }

/-- Corrects "joten kuten" to "jotenkuten". -/
def exFirst (w : List Wc) : Option (List Wc × Nat) := if (lit "joten kuten").isPrefixOf w then some (lit "jotenkuten", 11) else none

def exAuto : Lookup Unit := ⟨fun c w => some (c, exFirst w)⟩

/-- The phrases "ab" (corrected to "y") and "abc d" (corrected to "yz"). -/
def hidingText : List Nat :=
  [48, 9, 49, 9, 97, 9, 121, 10, 49, 9, 50, 9, 98, 9, 64, 48, 64, 10, 50, 10, 50, 9, 51, 9, 99, 9, 64, 48, 64, 10, 51, 9, 52, 9, 64, 95, 83, 80, 65, 67, 69, 95, 64, 9, 64, 48, 64, 10, 52, 9, 53, 9, 100, 9, 122, 10, 53, 10]

/-- What is reported for a sentence with the corrections of a text. -/
def compileAndCheck (text : List Nat) (s : GSent) : UB (Option (List GErr)) := do
  match ← attCompile sortSymbols sortTransitions false text with
  | none => return none
  | some file =>
    match ← loadFile file with
    | none => return none
    | some f =>
      let (_, es) ← autocorrect (fstLookup f) s (fstLookupInit f)
      return some es

/-- C83 fails if one phrase of the list begins another one: "abc d" is in the list, but as "ab" is found first and is not followed by a
boundary, nothing is reported in "abc d". The phrase "ab" itself is reported. -/
theorem C83_violation_hidden :
    compileAndCheck hidingText ⟨0, [exTok .word (lit "abc"), exTok .whitespace (lit " "), exTok .word (lit "d")], .none⟩ = some (some []) ∧
    compileAndCheck hidingText ⟨0, [exTok .word (lit "ab"), exTok .whitespace (lit " "), exTok .word (lit "d")], .none⟩ =
      some (some [⟨1, 0, 2, [lit "y"]⟩]) := by
  refine ⟨by decide +kernel, by decide +kernel⟩

/-- C83 fails after soft hyphens: with two of them in an earlier word, "joten kuten" is not reported. -/
theorem C83_violation_missed :
    (autocorrect exAuto ⟨0, [exTok .word [0x78, 0xAD, 0x79, 0xAD, 0x7A], exTok .whitespace (lit " "), exTok .word (lit "joten"),
      exTok .whitespace (lit " "), exTok .word (lit "kuten"), exTok .punctuation (lit ".")], .none⟩ ()).map (·.2) = some [] ∧
    (autocorrect exAuto ⟨0, [exTok .word [0x78, 0x79, 0x7A], exTok .whitespace (lit " "), exTok .word (lit "joten"),
      exTok .whitespace (lit " "), exTok .word (lit "kuten"), exTok .punctuation (lit ".")], .none⟩ ()).map (·.2) =
      some [⟨1, 4, 11, [lit "jotenkuten"]⟩] := by
  refine ⟨by decide +kernel, by decide +kernel⟩

/-- C83 fails after soft hyphens: "joten kutenx" is reported as if it were "joten kuten", because of one soft hyphen in an earlier word. -/
theorem C83_violation_false :
    (autocorrect exAuto ⟨0, [exTok .word [0x78, 0xAD, 0x79], exTok .whitespace (lit " "), exTok .word (lit "joten"),
      exTok .whitespace (lit " "), exTok .word (lit "kutenx")], .none⟩ ()).map (·.2) = some [⟨1, 4, 12, [lit "jotenkuten"]⟩] ∧
    (autocorrect exAuto ⟨0, [exTok .word [0x78, 0x79], exTok .whitespace (lit " "), exTok .word (lit "joten"),
      exTok .whitespace (lit " "), exTok .word (lit "kutenx")], .none⟩ ()).map (·.2) = some [] := by
  refine ⟨by decide +kernel, by decide +kernel⟩

/-- C83 (soft hyphens) fails if nothing follows the phrase: the phrase has 12 characters, but the error has the length 11. -/
theorem C83_violation_end :
    (autocorrect exAuto ⟨0, [exTok .word [0x6A, 0x6F, 0xAD, 0x74, 0x65, 0x6E], exTok .whitespace (lit " "), exTok .word (lit "kuten")], .none⟩
      ()).map (·.2) = some [⟨1, 0, 11, [lit "jotenkuten"]⟩] := by decide +kernel

/-- C83 (soft hyphens) fails in later sentences: the phrase has 12 characters, but the error has the length 13, because a word after
the phrase has a soft hyphen too. -/
theorem C83_violation_later :
    (autocorrect exAuto ⟨20, [exTok .word [0x6A, 0x6F, 0xAD, 0x74, 0x65, 0x6E], exTok .whitespace (lit " "), exTok .word (lit "kuten"),
      exTok .whitespace (lit " "), exTok .word [0x78, 0xAD, 0x79]], .none⟩ ()).map (·.2) = some [⟨1, 20, 13, [lit "jotenkuten"]⟩] := by decide +kernel

/-! ### The hypotheses are met -/

example : Answers exAuto (fun _ => True) exFirst := fun c w _ _ => ⟨c, rfl, trivial⟩

/-- A clean sentence. -/
def exClean : GSent := ⟨7, [exTok .word (lit "Joten"), exTok .whitespace (lit " "), exTok .word (lit "kuten"), exTok .punctuation (lit ".")], .none⟩

example : Clean exClean.tokens := by
  refine ⟨?_, ?_, ?_, ?_⟩ <;> decide

/-- The capital letter is not significant; the correction has one too. -/
example : Reported exFirst exClean ⟨1, 7, 11, [lit "Jotenkuten"]⟩ := by
  have h : plain exClean.tokens = 0x4A :: lit "oten kuten." := by decide
  exact Reported.capital (first := exFirst) (s := exClean) (c := 0x4A) (rest := lit "oten kuten.") (out := lit "jotenkuten") (n := 11)
    ⟨[], _, _, rfl, rfl, rfl⟩ h (by decide) (by decide) (by decide)
    ⟨[exTok .word (lit "Joten"), exTok .whitespace (lit " "), exTok .word (lit "kuten")], [exTok .punctuation (lit ".")], rfl, by decide⟩

example : (autocorrect exAuto exClean ()).map (·.2) = some [⟨1, 7, 11, [lit "Jotenkuten"]⟩] := by decide +kernel

/-- A phrase with a soft hyphen and two spaces, for `C83_soft_hyphens_partial`. -/
example : (autocorrect exAuto ⟨0, [exTok .word (lit "se"), exTok .whitespace (lit " "), exTok .word [0x6A, 0x6F, 0xAD, 0x74, 0x65, 0x6E],
      exTok .whitespace (lit "  "), exTok .word (lit "kuten"), exTok .punctuation (lit ".")], .none⟩ ()).map (·.2) =
    some [⟨1, 3, 13, [lit "jotenkuten"]⟩] := by decide +kernel

example : plain [exTok .word [0x6A, 0x6F, 0xAD, 0x74, 0x65, 0x6E], exTok .whitespace (lit "  "), exTok .word (lit "kuten")] = lit "joten kuten" := by
  decide

end Verif.Autocorrect
