import Verif.Model.LanguageTag
/-!
# Facts about searching in strings and about the parts of language tags
-/

namespace Verif.Props
open Verif

theorem findSub_some {pat : List Nat} : ∀ {s : List Nat} {k : Nat}, findSub pat s = some k →
    k ≤ s.length ∧ pat <+: s.drop k ∧ ∀ j < k, ¬ pat <+: s.drop j := by
  intro s
  induction s with
  | nil =>
    intro k h
    rw [findSub] at h
    split at h
    · cases h
      subst pat
      exact ⟨Nat.le_refl _, List.nil_prefix, fun j hj => absurd hj (by omega)⟩
    · cases h
  | cons c s ih =>
    intro k h
    rw [findSub] at h
    split at h
    · rename_i hp
      cases h
      exact ⟨Nat.zero_le _, List.isPrefixOf_iff_prefix.1 hp, fun j hj => absurd hj (by omega)⟩
    · rename_i hp
      cases hs : findSub pat s with
      | none => rw [hs] at h; cases h
      | some k' =>
        rw [hs] at h
        cases h
        obtain ⟨h1, h2, h3⟩ := ih hs
        refine ⟨by simpa using h1, h2, fun j hj => ?_⟩
        cases j with
        | zero => exact fun hpre => hp (List.isPrefixOf_iff_prefix.2 hpre)
        | succ j => exact h3 j (by simp only at hj; omega)

theorem findSub_none {pat : List Nat} : ∀ {s : List Nat}, findSub pat s = none → ∀ j, ¬ pat <+: s.drop j := by
  intro s
  induction s with
  | nil =>
    intro h j
    rw [findSub] at h
    split at h
    · cases h
    · rename_i hp
      rw [List.drop_nil, List.prefix_nil]
      exact hp
  | cons c s ih =>
    intro h j
    rw [findSub] at h
    split at h
    · cases h
    · rename_i hp
      cases hs : findSub pat s with
      | some k => rw [hs] at h; cases h
      | none =>
        cases j with
        | zero => exact fun hpre => hp (List.isPrefixOf_iff_prefix.2 hpre)
        | succ j => exact ih hs j

theorem findSub_eq_some {pat s : List Nat} {k : Nat} (h2 : pat <+: s.drop k) (h3 : ∀ j < k, ¬ pat <+: s.drop j) (_ : k ≤ s.length) :
    findSub pat s = some k := by
  cases h : findSub pat s with
  | none => exact absurd h2 (findSub_none h k)
  | some k' =>
    obtain ⟨g1, g2, g3⟩ := findSub_some h
    rcases Nat.lt_trichotomy k k' with hk | hk | hk
    · exact absurd h2 (g3 k hk)
    · rw [hk]
    · exact absurd g2 (h3 k' hk)

theorem findSub_eq_none {pat s : List Nat} (h : ∀ j, ¬ pat <+: s.drop j) : findSub pat s = none := by
  cases hf : findSub pat s with
  | none => rfl
  | some k => exact absurd (findSub_some hf).2.1 (h k)

theorem mem_of_prefix_drop {c : Nat} {rest s : List Nat} {j : Nat} (h : (c :: rest) <+: s.drop j) : c ∈ s :=
  List.mem_of_mem_drop (h.subset List.mem_cons_self)

theorem find1_none {c : Nat} {s : List Nat} (h : c ∉ s) : findSub [c] s = none :=
  findSub_eq_none fun _ hj => h (mem_of_prefix_drop hj)

theorem drop_before {l m : List Nat} {j : Nat} (hj : j < l.length) : ∃ x ∈ l, ∃ r, (l ++ m).drop j = x :: r := by
  refine ⟨l[j], List.getElem_mem hj, (l ++ m).drop (j + 1), ?_⟩
  rw [List.drop_eq_getElem_cons (by rw [List.length_append]; omega), List.getElem_append_left hj]

theorem find1_some {c : Nat} {a b : List Nat} (h : c ∉ a) : findSub [c] (a ++ c :: b) = some a.length := by
  refine findSub_eq_some ?_ (fun j hj hpre => ?_) (by simp)
  · rw [List.drop_left]
    exact ⟨b, rfl⟩
  · obtain ⟨x, hx, r, hr⟩ := drop_before (m := c :: b) hj
    rw [hr, List.cons_prefix_cons] at hpre
    exact h (hpre.1 ▸ hx)

theorem split1 (c : Nat) (s : List Nat) : c ∉ s ∨ ∃ a b, s = a ++ c :: b ∧ c ∉ a := by
  by_cases h : c ∈ s
  · obtain ⟨a, b, h1, h2⟩ := List.eq_append_cons_of_mem h
    exact .inr ⟨a, b, h1, h2⟩
  · exact .inl h

theorem rfindSub_some {pat : List Nat} : ∀ {s : List Nat} {k : Nat}, rfindSub pat s = some k →
    k ≤ s.length ∧ pat <+: s.drop k ∧ ∀ j, k < j → j ≤ s.length → ¬ pat <+: s.drop j := by
  intro s
  induction s with
  | nil =>
    intro k h
    rw [rfindSub] at h
    split at h
    · cases h
      subst pat
      exact ⟨Nat.le_refl _, List.nil_prefix, fun j hj hl => absurd hl (by simp only [List.length_nil]; omega)⟩
    · cases h
  | cons c s ih =>
    intro k h
    rw [rfindSub] at h
    have hnone : ∀ {s : List Nat}, rfindSub pat s = none → ∀ j, ¬ pat <+: s.drop j := by
      intro s
      induction s with
      | nil =>
        intro h j
        rw [rfindSub] at h
        split at h
        · cases h
        · rename_i hp
          rw [List.drop_nil, List.prefix_nil]
          exact hp
      | cons c s ih =>
        intro h j
        rw [rfindSub] at h
        cases hs : rfindSub pat s with
        | some k => rw [hs] at h; cases h
        | none =>
          simp only [hs] at h
          split at h
          · cases h
          · rename_i hp
            cases j with
            | zero => exact fun hpre => hp (List.isPrefixOf_iff_prefix.2 hpre)
            | succ j => exact ih hs j
    cases hs : rfindSub pat s with
    | some k' =>
      simp only [hs] at h
      cases h
      obtain ⟨h1, h2, h3⟩ := ih hs
      refine ⟨by simpa using h1, h2, fun j hj hl => ?_⟩
      cases j with
      | zero => omega
      | succ j => exact h3 j (by omega) (by simpa using hl)
    | none =>
      simp only [hs] at h
      split at h
      · rename_i hp
        cases h
        refine ⟨Nat.zero_le _, List.isPrefixOf_iff_prefix.1 hp, fun j hj hl => ?_⟩
        cases j with
        | zero => omega
        | succ j => exact hnone hs j
      · cases h

theorem rfindSub_none {pat : List Nat} : ∀ {s : List Nat}, rfindSub pat s = none → ∀ j, ¬ pat <+: s.drop j := by
  intro s
  induction s with
  | nil =>
    intro h j
    rw [rfindSub] at h
    split at h
    · cases h
    · rename_i hp
      rw [List.drop_nil, List.prefix_nil]
      exact hp
  | cons c s ih =>
    intro h j
    rw [rfindSub] at h
    cases hs : rfindSub pat s with
    | some k => rw [hs] at h; cases h
    | none =>
      simp only [hs] at h
      split at h
      · cases h
      · rename_i hp
        cases j with
        | zero => exact fun hpre => hp (List.isPrefixOf_iff_prefix.2 hpre)
        | succ j => exact ih hs j

/-! ## Parts of tags -/

theorem lower_lower (s : List Nat) : lowercaseTagPart (lowercaseTagPart s) = lowercaseTagPart s := by
  simp only [lowercaseTagPart, List.map_map]
  apply List.map_congr_left
  intro c _
  simp only [Function.comp]
  split
  · split
    · omega
    · rfl
  · rfl

theorem mem_lower {c : Nat} (h : ¬ (65 ≤ c ∧ c ≤ 90)) (h' : ¬ (97 ≤ c ∧ c ≤ 122)) (s : List Nat) :
    c ∈ lowercaseTagPart s ↔ c ∈ s := by
  simp only [lowercaseTagPart, List.mem_map]
  constructor
  · rintro ⟨x, hx, he⟩
    split at he
    · omega
    · exact he ▸ hx
  · intro hc
    exact ⟨c, hc, if_neg h⟩

theorem lower_length (s : List Nat) : (lowercaseTagPart s).length = s.length := List.length_map ..

theorem lower_append (s t : List Nat) : lowercaseTagPart (s ++ t) = lowercaseTagPart s ++ lowercaseTagPart t := List.map_append ..

theorem lower_ne_nil {s : List Nat} : lowercaseTagPart s = [] ↔ s = [] := List.map_eq_nil_iff

theorem eraseHyphens_eq : ∀ (k : Nat) (s : List Nat), s.length ≤ k → eraseHyphens k s = s.filter (· ≠ 45) := by
  intro k
  induction k with
  | zero =>
    intro s h
    have : s = [] := List.length_eq_zero_iff.1 (by omega)
    subst this
    rfl
  | succ k ih =>
    intro s h
    have hl : lit "-" = [45] := rfl
    rw [eraseHyphens, hl]
    rcases split1 45 s with hn | ⟨a, b, rfl, ha⟩
    · rw [find1_none hn]
      simp only
      rw [List.filter_eq_self.2]
      intro x hx
      simp only [decide_eq_true_eq]
      exact fun he => hn (he ▸ hx)
    · rw [find1_some ha]
      simp only
      rw [List.eraseIdx_append_of_length_le (Nat.le_refl _), Nat.sub_self, List.eraseIdx_cons_zero, ih]
      · simp [List.filter_append]
      · simp only [List.length_append, List.length_cons] at h ⊢
        omega

theorem setLanguage_plain (t : LanguageTag) {l : List Nat} (h : 95 ∉ l) :
    t.setLanguage l = { t with language := lowercaseTagPart l } := by
  have hl : lit "_" = [95] := rfl
  rw [LanguageTag.setLanguage, hl, find1_none h]

theorem setLanguage_area (t : LanguageTag) {l : List Nat} (h : 95 ∉ l) (r : List Nat) :
    t.setLanguage (l ++ 95 :: r) = { t with language := lowercaseTagPart l } := by
  have hl : lit "_" = [95] := rfl
  rw [LanguageTag.setLanguage, hl, find1_some h]
  simp only
  rw [List.take_left]

theorem setLanguageAndScript_plain (t : LanguageTag) {l : List Nat} (h : 45 ∉ l) :
    t.setLanguageAndScript l = t.setLanguage l := by
  have hl : lit "-" = [45] := rfl
  rw [LanguageTag.setLanguageAndScript, hl, find1_none h]

theorem setLanguageAndScript_split (t : LanguageTag) {l : List Nat} (h : 45 ∉ l) (r : List Nat) :
    t.setLanguageAndScript (l ++ 45 :: r) = (t.setLanguage l).setScript r := by
  have hl : lit "-" = [45] := rfl
  rw [LanguageTag.setLanguageAndScript, hl, find1_some h]
  simp only
  rw [List.take_left]
  congr 1
  rw [List.drop_append, List.drop_of_length_le (by omega), Nat.add_sub_cancel_left]
  rfl

theorem setPrivateUse_eq (t : LanguageTag) (s : List Nat) :
    t.setPrivateUse s = { t with privateUse := lowercaseTagPart (s.filter (· ≠ 45)) } := by
  rw [LanguageTag.setPrivateUse, eraseHyphens_eq _ _ (Nat.le_refl _)]

theorem prefix_append_iff {p u v : List Nat} (h : p.length ≤ u.length) : p <+: u ++ v ↔ p <+: u :=
  ⟨fun hp => List.prefix_of_prefix_length_le hp (List.prefix_append u v) h, fun hp => hp.trans (List.prefix_append u v)⟩

/-- Where `-x-` is found: the text before it, up to the last hyphen, decides. -/
theorem findX_some {l m p : List Nat} (hl : 45 ∉ l) (hm : ∀ i < m.length, ¬ lit "-x-" <+: (m ++ lit "-x-").drop i) :
    findSub (lit "-x-") (l ++ m ++ (lit "-x-" ++ p)) = some (l ++ m).length := by
  have hx : lit "-x-" = [45, 120, 45] := rfl
  refine findSub_eq_some ?_ (fun j hj hpre => ?_) (by simp)
  · rw [List.drop_left]
    exact List.prefix_append _ _
  · by_cases hjl : j < l.length
    · rw [List.append_assoc] at hpre
      obtain ⟨x, hx', r, hr⟩ := drop_before (m := m ++ (lit "-x-" ++ p)) hjl
      rw [hr, hx, List.cons_prefix_cons] at hpre
      exact hl (hpre.1 ▸ hx')
    · simp only [List.length_append] at hj
      have e : (l ++ m ++ (lit "-x-" ++ p)).drop j = (m ++ lit "-x-").drop (j - l.length) ++ p := by
        rw [List.append_assoc, List.drop_append, List.drop_of_length_le (by omega), List.nil_append, ← List.append_assoc,
          List.drop_append_of_le_length (by simp only [List.length_append]; omega)]
      rw [e, prefix_append_iff] at hpre
      · exact hm _ (by omega) hpre
      · simp only [List.length_drop, List.length_append]
        have : (lit "-x-").length = 3 := rfl
        omega

theorem findX_none {l m : List Nat} (hl : 45 ∉ l) (hm : ∀ i, ¬ lit "-x-" <+: m.drop i) : findSub (lit "-x-") (l ++ m) = none := by
  have hx : lit "-x-" = [45, 120, 45] := rfl
  refine findSub_eq_none fun j hpre => ?_
  by_cases hjl : j < l.length
  · obtain ⟨x, hx', r, hr⟩ := drop_before (m := m) hjl
    rw [hr, hx, List.cons_prefix_cons] at hpre
    exact hl (hpre.1 ▸ hx')
  · rw [List.drop_append, List.drop_of_length_le (by omega), List.nil_append] at hpre
    exact hm _ hpre

theorem setBcp47_private (t : LanguageTag) {l m p : List Nat} (hl : 45 ∉ l)
    (hm : ∀ i < m.length, ¬ lit "-x-" <+: (m ++ lit "-x-").drop i) :
    t.setBcp47 (l ++ m ++ (lit "-x-" ++ p)) = (t.setLanguageAndScript (l ++ m)).setPrivateUse p := by
  rw [LanguageTag.setBcp47, findX_some hl hm]
  simp only
  rw [List.take_left]
  congr 1
  rw [List.drop_append, List.drop_of_length_le (by omega), Nat.add_sub_cancel_left]
  rfl

theorem setBcp47_plain (t : LanguageTag) {l m : List Nat} (hl : 45 ∉ l) (hm : ∀ i, ¬ lit "-x-" <+: m.drop i) :
    t.setBcp47 (l ++ m) = t.setLanguageAndScript (l ++ m) := by
  rw [LanguageTag.setBcp47, findX_none hl hm]

/-- Every tag is of one of the two forms. -/
theorem bcp_cases (s : List Nat) :
    (∃ l m, s = l ++ m ∧ 45 ∉ l ∧ (m = [] ∨ ∃ r, m = 45 :: r) ∧ ∀ i, ¬ lit "-x-" <+: m.drop i) ∨
    (∃ l m p, s = l ++ m ++ (lit "-x-" ++ p) ∧ 45 ∉ l ∧ (m = [] ∨ ∃ r, m = 45 :: r) ∧
      ∀ i < m.length, ¬ lit "-x-" <+: (m ++ lit "-x-").drop i) := by
  have hx : lit "-x-" = [45, 120, 45] := rfl
  have parts : ∀ u : List Nat, ∃ l m, u = l ++ m ∧ 45 ∉ l ∧ (m = [] ∨ ∃ r, m = 45 :: r) := by
    intro u
    rcases split1 45 u with h | ⟨a, b, h1, h2⟩
    · exact ⟨u, [], by simp, h, .inl rfl⟩
    · exact ⟨a, 45 :: b, h1, h2, .inr ⟨b, rfl⟩⟩
  cases h : findSub (lit "-x-") s with
  | none =>
    left
    obtain ⟨l, m, rfl, h1, h2⟩ := parts s
    refine ⟨l, m, rfl, h1, h2, fun i hi => findSub_none h (l.length + i) ?_⟩
    rw [List.drop_append, List.drop_of_length_le (by omega), Nat.add_sub_cancel_left]
    exact hi
  | some k =>
    right
    obtain ⟨h1, ⟨p, h2⟩, h3⟩ := findSub_some h
    obtain ⟨l, m, hlm, hl, hm⟩ := parts (s.take k)
    have hs : s = l ++ m ++ (lit "-x-" ++ p) := by rw [← hlm, h2, List.take_append_drop]
    refine ⟨l, m, p, hs, hl, hm, fun i hi hpre => h3 (l.length + i) ?_ ?_⟩
    · have := congrArg List.length hlm
      rw [List.length_take, List.length_append] at this
      omega
    · rw [hs, List.append_assoc, List.drop_append, List.drop_of_length_le (by omega), Nat.add_sub_cancel_left, List.nil_append,
        ← List.append_assoc, List.drop_append_of_le_length (by simp only [List.length_append]; omega)]
      exact hpre.trans (List.prefix_append _ _)

/-- The first hyphen determines the language part. -/
theorem hyphen_uniq : ∀ a b m n : List Nat, 45 ∉ a → 45 ∉ b → (m = [] ∨ ∃ r, m = 45 :: r) → (n = [] ∨ ∃ r, n = 45 :: r) →
    a ++ m = b ++ n → a = b ∧ m = n := by
  intro a
  induction a with
  | nil =>
    intro b m n _ hb hm hn he
    cases b with
    | nil => exact ⟨rfl, he⟩
    | cons x b =>
      rcases hm with rfl | ⟨r, rfl⟩
      · cases he
      · cases he
        exact absurd List.mem_cons_self hb
  | cons c a ih =>
    intro b m n ha hb hm hn he
    cases b with
    | nil =>
      rcases hn with rfl | ⟨r, rfl⟩
      · cases he
      · cases he
        exact absurd List.mem_cons_self ha
    | cons x b =>
      rw [List.cons_append, List.cons_append, List.cons.injEq] at he
      obtain ⟨h1, h2⟩ := ih b m n (fun hm => ha (List.mem_cons_of_mem _ hm)) (fun hm => hb (List.mem_cons_of_mem _ hm)) hm hn he.2
      exact ⟨by rw [he.1, h1], h2⟩

/-- What the set functions guarantee about a tag. -/
structure NormalTag (t : LanguageTag) : Prop where
  language : 45 ∉ t.language ∧ 95 ∉ t.language ∧ lowercaseTagPart t.language = t.language
  script : t.script = [] ∨ t.script.length = 4
  privateUse : 45 ∉ t.privateUse ∧ lowercaseTagPart t.privateUse = t.privateUse

theorem normal_setLanguage {t : LanguageTag} (h : NormalTag t) {l : List Nat} (hl : 45 ∉ l) : NormalTag (t.setLanguage l) := by
  rcases split1 95 l with hn | ⟨a, b, rfl, ha⟩
  · rw [setLanguage_plain _ hn]
    exact ⟨⟨by rwa [mem_lower (by omega) (by omega)], by rwa [mem_lower (by omega) (by omega)], lower_lower _⟩, h.script, h.privateUse⟩
  · rw [setLanguage_area _ ha]
    have : 45 ∉ a := fun hm => hl (List.mem_append_left _ hm)
    exact ⟨⟨by rwa [mem_lower (by omega) (by omega)], by rwa [mem_lower (by omega) (by omega)], lower_lower _⟩, h.script, h.privateUse⟩

theorem normal_setScript {t : LanguageTag} (h : NormalTag t) (s : List Nat) : NormalTag (t.setScript s) := by
  unfold LanguageTag.setScript
  split
  · rename_i hs
    exact ⟨h.language, .inr hs, h.privateUse⟩
  · exact h

theorem normal_setPrivateUse {t : LanguageTag} (h : NormalTag t) (s : List Nat) : NormalTag (t.setPrivateUse s) := by
  rw [setPrivateUse_eq]
  refine ⟨h.language, h.script, ?_, lower_lower _⟩
  rw [mem_lower (by omega) (by omega)]
  simp

theorem normal_setLanguageAndScript {t : LanguageTag} (h : NormalTag t) (s : List Nat) : NormalTag (t.setLanguageAndScript s) := by
  rcases split1 45 s with hn | ⟨a, b, rfl, ha⟩
  · rw [setLanguageAndScript_plain _ hn]
    exact normal_setLanguage h hn
  · rw [setLanguageAndScript_split _ ha]
    exact normal_setScript (normal_setLanguage h ha) _

theorem normal_setBcp47 {t : LanguageTag} (h : NormalTag t) (s : List Nat) : NormalTag (t.setBcp47 s) := by
  unfold LanguageTag.setBcp47
  split
  · exact normal_setPrivateUse (normal_setLanguageAndScript h _) _
  · exact normal_setLanguageAndScript h _

theorem normal_empty : NormalTag {} := ⟨⟨by simp, by simp, rfl⟩, .inl rfl, by simp, rfl⟩

end Verif.Props
