import Verif.Lemmas.LanguageTag
import Verif.Model.Dictionary
/-!
# Language tags (C47)

`LanguageTag.setBcp47 {}` parses a tag and `LanguageTag.toBcp47` prints it.
-/

set_option linter.unusedSimpArgs false

namespace Verif.Props
open Verif

/-- C47: parsing a printed tag gives the tag that was printed, for every string. -/
theorem C47_idempotent (s : List Nat) :
    LanguageTag.setBcp47 {} (LanguageTag.setBcp47 {} s).toBcp47 = LanguageTag.setBcp47 {} s := by
  have hlang : ∀ l, 45 ∉ l → ∃ l', LanguageTag.setLanguage {} l = { language := l' } ∧ 45 ∉ l' ∧ 95 ∉ l' ∧ lowercaseTagPart l' = l' := by
    intro l hl
    have hn := normal_setLanguage normal_empty hl
    refine ⟨(LanguageTag.setLanguage {} l).language, ?_, hn.language⟩
    unfold LanguageTag.setLanguage
    split <;> rfl
  have hls : ∀ l m : List Nat, 45 ∉ l → (m = [] ∨ ∃ r, m = 45 :: r) →
      ∃ l' m', LanguageTag.setLanguageAndScript {} (l ++ m) = { language := l', script := m'.drop 1 } ∧ 45 ∉ l' ∧ 95 ∉ l' ∧
        lowercaseTagPart l' = l' ∧ (m' = [] ∨ m' = m ∧ m'.length = 5 ∧ ∃ r, m' = 45 :: r) := by
    intro l m hl hm
    obtain ⟨l', h1, h2, h3, h4⟩ := hlang l hl
    rcases hm with rfl | ⟨r, rfl⟩
    · exact ⟨l', [], by rw [List.append_nil, setLanguageAndScript_plain _ hl, h1]; rfl, h2, h3, h4, .inl rfl⟩
    · by_cases hr : r.length = 4
      · exact ⟨l', 45 :: r, by rw [setLanguageAndScript_split _ hl, h1, LanguageTag.setScript, if_pos hr]; rfl, h2, h3, h4,
          .inr ⟨rfl, by simp [hr], r, rfl⟩⟩
      · exact ⟨l', [], by rw [setLanguageAndScript_split _ hl, h1, LanguageTag.setScript, if_neg hr]; rfl, h2, h3, h4, .inl rfl⟩
  have back : ∀ l m : List Nat, 45 ∉ l → 95 ∉ l → lowercaseTagPart l = l → (m = [] ∨ m.length = 5 ∧ ∃ r, m = 45 :: r) →
      LanguageTag.setLanguageAndScript {} (l ++ m) = { language := l, script := m.drop 1 } := by
    intro l m h1 h2 h3 hm
    rcases hm with rfl | ⟨hlen, r, rfl⟩
    · rw [List.append_nil, setLanguageAndScript_plain _ h1, setLanguage_plain _ h2, h3]
      rfl
    · rw [setLanguageAndScript_split _ h1, setLanguage_plain _ h2, h3, LanguageTag.setScript, if_pos (by simpa using hlen)]
      rfl
  have printed : ∀ l m p : List Nat, (m = [] ∨ m.length = 5 ∧ ∃ r, m = 45 :: r) →
      LanguageTag.toBcp47 { language := l, script := m.drop 1, privateUse := p } =
        if p ≠ [] then l ++ m ++ (lit "-x-" ++ p) else l ++ m := by
    intro l m p hm
    have : (if List.drop 1 m ≠ [] then l ++ lit "-" ++ List.drop 1 m else l) = l ++ m := by
      rcases hm with rfl | ⟨hlen, r, rfl⟩
      · simp
      · have hr : r ≠ [] := by
          intro he
          rw [he] at hlen
          cases hlen
        have hl : lit "-" = [45] := rfl
        simp [hr, hl]
    simp only [LanguageTag.toBcp47]
    rw [this, List.append_assoc]
  rcases bcp_cases s with ⟨l, m, rfl, hl, hm, hx⟩ | ⟨l, m, p, rfl, hl, hm, hx⟩
  · rw [setBcp47_plain _ hl hx]
    obtain ⟨l', m', h1, h2, h3, h4, h5⟩ := hls l m hl hm
    have h5' : m' = [] ∨ m'.length = 5 ∧ ∃ r, m' = 45 :: r := h5.imp_right fun h => h.2
    rw [h1, printed l' m' [] h5', if_neg (by simp), setBcp47_plain _ h2, back l' m' h2 h3 h4 h5']
    intro i
    rcases h5 with rfl | ⟨rfl, _⟩
    · simp [lit]
    · exact hx i
  · rw [setBcp47_private _ hl hx]
    obtain ⟨l', m', h1, h2, h3, h4, h5⟩ := hls l m hl hm
    have h5' : m' = [] ∨ m'.length = 5 ∧ ∃ r, m' = 45 :: r := h5.imp_right fun h => h.2
    rw [h1, setPrivateUse_eq]
    simp only
    generalize hq : lowercaseTagPart (List.filter (fun x => decide (x ≠ 45)) p) = q
    have hq1 : 45 ∉ q := by rw [← hq, mem_lower (by omega) (by omega)]; simp
    have hq2 : lowercaseTagPart q = q := by rw [← hq, lower_lower]
    rw [printed l' m' q h5']
    by_cases hp : q = []
    · rw [if_neg (by simpa using hp), setBcp47_plain _ h2, back l' m' h2 h3 h4 h5', hp]
      intro i hi
      rcases h5 with rfl | ⟨rfl, _⟩
      · simp [lit] at hi
      · by_cases hil : i < m'.length
        · refine hx i hil ?_
          rw [List.drop_append_of_le_length (by omega)]
          exact hi.trans (List.prefix_append _ _)
        · rw [List.drop_of_length_le (by omega)] at hi
          exact absurd (List.prefix_nil.1 hi) (by decide)
    · rw [if_pos hp, setBcp47_private _ h2, back l' m' h2 h3 h4 h5', setPrivateUse_eq, List.filter_eq_self.2, hq2]
      · intro x hx'
        simp only [decide_eq_true_eq]
        exact fun he => hq1 (he ▸ hx')
      · intro i hi
        rcases h5 with rfl | ⟨rfl, _⟩
        · simp at hi
        · exact hx i hi

/-- C47: printing is stable. -/
theorem C47_printed_stable (s : List Nat) :
    (LanguageTag.setBcp47 {} (LanguageTag.setBcp47 {} s).toBcp47).toBcp47 = (LanguageTag.setBcp47 {} s).toBcp47 := by
  rw [C47_idempotent]

/-- An optional part of a tag. -/
def tagPart (before : List Nat) : Option (List Nat) → List Nat
  | some a => before ++ a
  | none => []

/-- The script of a tag, if it is one. -/
def scriptPart : Option (List Nat) → List Nat
  | some s => if s.length = 4 then s else []
  | none => []

/-- The private part of a tag. -/
def privatePart : Option (List Nat) → List Nat
  | some p => lowercaseTagPart (p.filter (· ≠ 45))
  | none => []

/-- A tag: language, optional area after `_`, optional script after `-`, optional private part after `-x-`. -/
def tagString (l : List Nat) (area script priv : Option (List Nat)) : List Nat :=
  l ++ tagPart (lit "_") area ++ tagPart (lit "-") script ++ tagPart (lit "-x-") priv

/-- C47: what is extracted from a tag. The area is dropped, the language and the private part are put to lower case, hyphens are
removed from the private part, and the script is kept if it has four characters. -/
theorem C47_components (l : List Nat) (area script priv : Option (List Nat)) (hl : 45 ∉ l ∧ 95 ∉ l)
    (ha : ∀ a, area = some a → 45 ∉ a) (hs : ∀ s, script = some s → 45 ∉ s ∧ s ≠ lit "x") :
    LanguageTag.setBcp47 {} (tagString l area script priv) =
      { language := lowercaseTagPart l, script := scriptPart script, privateUse := privatePart priv } := by
  have hx : lit "-x-" = [45, 120, 45] := rfl
  have hx1 : lit "x" = [120] := rfl
  unfold tagString
  have hu : lit "_" = [95] := rfl
  have hh : lit "-" = [45] := rfl
  generalize hL : l ++ tagPart (lit "_") area = L
  have hL45 : 45 ∉ L := by
    rw [← hL]
    cases area with
    | none => simpa [tagPart] using hl.1
    | some a => simp [tagPart, hu, hl.1, ha a rfl]
  have hLang : LanguageTag.setLanguage {} L = { language := lowercaseTagPart l } := by
    rw [← hL]
    cases area with
    | none => simp only [tagPart, List.append_nil]; exact setLanguage_plain _ hl.2
    | some a => exact setLanguage_area _ hl.2 a
  generalize hM : tagPart (lit "-") script = M
  have hLS : LanguageTag.setLanguageAndScript {} (L ++ M) =
      { language := lowercaseTagPart l, script := scriptPart script } := by
    rw [← hM]
    cases script with
    | none => simp only [tagPart, List.append_nil]; rw [setLanguageAndScript_plain _ hL45, hLang]; rfl
    | some s =>
      simp only [tagPart, hh, scriptPart, List.singleton_append]
      rw [setLanguageAndScript_split _ hL45, hLang, LanguageTag.setScript]
      split <;> rfl
  have hMx : ∀ v i, i < M.length → ¬ lit "-x-" <+: (M ++ (45 :: v)).drop i := by
    intro v i hi hpre
    cases script with
    | none => rw [← hM] at hi; simp [tagPart] at hi
    | some s =>
      simp only [tagPart, hh, List.singleton_append] at hM
      subst hM
      obtain ⟨h45, hne⟩ := hs s rfl
      cases i with
      | zero =>
        rw [List.drop_zero, List.cons_append, hx, List.cons_prefix_cons] at hpre
        cases s with
        | nil =>
          rw [List.nil_append, List.cons_prefix_cons] at hpre
          exact absurd hpre.2.1 (by decide)
        | cons c s =>
          rw [List.cons_append, List.cons_prefix_cons] at hpre
          cases s with
          | nil => exact hne (by rw [hx1, ← hpre.2.1])
          | cons d s =>
            rw [List.cons_append, List.cons_prefix_cons] at hpre
            exact h45 (by rw [hpre.2.2.1]; simp)
      | succ i =>
        rw [List.cons_append, List.drop_succ_cons] at hpre
        obtain ⟨x, hx', r, hr⟩ := drop_before (m := 45 :: v) (show i < s.length by simpa using hi)
        rw [hr, hx, List.cons_prefix_cons] at hpre
        exact h45 (hpre.1 ▸ hx')
  cases priv with
  | none =>
    simp only [tagPart, privatePart, List.append_nil]
    rw [setBcp47_plain _ hL45, hLS]
    intro i hi
    by_cases hil : i < M.length
    · refine hMx [] i hil ?_
      rw [List.drop_append_of_le_length (by omega)]
      exact hi.trans (List.prefix_append _ _)
    · rw [List.drop_of_length_le (by omega)] at hi
      exact absurd (List.prefix_nil.1 hi) (by decide)
  | some p =>
    simp only [tagPart, privatePart]
    rw [setBcp47_private _ hL45 (fun i hi => hMx [120, 45] i hi), hLS, setPrivateUse_eq]

/-- The hypotheses of `C47_components` hold for ordinary tags. -/
example : LanguageTag.setBcp47 {} (lit "fi_FI-Latn-x-My-Variant") = ⟨lit "fi", lit "Latn", lit "myvariant"⟩ :=
  C47_components (lit "fi") (some (lit "FI")) (some (lit "Latn")) (some (lit "My-Variant")) (by decide) (by decide) (by decide)

/-- C47: the case of the language does not matter. -/
theorem C47_language_case (l l' rest : List Nat) (hl : 45 ∉ l) (h : lowercaseTagPart l = lowercaseTagPart l')
    (hr : rest = [] ∨ ∃ r, rest = 45 :: r) :
    LanguageTag.setBcp47 {} (l ++ rest) = LanguageTag.setBcp47 {} (l' ++ rest) := by
  have hl' : 45 ∉ l' := by
    rw [← mem_lower (by omega) (by omega), ← h, mem_lower (by omega) (by omega)]
    exact hl
  have hset : ∀ t : LanguageTag, t.setLanguage l = t.setLanguage l' := by
    have key : ∀ l : List Nat, ∀ t : LanguageTag, t.setLanguage l =
        { t with language := (lowercaseTagPart l).takeWhile (· ≠ 95) } := by
      intro l t
      rcases split1 95 l with hn | ⟨a, b, rfl, ha⟩
      · rw [setLanguage_plain _ hn]
        congr 1
        symm
        have hn' : 95 ∉ lowercaseTagPart l := by rwa [mem_lower (by omega) (by omega)]
        generalize lowercaseTagPart l = u at hn'
        induction u with
        | nil => rfl
        | cons c u ih =>
          rw [List.takeWhile_cons, if_pos (by simp only [decide_eq_true_eq]; exact fun he => hn' (he ▸ List.mem_cons_self)),
            ih (fun hm => hn' (List.mem_cons_of_mem _ hm))]
      · rw [setLanguage_area _ ha]
        congr 1
        symm
        have hn' : 95 ∉ lowercaseTagPart a := by rwa [mem_lower (by omega) (by omega)]
        rw [lower_append]
        generalize lowercaseTagPart a = u at hn'
        have hc : lowercaseTagPart (95 :: b) = 95 :: lowercaseTagPart b := rfl
        rw [hc]
        induction u with
        | nil => rfl
        | cons c u ih =>
          rw [List.cons_append, List.takeWhile_cons,
            if_pos (by simp only [decide_eq_true_eq]; exact fun he => hn' (he ▸ List.mem_cons_self)),
            ih (fun hm => hn' (List.mem_cons_of_mem _ hm))]
    intro t
    rw [key, key, h]
  have hls : ∀ m : List Nat, (m = [] ∨ ∃ r, m = 45 :: r) → LanguageTag.setLanguageAndScript {} (l ++ m) =
      LanguageTag.setLanguageAndScript {} (l' ++ m) := by
    intro m hm
    rcases hm with rfl | ⟨r, rfl⟩
    · rw [List.append_nil, List.append_nil, setLanguageAndScript_plain _ hl, setLanguageAndScript_plain _ hl', hset]
    · rw [setLanguageAndScript_split _ hl, setLanguageAndScript_split _ hl', hset]
  rcases bcp_cases (l ++ rest) with ⟨a, m, he, ha, hm, hx⟩ | ⟨a, m, p, he, ha, hm, hx⟩
  · obtain ⟨rfl, rfl⟩ := hyphen_uniq _ _ _ _ hl ha hr hm he
    rw [setBcp47_plain _ hl hx, setBcp47_plain _ hl' hx, hls _ hm]
  · have hm' : m ++ (lit "-x-" ++ p) = [] ∨ ∃ r, m ++ (lit "-x-" ++ p) = 45 :: r := by
      rcases hm with rfl | ⟨r, rfl⟩
      · exact .inr ⟨120 :: 45 :: p, rfl⟩
      · exact .inr ⟨_, rfl⟩
    rw [List.append_assoc] at he
    obtain ⟨rfl, rfl⟩ := hyphen_uniq _ _ _ _ hl ha hr hm' he
    rw [← List.append_assoc l m, ← List.append_assoc l' m, setBcp47_private _ hl hx, setBcp47_private _ hl' hx, hls _ hm]

/-- C47: case and hyphens in the private part do not matter. -/
theorem C47_private_case (h p p' : List Nat) (hn : ∀ i < h.length, ¬ lit "-x-" <+: (h ++ lit "-x-").drop i)
    (he : lowercaseTagPart (p.filter (· ≠ 45)) = lowercaseTagPart (p'.filter (· ≠ 45))) :
    LanguageTag.setBcp47 {} (h ++ (lit "-x-" ++ p)) = LanguageTag.setBcp47 {} (h ++ (lit "-x-" ++ p')) := by
  have := fun p => setBcp47_private {} (l := []) (m := h) (p := p) (by simp) hn
  simp only [List.nil_append] at this
  rw [this, this, setPrivateUse_eq, setPrivateUse_eq, he]

/-- C47, the part that holds: an area after `_` or after `-` is the same, unless it has four characters (then `-` makes it a
script). (Missing: four characters, or a script after the area; there the claim is false, see `C47_violation`.) -/
theorem C47_area_partial (l a : List Nat) (priv : Option (List Nat)) (hl : 45 ∉ l ∧ 95 ∉ l) (ha : 45 ∉ a) (hx : a ≠ lit "x")
    (h4 : a.length ≠ 4) :
    LanguageTag.setBcp47 {} (tagString l (some a) none priv) = LanguageTag.setBcp47 {} (tagString l none (some a) priv) := by
  rw [C47_components l _ _ _ hl (by simpa using ha) (by simp), C47_components l _ _ _ hl (by simp) (by simpa using ⟨ha, hx⟩)]
  simp only [scriptPart]
  rw [if_neg h4]

example : LanguageTag.setBcp47 {} (lit "fi_FI-x-abc") = LanguageTag.setBcp47 {} (lit "fi-FI-x-abc") :=
  C47_area_partial (lit "fi") (lit "FI") (some (lit "abc")) (by decide) (by decide) (by decide) (by decide)

/-- C47 fails: `_` and `-` are not interchangeable before four characters, and a script is lost if an area before it is written
with `-`. -/
theorem C47_violation :
    LanguageTag.setBcp47 {} (lit "sr_Cyrl") ≠ LanguageTag.setBcp47 {} (lit "sr-Cyrl") ∧
    LanguageTag.setBcp47 {} (lit "sr_RS-Cyrl") = ⟨lit "sr", lit "Cyrl", []⟩ ∧
    LanguageTag.setBcp47 {} (lit "sr-RS-Cyrl") = ⟨lit "sr", [], []⟩ := by decide +kernel

/-- C47: tags that are parsed in the same way select the same dictionary, for any dictionaries, locations and environment. -/
theorem C47_same_dictionary (found : List Nat → List Dict) (defaults : List (List Nat)) (env : Option (List Nat))
    (s s' path : List Nat) (h : (LanguageTag.setBcp47 {} s).toBcp47 = (LanguageTag.setBcp47 {} s').toBcp47) :
    loadDictionary found defaults env s path = loadDictionary found defaults env s' path := by
  have hp : LanguageTag.setBcp47 {} s = LanguageTag.setBcp47 {} s' := by
    rw [← C47_idempotent s, h, C47_idempotent]
  unfold loadDictionary requestedTag
  rw [hp]

example : LanguageTag.setBcp47 {} (lit "FI_fi-x-A-B") = LanguageTag.setBcp47 {} (lit "fi-x-ab") := by decide +kernel

end Verif.Props
