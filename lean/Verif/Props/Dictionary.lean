import Verif.Lemmas.Dictionary
import Mathlib.Data.List.Perm.Basic
/-!
# C48, C49: finding dictionaries
-/

set_option linter.unusedSimpArgs false

namespace Verif.Props
open Verif

/-! ## Search order -/

/-- What the loaders find: normalised tags (they are only set with the functions of `LanguageTag`, see `C48_loader`), and no
dictionary is marked default before it is added. -/
def GoodLoader (found : List Nat → List Dict) : Prop :=
  ∀ loc, ∀ d ∈ found loc, NormalTag d.tag ∧ d.isDefault = false

/-- Everything that is found, in the search order: the given path, then the default locations. -/
def foundInOrder (found : List Nat → List Dict) (locations : List (List Nat)) (path : List Nat) : List Dict :=
  (if path ≠ [] then found path else []) ++ locations.flatMap found

theorem foundInOrder_eq (found : List Nat → List Dict) (ls : List (List Nat)) (p : List Nat) :
    (if p ≠ [] then p :: ls else ls).flatMap found = foundInOrder found ls p := by
  unfold foundInOrder
  split
  · rw [List.flatMap_cons]
  · simp

theorem good_inOrder {found : List Nat → List Dict} (h : GoodLoader found) (ls : List (List Nat)) (p : List Nat) :
    ∀ d ∈ foundInOrder found ls p, NormalTag d.tag ∧ d.isDefault = false := by
  intro d hd
  rw [← foundInOrder_eq] at hd
  obtain ⟨l, _, hl⟩ := List.mem_flatMap.1 hd
  exact h l d hl

theorem mapInv_collect {found : List Nat → List Dict} (h : GoodLoader found) (ls : List (List Nat)) (p : List Nat) :
    MapInv (collect found ls p) := by
  rw [collect_eq, foundInOrder_eq]
  exact mapInv_foldl (good_inOrder h ls p) mapInv_nil

theorem mapInv_key {m : DictMap} (h : MapInv m) {e : List Nat × Dict} (he : e ∈ m) : e = (e.2.tag.toBcp47, e.2) := by
  rw [← h.keys e he]

/-- The loader for format 5 sets tags only with the functions of `LanguageTag`, whatever the directories contain. -/
theorem C48_loader (path : List Nat) (entries : List (List Nat × List (List Nat))) :
    ∀ d ∈ findDictionariesV5 path entries, NormalTag d.tag ∧ d.isDefault = false := by
  intro d hd
  unfold findDictionariesV5 at hd
  obtain ⟨⟨name, lines⟩, _, he⟩ := List.mem_filterMap.1 hd
  simp only at he
  split at he
  · cases he
  split at he
  · cases he
  cases he
  unfold dictionaryFromPath
  split
  · exact ⟨normal_empty, rfl⟩
  split
  · exact ⟨normal_empty, rfl⟩
  have gen : ∀ (ls : List (List Nat)) (d : Dict) (p : List Nat), NormalTag d.tag ∧ d.isDefault = false →
      NormalTag (ls.foldl (v5Line p) d).tag ∧ (ls.foldl (v5Line p) d).isDefault = false := by
    intro ls
    induction ls with
    | nil => intro d p h; exact h
    | cons l ls ih =>
      intro d p h
      rw [List.foldl_cons]
      refine ih _ _ ?_
      unfold v5Line
      split
      · exact ⟨normal_setBcp47 h.1 _, h.2⟩
      repeat' split
      all_goals exact h
  exact gen _ _ _ ⟨normal_setLanguage (l := lit "fi") normal_empty (by decide), rfl⟩

/-- The dictionaries that are listed, apart from the default mark: for each tag, the first valid one in the search order. -/
theorem C48_first_location {found : List Nat → List Dict} (h : GoodLoader found) (ls : List (List Nat)) (p : List Nat) (d : Dict) :
    (∃ b, { d with isDefault := b } ∈ findAllAvailable found ls p) ↔
      (foundInOrder found ls p).find? (fun x => x.tag.language ≠ [] && x.tag.toBcp47 == d.tag.toBcp47) =
        some { d with isDefault := false } := by
  have hm := mapInv_collect h ls p
  have hl := lookup_foldl (ds := foundInOrder found ls p) (fun x hx => (good_inOrder h ls p x hx).2) (k := d.tag.toBcp47) (m := [])
  simp only [List.lookup_nil, Option.map_none] at hl
  rw [← foundInOrder_eq, ← collect_eq, foundInOrder_eq] at hl
  have hv : (fun x : Dict => x.isValid && x.tag.toBcp47 == d.tag.toBcp47) =
      fun x : Dict => x.tag.language ≠ [] && x.tag.toBcp47 == d.tag.toBcp47 := rfl
  rw [hv] at hl
  rw [← hl, findAllAvailable, listDicts_eq]
  constructor
  · rintro ⟨b, hb⟩
    have : ∃ e ∈ collect found ls p, e.2 = { d with isDefault := b } := by
      simp only [List.mem_append, List.mem_reverse, List.mem_map, List.mem_filter] at hb
      rcases hb with ⟨e, he, h2⟩ | ⟨e, he, h2⟩ <;> exact ⟨e, he.1, h2⟩
    obtain ⟨e, he, h2⟩ := this
    have hk := mapInv_key hm he
    rw [h2] at hk
    rw [hk] at he
    rw [(lookup_iff hm.sorted).2 he]
    rfl
  · intro hx
    cases hf : (collect found ls p).lookup d.tag.toBcp47 with
    | none => rw [hf] at hx; cases hx
    | some e =>
      rw [hf, Option.map_some, Option.some.injEq] at hx
      have he := (lookup_iff hm.sorted).1 hf
      refine ⟨e.isDefault, ?_⟩
      have e1 : ({ d with isDefault := e.isDefault } : Dict) = e := by
        cases d; cases e
        simp only [Dict.mk.injEq] at hx ⊢
        exact ⟨hx.1.symm, hx.2.1.symm, hx.2.2.1.symm, hx.2.2.2.1.symm, hx.2.2.2.2.1.symm, hx.2.2.2.2.2.1.symm,
          hx.2.2.2.2.2.2.1.symm, hx.2.2.2.2.2.2.2.1.symm, trivial⟩
      rw [e1]
      simp only [List.mem_append, List.mem_reverse, List.mem_map, List.mem_filter]
      cases hfr : isFront (collect found ls p) (d.tag.toBcp47, e) with
      | true => exact .inl ⟨_, ⟨he, hfr⟩, rfl⟩
      | false => exact .inr ⟨_, ⟨he, by rw [hfr]; rfl⟩, rfl⟩

/-- No tag is listed twice. -/
theorem C48_no_duplicates {found : List Nat → List Dict} (h : GoodLoader found) (ls : List (List Nat)) (p : List Nat) :
    ((findAllAvailable found ls p).map fun d => d.tag.toBcp47).Nodup := by
  have hm := mapInv_collect h ls p
  have perm : (findAllAvailable found ls p).Perm ((collect found ls p).map (·.2)) := by
    rw [findAllAvailable, listDicts_eq]
    refine ((List.reverse_perm _).append_right _).trans ?_
    rw [← List.map_append]
    exact (List.filter_append_perm _ _).map _
  refine (perm.map _).nodup_iff.2 ?_
  rw [List.map_map]
  have e1 : (collect found ls p).map ((fun d : Dict => d.tag.toBcp47) ∘ fun x => x.2) = (collect found ls p).map (·.1) :=
    List.map_congr_left fun e he => (hm.keys e he).symm
  rw [e1, List.Nodup, List.pairwise_map]
  refine hm.sorted.imp ?_
  intro a b hab he
  rw [he, bytesLt_irrefl] at hab
  cases hab

theorem mem_available {found : List Nat → List Dict} {ls : List (List Nat)} {p : List Nat} {d : Dict} :
    d ∈ findAllAvailable found ls p ↔ ∃ e ∈ collect found ls p, e.2 = d := by
  rw [findAllAvailable, listDicts_eq]
  simp only [List.mem_append, List.mem_reverse, List.mem_map, List.mem_filter]
  constructor
  · rintro (⟨e, he, h2⟩ | ⟨e, he, h2⟩) <;> exact ⟨e, he.1, h2⟩
  · rintro ⟨e, he, h2⟩
    cases hfr : isFront (collect found ls p) e with
    | true => exact .inl ⟨_, ⟨he, hfr⟩, h2⟩
    | false => exact .inr ⟨_, ⟨he, by rw [hfr]; rfl⟩, h2⟩

/-- For each language at most one dictionary is marked default. -/
theorem C48_one_default {found : List Nat → List Dict} (h : GoodLoader found) (ls : List (List Nat)) (p : List Nat) :
    ∀ d ∈ findAllAvailable found ls p, ∀ d' ∈ findAllAvailable found ls p, d.isDefault = true → d'.isDefault = true →
      d.tag.language = d'.tag.language → d = d' := by
  intro d hd d' hd' h1 h2 h3
  have hm := mapInv_collect h ls p
  obtain ⟨e, he, rfl⟩ := mem_available.1 hd
  obtain ⟨e', he', rfl⟩ := mem_available.1 hd'
  exact congrArg (·.2) (hm.defaults e he e' he' h1 h2 h3)

/-- The default dictionary of a language is the first one in the search order with the private part `default`; there is one as
soon as a dictionary with that private part is found. -/
theorem C48_default {found : List Nat → List Dict} (h : GoodLoader found) (ls : List (List Nat)) (p : List Nat) (l : List Nat)
    (hl : l ≠ []) (d : Dict) :
    (d ∈ findAllAvailable found ls p ∧ d.isDefault = true ∧ d.tag.language = l) ↔
      ∃ x, (foundInOrder found ls p).find? (fun x => x.tag.language == l && x.tag.privateUse == lit "default") = some x ∧
        d = { x with isDefault := true } := by
  have hm := mapInv_collect h ls p
  have hi : DefInv (foundInOrder found ls p) (collect found ls p) := by
    have := defInv_foldl (good_inOrder h ls p) (pre := []) mapInv_nil ⟨by simp, by simp, by simp⟩
    rwa [List.nil_append, ← foundInOrder_eq, ← collect_eq, foundInOrder_eq] at this
  have hp : (fun x : Dict => x.tag.language == l && x.tag.privateUse == lit "default") = asksDefault l := by
    funext x
    unfold asksDefault Dict.isValid
    by_cases hx : x.tag.language = l
    · simp [hx, hl]
    · have : (x.tag.language == l) = false := by simpa using hx
      simp [this]
  rw [hp]
  constructor
  · rintro ⟨h1, h2, h3⟩
    obtain ⟨e, he, rfl⟩ := mem_available.1 h1
    have := hi.first e he h2
    rw [h3] at this
    refine ⟨_, this, ?_⟩
    cases he2 : e.2
    rw [he2] at h2
    simp only at h2
    rw [h2]
  · rintro ⟨x, hx, rfl⟩
    obtain ⟨e, he, h1, h2⟩ := hi.exists_ l x (List.mem_of_find?_eq_some hx) (List.find?_some hx)
    have := hi.first e he h1
    rw [h2, hx, Option.some.injEq] at this
    have e1 : ({ x with isDefault := true } : Dict) = e.2 := by
      rw [this]
      cases he2 : e.2
      rw [he2] at h1
      simp only at h1
      rw [h1]
    rw [e1]
    exact ⟨mem_available.2 ⟨e, he, rfl⟩, h1, h2⟩

/-- Order of the search: the path given by the user, the paths in the environment, the home directory, the system directories. -/
theorem C48_locations (found : List Nat → List Dict) (path : List Nat) (dirs : List (List Nat)) (home compiled : List Nat)
    (hp : path ≠ []) (hd : ∀ d ∈ dirs, d ≠ [] ∧ 58 ∉ d) (hc : compiled ≠ []) (hc' : 58 ∉ compiled) :
    foundInOrder found (defaultLocations (some ((dirs.map fun d => d ++ [58]).flatten)) (some home) compiled) path =
      found path ++ dirs.flatMap found ++ found (home ++ lit "/.voikko") ++ found (lit "/etc/voikko") ++ found compiled := by
  have go : ∀ (d acc rest : List Nat), 58 ∉ d → splitPathFrom acc (d ++ 58 :: rest) = (acc ++ d) :: splitPathFrom [] rest := by
    intro d
    induction d with
    | nil => intro acc rest _; simp [splitPathFrom]
    | cons c d ih =>
      intro acc rest hm
      rw [List.cons_append, splitPathFrom, if_neg (fun hce => hm (by simp [hce])), ih _ _ (fun h => hm (List.mem_cons_of_mem _ h))]
      simp
  have last : ∀ (d acc : List Nat), 58 ∉ d → acc ++ d ≠ [] → splitPathFrom acc d = [acc ++ d] := by
    intro d
    induction d with
    | nil => intro acc _ hne; simp only [List.append_nil] at hne; simp [splitPathFrom, hne]
    | cons c d ih =>
      intro acc hm hne
      rw [splitPathFrom, if_neg (fun hce => hm (by simp [hce])), ih _ (fun h => hm (List.mem_cons_of_mem _ h)) (by simp)]
      simp
  have hdirs : splitPath ((dirs.map fun d => d ++ [58]).flatten) = dirs := by
    induction dirs with
    | nil => rfl
    | cons d dirs ih =>
      have h1 := ih fun x hx => hd x (List.mem_cons_of_mem _ hx)
      rw [List.map_cons, List.flatten_cons, List.append_assoc, List.singleton_append, splitPath, go _ _ _ (hd d List.mem_cons_self).2]
      rw [List.nil_append]
      congr 1
  have hcomp : splitPath compiled = [compiled] := last compiled [] hc' (by simpa using hc)
  unfold foundInOrder defaultLocations
  rw [if_pos hp, Option.map_some, Option.getD_some, hdirs, hcomp]
  simp

example : splitPath (lit "/a:/b") = [lit "/a", lit "/b"] := by decide

/-! ## Loading -/

/-- The dictionary that is loaded is in the list of available ones and has the requested language and script; if a private part
is requested it has this part, or no private part if `standard` is requested. -/
theorem C48_load_sound {found : List Nat → List Dict} {ls : List (List Nat)} {env : Option (List Nat)} {language p : List Nat} {d : Dict}
    (h : loadDictionary found ls env language p = some d) :
    d ∈ findAllAvailable found ls p ∧ d.tag.language = (requestedTag env language).language ∧
      d.tag.script = (requestedTag env language).script ∧
      ((requestedTag env language).privateUse = [] ∨ d.tag.privateUse = (requestedTag env language).privateUse ∨
        (requestedTag env language).privateUse = lit "standard" ∧ d.tag.privateUse = []) := by
  have h1 := List.mem_of_find?_eq_some h
  have h2 := List.find?_some h
  generalize requestedTag env language = r at h2
  unfold isMatchingLanguage at h2
  split at h2
  · cases h2
  split at h2
  · cases h2
  rename_i ha hb
  refine ⟨h1, (Decidable.not_not.1 ha).symm, (Decidable.not_not.1 hb).symm, ?_⟩
  split at h2
  · rename_i hc
    exact .inr (.inr hc)
  split at h2
  · cases h2
  · rename_i hc
    by_cases hr : r.privateUse = []
    · exact .inl hr
    · right; left
      by_cases he : r.privateUse = d.tag.privateUse
      · exact he.symm
      · exact absurd ⟨hr, he⟩ hc

/-- Loading fails only if there is no such dictionary. -/
theorem C48_load_complete {found : List Nat → List Dict} {ls : List (List Nat)} {env : Option (List Nat)} {language p : List Nat}
    (h : loadDictionary found ls env language p = none) :
    ∀ d ∈ findAllAvailable found ls p, d.tag.language = (requestedTag env language).language →
      d.tag.script = (requestedTag env language).script →
      ¬ ((requestedTag env language).privateUse = [] ∨ d.tag.privateUse = (requestedTag env language).privateUse ∨
        (requestedTag env language).privateUse = lit "standard" ∧ d.tag.privateUse = []) := by
  intro d hd h1 h2 h3
  have hn := List.find?_eq_none.1 h d hd
  revert h1 h2 h3 hn
  generalize requestedTag env language = r
  intro h1 h2 h3 hn
  apply hn
  unfold isMatchingLanguage
  rw [if_neg (by simp [h1]), if_neg (by simp [h2])]
  split
  · rfl
  · rename_i hc
    rw [if_neg]
    rintro ⟨ha, hb⟩
    rcases h3 with h3 | h3 | h3
    · exact ha h3
    · exact hb h3.symm
    · exact hc h3

theorem match_of {r t : LanguageTag} (hr : r.privateUse = []) :
    isMatchingLanguage r t = true ↔ t.language = r.language ∧ t.script = r.script := by
  unfold isMatchingLanguage
  have h1 : ¬ (r.privateUse = lit "standard" ∧ t.privateUse = []) := by
    rw [hr]
    rintro ⟨h, _⟩
    exact absurd h (by decide)
  have h2 : ¬ (r.privateUse ≠ [] ∧ r.privateUse ≠ t.privateUse) := by simp [hr]
  constructor
  · intro h
    split at h
    · cases h
    split at h
    · cases h
    rename_i ha hb
    exact ⟨(Decidable.not_not.1 ha).symm, (Decidable.not_not.1 hb).symm⟩
  · rintro ⟨ha, hb⟩
    rw [if_neg (by simp [ha]), if_neg (by simp [hb]), if_neg h1, if_neg h2]

/-- The first element of the front part that matches, if the elements of the front part that match are all the same. -/
theorem find_front {m : DictMap} {P : Dict → Bool} {e : List Nat × Dict} (he : e ∈ m) (hf : isFront m e = true) (hP : P e.2 = true)
    (hu : ∀ x ∈ m, isFront m x = true → P x.2 = true → x = e) : (listDicts m).find? P = some e.2 := by
  rw [listDicts_eq, List.find?_append]
  cases hx : ((m.filter (isFront m)).map (·.2)).reverse.find? P with
  | none =>
    have := List.find?_eq_none.1 hx e.2 (by
      rw [List.mem_reverse]
      exact List.mem_map.2 ⟨e, List.mem_filter.2 ⟨he, hf⟩, rfl⟩)
    exact absurd hP this
  | some d =>
    have h1 := List.mem_of_find?_eq_some hx
    have h2 := List.find?_some hx
    rw [List.mem_reverse] at h1
    obtain ⟨x, hx1, rfl⟩ := List.mem_map.1 h1
    obtain ⟨hx2, hx3⟩ := List.mem_filter.1 hx1
    rw [hu x hx2 hx3 h2]
    rfl

/-- If neither the user nor the environment asks for a variant, the default dictionary of the language is loaded. -/
theorem C48_load_default {found : List Nat → List Dict} (h : GoodLoader found) (ls : List (List Nat)) (language p : List Nat)
    (hr : (LanguageTag.setBcp47 {} language).privateUse = []) {d : Dict} (hd : d ∈ findAllAvailable found ls p)
    (hdef : d.isDefault = true) (hl : d.tag.language = (LanguageTag.setBcp47 {} language).language)
    (hs : d.tag.script = (LanguageTag.setBcp47 {} language).script) :
    loadDictionary found ls none language p = some d := by
  have hm := mapInv_collect h ls p
  have hreq : requestedTag none language = LanguageTag.setBcp47 {} language := by
    unfold requestedTag
    simp only
    split <;> rfl
  obtain ⟨e, he, rfl⟩ := mem_available.1 hd
  unfold loadDictionary findAllAvailable
  rw [hreq]
  refine find_front he (by rw [isFront, hdef]; rfl) ((match_of hr).2 ⟨hl, hs⟩) ?_
  intro x hx hxf hxp
  obtain ⟨h1, h2⟩ := (match_of hr).1 hxp
  refine hm.defaults x hx e he ?_ hdef (h1.trans hl.symm)
  unfold isFront at hxf
  cases hxd : x.2.isDefault with
  | true => rfl
  | false =>
    rw [hxd, Bool.false_or, Bool.and_eq_true] at hxf
    have : hasDefaultForLanguage (collect found ls p) x.2.tag.language = true :=
      hasDefault_iff.2 ⟨e, he, hl.trans h1.symm, hdef⟩
    rw [this] at hxf
    cases hxf.2

/-! ## Standard variants -/

/-- Which keys are taken for those of a standard variant: those that end in `-x-standard`, and all of ten characters. -/
theorem C49_exact {key : List Nat} (hl : key.length < 2 ^ 64) :
    isStandardKey key = true ↔ lit "-x-standard" <:+ key ∨ key.length = 10 := isStandardKey_iff hl

/-- C49 for tags that do not have ten characters. -/
theorem C49_partial {key : List Nat} (hl : key.length < 2 ^ 64) (h10 : key.length ≠ 10) :
    isStandardKey key = true ↔ lit "-x-standard" <:+ key := by
  rw [C49_exact hl]
  simp [h10]

/-- If there is no default dictionary for the language, and none of its tags has ten characters, the standard variant is loaded. -/
theorem C49_load_standard_partial {found : List Nat → List Dict} (h : GoodLoader found) (ls : List (List Nat)) (language p : List Nat)
    (hr : (LanguageTag.setBcp47 {} language).privateUse = [])
    (hlen : ∀ x ∈ findAllAvailable found ls p, x.tag.toBcp47.length < 2 ^ 64)
    (h10 : ∀ x ∈ findAllAvailable found ls p, x.tag.language = (LanguageTag.setBcp47 {} language).language → x.tag.toBcp47.length ≠ 10)
    (hnd : ∀ x ∈ findAllAvailable found ls p, x.tag.language = (LanguageTag.setBcp47 {} language).language → x.isDefault = false)
    {d : Dict} (hd : d ∈ findAllAvailable found ls p) (hstd : d.tag.privateUse = lit "standard")
    (hl : d.tag.language = (LanguageTag.setBcp47 {} language).language)
    (hs : d.tag.script = (LanguageTag.setBcp47 {} language).script) :
    loadDictionary found ls none language p = some d := by
  have hm := mapInv_collect h ls p
  have hreq : requestedTag none language = LanguageTag.setBcp47 {} language := by
    unfold requestedTag
    simp only
    split <;> rfl
  obtain ⟨e, he, rfl⟩ := mem_available.1 hd
  have hnodef : ∀ l, l = (LanguageTag.setBcp47 {} language).language → hasDefaultForLanguage (collect found ls p) l = false := by
    intro l hle
    cases hc : hasDefaultForLanguage (collect found ls p) l with
    | false => rfl
    | true =>
      obtain ⟨x, hx, h1, h2⟩ := hasDefault_iff.1 hc
      rw [hnd x.2 (mem_available.2 ⟨x, hx, rfl⟩) (h1.trans hle)] at h2
      cases h2
  have hkey : e.1 = e.2.tag.toBcp47 := hm.keys e he
  have hform : ∀ t : LanguageTag, t.privateUse = lit "standard" → ∃ q, t.toBcp47 = q ++ lit "-x-standard" ∧
      q = if t.script ≠ [] then t.language ++ lit "-" ++ t.script else t.language := by
    intro t ht
    simp only [LanguageTag.toBcp47]
    rw [if_pos (by rw [ht]; decide), ht]
    generalize (if t.script ≠ [] then t.language ++ lit "-" ++ t.script else t.language) = q
    exact ⟨q, by rw [List.append_assoc]; rfl, rfl⟩
  unfold loadDictionary findAllAvailable
  rw [hreq]
  refine find_front he ?_ ((match_of hr).2 ⟨hl, hs⟩) ?_
  · obtain ⟨q, hq, _⟩ := hform e.2.tag hstd
    have : isStandardKey e.1 = true := by
      rw [hkey]
      exact (C49_exact (hlen _ hd)).2 (.inl ⟨q, hq.symm⟩)
    rw [isFront, this, hnodef _ hl]
    simp
  · intro x hx hxf hxp
    obtain ⟨h1, h2⟩ := (match_of hr).1 hxp
    have hxm : x.2 ∈ findAllAvailable found ls p := mem_available.2 ⟨x, hx, rfl⟩
    rw [isFront, hnd _ hxm h1, Bool.false_or, Bool.and_eq_true] at hxf
    have hxk : x.1 = x.2.tag.toBcp47 := hm.keys x hx
    rw [hxk] at hxf
    obtain ⟨t, ht⟩ := (C49_partial (hlen _ hxm) (h10 _ hxm h1)).1 hxf.1
    have hpu : x.2.tag.privateUse = lit "standard" :=
      toBcp47_private (hm.normal x hx) (a := t ++ [45, 120]) (by decide) (by decide) (by
        rw [← ht, List.append_assoc]; rfl)
    obtain ⟨q, hq, hq'⟩ := hform e.2.tag hstd
    obtain ⟨q2, hq2, hq2'⟩ := hform x.2.tag hpu
    have hke : x.1 = e.1 := by
      rw [hxk, hkey, hq, hq2, hq', hq2', h1, h2, hl, hs]
    have a1 := (lookup_iff (k := x.1) (d := x.2) hm.sorted).2 hx
    have a2 := (lookup_iff (k := e.1) (d := e.2) hm.sorted).2 he
    rw [hke, a2, Option.some.injEq] at a1
    exact Prod.ext hke a1.symm

/-! ## Concrete directories -/

/-- Lines of the index file of a dictionary for a language tag. -/
def indexOf (tag : String) : List (List Nat) := [lit "Voikko-Dictionary-Format: 5", lit "Language: " ++ lit tag]

/-- Two locations that both have the standard variant, and other variants. -/
def sampleLoader (loc : List Nat) : List Dict :=
  if loc = lit "/a" then findDictionariesV5 loc [(lit "mor-1", indexOf "fi-x-standard" ++ [lit "Description: first"]), (lit "mor-2", indexOf "fi-x-medicine")]
  else if loc = lit "/b" then findDictionariesV5 loc [(lit "mor-1", indexOf "FI-x-Standard" ++ [lit "Description: second"]),
    (lit "mor-3", indexOf "sv-x-default"), (lit "readme", indexOf "de"), (lit "mor-4", indexOf "sv-x-standard")]
  else []

theorem sampleLoader_good : GoodLoader sampleLoader := by
  intro loc d hd
  unfold sampleLoader at hd
  split at hd
  · exact C48_loader _ _ d hd
  split at hd
  · exact C48_loader _ _ d hd
  · cases hd

/-- Four dictionaries are found; the one in the first location is listed. -/
example : (findAllAvailable sampleLoader [lit "/a", lit "/b"] []).map (fun d => (d.tag.toBcp47, d.description, d.isDefault)) =
    [(lit "sv-x-default", [], true), (lit "fi-x-standard", lit "first", false), (lit "fi-x-medicine", [], false), (lit "sv-x-standard", [], false)] := by
  decide +kernel

example : (loadDictionary sampleLoader [lit "/b"] none (lit "fi") (lit "/a")).map (·.description) = some (lit "first") := by
  decide +kernel
example : (loadDictionary sampleLoader [lit "/a"] none (lit "fi") (lit "/b")).map (·.description) = some (lit "second") := by
  decide +kernel
example : (loadDictionary sampleLoader [lit "/b"] none (lit "sv") []).map (·.tag.toBcp47) = some (lit "sv-x-default") := by
  decide +kernel
example : loadDictionary sampleLoader [lit "/b"] none (lit "de") [] = none := by decide +kernel

/-- The hypotheses of `C49_load_standard_partial` hold for Finnish in these directories, those of `C48_load_default` for Swedish. -/
example : (∀ x ∈ findAllAvailable sampleLoader [lit "/a", lit "/b"] [], x.tag.toBcp47.length < 2 ^ 64) ∧
    (∀ x ∈ findAllAvailable sampleLoader [lit "/a", lit "/b"] [], x.tag.language = (LanguageTag.setBcp47 {} (lit "fi")).language →
      x.tag.toBcp47.length ≠ 10 ∧ x.isDefault = false) ∧
    (∃ d ∈ findAllAvailable sampleLoader [lit "/a", lit "/b"] [], d.tag.privateUse = lit "standard" ∧ d.tag.language = lit "fi" ∧ d.tag.script = []) ∧
    (∃ d ∈ findAllAvailable sampleLoader [lit "/a", lit "/b"] [], d.isDefault = true ∧ d.tag.language = lit "sv" ∧ d.tag.script = []) := by
  decide +kernel

/-- A directory with the standard variant and a variant whose tag has ten characters. -/
def tenLoader (loc : List Nat) : List Dict :=
  findDictionariesV5 loc [(lit "mor-standard", indexOf "fi-x-standard"), (lit "mor-zzzzz", indexOf "fi-x-zzzzz")]

theorem tenLoader_good : GoodLoader tenLoader := fun _ d hd => C48_loader _ _ d hd

/-- The full C49 fails: a variant with a tag of ten characters is listed first and loaded although it is not the standard one. -/
theorem C49_violation :
    GoodLoader tenLoader ∧
    ¬ lit "-x-standard" <:+ lit "fi-x-zzzzz" ∧ isStandardKey (lit "fi-x-zzzzz") = true ∧
    (findAllAvailable tenLoader [] (lit "/d")).map (fun d => (d.tag.toBcp47, d.isDefault)) =
      [(lit "fi-x-zzzzz", false), (lit "fi-x-standard", false)] ∧
    (loadDictionary tenLoader [] none (lit "fi") (lit "/d")).map (·.tag.toBcp47) = some (lit "fi-x-zzzzz") :=
  ⟨tenLoader_good, by decide +kernel⟩

end Verif.Props
