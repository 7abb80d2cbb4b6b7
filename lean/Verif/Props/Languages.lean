import Verif.Model.Factory
import Verif.Props.DictIndex
import Verif.Props.LanguageTag
import Verif.Props.Dictionary
/-!
# C73: the lists of supported languages
-/

namespace Verif.Props

theorem mem_setInsert {s x : List Nat} : ∀ {l : List (List Nat)}, x ∈ setInsert s l ↔ x = s ∨ x ∈ l
  | [] => by simp [setInsert]
  | t :: rest => by
    simp only [setInsert]
    split
    · next h => subst h; simp
    · split
      · simp
      · simp only [List.mem_cons, mem_setInsert (l := rest)]
        constructor
        · rintro (h | h | h) <;> simp [h]
        · rintro (h | h | h) <;> simp [h]

theorem sorted_setInsert {s : List Nat} : ∀ {l : List (List Nat)}, l.Pairwise (fun a b => bytesLt a b = true) →
    (setInsert s l).Pairwise (fun a b => bytesLt a b = true)
  | [], _ => by simp [setInsert]
  | t :: rest, h => by
    rw [List.pairwise_cons] at h
    simp only [setInsert]
    split
    · exact List.pairwise_cons.2 h
    · next hn =>
      split
      · next hl =>
        refine List.pairwise_cons.2 ⟨?_, List.pairwise_cons.2 h⟩
        intro x hx
        rw [List.mem_cons] at hx
        rcases hx with rfl | hx
        · exact hl
        · exact bytesLt_trans _ _ _ hl (h.1 x hx)
      · next hl =>
        refine List.pairwise_cons.2 ⟨?_, sorted_setInsert h.2⟩
        intro x hx
        rw [mem_setInsert] at hx
        rcases hx with rfl | hx
        · exact bytesLt_total _ _ hn (by simpa using hl)
        · exact h.1 x hx

theorem languages_foldl (cap : Capability) : ∀ (dicts : List Dict) (acc : List (List Nat)),
    acc.Pairwise (fun a b => bytesLt a b = true) →
    (dicts.foldl (fun acc d => if advertises cap d then setInsert (shortLang d.tag) acc else acc) acc).Pairwise
      (fun a b => bytesLt a b = true) ∧
    ∀ s, s ∈ dicts.foldl (fun acc d => if advertises cap d then setInsert (shortLang d.tag) acc else acc) acc ↔
      s ∈ acc ∨ ∃ d ∈ dicts, advertises cap d = true ∧ s = shortLang d.tag
  | [], acc, h => by simp [h]
  | d :: ds, acc, h => by
    rw [List.foldl_cons]
    by_cases ha : advertises cap d = true
    · rw [if_pos ha]
      obtain ⟨h1, h2⟩ := languages_foldl cap ds _ (sorted_setInsert (s := shortLang d.tag) h)
      refine ⟨h1, fun s => ?_⟩
      rw [h2 s, mem_setInsert]
      constructor
      · rintro ((rfl | hm) | ⟨d', hd, hx⟩)
        · exact .inr ⟨d, List.mem_cons_self .., ha, rfl⟩
        · exact .inl hm
        · exact .inr ⟨d', List.mem_cons_of_mem _ hd, hx⟩
      · rintro (hm | ⟨d', hd, hx⟩)
        · exact .inl (.inr hm)
        · rw [List.mem_cons] at hd
          rcases hd with rfl | hd
          · exact .inl (.inl hx.2)
          · exact .inr ⟨d', hd, hx⟩
    · rw [if_neg ha]
      obtain ⟨h1, h2⟩ := languages_foldl cap ds _ h
      refine ⟨h1, fun s => ?_⟩
      rw [h2 s]
      constructor
      · rintro (hm | ⟨d', hd, hx⟩)
        · exact .inl hm
        · exact .inr ⟨d', List.mem_cons_of_mem _ hd, hx⟩
      · rintro (hm | ⟨d', hd, hx⟩)
        · exact .inl hm
        · rw [List.mem_cons] at hd
          rcases hd with rfl | hd
          · exact absurd hx.1 ha
          · exact .inr ⟨d', hd, hx⟩

/-- C73: the list for a capability has exactly the languages (with script, if there is one) of the dictionaries that advertise it, in
the order of their bytes and without repetitions. -/
theorem C73_list (cap : Capability) (dicts : List Dict) :
    (listLanguages cap dicts).Pairwise (fun a b => bytesLt a b = true) ∧ (listLanguages cap dicts).Nodup ∧
    ∀ s, s ∈ listLanguages cap dicts ↔ ∃ d ∈ dicts, advertises cap d = true ∧
      s = d.tag.language ++ (if d.tag.script = [] then [] else lit "-" ++ d.tag.script) := by
  obtain ⟨h1, h2⟩ := languages_foldl cap dicts [] .nil
  refine ⟨h1, h1.imp ?_, fun s => ?_⟩
  · intro a b hab he
    rw [he, bytesLt_irrefl] at hab
    cases hab
  · rw [listLanguages, h2 s]
    have : ∀ d : Dict, shortLang d.tag = d.tag.language ++ (if d.tag.script = [] then [] else lit "-" ++ d.tag.script) := by
      intro d
      simp only [shortLang]
      split <;> simp
    simp [this]

theorem take_no_mark {x : List Nat} {p : Nat} (h : findSub (lit "-x-") x = some p) : findSub (lit "-x-") (x.take p) = none := by
  obtain ⟨_, _, h3⟩ := findSub_some h
  refine findSub_eq_none fun j hj => ?_
  by_cases hjp : j < p
  · refine h3 j hjp (hj.trans ?_)
    rw [List.drop_take]
    exact List.take_prefix ..
  · rw [List.drop_eq_nil_of_le (by rw [List.length_take]; omega)] at hj
    have := List.prefix_nil.1 hj
    revert this; decide

theorem short_parse (x : List Nat) :
    LanguageTag.setBcp47 {} (shortLang (LanguageTag.setBcp47 {} x)) = { LanguageTag.setBcp47 {} x with privateUse := [] } := by
  have core : ∀ y, (LanguageTag.setBcp47 {} y).privateUse = [] →
      LanguageTag.setBcp47 {} (shortLang (LanguageTag.setBcp47 {} y)) = LanguageTag.setBcp47 {} y := by
    intro y hp
    have e : shortLang (LanguageTag.setBcp47 {} y) = (LanguageTag.setBcp47 {} y).toBcp47 := by
      simp only [shortLang, LanguageTag.toBcp47, hp]
      split <;> simp_all
    rw [e, C47_idempotent]
  have privateNone : ∀ y, (LanguageTag.setLanguageAndScript {} y).privateUse = [] := by
    intro y
    have hl : ∀ (t : LanguageTag) z, (t.setLanguage z).privateUse = t.privateUse := by
      intro t z
      simp only [LanguageTag.setLanguage]; split <;> rfl
    simp only [LanguageTag.setLanguageAndScript]
    split
    · simp only [LanguageTag.setScript]
      split <;> simp [hl]
    · simp [hl]
  cases hx : findSub (lit "-x-") x with
  | none =>
    have e : LanguageTag.setBcp47 {} x = LanguageTag.setLanguageAndScript {} x := by simp only [LanguageTag.setBcp47, hx]
    have hp : (LanguageTag.setBcp47 {} x).privateUse = [] := by rw [e]; exact privateNone x
    rw [core x hp]
    cases h : LanguageTag.setBcp47 {} x
    rw [h] at hp
    simp only at hp
    simp [hp]
  | some p =>
    have e : LanguageTag.setBcp47 {} x = (LanguageTag.setLanguageAndScript {} (x.take p)).setPrivateUse (x.drop (p + 3)) := by
      simp only [LanguageTag.setBcp47, hx]
    have e' : LanguageTag.setBcp47 {} (x.take p) = LanguageTag.setLanguageAndScript {} (x.take p) := by
      simp only [LanguageTag.setBcp47, take_no_mark hx]
    have hs : shortLang (LanguageTag.setBcp47 {} x) = shortLang (LanguageTag.setBcp47 {} (x.take p)) := by
      rw [e, e']; rfl
    have hp : (LanguageTag.setBcp47 {} (x.take p)).privateUse = [] := by rw [e']; exact privateNone _
    rw [hs, core _ hp, e', e]
    have := privateNone (x.take p)
    cases h : LanguageTag.setLanguageAndScript {} (x.take p)
    rw [h] at this
    simp only at this
    simp [LanguageTag.setPrivateUse, this]

/-- What is found has tags that have been parsed from a text, as those of dictionaries with one `Language` line (`C71_language`). -/
def ParsedTags (found : List Nat → List Dict) : Prop := ∀ loc, ∀ d ∈ found loc, ∃ x, d.tag = LanguageTag.setBcp47 {} x

theorem available_parsed {found : List Nat → List Dict} (hg : GoodLoader found) (hp : ParsedTags found) {ls : List (List Nat)}
    {p : List Nat} {d : Dict} (hd : d ∈ findAllAvailable found ls p) : ∃ x, d.tag = LanguageTag.setBcp47 {} x := by
  have := (C48_first_location hg ls p d).1 ⟨d.isDefault, hd⟩
  have hm := List.mem_of_find?_eq_some this
  simp only [foundInOrder, List.mem_append, List.mem_flatMap] at hm
  rcases hm with hm | ⟨loc, _, hm⟩
  · split at hm
    · have := hp _ _ hm
      exact this
    · cases hm
  · have := hp _ _ hm
    exact this

/-- C73: every listed language can be passed to `voikkoInit`: if the environment does not ask for a variant, a dictionary for this
language (and script) is loaded. -/
theorem C73_usable {found : List Nat → List Dict} (hg : GoodLoader found) (hp : ParsedTags found) (ls : List (List Nat)) (p : List Nat)
    (cap : Capability) (s : List Nat) (hs : s ∈ listLanguages cap (findAllAvailable found ls p)) :
    ∃ d, loadDictionary found ls none s p = some d ∧ d ∈ findAllAvailable found ls p ∧ shortLang d.tag = s := by
  obtain ⟨d, hd, _, he⟩ := ((C73_list cap _).2.2 s).1 hs
  have hs' : s = shortLang d.tag := by
    rw [he]; simp only [shortLang]; split <;> simp
  obtain ⟨x, hx⟩ := available_parsed hg hp hd
  have hreq : requestedTag none s = { d.tag with privateUse := [] } := by
    rw [(C71_environment none s).2.2.1, hs', hx, short_parse]
  have key : ∀ d' : Dict, isMatchingLanguage (requestedTag none s) d'.tag = true ↔
      d'.tag.language = d.tag.language ∧ d'.tag.script = d.tag.script := by
    intro d'
    rw [hreq]
    simp only [isMatchingLanguage]
    have : ([] : List Nat) ≠ lit "standard" := by decide
    split
    · next h => constructor
                · intro h'; cases h'
                · intro h'; exact absurd h'.1.symm h
    · next h =>
      split
      · next h' => constructor
                   · intro h''; cases h''
                   · intro h''; exact absurd h''.2.symm h'
      · next h' =>
        simp only [ne_eq, Decidable.not_not] at h h'
        simp [this, h, h']
  cases hf : loadDictionary found ls none s p with
  | none =>
    exfalso
    have := List.find?_eq_none.1 hf d hd
    exact this ((key d).2 ⟨rfl, rfl⟩)
  | some d' =>
    refine ⟨d', rfl, List.mem_of_find?_eq_some hf, ?_⟩
    have hq : isMatchingLanguage (requestedTag none s) d'.tag = true := by
      have h := List.find?_some hf
      exact h
    have := (key d').1 hq
    rw [hs']
    simp only [shortLang, this.1, this.2]

/-- C73 fails for the capability: a language is listed for grammar checking although its only dictionary has the grammar checker that
finds nothing, and for hyphenation although its hyphenator does not exist. -/
theorem C73_capability_violation :
    listLanguages .grammar [dictionaryFromPath (lit "/d") [formatLine, lit "Language: sv", lit "Grammar-Backend: null"]] = [lit "sv"] ∧
    listLanguages .hyphenation [dictionaryFromPath (lit "/d") [formatLine, lit "Language: sv", lit "Hyphenator-Backend: none"]] =
      [lit "sv"] ∧
    getHyphenator (dictionaryFromPath (lit "/d") [formatLine, lit "Language: sv", lit "Hyphenator-Backend: none"]) {} =
      some ({}, .error "Could not create hyphenator due to unknown hyphenator backend") := by
  decide +kernel

/-- C73: the variant that is shown for a dictionary is never empty, and the tag made of its language, its script and this variant can
be passed to `voikkoInit`: a dictionary that is shown with the same three is loaded. The environment is not asked unless the variant is
`default`, and the script must have no hyphen. -/
theorem C73_variant {found : List Nat → List Dict} (hg : GoodLoader found) (hp : ParsedTags found) (ls : List (List Nat)) (p : List Nat)
    (env : Option (List Nat)) (d : Dict) (hd : d ∈ findAllAvailable found ls p) (hs : 45 ∉ d.tag.script)
    (he : env = none ∨ dictVariant d ≠ lit "default") :
    dictVariant d ≠ [] ∧ ∃ d', loadDictionary found ls env (shortLang d.tag ++ lit "-x-" ++ dictVariant d) p = some d' ∧
      d' ∈ findAllAvailable found ls p ∧ d'.tag.language = d.tag.language ∧ d'.tag.script = d.tag.script ∧
      dictVariant d' = dictVariant d := by
  have hne : dictVariant d ≠ [] := by
    unfold dictVariant
    split
    · assumption
    · decide
  obtain ⟨x, hx⟩ := available_parsed hg hp hd
  have hn : NormalTag d.tag := hx ▸ normal_setBcp47 normal_empty x
  have hv : 45 ∉ dictVariant d ∧ lowercaseTagPart (dictVariant d) = dictVariant d := by
    unfold dictVariant
    split
    · exact hn.privateUse
    · decide
  have hparse : LanguageTag.setBcp47 {} (shortLang d.tag ++ lit "-x-" ++ dictVariant d) =
      { d.tag with privateUse := dictVariant d } := by
    have hf : (dictVariant d).filter (· ≠ 45) = dictVariant d := by
      rw [List.filter_eq_self]
      intro a ha
      simp only [decide_eq_true_eq]
      exact fun h => hv.1 (h ▸ ha)
    rcases hn.script with h0 | h4
    · have := C47_components d.tag.language none none (some (dictVariant d)) ⟨hn.language.1, hn.language.2.1⟩ (fun _ h => by cases h)
        (fun _ h => by cases h)
      simp only [tagString, tagPart, scriptPart, privatePart, hf, hv.2, hn.language.2.2, List.append_nil] at this
      simp only [shortLang, if_pos h0, List.append_assoc]
      rw [this, h0]
    · have hc : d.tag.script ≠ [] := by
        intro h; rw [h] at h4; cases h4
      have := C47_components d.tag.language none (some d.tag.script) (some (dictVariant d)) ⟨hn.language.1, hn.language.2.1⟩
        (fun _ h => by cases h) (fun _ h => by
          cases h
          exact ⟨hs, fun h => by rw [h] at h4; cases h4⟩)
      simp only [tagString, tagPart, scriptPart, privatePart, hf, hv.2, hn.language.2.2, List.append_nil, if_pos h4] at this
      simp only [shortLang, if_neg hc]
      rw [← this]
      simp
  have hreq : requestedTag env (shortLang d.tag ++ lit "-x-" ++ dictVariant d) = { d.tag with privateUse := dictVariant d } := by
    rcases he with rfl | he
    · rw [(C71_environment none _).2.2.1, hparse]
    · have hc := C71_environment env (shortLang d.tag ++ lit "-x-" ++ dictVariant d)
      have h5 := hc.2.2.2.2 (by rw [hparse]; simp [hne, he])
      have h1 := hc.1
      have h2 := hc.2.1
      rw [hparse] at h1 h2 h5
      simp only at h1 h2 h5
      cases hr : requestedTag env (shortLang d.tag ++ lit "-x-" ++ dictVariant d)
      rw [hr] at h1 h2 h5
      simp only at h1 h2 h5
      rw [h1, h2, h5]
  have key : ∀ d' : Dict, isMatchingLanguage (requestedTag env (shortLang d.tag ++ lit "-x-" ++ dictVariant d)) d'.tag = true ↔
      d'.tag.language = d.tag.language ∧ d'.tag.script = d.tag.script ∧ dictVariant d' = dictVariant d := by
    intro d'
    rw [hreq]
    have hsw : ∀ a b : List Nat, a = b ↔ b = a := fun a b => ⟨Eq.symm, Eq.symm⟩
    rw [hsw d'.tag.language, hsw d'.tag.script, hsw (dictVariant d')]
    generalize hw : dictVariant d = w at *
    simp only [isMatchingLanguage]
    by_cases h1 : d.tag.language = d'.tag.language
    · by_cases h2 : d.tag.script = d'.tag.script
      · by_cases h3 : d'.tag.privateUse = []
        · simp [h1, h2, h3, hne, dictVariant]
        · simp [h1, h2, h3, hne, dictVariant]
      · simp [h1, h2]
    · simp [h1]
  refine ⟨hne, ?_⟩
  cases hf : loadDictionary found ls env (shortLang d.tag ++ lit "-x-" ++ dictVariant d) p with
  | none => exact absurd ((key d).2 ⟨rfl, rfl, rfl⟩) (List.find?_eq_none.1 hf d hd)
  | some d' =>
    have hq : isMatchingLanguage (requestedTag env (shortLang d.tag ++ lit "-x-" ++ dictVariant d)) d'.tag = true := by
      have h := List.find?_some hf
      exact h
    exact ⟨d', rfl, List.mem_of_find?_eq_some hf, (key d').1 hq⟩

/-- C73 fails for a script that ends in `-x`: the tag made of what is shown has no script. -/
theorem C73_variant_violation :
    let d := dictionaryFromPath (lit "/d") [formatLine, lit "Language: fi-ab-x"]
    d.tag.script = lit "ab-x" ∧ isMatchingLanguage (requestedTag none (shortLang d.tag ++ lit "-x-" ++ dictVariant d)) d.tag = false := by
  decide +kernel

/-- C73: the dictionaries of a directory have such tags if no index file has two lines for the language. -/
theorem C73_parsed (path : List Nat) (entries : List (List Nat × List (List Nat)))
    (h : ∀ e ∈ entries, (valuesOf (lit "Language: ") (e.2.drop 1)).length ≤ 1) :
    ∀ d ∈ findDictionariesV5 path entries, ∃ x, d.tag = LanguageTag.setBcp47 {} x := by
  intro d hd
  obtain ⟨⟨name, lines⟩, hm, he⟩ := List.mem_filterMap.1 hd
  have hl := h _ hm
  simp only at he hl
  split at he
  · cases he
  split at he
  · cases he
  cases he
  cases lines with
  | nil => exact ⟨[], by rw [dictionaryFromPath]; decide⟩
  | cons first rest =>
    by_cases hf : first = formatLine
    · subst hf
      simp only [List.drop_one, List.tail_cons] at hl
      obtain ⟨h0, h1⟩ := C71_language (path ++ lit "/5/" ++ name) rest
      cases hv : valuesOf (lit "Language: ") rest with
      | nil => exact ⟨lit "fi", by rw [h0 hv]; decide⟩
      | cons x r =>
        rw [hv] at hl
        cases r with
        | nil => exact ⟨x, h1 x hv⟩
        | cons => simp at hl
    · refine ⟨[], ?_⟩
      unfold formatLine at hf
      simp only [dictionaryFromPath]
      rw [if_pos hf]
      decide

theorem sampleLoader_parsed : ParsedTags sampleLoader := by
  intro loc d hd
  unfold sampleLoader at hd
  split at hd
  · exact C73_parsed _ _ (by decide +kernel) d hd
  split at hd
  · exact C73_parsed _ _ (by decide +kernel) d hd
  · cases hd

/-- Three dictionaries for two languages. -/
example : listLanguages .spell (findAllAvailable sampleLoader [lit "/a", lit "/b"] []) = [lit "fi", lit "sv"] ∧
    (loadDictionary sampleLoader [lit "/a", lit "/b"] none (lit "sv") []).map (·.tag.toBcp47) = some (lit "sv-x-default") := by
  decide +kernel

end Verif.Props
