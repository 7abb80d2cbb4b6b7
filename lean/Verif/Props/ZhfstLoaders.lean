import Verif.Model.ZhfstLoaders
import Verif.Props.Languages
import Mathlib.Data.List.Induction
/-!
# The dictionaries of the formats 3 and 4 (C108)
-/

set_option linter.unusedSimpArgs false
set_option linter.unusedVariables false

namespace Verif.Zhfst
open Verif Verif.Props

/-! ### Specification -/

/-- The name has the ending `.zhfst`, and these letters occur nowhere else in it. -/
def EndsOnce (name : List Nat) : Prop := lit ".zhfst" <:+ name ∧ ∀ j, lit ".zhfst" <+: name.drop j → j + 6 = name.length

/-- The dictionary of format 3 in the file `file` with the given locale and titles: a speller and suggestions, nothing else is advertised. -/
structure Is3 (file locale : List Nat) (titles : List (List Nat × List Nat)) (d : Dict) : Prop where
  mor : d.mor = ⟨lit "null", file, false⟩
  gramMor : d.gramMor = ⟨lit "null", [], false⟩
  grammar : d.grammar = ⟨lit "null", [], false⟩
  spell : d.spell = ⟨lit "hfst", [], true⟩
  suggestion : d.suggestion = ⟨lit "hfst", [], true⟩
  hyphenator : d.hyphenator = ⟨lit "AnalyzerToFinnishHyphenatorAdapter(currentAnalyzer)", [], false⟩
  tag : d.tag = LanguageTag.setBcp47 {} locale
  title : (∀ t, titles.lookup locale = some t → d.description = t) ∧ (titles.lookup locale = none → d.description = [])
  plain : d.isDefault = false

/-- The last of the listed files whose name has `pat` in it. -/
def Latest (pat : List Nat) (listed : List (List Nat × List Nat)) : Option (List Nat × List Nat) → Prop
  | none => ∀ x ∈ listed, ¬ pat <:+: x.2
  | some x => ∃ a b, listed = a ++ x :: b ∧ pat <:+: x.2 ∧ ∀ y ∈ b, ¬ pat <:+: y.2

/-- The file in the directory of format 4. -/
def filePath (path : List Nat) (x : List Nat × List Nat) : List Nat := path ++ lit "/4/" ++ x.1 ++ lit "/" ++ x.2

/-- The dictionary of format 4 in the file `file`, if `listed` are the files that have been listed up to this one. -/
structure Is4 (path : List Nat) (listed : List (List Nat × List Nat)) (file locale : List Nat) (titles : List (List Nat × List Nat)) (d : Dict) : Prop where
  mor : d.mor = ⟨lit "hfst", file, true⟩
  grammar : ∃ x, Latest (lit "gramchk.bin") listed x ∧
    d.grammar = match x with
      | none => ⟨lit "null", [], false⟩
      | some x => ⟨lit "vislcg3", filePath path x, true⟩
  gramMor : ∃ x, Latest (lit "-desc.hfst") listed x ∧
    d.gramMor = match x with
      | none => ⟨lit "null", [], false⟩
      | some x => ⟨lit "hfst", filePath path x, false⟩
  spell : d.spell = ⟨lit "hfst", [], true⟩
  suggestion : d.suggestion = ⟨lit "hfst", [], true⟩
  hyphenator : d.hyphenator = ⟨lit "AnalyzerToFinnishHyphenatorAdapter(currentAnalyzer)", [], false⟩
  tag : d.tag = LanguageTag.setBcp47 {} locale
  title : (∀ t, titles.lookup locale = some t → d.description = t) ∧ (titles.lookup locale = none → d.description = [])
  plain : d.isDefault = false

/-- The files in the order in which they are listed; the directory `..` is left out. -/
def listing (entries : List (List Nat × List (List Nat))) : List (List Nat × List Nat) :=
  (entries.filter fun e => e.1 ≠ lit "..").flatMap fun e => e.2.map fun f => (e.1, f)

/-! ### Names -/

theorem infix_iff {pat s : List Nat} : pat <:+: s ↔ ∃ j, pat <+: s.drop j := by
  constructor
  · rintro ⟨a, b, rfl⟩
    exact ⟨a.length, by rw [List.append_assoc, List.drop_left]; exact List.prefix_append _ _⟩
  · rintro ⟨j, b, h⟩
    exact ⟨s.take j, b, by rw [List.append_assoc, h, List.take_append_drop]⟩

theorem find_iff {pat s : List Nat} : findSub pat s ≠ none ↔ pat <:+: s := by
  rw [infix_iff]
  constructor
  · intro h
    cases hf : findSub pat s with
    | none => exact absurd hf h
    | some p => exact ⟨p, (findSub_some hf).2.1⟩
  · rintro ⟨j, hj⟩ h
    exact findSub_none h j hj

/-- Which entries the loader for format 3 takes for dictionaries: those with the ending `.zhfst` and no other occurrence of it in the name, and all with a name of five
letters. -/
theorem v3Name_iff {name : List Nat} (hlen : name.length < 2 ^ 64 - 6) : v3Name name = true ↔ EndsOnce name ∨ name.length = 5 := by
  have h6 : (lit ".zhfst").length = 6 := by decide
  unfold v3Name findPos
  rw [beq_iff_eq]
  cases hf : findSub (lit ".zhfst") name with
  | none =>
    simp only
    have hn := findSub_none hf
    constructor
    · intro h
      right
      omega
    · rintro (⟨⟨a, h⟩, _⟩ | h)
      · exact absurd (by rw [← h, List.drop_left]; exact List.prefix_rfl) (hn a.length)
      · omega
  | some p =>
    obtain ⟨h1, h2, h3⟩ := findSub_some hf
    simp only
    have hle := h2.length_le
    rw [h6, List.length_drop] at hle
    rw [Nat.mod_eq_of_lt (by omega)]
    constructor
    · intro h
      left
      refine ⟨?_, fun j hj => ?_⟩
      · obtain ⟨b, hb⟩ := h2
        have : b = [] := by
          have := congrArg List.length hb
          rw [List.length_append, h6, List.length_drop] at this
          exact List.length_eq_zero_iff.1 (by omega)
        rw [this, List.append_nil] at hb
        exact ⟨name.take p, by rw [hb, List.take_append_drop]⟩
      · have := hj.length_le
        rw [h6, List.length_drop] at this
        have : ¬ j < p := fun h => h3 j h hj
        omega
    · rintro (⟨_, h⟩ | h)
      · exact h p h2
      · omega

/-! ### Format 3 -/

theorem is3_dict (file locale : List Nat) (titles : List (List Nat × List Nat)) (d : Dict) : Is3 file locale titles d ↔ d = v3Dict file locale titles := by
  constructor
  · intro h
    ext1
    · exact h.mor
    · exact h.gramMor
    · exact h.grammar
    · exact h.spell
    · exact h.suggestion
    · exact h.hyphenator
    · exact h.tag
    · show d.description = (titles.lookup locale).getD []
      cases hl : titles.lookup locale with
      | none => exact h.title.2 hl
      | some t => exact h.title.1 t hl
    · exact h.plain
  · rintro rfl
    exact ⟨rfl, rfl, rfl, rfl, rfl, rfl, rfl, ⟨fun t ht => by simp [v3Dict, titleOf, ht], fun ht => by simp [v3Dict, titleOf, ht]⟩, rfl⟩

/-- The path of an entry of the directory of format 3. -/
def path3 (path name : List Nat) : List Nat := path ++ lit "/3" ++ lit "/" ++ name

/-- C108: the dictionaries of format 3 in a directory are exactly those in the files that are taken and can be read, in the order of the listing; files that are broken
are left out. (Missing: other exceptions of the reader, see `C108_exception_violation`; names with five letters are taken, too, and names with two occurrences of the
ending are not, see `C108_names_violation`.) -/
theorem C108_format3_partial (read : List Nat → ZhfstRead) (path : List Nat) (names : List (List Nat)) (hlen : ∀ n ∈ names, n.length < 2 ^ 64 - 6)
    (hex : ∀ n ∈ names, EndsOnce n ∨ n.length = 5 → read (path3 path n) ≠ .otherError) :
    ∃ ds, findDictionariesV3 read path names = some ds ∧ List.Sublist (ds.map fun d => d.mor.path) (names.map (path3 path)) ∧
      ∀ d, d ∈ ds ↔ ∃ n ∈ names, (EndsOnce n ∨ n.length = 5) ∧ ∃ locale titles, read (path3 path n) = .metadata locale titles ∧ Is3 (path3 path n) locale titles d := by
  induction names with
  | nil => exact ⟨[], rfl, List.Sublist.refl _, by simp⟩
  | cons n names ih =>
    obtain ⟨ds, e, hs, hd⟩ := ih (fun x hx => hlen x (List.mem_cons_of_mem _ hx)) (fun x hx => hex x (List.mem_cons_of_mem _ hx))
    have hn := v3Name_iff (hlen n List.mem_cons_self)
    rw [findDictionariesV3]
    by_cases ht : v3Name n = true
    · rw [if_pos ht]
      have ht' := hn.1 ht
      have hx := hex n List.mem_cons_self ht'
      change ∃ ds, (match read (path3 path n) with
        | .metadata locale titles => (findDictionariesV3 read path names).map (v3Dict (path3 path n) locale titles :: ·)
        | .zipError => findDictionariesV3 read path names
        | .otherError => none) = some ds ∧ _
      cases hr : read (path3 path n) with
      | otherError => exact absurd hr hx
      | zipError =>
        refine ⟨ds, e, hs.cons _, fun d => ?_⟩
        rw [hd]
        constructor
        · rintro ⟨m, hm, h⟩
          exact ⟨m, List.mem_cons_of_mem _ hm, h⟩
        · rintro ⟨m, hm, h1, l, t, h2, h3⟩
          rcases List.mem_cons.1 hm with rfl | hm
          · rw [hr] at h2; cases h2
          · exact ⟨m, hm, h1, l, t, h2, h3⟩
      | metadata locale titles =>
        refine ⟨v3Dict (path3 path n) locale titles :: ds, by simp only [e]; rfl, hs.cons_cons _, fun d => ?_⟩
        rw [List.mem_cons, hd]
        constructor
        · rintro (rfl | ⟨m, hm, h⟩)
          · exact ⟨n, List.mem_cons_self, ht', locale, titles, hr, (is3_dict _ _ _ _).2 rfl⟩
          · exact ⟨m, List.mem_cons_of_mem _ hm, h⟩
        · rintro ⟨m, hm, h1, l, t, h2, h3⟩
          rcases List.mem_cons.1 hm with rfl | hm
          · rw [hr] at h2
            cases h2
            exact .inl ((is3_dict _ _ _ _).1 h3)
          · exact .inr ⟨m, hm, h1, l, t, h2, h3⟩
    · rw [if_neg ht]
      refine ⟨ds, e, hs.cons _, fun d => ?_⟩
      rw [hd]
      constructor
      · rintro ⟨m, hm, h⟩
        exact ⟨m, List.mem_cons_of_mem _ hm, h⟩
      · rintro ⟨m, hm, h1, h2⟩
        rcases List.mem_cons.1 hm with rfl | hm
        · exact absurd (hn.2 h1) ht
        · exact ⟨m, hm, h1, h2⟩

/-- C108 fails for the names: a file `a.txt` is read as a dictionary, and `sv.zhfst.zhfst` is not. -/
theorem C108_names_violation :
    ¬ EndsOnce (lit "a.txt") ∧ v3Name (lit "a.txt") = true ∧ lit ".zhfst" <:+ lit "sv.zhfst.zhfst" ∧ v3Name (lit "sv.zhfst.zhfst") = false := by
  refine ⟨fun h => absurd h.1.length_le (by decide), by decide +kernel, ⟨lit "sv.zhfst", by decide⟩, by decide +kernel⟩

/-! ### Format 4 -/

/-- The variables after the files `listed`. -/
structure VarsAre (path : List Nat) (listed : List (List Nat × List Nat)) (v : V4Vars) : Prop where
  grammar : ∃ x, Latest (lit "gramchk.bin") listed x ∧
    v.grammar = match x with
      | none => ⟨lit "null", [], false⟩
      | some x => ⟨lit "vislcg3", filePath path x, true⟩
  gramMor : ∃ x, Latest (lit "-desc.hfst") listed x ∧
    v.gramMor = match x with
      | none => ⟨lit "null", [], false⟩
      | some x => ⟨lit "hfst", filePath path x, false⟩

theorem latest_unique {pat : List Nat} {listed : List (List Nat × List Nat)} {x y : Option (List Nat × List Nat)} (hx : Latest pat listed x) (hy : Latest pat listed y) :
    x = y := by
  induction listed using List.reverseRecOn generalizing x y with
  | nil =>
    have : ∀ z, Latest pat [] z → z = none := by
      intro z hz
      cases z with
      | none => rfl
      | some z => obtain ⟨a, b, e, _⟩ := hz; cases a <;> cases e
    rw [this x hx, this y hy]
  | append_singleton l c ih =>
    by_cases hc : pat <:+: c.2
    · have : ∀ z, Latest pat (l ++ [c]) z → z = some c := by
        intro z hz
        cases z with
        | none => exact absurd hc (hz c (by simp))
        | some z =>
          obtain ⟨a, b, e, _, hb⟩ := hz
          cases b using List.reverseRecOn with
          | nil => have := (List.append_inj' e (by simp)).2; cases this; rfl
          | append_singleton b c' =>
            have e' : l ++ [c] = (a ++ z :: b) ++ [c'] := by rw [e]; simp
            have := (List.append_inj' e' (by simp)).2
            cases this
            exact absurd hc (hb c (by simp))
      rw [this x hx, this y hy]
    · have : ∀ z, Latest pat (l ++ [c]) z → Latest pat l z := by
        intro z hz
        cases z with
        | none => exact fun w hw => hz w (List.mem_append_left _ hw)
        | some z =>
          obtain ⟨a, b, e, hz1, hb⟩ := hz
          cases b using List.reverseRecOn with
          | nil => have := (List.append_inj' e (by simp)).2; cases this; exact absurd hz1 hc
          | append_singleton b c' =>
            have e' : l ++ [c] = (a ++ z :: b) ++ [c'] := by rw [e]; simp
            have e2 := List.append_inj' e' (by simp)
            exact ⟨a, b, e2.1, hz1, fun w hw => hb w (List.mem_append_left _ hw)⟩
      exact ih (this x hx) (this y hy)

theorem latest_snoc {pat : List Nat} {listed : List (List Nat × List Nat)} {x : Option (List Nat × List Nat)} (hx : Latest pat listed x) (c : List Nat × List Nat) :
    Latest pat (listed ++ [c]) (if findSub pat c.2 ≠ none then some c else x) := by
  by_cases hc : findSub pat c.2 ≠ none
  · rw [if_pos hc]
    exact ⟨listed, [], rfl, find_iff.1 hc, by simp⟩
  · rw [if_neg hc]
    have hc' : ¬ pat <:+: c.2 := fun h => hc (find_iff.2 h)
    cases x with
    | none =>
      intro w hw
      rcases List.mem_append.1 hw with hw | hw
      · exact hx w hw
      · rw [List.mem_singleton.1 hw]; exact hc'
    | some x =>
      obtain ⟨a, b, e, h1, h2⟩ := hx
      refine ⟨a, b ++ [c], by rw [e]; simp, h1, fun w hw => ?_⟩
      rcases List.mem_append.1 hw with hw | hw
      · exact h2 w hw
      · rw [List.mem_singleton.1 hw]; exact hc'

theorem vars_snoc {path : List Nat} {listed : List (List Nat × List Nat)} {v : V4Vars} (h : VarsAre path listed v) (dir file : List Nat) :
    VarsAre path (listed ++ [(dir, file)]) (v4Name (path ++ lit "/4" ++ lit "/" ++ dir) v file) := by
  have hp : path ++ lit "/4" ++ lit "/" ++ dir ++ lit "/" ++ file = filePath path (dir, file) := by
    unfold filePath
    rw [show lit "/4/" = lit "/4" ++ lit "/" by decide]
    simp only [List.append_assoc]
  obtain ⟨⟨x, hx, ex⟩, ⟨y, hy, ey⟩⟩ := h
  refine ⟨⟨_, latest_snoc hx (dir, file), ?_⟩, ⟨_, latest_snoc hy (dir, file), ?_⟩⟩
  · simp only [v4Name]
    by_cases hc : findSub (lit "gramchk.bin") file ≠ none
    · rw [if_pos hc]
      rw [if_pos hc]
      split <;> (simp only; rw [hp])
    · rw [if_neg hc]
      rw [if_neg hc]
      rw [← ex]
      split <;> rfl
  · simp only [v4Name]
    by_cases hc : findSub (lit "-desc.hfst") file ≠ none
    · rw [if_pos hc]
      rw [if_pos hc]
      simp only [hp]
    · rw [if_neg hc]
      rw [if_neg hc]
      rw [← ey]
      split <;> rfl

/-- The loops as one loop over the listed files. -/
def v4Flat (read : List Nat → ZhfstRead) (path : List Nat) : V4Vars → List (List Nat × List Nat) → Option (List Dict)
  | _, [] => some []
  | v, (dir, file) :: rest =>
    let v := v4Name (path ++ lit "/4" ++ lit "/" ++ dir) v file
    if findSub (lit ".zhfst") file ≠ none then
      match read (filePath path (dir, file)) with
      | .metadata locale titles => (v4Flat read path v rest).map (v4Dict v (filePath path (dir, file)) locale titles :: ·)
      | .zipError => v4Flat read path v rest
      | .otherError => none
    else v4Flat read path v rest

theorem flat_append (read : List Nat → ZhfstRead) (path dir : List Nat) (rest : List (List Nat × List Nat)) : (files : List (List Nat)) → (v : V4Vars) →
    v4Flat read path v (files.map (fun f => (dir, f)) ++ rest) =
      match v4Files read (path ++ lit "/4" ++ lit "/" ++ dir) v files with
      | none => none
      | some (v, ds) => (v4Flat read path v rest).map (ds ++ ·)
  | [], v => by simp [v4Files]
  | file :: files, v => by
    have hp : path ++ lit "/4" ++ lit "/" ++ dir ++ lit "/" ++ file = filePath path (dir, file) := by
      unfold filePath
      rw [show lit "/4/" = lit "/4" ++ lit "/" by decide]
      simp only [List.append_assoc]
    have ih := flat_append read path dir rest files (v4Name (path ++ lit "/4" ++ lit "/" ++ dir) v file)
    simp only [List.map_cons, List.cons_append, v4Flat, v4Files]
    rw [hp]
    by_cases hz : findSub (lit ".zhfst") file ≠ none
    · rw [if_pos hz, if_pos hz]
      cases read (filePath path (dir, file)) with
      | otherError => rfl
      | zipError => exact ih
      | metadata locale titles =>
        simp only [ih]
        cases v4Files read (path ++ lit "/4" ++ lit "/" ++ dir) (v4Name (path ++ lit "/4" ++ lit "/" ++ dir) v file) files with
        | none => rfl
        | some r =>
          simp only [Option.map_some, Option.map_map]
          rfl
    · rw [if_neg hz, if_neg hz]
      exact ih

theorem dirs_flat (read : List Nat → ZhfstRead) (path : List Nat) : (entries : List (List Nat × List (List Nat))) → (v : V4Vars) →
    v4Dirs read path v entries = v4Flat read path v (listing entries)
  | [], v => rfl
  | (dir, files) :: rest, v => by
    rw [v4Dirs]
    by_cases hd : dir = lit ".."
    · rw [if_pos hd, dirs_flat read path rest v]
      unfold listing
      rw [List.filter_cons_of_neg (by simp [hd])]
    · rw [if_neg hd]
      have : listing ((dir, files) :: rest) = files.map (fun f => (dir, f)) ++ listing rest := by
        unfold listing
        rw [List.filter_cons_of_pos (by simp [hd]), List.flatMap_cons]
      rw [this, flat_append]
      cases v4Files read (path ++ lit "/4" ++ lit "/" ++ dir) v files with
      | none => rfl
      | some r => simp only [dirs_flat read path rest]

theorem is4_iff {path : List Nat} {listed : List (List Nat × List Nat)} {v : V4Vars} (h : VarsAre path listed v) (file locale : List Nat)
    (titles : List (List Nat × List Nat)) (d : Dict) : Is4 path listed file locale titles d ↔ d = v4Dict v file locale titles := by
  constructor
  · intro g
    ext1
    · exact g.mor
    · obtain ⟨x, hx, ex⟩ := g.gramMor
      obtain ⟨y, hy, ey⟩ := h.gramMor
      rw [ex, latest_unique hx hy]
      exact ey.symm
    · obtain ⟨x, hx, ex⟩ := g.grammar
      obtain ⟨y, hy, ey⟩ := h.grammar
      rw [ex, latest_unique hx hy]
      exact ey.symm
    · exact g.spell
    · exact g.suggestion
    · exact g.hyphenator
    · exact g.tag
    · show d.description = (titles.lookup locale).getD []
      cases hl : titles.lookup locale with
      | none => exact g.title.2 hl
      | some t => exact g.title.1 t hl
    · exact g.plain
  · rintro rfl
    exact ⟨rfl, h.grammar, h.gramMor, rfl, rfl, rfl, rfl, ⟨fun t ht => by simp [v4Dict, titleOf, ht], fun ht => by simp [v4Dict, titleOf, ht]⟩, rfl⟩

theorem flat_spec (read : List Nat → ZhfstRead) (path : List Nat) : (post pre : List (List Nat × List Nat)) → (v : V4Vars) → VarsAre path pre v →
    (∀ x ∈ post, lit ".zhfst" <:+: x.2 → read (filePath path x) ≠ .otherError) →
    ∃ ds, v4Flat read path v post = some ds ∧ List.Sublist (ds.map fun d => d.mor.path) (post.map (filePath path)) ∧
      ∀ d, d ∈ ds ↔ ∃ a x b, post = a ++ x :: b ∧ lit ".zhfst" <:+: x.2 ∧ ∃ locale titles, read (filePath path x) = .metadata locale titles ∧
        Is4 path (pre ++ a ++ [x]) (filePath path x) locale titles d
  | [], pre, v, hv, hex => ⟨[], rfl, List.Sublist.refl _, fun d => ⟨fun h => (by cases h), fun ⟨a, x, b, e, _⟩ => (by cases a <;> cases e)⟩⟩
  | (dir, file) :: post, pre, v, hv, hex => by
    have hv' := vars_snoc hv dir file
    obtain ⟨ds, e, hs, hd⟩ := flat_spec read path post (pre ++ [(dir, file)]) _ hv' fun x hx => hex x (List.mem_cons_of_mem _ hx)
    have later : ∀ d, (∃ a x b, post = a ++ x :: b ∧ lit ".zhfst" <:+: x.2 ∧ ∃ locale titles, read (filePath path x) = .metadata locale titles ∧
        Is4 path (pre ++ [(dir, file)] ++ a ++ [x]) (filePath path x) locale titles d) →
        ∃ a x b, (dir, file) :: post = a ++ x :: b ∧ lit ".zhfst" <:+: x.2 ∧ ∃ locale titles, read (filePath path x) = .metadata locale titles ∧
        Is4 path (pre ++ a ++ [x]) (filePath path x) locale titles d := by
      rintro d ⟨a, x, b, e, h1, l, t, h2, h3⟩
      refine ⟨(dir, file) :: a, x, b, by rw [e]; rfl, h1, l, t, h2, ?_⟩
      have : pre ++ (dir, file) :: a ++ [x] = pre ++ [(dir, file)] ++ a ++ [x] := by simp
      rw [this]; exact h3
    have split : ∀ d, (∃ a x b, (dir, file) :: post = a ++ x :: b ∧ lit ".zhfst" <:+: x.2 ∧ ∃ locale titles, read (filePath path x) = .metadata locale titles ∧
        Is4 path (pre ++ a ++ [x]) (filePath path x) locale titles d) →
        (lit ".zhfst" <:+: file ∧ ∃ locale titles, read (filePath path (dir, file)) = .metadata locale titles ∧
          Is4 path (pre ++ [(dir, file)]) (filePath path (dir, file)) locale titles d) ∨
        ∃ a x b, post = a ++ x :: b ∧ lit ".zhfst" <:+: x.2 ∧ ∃ locale titles, read (filePath path x) = .metadata locale titles ∧
        Is4 path (pre ++ [(dir, file)] ++ a ++ [x]) (filePath path x) locale titles d := by
      rintro d ⟨a, x, b, e, h1, l, t, h2, h3⟩
      cases a with
      | nil =>
        cases e
        rw [List.append_nil] at h3
        exact .inl ⟨h1, l, t, h2, h3⟩
      | cons y a =>
        cases e
        refine .inr ⟨a, x, b, rfl, h1, l, t, h2, ?_⟩
        have : pre ++ (dir, file) :: a ++ [x] = pre ++ [(dir, file)] ++ a ++ [x] := by simp
        rw [← this]; exact h3
    simp only [v4Flat]
    by_cases hz : findSub (lit ".zhfst") file ≠ none
    · rw [if_pos hz]
      have hz' := find_iff.1 hz
      have hx := hex (dir, file) List.mem_cons_self hz'
      cases hr : read (filePath path (dir, file)) with
      | otherError => exact absurd hr hx
      | zipError =>
        refine ⟨ds, e, hs.cons _, fun d => ?_⟩
        rw [hd]
        refine ⟨later d, fun h => ?_⟩
        rcases split d h with ⟨_, l, t, h2, _⟩ | h
        · rw [hr] at h2; cases h2
        · exact h
      | metadata locale titles =>
        refine ⟨v4Dict (v4Name (path ++ lit "/4" ++ lit "/" ++ dir) v file) (filePath path (dir, file)) locale titles :: ds, by simp only [e]; rfl, hs.cons_cons _, fun d => ?_⟩
        rw [List.mem_cons, hd]
        constructor
        · rintro (rfl | h)
          · refine ⟨[], (dir, file), post, rfl, hz', locale, titles, hr, ?_⟩
            rw [List.append_nil]
            exact (is4_iff hv' _ _ _ _).2 rfl
          · exact later d h
        · intro h
          rcases split d h with ⟨_, l, t, h2, h3⟩ | h
          · rw [hr] at h2
            cases h2
            exact .inl ((is4_iff hv' _ _ _ _).1 h3)
          · exact .inr h
    · rw [if_neg hz]
      refine ⟨ds, e, hs.cons _, fun d => ?_⟩
      rw [hd]
      refine ⟨later d, fun h => ?_⟩
      rcases split d h with ⟨h1, _⟩ | h
      · exact absurd (find_iff.2 h1) hz
      · exact h

/-- C108: the dictionaries of format 4 are exactly those in the files with `.zhfst` in their names that can be read, in the order of the listing. Their grammar checker
and its morphology are in the last files for them that were listed up to the file of the dictionary. (Missing: these files need not be in the directory of the
dictionary, see `C108_leak_violation` and `C108_order_violation`; other exceptions of the reader, see `C108_exception_violation`.) -/
theorem C108_format4_partial (read : List Nat → ZhfstRead) (path : List Nat) (entries : List (List Nat × List (List Nat)))
    (hex : ∀ x ∈ listing entries, lit ".zhfst" <:+: x.2 → read (filePath path x) ≠ .otherError) :
    ∃ ds, findDictionariesV4 read path entries = some ds ∧ List.Sublist (ds.map fun d => d.mor.path) ((listing entries).map (filePath path)) ∧
      ∀ d, d ∈ ds ↔ ∃ a x b, listing entries = a ++ x :: b ∧ lit ".zhfst" <:+: x.2 ∧ ∃ locale titles, read (filePath path x) = .metadata locale titles ∧
        Is4 path (a ++ [x]) (filePath path x) locale titles d := by
  unfold findDictionariesV4
  rw [dirs_flat]
  obtain ⟨ds, e, hs, hd⟩ := flat_spec read path (listing entries) [] {} ⟨⟨none, (fun x hx => nomatch hx), rfl⟩, ⟨none, (fun x hx => nomatch hx), rfl⟩⟩ hex
  exact ⟨ds, e, hs, fun d => by rw [hd]; simp⟩

theorem latest_own {pat : List Nat} {a l : List (List Nat × List Nat)} (h : ∃ y ∈ l, pat <:+: y.2) {x : Option (List Nat × List Nat)} (hx : Latest pat (a ++ l) x) :
    ∃ y ∈ l, x = some y := by
  induction l using List.reverseRecOn generalizing x with
  | nil => obtain ⟨y, hy, _⟩ := h; cases hy
  | append_singleton l c ih =>
    by_cases hc : pat <:+: c.2
    · refine ⟨c, by simp, latest_unique hx ?_⟩
      exact ⟨a ++ l, [], by simp, hc, by simp⟩
    · have h' : ∃ y ∈ l, pat <:+: y.2 := by
        obtain ⟨y, hy, hp⟩ := h
        rcases List.mem_append.1 hy with hy | hy
        · exact ⟨y, hy, hp⟩
        · rw [List.mem_singleton.1 hy] at hp; exact absurd hp hc
      have hl : Latest pat (a ++ l) x := by
        cases x with
        | none => exact fun w hw => hx w (by rw [← List.append_assoc]; exact List.mem_append_left _ hw)
        | some z =>
          obtain ⟨p, q, e, h1, h2⟩ := hx
          cases q using List.reverseRecOn with
          | nil =>
            rw [← List.append_assoc] at e
            have := (List.append_inj' e (by simp)).2; cases this; exact absurd h1 hc
          | append_singleton q c' =>
            have e' : (a ++ l) ++ [c] = (p ++ z :: q) ++ [c'] := by rw [List.append_assoc, e]; simp
            exact ⟨p, q, (List.append_inj' e' (by simp)).1, h1, fun w hw => h2 w (List.mem_append_left _ hw)⟩
      obtain ⟨y, hy, e⟩ := ih h' hl
      exact ⟨y, List.mem_append_left _ hy, e⟩

/-- C108: if a file for the grammar checker is listed before the dictionary in the same directory, the grammar checker of the dictionary is in this directory. -/
theorem C108_own_grammar_partial (read : List Nat → ZhfstRead) (path : List Nat) (before after : List (List Nat × List (List Nat))) (dir : List Nat)
    (f1 f2 : List (List Nat)) (file : List Nat) (hdir : dir ≠ lit "..") (hz : lit ".zhfst" <:+: file) (hg : ∃ g ∈ f1, lit "gramchk.bin" <:+: g)
    (hex : ∀ x ∈ listing (before ++ (dir, f1 ++ file :: f2) :: after), lit ".zhfst" <:+: x.2 → read (filePath path x) ≠ .otherError)
    {locale : List Nat} {titles : List (List Nat × List Nat)} (hr : read (filePath path (dir, file)) = .metadata locale titles) :
    ∃ ds, findDictionariesV4 read path (before ++ (dir, f1 ++ file :: f2) :: after) = some ds ∧
      ∃ d ∈ ds, d.mor.path = filePath path (dir, file) ∧ d.tag = LanguageTag.setBcp47 {} locale ∧
        ∃ g ∈ f1 ++ [file], d.grammar = ⟨lit "vislcg3", filePath path (dir, g), true⟩ := by
  have hl : listing (before ++ (dir, f1 ++ file :: f2) :: after) =
      (listing before ++ f1.map fun f => (dir, f)) ++ (dir, file) :: ((f2.map fun f => (dir, f)) ++ listing after) := by
    unfold listing
    rw [List.filter_append, List.flatMap_append, List.filter_cons_of_pos (by simp [hdir]), List.flatMap_cons]
    simp
  obtain ⟨ds, e, -, hd⟩ := C108_format4_partial read path _ hex
  refine ⟨ds, e, ?_⟩
  have hv : ∃ v, VarsAre path (listing before ++ f1.map (fun f => (dir, f)) ++ [(dir, file)]) v := by
    have gen : ∀ l : List (List Nat × List Nat), ∃ v, VarsAre path l v := by
      intro l
      induction l using List.reverseRecOn with
      | nil => exact ⟨{}, ⟨none, (fun x hx => nomatch hx), rfl⟩, ⟨none, (fun x hx => nomatch hx), rfl⟩⟩
      | append_singleton l c ih => obtain ⟨v, hv⟩ := ih; exact ⟨_, vars_snoc hv c.1 c.2⟩
    exact gen _
  obtain ⟨v, hv⟩ := hv
  have h4 := (is4_iff hv (filePath path (dir, file)) locale titles _).2 rfl
  refine ⟨_, (hd _).2 ⟨_, (dir, file), _, hl, hz, locale, titles, hr, h4⟩, h4.mor ▸ rfl, h4.tag, ?_⟩
  obtain ⟨x, hx, ex⟩ := h4.grammar
  rw [List.append_assoc] at hx
  obtain ⟨y, hy, rfl⟩ := latest_own (by
    obtain ⟨g, hg1, hg2⟩ := hg
    exact ⟨(dir, g), List.mem_append_left _ (List.mem_map.2 ⟨g, hg1, rfl⟩), hg2⟩) hx
  rcases List.mem_append.1 hy with hy | hy
  · obtain ⟨g, hg, rfl⟩ := List.mem_map.1 hy
    exact ⟨g, List.mem_append_left _ hg, ex⟩
  · rw [List.mem_singleton.1 hy] at ex
    exact ⟨file, by simp, ex⟩

/-- All files can be read; the locale is `sme`. -/
def readSme : List Nat → ZhfstRead := fun _ => .metadata (lit "sme") []

/-- C108 fails for two directories: the dictionary in `b`, a directory without a grammar checker, gets that of `a`. -/
theorem C108_leak_violation :
    (findDictionariesV4 readSme (lit "/d") [(lit "a", [lit "gramchk.bin", lit "a.zhfst"]), (lit "b", [lit "b.zhfst"])]).map (fun ds => ds.map fun d => (d.mor.path, d.grammar)) =
      some [(lit "/d/4/a/a.zhfst", ⟨lit "vislcg3", lit "/d/4/a/gramchk.bin", true⟩), (lit "/d/4/b/b.zhfst", ⟨lit "vislcg3", lit "/d/4/a/gramchk.bin", true⟩)] := by
  decide +kernel

/-- C108 fails for the order of the listing, which the system is free to choose: if the dictionary is listed first, it has no grammar checker. -/
theorem C108_order_violation :
    (findDictionariesV4 readSme (lit "/d") [(lit "a", [lit "gramchk.bin", lit "a.zhfst"])]).map (fun ds => ds.map fun d => d.grammar.name) = some [lit "vislcg3"] ∧
    (findDictionariesV4 readSme (lit "/d") [(lit "a", [lit "a.zhfst", lit "gramchk.bin"])]).map (fun ds => ds.map fun d => d.grammar.name) = some [lit "null"] := by
  constructor <;> decide +kernel

/-- C108 fails for files that the reader refuses with another exception than that for archives: the search ends with this exception, whatever other dictionaries there
are. -/
theorem C108_exception_violation (read : List Nat → ZhfstRead) (path : List Nat) (names : List (List Nat)) {n : List Nat} (hn : n ∈ names) (hlen : n.length < 2 ^ 64 - 6)
    (ht : EndsOnce n ∨ n.length = 5) (hr : read (path3 path n) = .otherError) : findDictionariesV3 read path names = none := by
  induction names with
  | nil => cases hn
  | cons m names ih =>
    rw [findDictionariesV3]
    rcases List.mem_cons.1 hn with rfl | hn
    · rw [if_pos ((v3Name_iff hlen).2 ht)]
      change (match read (path3 path n) with
        | .metadata locale titles => (findDictionariesV3 read path names).map (v3Dict (path3 path n) locale titles :: ·)
        | .zipError => findDictionariesV3 read path names
        | .otherError => none) = none
      rw [hr]
    · split
      · simp only
        split <;> simp [ih hn]
      · exact ih hn

/-! ### All formats together -/

theorem v3_parsed {read : List Nat → ZhfstRead} {path : List Nat} : (names : List (List Nat)) → {ds : List Dict} → findDictionariesV3 read path names = some ds →
    ∀ d ∈ ds, (∃ x, d.tag = LanguageTag.setBcp47 {} x) ∧ d.isDefault = false
  | [], ds, h => by cases h; simp
  | n :: names, ds, h => by
    rw [findDictionariesV3] at h
    have ih := fun {ds} => v3_parsed (read := read) (path := path) names (ds := ds)
    split at h
    · simp only at h
      split at h
      · obtain ⟨ds', e, rfl⟩ := Option.map_eq_some_iff.1 h
        intro d hd
        rcases List.mem_cons.1 hd with rfl | hd
        · exact ⟨⟨_, rfl⟩, rfl⟩
        · exact ih e d hd
      · exact ih h
      · cases h
    · exact ih h

theorem v4_parsed {read : List Nat → ZhfstRead} {path : List Nat} : (l : List (List Nat × List Nat)) → {v : V4Vars} → {ds : List Dict} → v4Flat read path v l = some ds →
    ∀ d ∈ ds, (∃ x, d.tag = LanguageTag.setBcp47 {} x) ∧ d.isDefault = false
  | [], v, ds, h => by cases h; simp
  | (dir, file) :: l, v, ds, h => by
    simp only [v4Flat] at h
    have ih := fun {v ds} => v4_parsed (read := read) (path := path) l (v := v) (ds := ds)
    split at h
    · split at h
      · obtain ⟨ds', e, rfl⟩ := Option.map_eq_some_iff.1 h
        intro d hd
        rcases List.mem_cons.1 hd with rfl | hd
        · exact ⟨⟨_, rfl⟩, rfl⟩
        · exact ih e d hd
      · exact ih h
      · cases h
    · exact ih h

/-- What the loaders of all formats find in the locations, when the files can be read or are broken archives. -/
def foundAll (read : List Nat → ZhfstRead) (contents : List Nat → Location) (loc : List Nat) : List Dict := (findDictionariesAll read loc (contents loc)).getD []

/-- C108: the dictionaries of all formats fulfil what C48, C49 and C73 ask of the loaders, whatever the directories contain. -/
theorem C108_loader (read : List Nat → ZhfstRead) (contents : List Nat → Location) : GoodLoader (foundAll read contents) := by
  intro loc d hd
  unfold foundAll findDictionariesAll at hd
  cases h4 : findDictionariesV4 read loc (contents loc).four with
  | none => rw [h4] at hd; cases hd
  | some four =>
    cases h3 : findDictionariesV3 read loc (contents loc).three with
    | none => rw [h4, h3] at hd; cases hd
    | some three =>
      rw [h4, h3] at hd
      have hd : d ∈ findDictionariesV5 loc (contents loc).five ++ four ++ three := hd
      rcases List.mem_append.1 hd with hd | hd
      · rcases List.mem_append.1 hd with hd | hd
        · exact C48_loader _ _ d hd
        · rw [findDictionariesV4, dirs_flat] at h4
          obtain ⟨⟨x, hx⟩, h⟩ := v4_parsed _ h4 d hd
          exact ⟨hx ▸ normal_setBcp47 normal_empty x, h⟩
      · obtain ⟨⟨x, hx⟩, h⟩ := v3_parsed _ h3 d hd
        exact ⟨hx ▸ normal_setBcp47 normal_empty x, h⟩

/-- C108: the same for the tags, which C73 needs, if no index file has two lines for the language. -/
theorem C108_parsed (read : List Nat → ZhfstRead) (contents : List Nat → Location)
    (h : ∀ loc, ∀ e ∈ (contents loc).five, (valuesOf (lit "Language: ") (e.2.drop 1)).length ≤ 1) : ParsedTags (foundAll read contents) := by
  intro loc d hd
  unfold foundAll findDictionariesAll at hd
  cases h4 : findDictionariesV4 read loc (contents loc).four with
  | none => rw [h4] at hd; cases hd
  | some four =>
    cases h3 : findDictionariesV3 read loc (contents loc).three with
    | none => rw [h4, h3] at hd; cases hd
    | some three =>
      rw [h4, h3] at hd
      have hd : d ∈ findDictionariesV5 loc (contents loc).five ++ four ++ three := hd
      rcases List.mem_append.1 hd with hd | hd
      · rcases List.mem_append.1 hd with hd | hd
        · exact C73_parsed _ _ (h loc) d hd
        · rw [findDictionariesV4, dirs_flat] at h4
          exact (v4_parsed _ h4 d hd).1
      · exact (v3_parsed _ h3 d hd).1

/-- C108: a dictionary of format 5 hides those of the older formats with the same tag in the same location and in later ones. -/
theorem C108_newest_first (read : List Nat → ZhfstRead) (contents : List Nat → Location) (ls : List (List Nat)) {p : List Nat} (hp : p ≠ [])
    (hall : findDictionariesAll read p (contents p) ≠ none) {d5 : Dict} (h5 : d5 ∈ findDictionariesV5 p (contents p).five) (hv : d5.tag.language ≠ [])
    {d : Dict} (hd : d ∈ findAllAvailable (foundAll read contents) ls p) (ht : d.tag.toBcp47 = d5.tag.toBcp47) :
    { d with isDefault := false } ∈ findDictionariesV5 p (contents p).five := by
  have hf := (C48_first_location (C108_loader read contents) ls p d).1 ⟨d.isDefault, hd⟩
  obtain ⟨four, three, e⟩ : ∃ four three, findDictionariesAll read p (contents p) = some (findDictionariesV5 p (contents p).five ++ four ++ three) := by
    unfold findDictionariesAll at hall ⊢
    cases h4 : findDictionariesV4 read p (contents p).four with
    | none => rw [h4] at hall; exact absurd rfl hall
    | some four =>
      cases h3 : findDictionariesV3 read p (contents p).three with
      | none => rw [h4, h3] at hall; exact absurd rfl hall
      | some three => exact ⟨four, three, rfl⟩
  have he : foundAll read contents p = findDictionariesV5 p (contents p).five ++ four ++ three := by rw [foundAll, e]; rfl
  rw [foundInOrder, if_pos hp, he, List.append_assoc, List.append_assoc, List.find?_append] at hf
  cases h1 : (findDictionariesV5 p (contents p).five).find? (fun x => x.tag.language ≠ [] && x.tag.toBcp47 == d.tag.toBcp47) with
  | none =>
    have := List.find?_eq_none.1 h1 d5 h5
    simp [hv, ht] at this
  | some y =>
    rw [h1] at hf
    simp only [Option.some_or] at hf
    rw [← Option.some.inj hf]
    exact List.mem_of_find?_eq_some h1

/-! ### Examples -/

/-- A directory of format 3 with a broken file and a name of five letters. -/
def sample3 : List Nat → ZhfstRead := fun f =>
  if f = lit "/d/3/sv.zhfst" then .metadata (lit "sv") [(lit "sv", lit "Svenska")] else .zipError

def names3 : List (List Nat) := [lit ".", lit "..", lit "no.zhfst", lit "sv.zhfst", lit "a.txt"]

example : (findDictionariesV3 sample3 (lit "/d") names3).map (fun ds => ds.map fun d => (d.tag.language, d.description)) = some [(lit "sv", lit "Svenska")] := by
  decide +kernel

example := C108_format3_partial sample3 (lit "/d") names3 (by intro n hn; revert n; decide) (by
  intro n _ _
  unfold sample3
  split <;> simp)

example := C108_format4_partial readSme (lit "/d") [(lit "..", [lit "x.zhfst"]), (lit "a", [lit "gramchk.bin", lit "a.zhfst"]), (lit "b", [lit "b.zhfst"])] (by
  intro x _ _
  simp [readSme])

example := C108_own_grammar_partial readSme (lit "/d") [(lit "b", [lit "gramchk.bin"])] [] (lit "a") [lit "gramchk.bin"] [] (lit "a.zhfst") (by decide)
  ⟨lit "a", [], by decide⟩ ⟨_, List.mem_cons_self, List.infix_rfl⟩ (by intro x _ _; simp [readSme]) (locale := lit "sme") (titles := []) rfl

/-- Two formats in one location: the dictionary of format 5 is used. -/
def sampleLocation : List Nat → Location := fun loc =>
  if loc = lit "/d" then { five := [(lit "mor-sv", [formatLine, lit "Language: sv", lit "Description: five"])], three := names3 } else {}

example : (findAllAvailable (foundAll sample3 sampleLocation) [] (lit "/d")).map (fun d => (d.tag.toBcp47, d.description)) = [(lit "sv", lit "five")] := by decide +kernel

example : findDictionariesAll sample3 (lit "/d") (sampleLocation (lit "/d")) ≠ none ∧
    ∃ d5 ∈ findDictionariesV5 (lit "/d") (sampleLocation (lit "/d")).five, d5.tag.language ≠ [] := by decide +kernel

end Verif.Zhfst
