import Verif.Lemmas.LanguageTag
import Verif.Model.Dictionary
/-!
# Facts about the map of dictionaries
-/

set_option linter.unusedSimpArgs false

namespace Verif.Props
open Verif

theorem bytesLt_irrefl : ∀ s, bytesLt s s = false := by
  intro s
  induction s with
  | nil => rfl
  | cons a s ih => rw [bytesLt, if_neg (by omega), if_neg (by omega), ih]

theorem bytesLt_trans : ∀ s t u, bytesLt s t = true → bytesLt t u = true → bytesLt s u = true := by
  intro s
  induction s with
  | nil =>
    intro t u h1 h2
    cases u with
    | nil => cases t <;> simp [bytesLt] at h2
    | cons c u => rfl
  | cons a s ih =>
    intro t u h1 h2
    cases t with
    | nil => simp [bytesLt] at h1
    | cons b t =>
      cases u with
      | nil => simp [bytesLt] at h2
      | cons c u =>
        rw [bytesLt] at h1 h2 ⊢
        by_cases hab : a < b
        · by_cases hbc : b < c
          · rw [if_pos (by omega)]
          · rw [if_neg hbc] at h2
            by_cases hcb : c < b
            · rw [if_pos hcb] at h2; cases h2
            · rw [if_pos (by omega)]
        · rw [if_neg hab] at h1
          by_cases hba : b < a
          · rw [if_pos hba] at h1; cases h1
          · rw [if_neg hba] at h1
            by_cases hbc : b < c
            · rw [if_pos (by omega)]
            · rw [if_neg hbc] at h2
              by_cases hcb : c < b
              · rw [if_pos hcb] at h2; cases h2
              · rw [if_neg hcb] at h2
                rw [if_neg (by omega), if_neg (by omega)]
                exact ih t u h1 h2

theorem bytesLt_total : ∀ s t, s ≠ t → bytesLt s t = false → bytesLt t s = true := by
  intro s
  induction s with
  | nil =>
    intro t h1 h2
    cases t with
    | nil => exact absurd rfl h1
    | cons b t => simp [bytesLt] at h2
  | cons a s ih =>
    intro t h1 h2
    cases t with
    | nil => rfl
    | cons b t =>
      rw [bytesLt] at h2 ⊢
      by_cases hab : a < b
      · rw [if_pos hab] at h2; cases h2
      · rw [if_neg hab] at h2
        by_cases hba : b < a
        · rw [if_pos hba]
        · rw [if_neg hba] at h2
          rw [if_neg hba, if_neg hab]
          have : a = b := by omega
          subst this
          exact ih t (fun he => h1 (by rw [he])) h2

/-- The entries are in the order of their keys. -/
def SortedMap (m : DictMap) : Prop := m.Pairwise fun a b => bytesLt a.1 b.1 = true

theorem mem_mapSet {m : DictMap} (hs : SortedMap m) {k : List Nat} {d : Dict} {e : List Nat × Dict} :
    e ∈ mapSet m k d ↔ e = (k, d) ∨ e ∈ m ∧ e.1 ≠ k := by
  induction m with
  | nil => simp [mapSet]
  | cons x m ih =>
    obtain ⟨h1, h2⟩ := List.pairwise_cons.1 hs
    rw [mapSet]
    split
    · rename_i hk
      simp only [List.mem_cons]
      constructor
      · rintro (h | h)
        · exact .inl h
        · refine .inr ⟨.inr h, fun he => ?_⟩
          have := h1 e h
          rw [hk, he, bytesLt_irrefl] at this
          cases this
      · rintro (h | ⟨h | h, hne⟩)
        · exact .inl h
        · rw [h] at hne; exact absurd hk hne
        · exact .inr h
    · rename_i hk
      split
      · rename_i hlt
        simp only [List.mem_cons]
        constructor
        · rintro (h | h | h)
          · exact .inl h
          · exact .inr ⟨.inl h, h ▸ hk⟩
          · refine .inr ⟨.inr h, fun he => ?_⟩
            have := bytesLt_trans _ _ _ hlt (h1 e h)
            rw [he, bytesLt_irrefl] at this
            cases this
        · rintro (h | ⟨h | h, _⟩)
          · exact .inl h
          · exact .inr (.inl h)
          · exact .inr (.inr h)
      · simp only [List.mem_cons, ih h2]
        constructor
        · rintro (h | h | h)
          · exact .inr ⟨.inl h, h ▸ hk⟩
          · exact .inl h
          · exact .inr ⟨.inr h.1, h.2⟩
        · rintro (h | ⟨h | h, hne⟩)
          · exact .inr (.inl h)
          · exact .inl h
          · exact .inr (.inr ⟨h, hne⟩)

theorem sorted_mapSet {m : DictMap} (hs : SortedMap m) (k : List Nat) (d : Dict) : SortedMap (mapSet m k d) := by
  induction m with
  | nil => simp [mapSet, SortedMap]
  | cons x m ih =>
    obtain ⟨h1, h2⟩ := List.pairwise_cons.1 hs
    rw [mapSet]
    split
    · rename_i hk
      subst hk
      exact List.pairwise_cons.2 ⟨h1, h2⟩
    · rename_i hk
      split
      · rename_i hlt
        refine List.pairwise_cons.2 ⟨fun e he => ?_, hs⟩
        rcases List.mem_cons.1 he with rfl | he
        · exact hlt
        · exact bytesLt_trans _ _ _ hlt (h1 e he)
      · rename_i hlt
        refine List.pairwise_cons.2 ⟨fun e he => ?_, ih h2⟩
        rcases (mem_mapSet h2).1 he with rfl | ⟨he, _⟩
        · exact bytesLt_total _ _ (fun h => hk h.symm) (by simpa using hlt)
        · exact h1 e he

theorem lookup_cons_if {m : DictMap} {x : List Nat × Dict} {k : List Nat} :
    List.lookup k (x :: m) = if k = x.1 then some x.2 else m.lookup k := by
  rw [List.lookup_cons]
  by_cases h : k = x.1
  · rw [if_pos h, h]; simp
  · rw [if_neg h]
    have : (k == x.1) = false := by simpa using h
    rw [this]

theorem lookup_mapSet {m : DictMap} {k k' : List Nat} {d : Dict} :
    (mapSet m k d).lookup k' = if k' = k then some d else m.lookup k' := by
  induction m with
  | nil => rw [mapSet, lookup_cons_if]
  | cons x m ih =>
    rw [mapSet]
    split
    · rename_i hk
      rw [lookup_cons_if, lookup_cons_if]
      by_cases h : k' = k
      · rw [if_pos h, if_pos h]
      · rw [if_neg h, if_neg h, if_neg (by rwa [hk])]
    · rename_i hk
      split
      · rw [lookup_cons_if]
      · rw [lookup_cons_if, lookup_cons_if, ih]
        by_cases h : k' = x.1
        · have : k' ≠ k := fun he => hk (h ▸ he)
          rw [if_pos h, if_pos h, if_neg this]
        · rw [if_neg h, if_neg h]

theorem lookup_iff {m : DictMap} (hs : SortedMap m) {k : List Nat} {d : Dict} : m.lookup k = some d ↔ (k, d) ∈ m := by
  induction m with
  | nil => simp
  | cons x m ih =>
    obtain ⟨h1, h2⟩ := List.pairwise_cons.1 hs
    rw [lookup_cons_if]
    by_cases h : k = x.1
    · rw [if_pos h]
      constructor
      · intro he
        cases he
        rw [h]
        exact List.mem_cons_self
      · intro hm
        rcases List.mem_cons.1 hm with he | hm
        · rw [← he]
        · have := h1 _ hm
          simp only [h, bytesLt_irrefl] at this
          cases this
    · rw [if_neg h, ih h2, List.mem_cons]
      constructor
      · exact .inr
      · rintro (he | hm)
        · exact absurd (congrArg Prod.fst he) h
        · exact hm

/-- The language of a printed tag. -/
theorem toBcp47_split (t : LanguageTag) :
    ∃ m, t.toBcp47 = t.language ++ m ∧ (m = [] ∨ ∃ r, m = 45 :: r) := by
  have h1 : lit "-" = [45] := rfl
  have h2 : lit "-x-" = [45, 120, 45] := rfl
  simp only [LanguageTag.toBcp47]
  split <;> split
  · exact ⟨lit "-" ++ t.script ++ lit "-x-" ++ t.privateUse, by simp, .inr ⟨_, by simp [h1]; rfl⟩⟩
  · exact ⟨lit "-x-" ++ t.privateUse, by simp, .inr ⟨_, by simp [h2]; rfl⟩⟩
  · exact ⟨lit "-" ++ t.script, by simp, .inr ⟨_, by simp [h1]; rfl⟩⟩
  · exact ⟨[], by simp, .inl rfl⟩

theorem key_language {t t' : LanguageTag} (h : NormalTag t) (h' : NormalTag t') (he : t.toBcp47 = t'.toBcp47) :
    t.language = t'.language := by
  obtain ⟨m, h1, h2⟩ := toBcp47_split t
  obtain ⟨m', h1', h2'⟩ := toBcp47_split t'
  rw [h1, h1'] at he
  exact (hyphen_uniq _ _ _ _ h.language.1 h'.language.1 h2 h2' he).1

/-- What holds for the map at any time. -/
structure MapInv (m : DictMap) : Prop where
  sorted : SortedMap m
  keys : ∀ e ∈ m, e.1 = e.2.tag.toBcp47
  normal : ∀ e ∈ m, NormalTag e.2.tag
  valid : ∀ e ∈ m, e.2.tag.language ≠ []
  defaults : ∀ e ∈ m, ∀ e' ∈ m, e.2.isDefault = true → e'.2.isDefault = true → e.2.tag.language = e'.2.tag.language → e = e'
  defaultTag : ∀ e ∈ m, e.2.isDefault = true → e.2.tag.privateUse = lit "default"

theorem hasDefault_iff {m : DictMap} {l : List Nat} :
    hasDefaultForLanguage m l = true ↔ ∃ e ∈ m, e.2.tag.language = l ∧ e.2.isDefault = true := by
  simp [hasDefaultForLanguage]

/-- The text after the last hyphen. -/
theorem last_hyphen {a b c d : List Nat} (hb : 45 ∉ b) (hd : 45 ∉ d) (he : a ++ 45 :: b = c ++ 45 :: d) : b = d := by
  have hr := congrArg List.reverse he
  simp only [List.reverse_append, List.reverse_cons, List.append_assoc, List.singleton_append] at hr
  have := (hyphen_uniq _ _ _ _ (by simpa using hb) (by simpa using hd) (.inr ⟨_, rfl⟩) (.inr ⟨_, rfl⟩) hr).1
  simpa using congrArg List.reverse this

/-- A printed tag that ends in a hyphen and a long part has this part as its private part. -/
theorem toBcp47_private {t : LanguageTag} (h : NormalTag t) {a p : List Nat} (hp : 45 ∉ p) (hl : 4 < p.length)
    (he : t.toBcp47 = a ++ 45 :: p) : t.privateUse = p := by
  have h1 : lit "-" = [45] := rfl
  have h2 : lit "-x-" = [45, 120, 45] := rfl
  by_cases hq : t.privateUse = []
  · exfalso
    have : t.toBcp47 = if t.script ≠ [] then t.language ++ lit "-" ++ t.script else t.language := by
      simp only [LanguageTag.toBcp47]
      rw [if_neg (by simpa using hq)]
    rw [this] at he
    by_cases hs : t.script = []
    · rw [if_neg (by simpa using hs)] at he
      have : 45 ∈ t.language := by rw [he]; simp
      exact h.language.1 this
    · rw [if_pos hs] at he
      have h4 : t.script.length = 4 := h.script.resolve_left hs
      rw [h1, List.append_assoc, List.singleton_append] at he
      have e2 : (45 :: t.script) <:+ p := by
        have hx : (45 :: t.script) <:+ a ++ 45 :: p := ⟨_, he⟩
        have hy : p <:+ a ++ 45 :: p := ⟨a ++ [45], by simp⟩
        exact List.suffix_of_suffix_length_le hx hy (by simp; omega)
      exact hp (e2.subset List.mem_cons_self)
  · have : ∃ c, t.toBcp47 = c ++ 45 :: t.privateUse := by
      simp only [LanguageTag.toBcp47]
      rw [if_pos hq, h2]
      generalize (if t.script ≠ [] then t.language ++ lit "-" ++ t.script else t.language) = q
      exact ⟨q ++ [45, 120], by simp only [List.append_assoc, List.cons_append, List.nil_append]⟩
    obtain ⟨c, hc⟩ := this
    rw [hc] at he
    exact last_hyphen h.privateUse.1 hp he

theorem mapInv_nil : MapInv [] :=
  ⟨List.Pairwise.nil, by simp, by simp, by simp, by simp, by simp⟩

theorem mapInv_add {m : DictMap} (h : MapInv m) {d : Dict} (hn : NormalTag d.tag) (hd : d.isDefault = false) :
    MapInv (addDictionary m d) := by
  -- the dictionary that is added
  obtain ⟨b, hb, hb'⟩ : ∃ b, (if d.tag.privateUse = lit "default" ∧ hasDefaultForLanguage m d.tag.language = false
      then { d with isDefault := true } else d) = { d with isDefault := b } ∧
      (b = true → d.tag.privateUse = lit "default" ∧ hasDefaultForLanguage m d.tag.language = false) := by
    split
    · rename_i hc
      exact ⟨true, rfl, fun _ => hc⟩
    · refine ⟨false, ?_, by simp⟩
      cases d; simp only at hd; rw [hd]
  have none : ∀ e ∈ m, b = true → e.2.tag.language = d.tag.language → e.2.isDefault = true → False := by
    intro e he hbt hl hdef
    have := (hb' hbt).2
    rw [hasDefault_iff.2 ⟨e, he, hl, hdef⟩] at this
    cases this
  unfold addDictionary
  simp only [hb]
  split
  · rename_i hv
    have hv : d.tag.language ≠ [] := by simpa [Dict.isValid] using hv
    split
    · rename_i hf
      refine ⟨sorted_mapSet h.sorted _ _, ?_, ?_, ?_, ?_, ?_⟩
      · intro e he
        rcases (mem_mapSet h.sorted).1 he with rfl | ⟨he, _⟩
        · rfl
        · exact h.keys e he
      · intro e he
        rcases (mem_mapSet h.sorted).1 he with rfl | ⟨he, _⟩
        · exact hn
        · exact h.normal e he
      · intro e he
        rcases (mem_mapSet h.sorted).1 he with rfl | ⟨he, _⟩
        · exact hv
        · exact h.valid e he
      · intro e he e' he' hd1 hd2 hl
        rcases (mem_mapSet h.sorted).1 he with rfl | ⟨he, _⟩ <;> rcases (mem_mapSet h.sorted).1 he' with rfl | ⟨he', _⟩
        · rfl
        · exact (none e' he' hd1 hl.symm hd2).elim
        · exact (none e he hd2 hl hd1).elim
        · exact h.defaults e he e' he' hd1 hd2 hl
      · intro e he hd1
        rcases (mem_mapSet h.sorted).1 he with rfl | ⟨he, _⟩
        · exact (hb' hd1).1
        · exact h.defaultTag e he hd1
    · rename_i e0 hf
      have hm0 := (lookup_iff h.sorted).1 hf
      have hkey := h.keys _ hm0
      simp only at hkey
      have hlang : e0.tag.language = d.tag.language := key_language (h.normal _ hm0) hn hkey.symm
      split
      · rename_i hbt
        have hpu : e0.tag.privateUse = d.tag.privateUse := by
          obtain ⟨a, ha⟩ : ∃ a, d.tag.toBcp47 = a ++ 45 :: lit "default" := by
            simp only [LanguageTag.toBcp47]
            rw [if_pos (by rw [(hb' hbt).1]; decide), (hb' hbt).1]
            generalize (if d.tag.script ≠ [] then d.tag.language ++ lit "-" ++ d.tag.script else d.tag.language) = q
            exact ⟨q ++ [45, 120], by rw [show lit "-x-" = [45, 120, 45] from rfl]; simp only [List.append_assoc, List.cons_append, List.nil_append]⟩
          rw [(hb' hbt).1]
          exact toBcp47_private (h.normal _ hm0) (by decide) (by decide) (hkey ▸ ha)
        refine ⟨sorted_mapSet h.sorted _ _, ?_, ?_, ?_, ?_, ?_⟩
        · intro e he
          rcases (mem_mapSet h.sorted).1 he with rfl | ⟨he, _⟩
          · exact hkey
          · exact h.keys e he
        · intro e he
          rcases (mem_mapSet h.sorted).1 he with rfl | ⟨he, _⟩
          · have := h.normal (_, e0) hm0
            exact this
          · exact h.normal e he
        · intro e he
          rcases (mem_mapSet h.sorted).1 he with rfl | ⟨he, _⟩
          · have := h.valid (_, e0) hm0
            exact this
          · exact h.valid e he
        · intro e he e' he' hd1 hd2 hl
          rcases (mem_mapSet h.sorted).1 he with rfl | ⟨he, _⟩ <;> rcases (mem_mapSet h.sorted).1 he' with rfl | ⟨he', _⟩
          · rfl
          · exact (none e' he' hbt (hl.symm.trans hlang) hd2).elim
          · exact (none e he hbt (hl.trans hlang) hd1).elim
          · exact h.defaults e he e' he' hd1 hd2 hl
        · intro e he hd1
          rcases (mem_mapSet h.sorted).1 he with rfl | ⟨he, _⟩
          · exact hpu.trans (hb' hbt).1
          · exact h.defaultTag e he hd1
      · exact h
  · exact h

/-- The map made from a list of dictionaries. -/
theorem mapInv_foldl {ds : List Dict} (hn : ∀ d ∈ ds, NormalTag d.tag ∧ d.isDefault = false) :
    ∀ {m : DictMap}, MapInv m → MapInv (ds.foldl addDictionary m) := by
  induction ds with
  | nil => intro m h; exact h
  | cons d ds ih =>
    intro m h
    rw [List.foldl_cons]
    exact ih (fun x hx => hn x (List.mem_cons_of_mem _ hx))
      (mapInv_add h (hn d List.mem_cons_self).1 (hn d List.mem_cons_self).2)

theorem collect_eq (found : List Nat → List Dict) (ls : List (List Nat)) (p : List Nat) :
    collect found ls p = ((if p ≠ [] then p :: ls else ls).flatMap found).foldl addDictionary [] := by
  rw [collect]
  generalize (if p ≠ [] then p :: ls else ls) = l
  generalize ([] : DictMap) = m
  induction l generalizing m with
  | nil => rfl
  | cons x l ih => rw [List.foldl_cons, List.flatMap_cons, List.foldl_append, ih]

/-- Effect of one more dictionary on the entry of a key, apart from the default mark. -/
theorem lookup_add {m : DictMap} {d : Dict} {k : List Nat} (hd : d.isDefault = false) :
    ((addDictionary m d).lookup k).map (fun e => { e with isDefault := false }) =
      match (m.lookup k).map (fun e => { e with isDefault := false }) with
      | some e => some e
      | none => if d.isValid = true ∧ d.tag.toBcp47 = k then some d else none := by
  have hdd : { d with isDefault := false } = d := by cases d; simp only at hd; rw [hd]
  obtain ⟨b, hb⟩ : ∃ b, (if d.tag.privateUse = lit "default" ∧ hasDefaultForLanguage m d.tag.language = false
      then { d with isDefault := true } else d) = { d with isDefault := b } := by
    split
    · exact ⟨true, rfl⟩
    · exact ⟨false, hdd.symm⟩
  unfold addDictionary
  simp only [hb, mapFind]
  have hval : ({ d with isDefault := b } : Dict).isValid = d.isValid := rfl
  rw [hval]
  by_cases hv : d.isValid = true
  · rw [if_pos hv]
    by_cases hk : d.tag.toBcp47 = k
    · subst hk
      cases hf : m.lookup d.tag.toBcp47 with
      | none =>
        simp only [lookup_mapSet, Option.map_none]
        rw [if_pos True.intro, if_pos ⟨hv, True.intro⟩, Option.map_some]
        exact congrArg some hdd
      | some e =>
        simp only [Option.map_some]
        split
        · rw [lookup_mapSet, if_pos rfl]; rfl
        · rw [hf]; rfl
    · have : ∀ x : Dict, (mapSet m d.tag.toBcp47 x).lookup k = m.lookup k := fun x => by
        rw [lookup_mapSet, if_neg (fun h => hk h.symm)]
      cases hf : m.lookup d.tag.toBcp47 with
      | none =>
        simp only [this]
        cases m.lookup k with
        | none => simp only [Option.map_none]; rw [if_neg (by simp [hk])]
        | some e => rfl
      | some e =>
        simp only
        split
        · rw [this]
          cases m.lookup k with
          | none => simp only [Option.map_none]; rw [if_neg (by simp [hk])]
          | some e => rfl
        · cases m.lookup k with
          | none => simp only [Option.map_none]; rw [if_neg (by simp [hk])]
          | some e => rfl
  · rw [if_neg hv]
    cases m.lookup k with
    | none => simp only [Option.map_none]; rw [if_neg (by simp [hv])]
    | some e => rfl

theorem lookup_foldl {ds : List Dict} (hd : ∀ d ∈ ds, d.isDefault = false) {k : List Nat} :
    ∀ {m : DictMap}, ((ds.foldl addDictionary m).lookup k).map (fun e => { e with isDefault := false }) =
      match (m.lookup k).map (fun e => { e with isDefault := false }) with
      | some e => some e
      | none => ds.find? fun d => d.isValid && d.tag.toBcp47 == k := by
  induction ds with
  | nil => intro m; simp only [List.foldl_nil, List.find?_nil]; cases m.lookup k <;> rfl
  | cons d ds ih =>
    intro m
    rw [List.foldl_cons, ih (fun x hx => hd x (List.mem_cons_of_mem _ hx)), lookup_add (hd d List.mem_cons_self)]
    cases m.lookup k with
    | some e => rfl
    | none =>
      simp only [Option.map_none]
      rw [List.find?_cons]
      by_cases h : d.isValid = true ∧ d.tag.toBcp47 = k
      · rw [if_pos h]
        simp [h.1, h.2]
      · rw [if_neg h]
        have : (d.isValid && d.tag.toBcp47 == k) = false := by
          cases hv : d.isValid
          · rfl
          · simp only [Bool.true_and]; simpa [hv] using h
        simp only [this]

/-- A found dictionary that asks to be the default one of language `l`. -/
def asksDefault (l : List Nat) (d : Dict) : Bool :=
  d.isValid && d.tag.language == l && d.tag.privateUse == lit "default"

theorem asksDefault_iff {l : List Nat} {d : Dict} :
    asksDefault l d = true ↔ d.isValid = true ∧ d.tag.language = l ∧ d.tag.privateUse = lit "default" := by
  simp [asksDefault, and_assoc]

/-- Which entry is the default one, after dictionaries `pre` have been added. -/
structure DefInv (pre : List Dict) (m : DictMap) : Prop where
  first : ∀ e ∈ m, e.2.isDefault = true → pre.find? (asksDefault e.2.tag.language) = some { e.2 with isDefault := false }
  exists_ : ∀ l, ∀ d ∈ pre, asksDefault l d = true → ∃ e ∈ m, e.2.isDefault = true ∧ e.2.tag.language = l
  mem : ∀ e ∈ m, { e.2 with isDefault := false } ∈ pre

theorem defInv_add {pre : List Dict} {m : DictMap} (h : MapInv m) (hi : DefInv pre m) {d : Dict} (hn : NormalTag d.tag)
    (hd : d.isDefault = false) : DefInv (pre ++ [d]) (addDictionary m d) := by
  have hdd : { d with isDefault := false } = d := by cases d; simp only at hd; rw [hd]
  obtain ⟨b, hb, hb', hb2⟩ : ∃ b, (if d.tag.privateUse = lit "default" ∧ hasDefaultForLanguage m d.tag.language = false
      then { d with isDefault := true } else d) = { d with isDefault := b } ∧
      (b = true → d.tag.privateUse = lit "default" ∧ hasDefaultForLanguage m d.tag.language = false) ∧
      (b = false → d.tag.privateUse = lit "default" → hasDefaultForLanguage m d.tag.language = true) := by
    split
    · rename_i hc
      exact ⟨true, rfl, fun _ => hc, by simp⟩
    · rename_i hc
      refine ⟨false, hdd.symm, by simp, fun _ hp => ?_⟩
      simpa [hp] using hc
  -- the map is unchanged
  have same : (b = true → d.isValid = true → False) → DefInv (pre ++ [d]) m := by
    intro hbf
    refine ⟨fun e he hde => ?_, fun l x hx hax => ?_, fun e he => List.mem_append_left _ (hi.mem e he)⟩
    · rw [List.find?_append, hi.first e he hde]; rfl
    · rcases List.mem_append.1 hx with hx | hx
      · exact hi.exists_ l x hx hax
      · simp only [List.mem_singleton] at hx
        subst hx
        obtain ⟨a1, a2, a3⟩ := asksDefault_iff.1 hax
        cases hbb : b with
        | true => exact (hbf hbb a1).elim
        | false =>
          obtain ⟨e, he, h1, h2⟩ := hasDefault_iff.1 (hb2 hbb a3)
          exact ⟨e, he, h2, h1.trans a2⟩
  unfold addDictionary
  simp only [hb]
  split
  · rename_i hv
    have hv : d.isValid = true := hv
    split
    · rename_i hf
      have hkeep : ∀ e ∈ m, e.1 ≠ d.tag.toBcp47 := by
        intro e he hk
        have := (lookup_iff (d := e.2) h.sorted).2 (show (d.tag.toBcp47, e.2) ∈ m by rw [← hk]; exact he)
        have hf' : m.lookup d.tag.toBcp47 = none := hf
        rw [hf'] at this
        cases this
      refine ⟨fun e he hde => ?_, fun l x hx hax => ?_, fun e he => ?_⟩
      · rcases (mem_mapSet h.sorted).1 he with rfl | ⟨he, _⟩
        · simp only at hde ⊢
          have hnone : pre.find? (asksDefault d.tag.language) = none := by
            rw [List.find?_eq_none]
            intro x hx hax
            obtain ⟨e, he, h1, h2⟩ := hi.exists_ _ x hx hax
            have := (hb' hde).2
            rw [hasDefault_iff.2 ⟨e, he, h2, h1⟩] at this
            cases this
          rw [List.find?_append, hnone, Option.none_or, List.find?_cons, asksDefault_iff.2 ⟨hv, rfl, (hb' hde).1⟩]
          exact congrArg some hdd.symm
        · rw [List.find?_append, hi.first e he hde]; rfl
      · rcases List.mem_append.1 hx with hx | hx
        · obtain ⟨e, he, h1, h2⟩ := hi.exists_ l x hx hax
          exact ⟨e, (mem_mapSet h.sorted).2 (.inr ⟨he, hkeep e he⟩), h1, h2⟩
        · simp only [List.mem_singleton] at hx
          subst hx
          obtain ⟨a1, a2, a3⟩ := asksDefault_iff.1 hax
          cases hbb : b with
          | true => exact ⟨_, (mem_mapSet h.sorted).2 (.inl rfl), rfl, a2⟩
          | false =>
            obtain ⟨e, he, h1, h2⟩ := hasDefault_iff.1 (hb2 hbb a3)
            exact ⟨e, (mem_mapSet h.sorted).2 (.inr ⟨he, hkeep e he⟩), h2, h1.trans a2⟩
      · rcases (mem_mapSet h.sorted).1 he with rfl | ⟨he, _⟩
        · exact List.mem_append_right _ (by simp only [List.mem_singleton]; exact hdd)
        · exact List.mem_append_left _ (hi.mem e he)
    · rename_i e0 hf
      have hm0 := (lookup_iff h.sorted).1 hf
      have hkey := h.keys _ hm0
      simp only at hkey
      have hlang : e0.tag.language = d.tag.language := key_language (h.normal _ hm0) hn hkey.symm
      -- an entry with the same key would already have made its language have a default
      have dead : b = true → False := by
        intro hbt
        have hpu : e0.tag.privateUse = lit "default" := by
          obtain ⟨a, ha⟩ : ∃ a, d.tag.toBcp47 = a ++ 45 :: lit "default" := by
            simp only [LanguageTag.toBcp47]
            rw [if_pos (by rw [(hb' hbt).1]; decide), (hb' hbt).1]
            generalize (if d.tag.script ≠ [] then d.tag.language ++ lit "-" ++ d.tag.script else d.tag.language) = q
            exact ⟨q ++ [45, 120], by
              rw [show lit "-x-" = [45, 120, 45] from rfl]; simp only [List.append_assoc, List.cons_append, List.nil_append]⟩
          exact toBcp47_private (h.normal _ hm0) (by decide) (by decide) (hkey ▸ ha)
        have hval : e0.tag.language ≠ [] := h.valid _ hm0
        obtain ⟨e, he, h1, h2⟩ := hi.exists_ e0.tag.language _ (hi.mem _ hm0)
          (asksDefault_iff.2 ⟨by simpa [Dict.isValid] using hval, rfl, hpu⟩)
        have := (hb' hbt).2
        rw [hasDefault_iff.2 ⟨e, he, h2.trans hlang, h1⟩] at this
        cases this
      split
      · rename_i hbt
        exact (dead hbt).elim
      · exact same fun hbt _ => dead hbt
  · rename_i hv
    exact same fun _ hv' => hv hv'

theorem defInv_foldl {ds : List Dict} (hn : ∀ d ∈ ds, NormalTag d.tag ∧ d.isDefault = false) :
    ∀ {pre : List Dict} {m : DictMap}, MapInv m → DefInv pre m → DefInv (pre ++ ds) (ds.foldl addDictionary m) := by
  induction ds with
  | nil => intro pre m _ h; simpa using h
  | cons d ds ih =>
    intro pre m h hi
    rw [List.foldl_cons, List.append_cons]
    have hd := hn d List.mem_cons_self
    exact ih (fun x hx => hn x (List.mem_cons_of_mem _ hx)) (mapInv_add h hd.1 hd.2) (defInv_add h hi hd.1 hd.2)

/-- Entries that are put to the front of the list. -/
def isFront (m : DictMap) (e : List Nat × Dict) : Bool :=
  e.2.isDefault || (isStandardKey e.1 && !hasDefaultForLanguage m e.2.tag.language)

theorem listDicts_eq (m : DictMap) :
    listDicts m = ((m.filter (isFront m)).map (·.2)).reverse ++ (m.filter fun e => !isFront m e).map (·.2) := by
  unfold listDicts
  have gen : ∀ (l : DictMap) (acc : List Dict),
      l.foldl (fun dicts e =>
        if e.2.isDefault then e.2 :: dicts
        else if isStandardKey e.1 && !hasDefaultForLanguage m e.2.tag.language then e.2 :: dicts
        else dicts ++ [e.2]) acc =
      ((l.filter (isFront m)).map (·.2)).reverse ++ acc ++ (l.filter fun e => !isFront m e).map (·.2) := by
    intro l
    induction l with
    | nil => intro acc; simp
    | cons e l ih =>
      intro acc
      rw [List.foldl_cons, ih, List.filter_cons, List.filter_cons]
      cases hd : e.2.isDefault
      · cases hs : (isStandardKey e.1 && !hasDefaultForLanguage m e.2.tag.language)
        · simp [isFront, hd, hs]
        · simp [isFront, hd, hs]
      · simp [isFront, hd]
  rw [gen m []]
  simp

/-- Standard keys. -/
theorem isStandardKey_iff {key : List Nat} (hl : key.length < 2 ^ 64) :
    isStandardKey key = true ↔ (lit "-x-standard" <:+ key) ∨ key.length = 10 := by
  have hlen : (lit "-x-standard").length = 11 := rfl
  unfold isStandardKey
  cases hr : rfindSub (lit "-x-standard") key with
  | none =>
    simp only [beq_iff_eq]
    have hn := rfindSub_none hr
    have hns : ¬ lit "-x-standard" <:+ key := by
      rintro ⟨t, ht⟩
      exact hn t.length (by rw [← ht]; simp)
    constructor
    · intro h
      right
      omega
    · rintro (h | h)
      · exact absurd h hns
      · omega
  | some p =>
    simp only [beq_iff_eq]
    obtain ⟨h1, h2, h3⟩ := rfindSub_some hr
    have h4 := h2.length_le
    rw [List.length_drop, hlen] at h4
    have h5 : (key.length + (2 ^ 64 - 11)) % 2 ^ 64 = key.length - 11 := by omega
    rw [h5]
    constructor
    · intro h
      left
      obtain ⟨t, ht⟩ := h2
      have : t = [] := by
        have := congrArg List.length ht
        rw [List.length_append, List.length_drop, hlen] at this
        exact List.length_eq_zero_iff.1 (by omega)
      rw [this, List.append_nil] at ht
      exact ⟨key.take p, by rw [ht, List.take_append_drop]⟩
    · rintro (⟨t, ht⟩ | h)
      · have e1 := congrArg List.length ht
        rw [List.length_append, hlen] at e1
        by_cases hne : p = key.length - 11
        · exact hne
        · exact absurd (by rw [← ht]; simp) (h3 t.length (by omega) (by omega))
      · omega

end Verif.Props
