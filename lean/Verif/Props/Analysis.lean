import Verif.Lemmas.Analysis
/-!
# C57: keys and values of an analysis agree
-/

namespace Verif.Props

open Verif

/-- What a history of operations means: the value of `x` is the first one added since the last removal. -/
def histValue : List AOp → AKey → Option (List Wc) → Option (List Wc)
  | [], _, cur => cur
  | .add k s :: r, x, cur => histValue r x (if x = k then some (cur.getD s) else cur)
  | .addConst k s :: r, x, cur => histValue r x (if x = k then some (cur.getD s) else cur)
  | .remove k :: r, x, cur => histValue r x (if x = k then none else cur)

/-- The attributes with their documented names, in the documented (alphabetical) order. -/
def attributeNames : List (AKey × String) :=
  [(.baseform, "BASEFORM"), (.cls, "CLASS"), (.comparison, "COMPARISON"), (.focus, "FOCUS"),
   (.fstoutput, "FSTOUTPUT"), (.kysymysliite, "KYSYMYSLIITE"), (.vapaaJalkiosa, "MALAGA_VAPAA_JALKIOSA"),
   (.mood, "MOOD"), (.negative, "NEGATIVE"), (.number, "NUMBER"), (.participle, "PARTICIPLE"),
   (.person, "PERSON"), (.possessive, "POSSESSIVE"), (.geographical, "POSSIBLE_GEOGRAPHICAL_NAME"),
   (.requireVerb, "REQUIRE_FOLLOWING_VERB"), (.sijamuoto, "SIJAMUOTO"), (.structure_, "STRUCTURE"),
   (.tense, "TENSE"), (.weight, "WEIGHT"), (.wordbases, "WORDBASES"), (.wordids, "WORDIDS")]

/-- The invariant after a history. -/
theorem run_spec (ops : List AOp) (a : Ana) (h : AnaOk a) :
    ∃ b, a.run ops = some b ∧ AnaOk b ∧ (∀ x, b.getValue x = histValue ops x (a.getValue x)) ∧ b.keys = a.keys := by
  induction ops generalizing a with
  | nil => exact ⟨a, rfl, h, fun _ => rfl, rfl⟩
  | cons op r ih =>
    cases op with
    | add k s =>
      obtain ⟨b, h1, h2, h3, h4⟩ := ih (a.add k s) (anaOk_add h k s)
      refine ⟨b, ?_, h2, fun x => ?_, h4⟩
      · rw [Ana.run, Ana.step]; exact h1
      · rw [h3, getValue_add h, histValue]
        split
        · cases a.getValue x <;> rfl
        · rfl
    | addConst k s =>
      obtain ⟨b, h1, h2, h3, h4⟩ := ih (a.addConst k s) (anaOk_addConst h k s)
      refine ⟨b, ?_, h2, fun x => ?_, h4⟩
      · rw [Ana.run, Ana.step]; exact h1
      · rw [h3, getValue_addConst h, histValue]
        split
        · cases a.getValue x <;> rfl
        · rfl
    | remove k =>
      obtain ⟨c, hc, hc1, hc2⟩ := remove_spec h k
      obtain ⟨b, h1, h2, h3, h4⟩ := ih c hc1
      have hck : c.keys = a.keys := by
        rw [Ana.remove.eq_def] at hc
        split at hc
        · cases hc; rfl
        · split at hc
          · cases hc; rfl
          · rename_i v _ _
            rw [Option.bind_eq_bind] at hc
            cases hd : deleteVal v with
            | none => rw [hd] at hc; cases hc
            | some _ => rw [hd] at hc; cases hc; rfl
      refine ⟨b, ?_, h2, fun x => ?_, h4.trans hck⟩
      · rw [Ana.run, Ana.step, hc]; exact h1
      · rw [h3, hc2, histValue]

/-- The names of a sorted list of keys are a filtered copy of the list of all names. -/
theorem names_filter (l : List (AKey × AVal)) (hs : KeySorted l) (p : AKey → Bool)
    (hp : ∀ k, p k = (List.lookup k l).isSome) (all : List (AKey × String))
    (ha : all.Pairwise (fun x y => x.1.num < y.1.num)) (hin : ∀ x ∈ l, ∃ s, (x.1, s) ∈ all)
    (hn : ∀ x ∈ all, keyToString[x.1.num]? = some (lit x.2)) :
    l.map (fun x => (keyToString[x.1.num]?).getD []) = (all.filter fun x => p x.1).map fun x => lit x.2 := by
  induction all generalizing l p with
  | nil =>
    cases l with
    | nil => rfl
    | cons e _ => obtain ⟨_, h⟩ := hin e (List.mem_cons_self ..); cases h
  | cons e all ih =>
    obtain ⟨k, s⟩ := e
    obtain ⟨ha1, ha2⟩ := List.pairwise_cons.1 ha
    have hn' := fun x hx => hn x (List.mem_cons_of_mem _ hx)
    rw [List.filter_cons]
    cases l with
    | nil =>
      have h0 : ∀ k, p k = false := fun k => by rw [hp]; rfl
      rw [if_neg (by simp [h0])]
      exact ih [] hs p hp ha2 (fun x hx => by cases hx) hn'
    | cons x r =>
      obtain ⟨k1, v1⟩ := x
      obtain ⟨hs1, hs2⟩ := List.pairwise_cons.1 hs
      by_cases hk : k1 = k
      · subst hk
        have hpk : p k1 = true := by rw [hp, lookup_cons_ana, if_pos rfl]; rfl
        rw [if_pos (by simpa using hpk)]
        have hin' : ∀ x ∈ r, ∃ s, (x.1, s) ∈ all := by
          intro x hx
          obtain ⟨s', hs'⟩ := hin x (List.mem_cons_of_mem _ hx)
          rcases List.mem_cons.1 hs' with h | h
          · have := hs1 x hx
            cases h
            exact absurd this (Nat.lt_irrefl _)
          · exact ⟨s', h⟩
        have hpe : (all.filter fun x => p x.1) = all.filter fun x => (List.lookup x.1 r).isSome := by
          apply List.filter_congr
          intro y hy
          rw [hp, lookup_cons_ana, if_neg]
          intro e
          have := ha1 y hy
          rw [e] at this
          exact Nat.lt_irrefl _ this
        rw [List.map_cons, List.map_cons, hpe,
          ih r hs2 (fun k => (List.lookup k r).isSome) (fun _ => rfl) ha2 hin' hn']
        rw [hn (k1, s) (List.mem_cons_self ..)]
        rfl
      · have hpk : p k = false := by
          rw [hp]
          have : List.lookup k ((k1, v1) :: r) = none := by
            apply lookup_none_of_lt
            obtain ⟨s', hs'⟩ := hin (k1, v1) (List.mem_cons_self ..)
            have hlt : k.num < k1.num := by
              rcases List.mem_cons.1 hs' with h | h
              · cases h; exact absurd rfl hk
              · exact ha1 _ h
            intro y hy
            rcases List.mem_cons.1 hy with rfl | hy
            · exact hlt
            · exact Nat.lt_trans hlt (hs1 y hy)
          rw [this]; rfl
        rw [if_neg (by simp [hpk])]
        apply ih _ hs p hp ha2 _ hn'
        intro x hx
        obtain ⟨s', hs'⟩ := hin x hx
        rcases List.mem_cons.1 hs' with h | h
        · exfalso
          have hxk : x.1 = k := by cases h; rfl
          have hl := mem_lookup hs (v := x.2) (k := x.1) hx
          rw [hxk] at hl
          have := hp k
          rw [hl, hpk] at this
          cases this
        · exact ⟨s', h⟩

/-- C57: after any sequence of operations on a new analysis and `seal`, nothing undefined has happened (a string constant
is never freed); the value of each attribute is the first one added since its last removal; the published list of keys
is the list of all attribute names, in their fixed order and without repetitions, restricted to those with a value; the
value looked up under a documented name is the value of that attribute and any other name has no value; and destroying
the analysis is safe. -/
theorem C57_analysis (ops : List AOp) :
    ∃ a b, Ana.run {} ops = some a ∧ a.seal = some b
      ∧ (∀ k, b.getValue k = histValue ops k none)
      ∧ analysisKeys b
          = some ((attributeNames.filter fun x => (histValue ops x.1 none).isSome).map fun x => lit x.2)
      ∧ (∀ x ∈ attributeNames, analysisValue b (lit x.2) = histValue ops x.1 none)
      ∧ (∀ name, (∀ x ∈ attributeNames, name ≠ lit x.2) → analysisValue b name = none)
      ∧ b.destroy = some () := by
  obtain ⟨a, h1, h2, h3, h4⟩ := run_spec ops {} anaOk_empty
  have h3' : ∀ k, a.getValue k = histValue ops k none := h3
  refine ⟨a, { a with keys := some (a.attributes.map fun x => (keyToString[x.1.num]?).getD []) }, h1, ?_, h3', ?_, ?_, ?_, ?_⟩
  · rw [Ana.seal, sealLoop_ok]; rfl
  · show some (a.attributes.map fun x => (keyToString[x.1.num]?).getD []) = _
    rw [names_filter a.attributes h2.sorted (fun k => (histValue ops k none).isSome)
      (fun k => by
        rw [← h3' k]
        simp only [Ana.getValue]
        cases List.lookup k a.attributes <;> rfl)
      attributeNames (by decide) (fun x _ => by
        obtain ⟨k, v⟩ := x
        cases k <;> exact ⟨_, by simp only [attributeNames, List.mem_cons, Prod.mk.injEq, reduceCtorEq, true_and, false_and, false_or]; exact Or.inl rfl⟩)
      (by decide)]
  · intro x hx
    have hl : stringToKey.lookup (lit x.2) = some x.1 := by
      revert x
      decide
    simp only [analysisValue, Ana.getValueS, hl]
    exact h3' x.1
  · intro name hname
    have hl : stringToKey.lookup name = none := by
      rw [List.lookup_eq_none_iff]
      intro y hy
      have : ∃ x ∈ attributeNames, y.1 = lit x.2 := by
        revert y
        decide
      obtain ⟨x, hx, hxy⟩ := this
      rw [hxy]
      simpa using hname x hx
    simp only [analysisValue, Ana.getValueS, hl]
  · exact destroy_ok (a := { a with keys := _ }) ⟨h2.sorted, h2.const⟩

/-- The listed names are pairwise different. -/
theorem C57_names_distinct : (attributeNames.map fun x => lit x.2).Nodup := by decide

/-- C57: removing an attribute and adding it again replaces its value; without removal the first value stays. -/
theorem C57_replace (ops : List AOp) (k : AKey) (s t : List Wc) :
    histValue (ops ++ [.remove k, .addConst k s, .add k t]) k none = some s := by
  have h : ∀ (ops : List AOp) cur, histValue (ops ++ [.remove k, .addConst k s, .add k t]) k cur = some s := by
    intro ops
    induction ops with
    | nil => intro cur; simp [histValue]
    | cons op r ih => intro cur; cases op <;> exact ih _
  exact h ops none

example : ∃ a b, Ana.run {} [.addConst .tense (lit "present_simple"), .add .cls (lit "a"), .addConst .cls (lit "b"),
      .remove .tense, .add .baseform (lit "x")] = some a ∧ a.seal = some b
    ∧ analysisKeys b = some [lit "BASEFORM", lit "CLASS"]
    ∧ analysisValue b (lit "CLASS") = some (lit "a") ∧ analysisValue b (lit "TENSE") = none :=
  ⟨_, _, rfl, rfl, by decide, by decide, by decide⟩

end Verif.Props
