import Verif.Lemmas.FstTextUse
import Verif.Props.FstText
/-!
# Look-ups in a loaded unweighted file, and the runs of the text it was compiled from
-/

set_option linter.unusedSimpArgs false
set_option linter.unusedVariables false

namespace Verif.Att
open Verif Verif.Props

/-- What is needed of the loaded file `f` of the text `ls`. -/
structure PlainStored (ls : List Line) (f : Fst) : Prop where
  wf : ∃ S, WellFormed f S
  normal : NormalSymbols f
  known : ∀ word : List Wc, (word.all fun ch => (f.charToSym.lookup ch).isSome) = true ↔ InAlphabet ls word
  noFlags : (∀ l ∈ ls, ∀ s ∈ l.symbols, s.head? ≠ some 64) → f.featureCount = 0
  lookUp : ∀ word : List Wc, word.length ≤ 2000 → ∀ n, ∃ known c, prepare f (Conf.new f.featureCount 2000) word = some (known, c) ∧
    ∃ (runs : List (List Nat × Nat)) (tail : List NextRes) (c' : Conf),
      enumerate f false 2000 n c = some (runs.map (fun r => .found (runOutput ls r.1) r.2) ++ tail, c') ∧
      (∀ r ∈ runs, Accepts ls word false r.1 r.2) ∧
      runs.Pairwise (fun a b => RunBefore ls a.1 b.1) ∧ (runs.map (·.1)).Nodup ∧
      ((tail = [] ∧ runs.length = n) ∨
        (tail = [.exhausted] ∧ ∀ r m, Accepts ls word false r m → (r, m) ∈ runs) ∨
        ∃ r, tail = [r] ∧ Exceeds ls word false 2000 2000 r)

theorem plain_of {text : List Nat} {ls : List Line} (hd : Describes text ls) (hp : Proper ls)
    {srtS : List (Nat × List Nat) → List (Nat × List Nat)} {srtT : List CTrans → List CTrans}
    (hS : SortsBy (fun a b => attSymLt a.2 b.2) srtS) (hT : SortsBy fileOrderLt srtT) (sw : Bool) :
    ∃ file f, attCompile srtS srtT sw text = some (some file) ∧ loadFile file = some (some f) ∧ PlainStored ls f := by
  obtain ⟨file, f, h1, h2, h3⟩ := C82_look_up_partial hd hp hS hT sw
  refine ⟨file, f, h1, h2, ?_⟩
  obtain ⟨symbols, states, g1, hc⟩ := compile_tables hd hp hS hT sw
  have g := compiled_good hp hc
  have hw : writeFile sw symbols states = some file := by
    rw [h1] at g1
    cases hwf : writeFile sw symbols states with
    | none => rw [hwf] at g1; cases g1
    | some x => rw [hwf] at g1; cases g1; rfl
  obtain ⟨Ss, F, V, hSs, hprop, htab⟩ := compiled_tables hp hc hw h2
  obtain ⟨K, k1, k2, k3⟩ := arranged hc
  have S := setting_with hp hc hSs hprop htab k1 k2 k3
  obtain ⟨st, inv, hfe⟩ := loaded g hw h2
  obtain ⟨wf, hn⟩ := C44_well_formed g hw h2
  have hSlen : symbols.length = Ss.length := by rw [hSs, List.length_map]
  refine ⟨wf, hn, ?_, ?_, ?_⟩
  · intro word
    refine known_iff S hc hSs ?_ word
    intro e he
    rw [← hSlen]
    rw [hfe] at he
    exact (inv.chars e he).2
  · intro hno
    rw [htab.count]
    cases F with
    | nil => rfl
    | cons x F =>
      obtain ⟨s, hs, h64⟩ := htab.used (by simp)
      have hm : encodeStr s ∈ symbols := by rw [hSs]; exact List.mem_map.2 ⟨s, hs, rfl⟩
      rcases hc.from' _ hm with e | ⟨l, hl, h⟩
      · rw [encode_nil.1 e] at h64; cases h64
      · obtain ⟨s', hs', e⟩ := mem_lineSyms h
        have := encode_inj (proper_valid (hprop s hs)) (proper_valid (hp.symbols l hl s' hs')) e
        rw [← this] at hs'
        exact absurd h64 (hno l hl s hs')
  · intro word hlen n
    exact h3 false word 2000 2000 (by decide) hlen (by decide) n

theorem runs_finite {ls : List Line} {word : List Wc} (h : Small ls word) :
    ∃ all : List (List Nat), ∀ r n, Accepts ls word false r n → r ∈ all := by
  have key : ∀ k, ∃ L : List (List Nat), L.Nodup ∧ (∀ ks ∈ L, ∃ p, TakesAll ls word ⟨0, 0, fun _ => []⟩ ks p) ∧
      (L.length = k ∨ ∀ ks p, TakesAll ls word ⟨0, 0, fun _ => []⟩ ks p → ks ∈ L) := by
    intro k
    induction k with
    | zero => exact ⟨[], .nil, by simp, .inl rfl⟩
    | succ k ih =>
      obtain ⟨L, h1, h2, h3⟩ := ih
      by_cases hall : ∀ ks p, TakesAll ls word ⟨0, 0, fun _ => []⟩ ks p → ks ∈ L
      · exact ⟨L, h1, h2, .inr hall⟩
      · rcases h3 with h3 | h3
        · have : ∃ ks p, TakesAll ls word ⟨0, 0, fun _ => []⟩ ks p ∧ ks ∉ L := by
            refine Classical.byContradiction fun hno => hall fun p e hp => ?_
            exact Classical.byContradiction fun hm => hno ⟨p, e, hp, hm⟩
          obtain ⟨ks, p, hp, hm⟩ := this
          refine ⟨ks :: L, List.nodup_cons.2 ⟨hm, h1⟩, fun x hx => ?_, .inl (by rw [List.length_cons, h3])⟩
          rcases List.mem_cons.1 hx with rfl | hx
          · exact ⟨p, hp⟩
          · exact h2 x hx
        · exact absurd h3 hall
  obtain ⟨L, h1, h2, h3⟩ := key 50000
  rcases h3 with h3 | h3
  · have := h.runs L h1 h2
    omega
  · refine ⟨L.flatMap fun ks => (List.range ls.length).map fun k => ks ++ [k], ?_⟩
    rintro r n ⟨ks, k, p, rfl, hp, hk, _⟩
    exact List.mem_flatMap.2 ⟨ks, h3 ks p hp, List.mem_map.2 ⟨k, List.mem_range.2 (List.getElem?_eq_some_iff.1 hk).1, rfl⟩⟩

theorem enumerate_take {f : Fst} {pfx : Bool} {len : Nat} : ∀ (N m : Nat) (c c' : Conf) (rs : List NextRes), m ≤ N →
    enumerate f pfx len N c = some (rs, c') → ∃ c'', enumerate f pfx len m c = some (rs.take m, c'') := by
  intro N
  induction N with
  | zero =>
    intro m c c' rs hm h
    have : m = 0 := by omega
    subst this
    exact ⟨c, rfl⟩
  | succ N ih =>
    intro m c c' rs hm h
    cases m with
    | zero => exact ⟨c, rfl⟩
    | succ m =>
      rw [enumerate] at h
      obtain ⟨⟨r, c1⟩, h1, h2⟩ := Option.bind_eq_some_iff.1 h
      rw [enumerate, h1]
      simp only [Option.bind_eq_bind, Option.bind_some] at h2 ⊢
      cases r with
      | found out w =>
        simp only at h2 ⊢
        obtain ⟨⟨rs1, c2⟩, h3, h4⟩ := Option.bind_eq_some_iff.1 h2
        obtain ⟨rfl, rfl⟩ := Prod.mk.inj (Option.some.inj h4)
        obtain ⟨c3, h5⟩ := ih m c1 _ _ (by omega) h3
        exact ⟨c3, by rw [h5]; rfl⟩
      | _ =>
        obtain ⟨rfl, rfl⟩ := Prod.mk.inj (Option.some.inj h2)
        exact ⟨c1, by rw [List.take_of_length_le (by simp)]; rfl⟩

/-- The look-up of a small word from a fresh configuration: the runs that accept it, until the given number of calls is reached. -/
theorem plain_runs {ls : List Line} {f : Fst} (st : PlainStored ls f) {word : List Wc} (hlen : word.length ≤ 2000) (h : Small ls word) :
    ∃ runs : List (List Nat), AllRuns ls word runs ∧ ∀ known c1, prepare f (Conf.new f.featureCount 2000) word = some (known, c1) →
      ∀ m, ∃ c2, enumerate f false 2000 m c1 = some ((runs.map (fun r => NextRes.found (runOutput ls r) word.length) ++ [NextRes.exhausted]).take m, c2) := by
  obtain ⟨all, hall⟩ := runs_finite h
  have hkey : ∀ n, all.length < n → ∃ known c, prepare f (Conf.new f.featureCount 2000) word = some (known, c) ∧
      ∃ (runs : List (List Nat)) (c' : Conf), AllRuns ls word runs ∧
        enumerate f false 2000 n c = some (runs.map (fun r => NextRes.found (runOutput ls r) word.length) ++ [.exhausted], c') := by
    intro n hn
    obtain ⟨known, c, h1, runs, tail, c', h2, h3, h4, h5, h6⟩ := st.lookUp word hlen n
    refine ⟨known, c, h1, runs.map (·.1), c', ?_⟩
    have hpos : ∀ r ∈ runs, r.2 = word.length := by
      intro r hr
      obtain ⟨_, _, _, _, _, _, _, h⟩ := h3 r hr
      exact h rfl
    have e : runs.map (fun r => NextRes.found (runOutput ls r.1) r.2) = (runs.map (·.1)).map fun r => NextRes.found (runOutput ls r) word.length := by
      rw [List.map_map]
      apply List.map_congr_left
      intro r hr
      simp only [Function.comp, hpos r hr]
    rcases h6 with ⟨_, h7⟩ | ⟨rfl, h7⟩ | ⟨r, _, h7⟩
    · exfalso
      have hsub : runs.map (·.1) ⊆ all := by
        intro r hr
        obtain ⟨r', hr', rfl⟩ := List.mem_map.1 hr
        exact hall _ _ (h3 r' hr')
      have := (List.subperm_of_subset h5 hsub).length_le
      rw [List.length_map] at this
      omega
    · refine ⟨⟨?_, List.pairwise_map.2 h4, h5⟩, by rw [h2, e]⟩
      intro r
      constructor
      · intro hr
        obtain ⟨r', hr', rfl⟩ := List.mem_map.1 hr
        have := h3 r' hr'
        rwa [hpos r' hr'] at this
      · intro hr
        exact List.mem_map.2 ⟨_, h7 r _ hr, rfl⟩
    · exfalso
      cases r with
      | outputLimit => obtain ⟨run, n, h8, h9⟩ := h7; have := h.out run n h8; omega
      | stackLimit => obtain ⟨ks, p, h8, h9⟩ := h7; have := h.depth ks p h8; omega
      | loopLimit => obtain ⟨L, h8, h9, h10⟩ := h7; have := h.runs L h8 h10; omega
      | found _ _ => exact h7
      | exhausted => exact h7
  obtain ⟨known, c, h1, runs, c', h2, h3⟩ := hkey (all.length + 1) (by omega)
  refine ⟨runs, h2, fun known' c1 hp m => ?_⟩
  rw [h1] at hp
  obtain ⟨rfl, rfl⟩ := Prod.mk.inj (Option.some.inj hp)
  rcases Nat.le_total m (all.length + 1) with hm | hm
  · exact enumerate_take _ _ _ _ _ hm h3
  · rcases Nat.eq_or_lt_of_le hm with rfl | hm
    · refine ⟨c', ?_⟩
      obtain ⟨c2, h4⟩ := enumerate_take _ _ _ _ _ (Nat.le_refl _) h3
      rw [h4]
      rw [h3] at h4
      obtain ⟨_, rfl⟩ := Prod.mk.inj (Option.some.inj h4)
      rfl
    · obtain ⟨known', c1, h5, runs', c2, h6, h7⟩ := hkey m (by omega)
      rw [h1] at h5
      obtain ⟨rfl, rfl⟩ := Prod.mk.inj (Option.some.inj h5)
      obtain ⟨c3, h8⟩ := enumerate_take m (all.length + 1) _ _ _ (by omega) h7
      rw [h3] at h8
      obtain ⟨h9, _⟩ := Prod.mk.inj (Option.some.inj h8)
      have hlen' : ∀ rs : List (List Nat), AllRuns ls word rs → rs.length ≤ all.length := by
        intro rs hrs
        exact (List.subperm_of_subset hrs.nodup fun r hr => hall r _ ((hrs.mem r).1 hr)).length_le
      have e1 := hlen' runs' h6
      have e2 := hlen' runs h2
      rw [List.take_of_length_le (by simp; omega)] at h9
      refine ⟨c2, ?_⟩
      rw [h7, h9, List.take_of_length_le]
      simp
      omega

end Verif.Att
