import Verif.Lemmas.FstTextWRun
/-!
# The tables of a loaded weighted file and the text it was compiled from
-/

set_option linter.unusedSimpArgs false
set_option linter.unusedVariables false

namespace Verif.Att
open Verif Verif.Props

/-- The loaded file `f` holds the text `wls`. `K` are the numbers of the lines of each state, in the order of the file. -/
structure Stored (wls : List (Line × Nat)) (f : WFst) (symbols : List (List Nat)) (states : List (List WTrans)) (reserved : Nat → Nat)
    (Ss F V : List (List Wc)) (K : Nat → List Nat) : Prop where
  g : WGoodInput symbols states
  gb : GoodInput symbols (bare states)
  cells : f.cells = wtableOf states
  holds : Holds (plainFst f) (bare states)
  S : Setting (wls.map (·.1)) (bare states) (plainFst f) Ss F V K
  lines : ∀ (i : Nat) s, states[i]? = some s →
    s.map some = (K i).map fun k => ((wls.map (·.1))[k]?).map (lineTransW symbols wls reserved k)
  fn : f.firstNormal < 65535
  wf : ∃ T, WWellFormed f T ∧ ∀ s, T s → ∀ a ∈ stateAddrs (plainFst f) s, ∀ t : WCell, f.cells[a]? = some t →
    t.symIn = 0xFFFFFFFF ∨ t.symIn < f.symbols.length
  normal : NormalSymbols (plainFst f)
  known : ∀ word, Known f word ↔ InAlphabet (wls.map (·.1)) word
  from' : ∀ s ∈ Ss, s = [] ∨ ∃ l ∈ wls.map (·.1), s ∈ l.symbols

theorem stored_of {N : AttNumbers} {reserved : Nat → Nat} {text : List Nat} {wls : List (Line × Nat)} (hd : DescribesW N text wls)
    (hp : Proper (wls.map (·.1))) {srtS : List (Nat × List Nat) → List (Nat × List Nat)} {srtT : List WTrans → List WTrans}
    (hS : SortsBy (fun a b => attSymLt a.2 b.2) srtS) (hT : SortsBy (fun a b => fileOrderLt a.t b.t) srtT) (sw : Bool)
    (hsw : sw = true → ∀ x ∈ wls, KeepsWeight x.2) :
    ∃ file f symbols states Ss F V K, attCompileW N reserved srtS srtT sw text = some (some file) ∧ loadFileW file = some (some f) ∧
      Stored wls f symbols states reserved Ss F V K := by
  obtain ⟨symbols, states, h1, hc, hperm⟩ := compileW_tables (reserved := reserved) hd hp hS hT sw
  have gb := compiled_good hp hc
  obtain ⟨K, hK1, hK2, hK3⟩ := arrange hperm
  have g : WGoodInput symbols states := wgood_of gb (weights_all (p := (· < 65536)) hK3 (writes_lt hd))
  obtain ⟨native, f, hw, hl⟩ := C44_weighted_loads g (by
    intro t ht
    have hps : ∃ s, ProperSymbol s ∧ t = encodeStr s := by
      rcases hc.from' t ht with rfl | ⟨l, hl, h⟩
      · exact ⟨[], ⟨by intro c hc; (cases hc), .inl rfl⟩, rfl⟩
      · obtain ⟨s, hs, rfl⟩ := mem_lineSyms h
        exact ⟨s, hp.symbols l hl s hs, rfl⟩
    obtain ⟨s, hs, rfl⟩ := hps
    refine ⟨⟨s, fun c hc => (hs.1 c hc).1, rfl⟩, ?_, (proper_loadable hs).2⟩
    intro b hb
    obtain ⟨c, hc, hb⟩ := List.mem_flatMap.1 hb
    exact enc_lt c (hs.1 c hc).1 b hb) false
  have hfile : ∃ file, writeFileW sw symbols states = some file ∧ loadFileW file = some (some f) := by
    cases sw with
    | false => exact ⟨native, hw, hl⟩
    | true =>
      obtain ⟨n, fo, e1, e2, e3⟩ := wswapped g (weights_all hK3 (hsw rfl))
      rw [hw] at e1
      cases e1
      exact ⟨fo, e2, by rw [e3, hl]⟩
  obtain ⟨file, hw', hl'⟩ := hfile
  obtain ⟨Ss, F, V, hSs, hprop, htab⟩ := symbol_tables hp hc (f := plainFst f) (by
    intro ss e
    subst e
    obtain ⟨st, e1, rfl⟩ := wloaded_fold g hw hl
    exact ⟨st, (wtableOf states).map WCell.plain, e1, rfl⟩)
  have S := setting_with hp hc hSs hprop htab hK1 hK2 (bare_lines hK3)
  obtain ⟨st, inv, hfe⟩ := wloaded g hw hl
  have hcells : f.cells = wtableOf states := by rw [hfe]; rfl
  have hf := wholds g hcells
  have hSlen : symbols.length = Ss.length := by rw [hSs, List.length_map]
  have hnormal : 0 < f.firstNormal := by
    rcases Nat.eq_zero_or_pos f.firstNormal with h | h
    · have := (htab.normal 0 [] S.first).1 (by show f.firstNormal ≤ 0; omega)
      exact absurd rfl this.1
    · exact h
  have hfn : f.firstNormal < 65535 := by
    have e : f.firstNormal = st.firstNormal := by rw [hfe]; rfl
    have := (inv.dia1 (by omega)).2
    have := g.symCount
    omega
  obtain ⟨⟨T, wf, hT'⟩, hn⟩ := C44_weighted_well_formed g hw hl hnormal (by
    intro s hs
    have := hc.order (s.map (·.t)) (List.mem_map.2 ⟨s, hs, rfl⟩)
    rw [List.pairwise_map] at this
    exact this)
  have hfrom : ∀ s ∈ Ss, s = [] ∨ ∃ l ∈ wls.map (·.1), s ∈ l.symbols := by
    intro s hs
    have hm : encodeStr s ∈ symbols := by rw [hSs]; exact List.mem_map.2 ⟨s, hs, rfl⟩
    rcases hc.from' _ hm with e | ⟨l, hl, h⟩
    · exact .inl (encode_nil.1 e)
    · obtain ⟨s', hs', e⟩ := mem_lineSyms h
      have := encode_inj (proper_valid (hprop s hs)) (proper_valid (hp.symbols l hl s' hs')) e
      rw [← this] at hs'
      exact .inr ⟨l, hl, hs'⟩
  have hknown : ∀ word, Known f word ↔ InAlphabet (wls.map (·.1)) word := fun word =>
    known_iff S hc hSs (f := plainFst f) (by
      intro e he
      rw [← hSlen]
      have he' : e ∈ st.charToSym := by rw [hfe] at he; exact he
      exact (inv.chars e he').2) word
  exact ⟨file, f, symbols, states, Ss, F, V, K, by rw [h1, hw'], hl', g, gb, hcells, hf, S, hK3, hfn, ⟨T, wf, hT'⟩, hn, hknown, hfrom⟩

end Verif.Att
