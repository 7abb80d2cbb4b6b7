import Verif.Model.AutocorrectFst
import Verif.Props.FstText
import Verif.Lemmas.Autocorrect
/-!
# The first phrase found by a transducer
-/

set_option linter.unusedSimpArgs false
set_option linter.unusedVariables false

namespace Verif.Autocorrect
open Verif Verif.Props Verif.Att

/-- One call of `nextPrefix` after `prepare`. -/
theorem first_reading {f : Fst} {S : Nat → Prop} (wf : WellFormed f S) (hn : NormalSymbols f) (pfx : Bool) (word : List Wc)
    {bufferSize bufferLen : Nat} (hbs : 2 ≤ bufferSize) (hw : word.length ≤ bufferSize) (hbl : 0 < bufferLen) :
    ∃ known c r c', prepare f (Conf.new f.featureCount bufferSize) word = some (known, c) ∧
      nextLoop f pfx bufferLen maxLoopCount c = some (r, c') ∧
      ((∃ q m, r = .found (outputOf f q) m ∧ Accepting f (word.map f.symOf) pfx q m ∧
          ∀ q' m', Accepting f (word.map f.symOf) pfx q' m' → q' = q ∨ Before q q') ∨
        (r = .exhausted ∧ ∀ q m, ¬ Accepting f (word.map f.symOf) pfx q m) ∨
        Limit f (word.map f.symOf) pfx bufferSize bufferLen r) := by
  have hin : ∀ x ∈ word.map f.symOf, f.firstNormal ≤ x := by
    intro x hx
    obtain ⟨ch, _, rfl⟩ := List.mem_map.1 hx
    exact symOf_normal hn ch
  have inv := prepared_inv wf bufferSize word hbs
  obtain ⟨r, c1, h1, hsz, h2⟩ := nextLoop_spec wf hin pfx hbl maxLoopCount _ inv
  refine ⟨_, _, r, c1, prepare_new f bufferSize word hw (by omega), h1, ?_⟩
  cases r with
  | found out m =>
    obtain ⟨_, q, _, hacc, hout, hnb, hq⟩ := h2
    refine .inl ⟨q, m, by rw [hout], hacc, ?_⟩
    intro q' m' ha
    have hqb := (hq q m hacc).2 (.inr rfl)
    rcases accepting_total hacc ha with h | h | h
    · exact .inr h
    · rcases (hq q' m' ha).1 (before_trans h hqb) with h' | h'
      · exact absurd h' (not_before_start _ _ _ _)
      · exact .inl h'
    · exact .inl h.symm
  | exhausted => exact .inr (.inl ⟨rfl, fun q m ha => not_before_start _ _ _ _ (h2.2.2 q m ha)⟩)
  | outputLimit => exact .inr (.inr h2)
  | stackLimit => exact .inr (.inr h2)
  | loopLimit => exact .inr (.inr (loopLimit_many wf hin pfx hbl inv h1))

theorem addSymbol_noflags {st st' : SymTab} {i : Nat} {s : List Nat} (hs : s.head? ≠ some 64) (h : addSymbol st i s = some (some st')) :
    st'.features = st.features := by
  have hs' : ¬ s[0]? = some 64 := by rw [← List.head?_eq_getElem?]; exact hs
  unfold addSymbol at h
  obtain ⟨r, h1, h2⟩ := Option.bind_eq_some_iff.1 h
  cases r with
  | none =>
    simp only [hs', and_false, if_false] at h2
    cases h2
  | some text =>
    simp only [hs', if_false] at h2
    split at h2
    · cases h2
    · rename_i hx
      simp only [Option.pure_def, Option.some.injEq] at h2
      rw [← h2]
      simp only
      split at hx
      · rw [← Option.some.inj hx]
      · split at hx
        · rw [← Option.some.inj hx]
        · rw [← Option.some.inj hx]

theorem foldSymbols_noflags (ss : List (List Nat)) (hs : ∀ s ∈ ss, s.head? ≠ some 64) : ∀ i (st st' : SymTab),
    foldSymbols i st ss = some (some st') → st'.features = st.features := by
  induction ss with
  | nil => intro i st st' h; cases h; rfl
  | cons s ss ih =>
    intro i st st' h
    rw [foldSymbols] at h
    obtain ⟨r, h1, h2⟩ := Option.bind_eq_some_iff.1 h
    cases r with
    | none => cases h2
    | some st1 =>
      rw [ih (fun s hs' => hs s (by simp [hs'])) _ _ _ h2]
      exact addSymbol_noflags (hs s (by simp)) h1

/-- A text without flag diacritics: the first phrase of a loaded transducer is that of the text, and nothing is left of it in the configuration. -/
theorem compiled_first {text : List Nat} {ls : List Line} (hd : Describes text ls) (hp : Proper ls)
    (hno : ∀ l ∈ ls, ∀ s ∈ l.symbols, s.head? ≠ some 64)
    {srtS : List (Nat × List Nat) → List (Nat × List Nat)} {srtT : List CTrans → List CTrans}
    (hS : SortsBy (fun a b => attSymLt a.2 b.2) srtS) (hT : SortsBy fileOrderLt srtT) (sw : Bool) :
    ∃ file f, attCompile srtS srtT sw text = some (some file) ∧ loadFile file = some (some f) ∧ f.featureCount = 0 ∧
    ∀ (word : List Wc), word.length ≤ 20000 → ∃ known c r c', prepare f (Conf.new 0 20000) word = some (known, c) ∧
      nextPrefix f c 20000 = some (r, c') ∧
      ((∃ out n, r = .found out n ∧ Finds ls word (some (out, n))) ∨ ((∀ out n, r ≠ .found out n) ∧ Finds ls word none)) := by
  obtain ⟨symbols, states, h1, hc⟩ := compile_tables hd hp hS hT sw
  have g := compiled_good hp hc
  have hload : ∀ s ∈ symbols, LoadableSymbol s := by
    intro t ht
    rcases hc.from' t ht with rfl | ⟨l, hl, h⟩
    · exact proper_loadable (s := []) ⟨by intro c hc; (cases hc), .inl rfl⟩
    · obtain ⟨s, hs, rfl⟩ := mem_lineSyms h
      exact proper_loadable (hp.symbols l hl s hs)
  obtain ⟨file, f, hw, hl⟩ := loads g hload sw
  obtain ⟨Ss, F, V, K, S⟩ := setting_of hp hc hw hl
  obtain ⟨⟨D, wf⟩, hn⟩ := C44_well_formed g hw hl
  obtain ⟨st, _, hfe⟩ := loaded g hw hl
  have hf : Holds f states := holds_of g (by rw [hfe]; rfl)
  have hfc : f.featureCount = 0 := by
    have hsy : ∀ s ∈ symbols, s.head? ≠ some 64 := by
      intro t ht
      rcases hc.from' t ht with rfl | ⟨l, hl, h⟩
      · simp
      · obtain ⟨s, hs, rfl⟩ := mem_lineSyms h
        rw [Ne, encode_head (by decide)]
        exact hno l hl s hs
    cases symbols with
    | nil => cases g.epsilon
    | cons s0 ss =>
      have he := g.epsilon
      simp only [List.getElem?_cons_zero, Option.some.injEq] at he
      subst he
      obtain ⟨st', h3, h4⟩ := loaded_fold g hw hl
      have := foldSymbols_noflags ss (fun s hs => hsy s (by simp [hs])) _ _ _ h3
      rw [h4]
      show st'.features.length % 65536 = 0
      rw [this]
      rfl
  refine ⟨file, f, by rw [h1, hw], hl, hfc, ?_⟩
  intro word hlen
  obtain ⟨known, c, r, c', k1, k2, k3⟩ := first_reading wf hn true word (bufferSize := 20000) (bufferLen := 20000) (by decide) hlen (by decide)
  rw [hfc] at k1
  refine ⟨known, c, r, c', k1, k2, ?_⟩
  have hfol : ∀ r m, AAccepting f states (word.map f.symOf) true r m → Follows states 0 r := by
    rintro r m ⟨as, p, j, s, t, rfl, hp, hi, hj, _⟩
    exact follows_run hp hi hj
  rcases k3 with ⟨q, m, rfl, hacc, hall⟩ | ⟨rfl, hnone⟩ | hlim
  · obtain ⟨run, rfl, hrun⟩ := (accepting_iff g hf).1 hacc
    left
    refine ⟨_, _, rfl, run.map (numberOf K), (accepts_of S hrun).1, ?_, ?_⟩
    · rw [output_eq g hf hrun, output_of S hrun]
    · intro run' n' ha
      obtain ⟨run2, h8, rfl⟩ := of_accepts S ha
      rcases hall _ n' ((accepting_iff g hf).2 ⟨run2, rfl, h8⟩) with h | h
      · left
        rw [follows_inj (hfol _ _ h8) (hfol _ _ hrun) h]
      · right
        exact before_of S (accepts_of S hrun).2 (accepts_of S h8).2 (run_ords S hrun) (run_ords S h8)
          (abefore_of_before (hfol _ _ hrun) (hfol _ _ h8) h)
  · right
    refine ⟨(by intro out n h; cases h), .inl ?_⟩
    intro run n ha
    obtain ⟨run2, h8, rfl⟩ := of_accepts S ha
    exact hnone _ n ((accepting_iff g hf).2 ⟨run2, rfl, h8⟩)
  · right
    refine ⟨?_, .inr ⟨r, exceeds_of S g hf hlim⟩⟩
    rintro out n rfl
    exact hlim

theorem nextLoop_keeps {f : Fst} (hf : f.featureCount = 0) {c c' : Conf} {r : NextRes} {bufferLen : Nat}
    (h : nextPrefix f c bufferLen = some (r, c')) : c'.bufferSize = c.bufferSize ∧ c'.flags = c.flags := by
  have he : ∃ rs, enumerate f true bufferLen 1 c = some (rs, c') := by
    rw [enumerate, show nextLoop f true bufferLen maxLoopCount c = some (r, c') from h]
    cases r
    all_goals exact ⟨_, rfl⟩
  obtain ⟨rs, he⟩ := he
  exact ⟨enumerate_size he, enumerate_noflags hf he⟩

/-- The answers of the look-up in a transducer without flag diacritics. -/
theorem fst_answers {f : Fst} (hfc : f.featureCount = 0) {Q : List Wc → Option (List Wc × Nat) → Prop}
    (h : ∀ (word : List Wc), word.length ≤ 20000 → ∃ known c r c', prepare f (Conf.new 0 20000) word = some (known, c) ∧
      nextPrefix f c 20000 = some (r, c') ∧ ((∃ out n, r = .found out n ∧ Q word (some (out, n))) ∨ ((∀ out n, r ≠ .found out n) ∧ Q word none))) :
    ∃ first, (∀ w, w.length ≤ 20000 → Q w (first w)) ∧ Answers (fstLookup f) (fun c => c.bufferSize = 20000 ∧ c.flags = []) first := by
  have key : ∀ w : List Wc, w.length ≤ 20000 → ∃ o, Q w o ∧ ∀ c : Conf, c.bufferSize = 20000 ∧ c.flags = [] →
      ∃ c', (fstLookup f).find c w = some (c', o) ∧ c'.bufferSize = 20000 ∧ c'.flags = [] := by
    intro w hw
    obtain ⟨known, c, r, c', k1, k2, k3⟩ := h w hw
    have hprep : ∀ d : Conf, d.bufferSize = 20000 ∧ d.flags = [] → prepare f d w = some (known, c) := by
      intro d hd
      rw [← k1]
      unfold prepare
      simp only [hd.1, hd.2, Conf.new, List.replicate_zero]
      rfl
    have hc : c.bufferSize = 20000 ∧ c.flags = [] := by
      unfold prepare at k1
      split at k1
      · cases k1
      · cases k1; exact ⟨rfl, rfl⟩
    obtain ⟨e1, e2⟩ := nextLoop_keeps hfc k2
    have hb : bufferSize = 20000 := rfl
    rcases k3 with ⟨out, n, rfl, hQ⟩ | ⟨hr, hQ⟩
    · refine ⟨some (out, n), hQ, fun d hd => ⟨c', ?_, by rw [e1, hc.1], by rw [e2, hc.2]⟩⟩
      simp only [fstLookup, hprep d hd, hb, k2, Option.bind_eq_bind, Option.bind_some, Option.pure_def]
    · refine ⟨none, hQ, fun d hd => ⟨c', ?_, by rw [e1, hc.1], by rw [e2, hc.2]⟩⟩
      simp only [fstLookup, hprep d hd, hb, Option.bind_eq_bind, Option.bind_some, k2]
      cases r with
      | found out n => exact absurd rfl (hr out n)
      | exhausted => rfl
      | outputLimit => rfl
      | stackLimit => rfl
      | loopLimit => rfl
  obtain ⟨first, hfirst⟩ : ∃ first : List Wc → Option (List Wc × Nat), ∀ w, w.length ≤ 20000 → Q w (first w) ∧
      ∀ c : Conf, c.bufferSize = 20000 ∧ c.flags = [] → ∃ c', (fstLookup f).find c w = some (c', first w) ∧ c'.bufferSize = 20000 ∧ c'.flags = [] := by
    classical
    refine ⟨fun w => if h : w.length ≤ 20000 then (key w h).choose else none, ?_⟩
    intro w hw
    simp only [dif_pos hw]
    exact (key w hw).choose_spec
  exact ⟨first, fun w hw => (hfirst w hw).1, fun c w hc hw => (hfirst w hw).2 c hc⟩

end Verif.Autocorrect
