import Verif.Props.SoftText
/-!
# Soft hyphens at the places that the hyphenator gives (C119)

A program that hyphenates a word and writes soft hyphens at some of the points gets a word on which the speller has the same verdict (C117 with C105).
-/

set_option linter.unusedVariables false

namespace Verif.SoftHyphenation
open Verif Verif.Props Verif.SoftText
open Verif.HyphProgram (Reads ValidOf DividedAt Suitable divided_exact unknown_analyses)

/-! ### Lemmas -/

theorem divisible_mono {its : List SItem} {u : List Wc} (ugly : Bool) (h : Divisible true its u) : Divisible ugly its u :=
  ⟨h.start, h.double, h.letters, fun s e a b => ⟨(h.sections s e a b).1, (h.sections s e a b).2.1, fun _ => (h.sections s e a b).2.2 rfl⟩⟩

/-- Points of the hyphenator are points of the speller. -/
theorem divides_mono {o : HyphOpts} (ho : o.ugly = false ∨ 3 ≤ o.minLength) {its : List SItem} {u : List Wc} {i : Nat} (h : Divides o its u i) :
    Divides softOpts its u i := by
  rcases h with h | ⟨s, e, hs, h1, h2, h3, h4⟩
  · exact .inl h
  · refine .inr ⟨s, e, hs, h1, h2, ?_, ?_⟩
    · show 3 ≤ e - s
      rcases ho with ho | ho
      · rw [ho] at h4
        have := h4.1
        omega
      · omega
    · show PartPoint true _ _
      cases hu : o.ugly with
      | true => rw [hu] at h4; exact h4
      | false => rw [hu] at h4; exact .inl h4.2

/-! ### C119 -/

/-- **C119**: write soft hyphens into a word of at least three characters, at points that the hyphenator gives for it and not next to its hyphens or each other. The speller has
the same verdict on the result as on the word. Missing for the full claim, because it fails there (`C119_violation`): options with a minimum length of two that do not exclude
ugly points. Not covered: words of two characters, words that are not suitable in the sense of C117, and soft hyphens before a hyphen. -/
theorem C119_verdict_partial {ls : List Att.Line} {runsOf : List Wc → List (List Nat)} {an : Analyzer} (hf : FollowsText ls runsOf an)
    {read : List Wc → List Nat → List SItem} (hread : Reads ls runsOf read) (extra : Bool) (o : HyphOpts) (h2 : 2 ≤ o.minLength) (ho : o.ugly = false ∨ 3 ≤ o.minLength)
    (u r : List Wc) (h0 : 0 ∉ u) (h3 : 3 ≤ u.length) (hs : SoftSuitable runsOf read u) (hr : hyphenateUcs4 o an u = some (some r))
    (w : List Wc) (hw : w.filter (· ≠ 0xAD) = u) (hp : ShyPlaced w)
    (hpts : ∀ i : Nat, w[i]? = some 0xAD → ∃ c m, u[charsBefore w i]? = some c ∧ c ≠ 0x2D ∧ r[charsBefore w i]? = some m ∧ m ≠ 0x20) :
    finnishSpell extra an w = finnishSpell extra an u := by
  have h0w : 0 ∉ w := fun h => h0 (by rw [← hw]; exact List.mem_filter.2 ⟨h, by decide⟩)
  by_cases hm : 0xAD ∈ w
  · obtain ⟨v, hv⟩ := hf.total extra w h0w
    obtain ⟨v', hv'⟩ := hf.total extra u h0
    have key : ∀ x, x ≠ .failed → (finnishSpell extra an w = some x ↔ finnishSpell extra an u = some x) := by
      intro x hx
      rw [C117_verdict hf hread extra w h0w hm (fun _ => by rw [hw]; exact hs) x hx, hw]
      refine ⟨fun h => h.2.1, fun h => ⟨hp, h, fun i hi => ?_⟩⟩
      have hknown : ∃ its, ValidOf runsOf read u its := by
        refine Classical.byContradiction fun hn => ?_
        have hfree := hs.known.resolve_left hn
        rw [hf.simple extra _ hfree (by rw [← hw]; simp), adapterSpell, unknown_analyses hf hread hs.length hs.few hn] at h
        cases h
        exact hx rfl
      obtain ⟨c, m, e1, e2, e3, e4⟩ := hpts i hi
      have hlt := (List.getElem?_eq_some_iff.1 e1).1
      have hdv := (divided_exact hf hread o h2 h0 hs.chars hs.length ⟨hs.few, fun its h => divisible_mono _ (hs.simple its h), fun h => absurd hknown h⟩ hr
        (charsBefore w i) hlt).1 (by rw [e3]; simpa using e4)
      obtain ⟨_, ⟨_, hall⟩ | ⟨hn, _⟩⟩ := hdv
      · refine ⟨h3, ?_⟩
        obtain ⟨its, a, b⟩ : ∃ its, ValidOf runsOf read u its ∧ ((∃ x, ValidOf runsOf read u x ∧ Undivided x) → Undivided its) := by
          by_cases hex : ∃ x, ValidOf runsOf read u x ∧ Undivided x
          · obtain ⟨x, hx1, hx2⟩ := hex
            exact ⟨x, hx1, fun _ => hx2⟩
          · obtain ⟨its, h⟩ := hknown
            exact ⟨its, h, fun k => absurd k hex⟩
        refine ⟨its, a, b, .inl ⟨?_, divides_mono ho (hall its a b)⟩⟩
        rw [e1]
        simpa using e2
      · exact absurd hknown hn
    rw [hv, hv'] at key ⊢
    simp only [Option.some.injEq] at key ⊢
    by_cases hvf : v = .failed
    · by_cases hvf' : v' = .failed
      · rw [hvf, hvf']
      · exact (key v' hvf').2 rfl
    · exact ((key v hvf).1 rfl).symm
  · rw [← hw, List.filter_eq_self.2 fun c hc => by simpa using fun e : c = 0xAD => hm (e ▸ hc)]

/-- **C119** (API): spelling the word with such soft hyphens, in lower case and without ACCEPT_MISSING_HYPHENS, accepts it exactly if the word without them is accepted. Missing:
the same as in `C119_verdict_partial`, and other words and options. -/
theorem C119_accepted_partial {ls : List Att.Line} {runsOf : List Wc → List (List Nat)} {an : Analyzer} (hf : FollowsText ls runsOf an)
    {read : List Wc → List Nat → List SItem} (hread : Reads ls runsOf read) (extra : Bool) (dict : List Wc → SpellRes)
    (hdict : ∀ w, 0 ∉ w → finnishSpell extra an w = some (dict w)) (so : SpellOpts) (hso : so.acceptMissingHyphens = false)
    (cache cache' : Option SpellerCache) (hc : CacheInv (effDict dict so.acceptMissingHyphens) cache) (hc' : CacheInv (effDict dict so.acceptMissingHyphens) cache')
    (o : HyphOpts) (h2 : 2 ≤ o.minLength) (ho : o.ugly = false ∨ 3 ≤ o.minLength)
    (u r : List Wc) (h3 : 3 ≤ u.length) (hs : SoftSuitable runsOf read u) (hr : hyphenateUcs4 o an u = some (some r))
    (w : List Wc) (hw : w.filter (· ≠ 0xAD) = u) (hp : ShyPlaced w)
    (hpts : ∀ i : Nat, w[i]? = some 0xAD → ∃ c m, u[charsBefore w i]? = some c ∧ c ≠ 0x2D ∧ r[charsBefore w i]? = some m ∧ m ≠ 0x20)
    (hl : LowerCase w) (hl' : LowerCase u) :
    ∃ x x' c c', spellUcs4 dict so cache w = some (x, c) ∧ spellUcs4 dict so cache' u = some (x', c') ∧ x = x' := by
  obtain ⟨x, c, a1, a2, a3⟩ := C65_exact dict so cache hc w hl.ok
  obtain ⟨x', c', b1, b2, b3⟩ := C65_exact dict so cache' hc' u hl'.ok
  have h0 : 0 ∉ w := fun h => (hl.ok 0 h).1 rfl
  have h0' : 0 ∉ u := fun h => (hl'.ok 0 h).1 rfl
  have e : effDict dict so.acceptMissingHyphens = dict := by rw [hso]; rfl
  rw [e, lower_accepted hl] at a3
  rw [e, lower_accepted hl'] at b3
  have := C119_verdict_partial hf hread extra o h2 ho u r h0' h3 hs hr w hw hp hpts
  rw [hdict w h0, hdict u h0', Option.some.injEq] at this
  refine ⟨x, x', c, c', a1, b1, ?_⟩
  rw [this, ← b3] at a3
  rcases a2 with rfl | rfl
  · exact (a3.1 rfl).symm
  · rcases b2 with rfl | rfl
    · exact a3.2 rfl
    · rfl

/-- An analyser that knows one compound of five and two letters. -/
def shortPart : Analyzer := fun v => if v = lit "saunaio" then [{ struct := some (lit "=ppppp=pp") }] else []

/-- With its default options the hyphenator divides a part of two letters, where the speller, whose minimum is three, does not accept a soft hyphen: the word is known without it
and unknown with it. -/
theorem C119_violation : ∃ r, hyphenateUcs4 {} shortPart (lit "saunaio") = some (some r) ∧ r[6]? = some 0x2D ∧
    finnishSpell false shortPart (lit "saunaio") = some .ok ∧ finnishSpell false shortPart (lit "saunai" ++ 0xAD :: lit "o") = some .failed :=
  by
  have known : finnishSpell false shortPart (lit "saunaio") = some .ok := by
    rw [finnishSpell_simple false shortPart (innerFree_of (by decide)) (by decide)]
    decide +kernel
  refine ⟨[32, 32, 32, 45, 32, 45, 45], by decide +kernel, by decide, known, ?_⟩
  rw [finnishSpell, spellTweaked_eq, if_neg (by decide)] at known
  have e : shyLoop (lit "saunai" ++ 0xAD :: lit "o") [] [] = some (lit "saunaio", [6]) := by decide +kernel
  have p : allPositions tweaksHyphOpts shortPart (lit "saunaio") = some (some [32, 32, 32, 45, 32, 45, 32]) := by decide +kernel
  rw [finnishSpell, spellTweaked_eq, if_pos (by decide), shyBody, e]
  simp only [known, p, Option.bind_eq_bind, Option.bind_some]
  decide +kernel

/-! ### A word to which this applies -/

def kalaOpts : HyphOpts := { ugly := false, hyphenateUnknown := true, minLength := 2, ignoreDot := false }

/-- `kala` with a soft hyphen in its middle. -/
def softKala : List Wc := [107, 97, 0xAD, 108, 97]

/-- Non-vacuity: `kala` is not in the text of the words `a`, `ab`, `abb`, ... As an unknown word it is divided in its middle, and it is spelled alike with a soft hyphen there. -/
example {runsOf : List Wc → List (List Nat)} {an : Analyzer} (hr : ∀ v : List Wc, v.length ≤ 255 → Att.AllRuns hahaLines v (runsOf v)) (hf : FollowsText hahaLines runsOf an)
    (extra : Bool) : ∃ r m, hyphenateUcs4 kalaOpts an (lit "kala") = some (some r) ∧ r[2]? = some m ∧ m ≠ 0x20 ∧
      finnishSpell extra an softKala = finnishSpell extra an (lit "kala") := by
  have hread : Reads hahaLines runsOf (fun v _ => hahaReading v) := by
    intro v hv run hm
    obtain ⟨m, rfl, rfl⟩ := haha_runs (((hr v hv).mem run).1 hm)
    exact ⟨haha_output m, haha_good⟩
  have low : setCase .allLower (lit "kala") = lit "kala" := by decide +kernel
  have none' : ¬ ∃ its, ValidOf runsOf (fun v _ => hahaReading v) (lit "kala") its := by
    rintro ⟨its, run, hm, _⟩
    rw [low] at hm
    obtain ⟨m, h, _⟩ := haha_runs (((hr (lit "kala") (by decide)).mem run).1 hm)
    cases h
  have few : (runsOf (setCase .allLower (lit "kala"))).length ≤ 15 := by
    have := HyphProgram.haha_one hr (setCase .allLower (lit "kala")) (by decide +kernel); omega
  have part : SimplePart true (lit "kala") := bus_part (by unfold FinnishWord; decide +kernel) (by decide +kernel) (by decide +kernel)
  obtain ⟨r, r1, r2, _⟩ := hf.hyphenation kalaOpts (lit "kala") (by decide) (by unfold ValidCp; decide)
  have hp : r[2]? ≠ some 0x20 := (divided_exact hf hread kalaOpts (by decide) (by decide) (by unfold ValidCp; decide) (by decide)
    ⟨few, fun its h => absurd ⟨its, h⟩ none', fun _ => ⟨part.1, part.2.1, fun h => by cases h⟩⟩ r1 2 (by decide)).2
    ⟨by decide, .inr ⟨none', rfl, by decide, ⟨⟨0x6C, by decide +kernel, by decide⟩, ⟨0x61, by decide +kernel, by decide⟩⟩, 1, by decide, 0x61, by decide +kernel, by decide⟩⟩
  have hlen : r.length = 4 := r2
  obtain ⟨m, hm⟩ : ∃ m, r[2]? = some m := ⟨r[2], List.getElem?_eq_getElem (by omega)⟩
  have hne : m ≠ 0x20 := fun e => hp (by rw [hm, e])
  refine ⟨r, m, r1, hm, hne, C119_verdict_partial hf hread extra kalaOpts (by decide) (.inl rfl) (lit "kala") r (by decide) (by decide)
    ⟨by unfold ValidCp; decide, by decide, few, .inr (innerFree_of (by decide)), fun its h => absurd ⟨its, h⟩ none'⟩ r1 softKala (by decide)
    ⟨by decide, by decide, fun i => ?_⟩ fun i hi => ?_⟩
  · rintro ⟨a, b⟩
    match i, a with
    | 2, _ => cases b
    | 0, a => cases a
    | 1, a => cases a
    | 3, a => cases a
    | 4, a => cases a
    | i + 5, a => simp [softKala] at a
  · match i, hi with
    | 2, _ => exact ⟨0x6C, m, by decide, by decide, hm, hne⟩
    | 0, a => cases a
    | 1, a => cases a
    | 3, a => cases a
    | 4, a => cases a
    | i + 5, a => simp [softKala] at a

end Verif.SoftHyphenation
