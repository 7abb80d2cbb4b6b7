import Verif.Lemmas.Threads
import Verif.Props.Spell
/-! C86: the spelling program prints the same with any number of threads. -/

namespace Verif.Props
open Verif Verif.Threads

variable {σ : Type} {check : σ → List Wc → UB (List Wc × σ)} {P : σ → Prop} {answer : List Wc → List Wc} {words : List (List Wc)} {handles : List σ}

theorem blockCount_zero : blockCount words = 0 ↔ words = [] := by
  unfold blockCount
  constructor
  · intro h
    cases words with
    | nil => rfl
    | cons w r => simp at h; omega
  · intro h; rw [h]; rfl

/-- C86: whatever the order in which the threads are scheduled, if the program ends, then it has written exactly what it writes with one
thread, in the order of the words. -/
theorem C86_same_output (hT : 0 < handles.length) (hP : ∀ h ∈ handles, P h) (hc : Steady check P answer words) {n : Nat} {t : Tool σ}
    (hr : ToolRun check n (startTool handles words) t) (he : t.pc = .terminated) (h : σ) (hh : P h) :
    runSingle check h words = some t.out ∧ t.out = expected answer words := by
  obtain ⟨qs, j, hi⟩ := toolRun_inv hc (inv_start hT hP) hr
  have hp := hi.place
  rw [he] at hp
  obtain ⟨p1, p2, p3, _, _⟩ := hp
  have hs := hi.split
  rw [p1, p2, List.append_nil, List.append_nil] at hs
  have ho : t.out = expected answer words := by rw [hi.out, p3, List.take_length, hs]
  exact ⟨by rw [ho]; exact runSingle_steady hc hh, ho⟩

/-- C86, undefined behaviour: if there are no words, or at least as many blocks of 500 words as threads, then no execution does anything
undefined. Missing for the full claim: fewer words, where the code violates it (`C86_violation_few_words`). -/
theorem C86_defined_partial (hT : 0 < handles.length) (hP : ∀ h ∈ handles, P h) (hc : Steady check P answer words) (hb : handles.length ≤ blockCount words ∨ words = [])
    {n : Nat} {t : Tool σ} (hr : ToolRun check n (startTool handles words) t) : ¬ ToolUb check t := by
  obtain ⟨qs, j, hi⟩ := toolRun_inv hc (inv_start hT hP) hr
  rintro (h | ⟨i, h⟩)
  · have := (mainStep_inv hi).1 h
    rcases hb with hb | hb
    · omega
    · have := blockCount_zero.2 hb; omega
  · exact (threadStep_inv hc hi i).1 h

/-- C86, no deadlock: as long as the program has not ended and the next step is not undefined, some thread can go on. -/
theorem C86_progress (hT : 0 < handles.length) (hP : ∀ h ∈ handles, P h) (hc : Steady check P answer words) {n : Nat} {t : Tool σ}
    (hr : ToolRun check n (startTool handles words) t) : t.pc = .terminated ∨ ToolUb check t ∨ CanStep check t := by
  obtain ⟨qs, j, hi⟩ := toolRun_inv hc (inv_start hT hP) hr
  cases hm : mainStep t with
  | ub => exact Or.inr (Or.inl (Or.inl hm))
  | ok t' => exact Or.inr (Or.inr ⟨t', .main hm⟩)
  | blocked =>
    rcases (mainStep_inv hi).2.1 hm with h | ⟨i, todo, o, h⟩
    · exact Or.inl h
    · exact Or.inr (Or.inr (threadStep_can hc hi h))

/-- C86, no livelock: no execution has more than seven steps per word and three more. -/
theorem C86_finite {n : Nat} {t : Tool σ} (hr : ToolRun check n (startTool handles words) t) : n ≤ 7 * words.length + 3 := by
  have := toolRun_left hr
  rw [left_start] at this
  omega

/-- C86: every execution that cannot be continued is one that has ended with the right output, if there are enough words. -/
theorem C86_all_executions_partial (hT : 0 < handles.length) (hP : ∀ h ∈ handles, P h) (hc : Steady check P answer words)
    (hb : handles.length ≤ blockCount words ∨ words = []) {n : Nat} {t : Tool σ} (hr : ToolRun check n (startTool handles words) t) (hend : ¬ CanStep check t)
    (h : σ) (hh : P h) : t.pc = .terminated ∧ runSingle check h words = some t.out := by
  rcases C86_progress hT hP hc hr with h1 | h1 | h1
  · exact ⟨h1, (C86_same_output hT hP hc hr h1 h hh).1⟩
  · exact absurd h1 (C86_defined_partial hT hP hc hb hr)
  · exact absurd h1 hend

/-- C86 as stated is false: if there are words, but fewer blocks of them than threads, then the program never ends normally. Every execution
that goes on as long as possible calls `pthread_join` for a thread that has never been created. -/
theorem C86_violation_few_words (hP : ∀ h ∈ handles, P h) (hc : Steady check P answer words) (h0 : words ≠ []) (hb : blockCount words < handles.length) {n : Nat}
    {t : Tool σ} (hr : ToolRun check n (startTool handles words) t) (hend : ¬ CanStep check t) : mainStep t = .ub := by
  have hT : 0 < handles.length := by omega
  obtain ⟨qs, j, hi⟩ := toolRun_inv hc (inv_start hT hP) hr
  rcases C86_progress hT hP hc hr with h1 | h1 | h1
  · exfalso
    have hp := hi.place
    rw [h1] at hp
    obtain ⟨_, _, _, p4, p5⟩ := hp
    have : blockCount words ≠ 0 := fun e => h0 (blockCount_zero.1 e)
    have := p5 (by omega)
    omega
  · rcases h1 with h1 | ⟨i, h1⟩
    · exact h1
    · exact absurd h1 (threadStep_inv hc hi i).1
  · exact absurd h1 hend

/-- Such executions exist, whatever the words are. -/
theorem C86_complete_execution : ∃ n t, ToolRun check n (startTool handles words) t ∧ ¬ CanStep check t :=
  exists_end (n := left (startTool handles words)) (Nat.le_refl _)

/-! ### The library -/

/-- What `voikkospell` calls: the spelling function with a cache of its own for every handle; the suggestions and analyses do not change a
handle. -/
def libraryApi (dict : List Wc → SpellRes) (o : SpellOpts) (suggest : List Wc → UB (Option (List (List Wc))))
    (analyze : List Wc → UB (List (List (List Wc × List Wc)))) : ToolApi (Option SpellerCache) :=
  { spell := fun c w => spellUcs4 dict o c w, suggest := suggest, analyze := analyze }

/-- What the program prints for a word does not depend on the words checked before with the same handle. -/
theorem C86_library_steady (dict : List Wc → SpellRes) (o : SpellOpts) (suggest : List Wc → UB (Option (List (List Wc))))
    (analyze : List Wc → UB (List (List (List Wc × List Wc)))) (opts : ToolOpts) (hw : ∀ w ∈ words, WordOk w) (hs : ∀ w ∈ words, (suggest w).isSome)
    (ha : ∀ w ∈ words, (analyze w).isSome) :
    ∃ answer, Steady (checkWord (libraryApi dict o suggest analyze) opts) (CacheInv (effDict dict o.acceptMissingHyphens)) answer words := by
  refine ⟨fun w => ((checkWord (libraryApi dict o suggest analyze) opts none w).map (·.1)).getD [], ?_⟩
  intro c w hc hmem
  obtain ⟨c1, a1, a2, _⟩ := spellUcs4_eq dict o c hc w (hw w hmem)
  obtain ⟨c2, b1, b2, _⟩ := spellUcs4_eq dict o none trivial w (hw w hmem)
  obtain ⟨sg, hsg⟩ := Option.isSome_iff_exists.1 (hs w hmem)
  obtain ⟨an, han⟩ := Option.isSome_iff_exists.1 (ha w hmem)
  refine ⟨if opts.mode ≠ .none then c1 else c, ?_, by split <;> assumption⟩
  cases hacc : accepts dict o w <;> rcases opts with ⟨m, s, mo, ol, sep, sp⟩ <;> cases m <;> cases s <;> cases mo <;> cases ol <;> cases sg <;>
    simp [checkWord, libraryApi, hacc, a1, b1, hsg, han, printMorphology, bind, pure, Option.bind]

/-- C86 for the library: with any dictionary, options and cache sizes, several threads print what one thread prints. -/
theorem C86_library_partial (dict : List Wc → SpellRes) (o : SpellOpts) (suggest : List Wc → UB (Option (List (List Wc))))
    (analyze : List Wc → UB (List (List (List Wc × List Wc)))) (opts : ToolOpts) (hw : ∀ w ∈ words, WordOk w) (hs : ∀ w ∈ words, (suggest w).isSome)
    (ha : ∀ w ∈ words, (analyze w).isSome) (caches : List (Option SpellerCache)) (hT : 0 < caches.length)
    (hP : ∀ c ∈ caches, CacheInv (effDict dict o.acceptMissingHyphens) c) (hb : caches.length ≤ blockCount words ∨ words = []) {n : Nat}
    {t : Tool (Option SpellerCache)} (hr : ToolRun (checkWord (libraryApi dict o suggest analyze) opts) n (startTool caches words) t)
    (hend : ¬ CanStep (checkWord (libraryApi dict o suggest analyze) opts) t) (c : Option SpellerCache)
    (hc : CacheInv (effDict dict o.acceptMissingHyphens) c) :
    t.pc = .terminated ∧ runSingle (checkWord (libraryApi dict o suggest analyze) opts) c words = some t.out := by
  obtain ⟨answer, h⟩ := C86_library_steady dict o suggest analyze opts hw hs ha
  exact C86_all_executions_partial hT hP h hb hr hend c hc

/-! ### Concrete cases -/

/-- A handle that counts the words checked with it, and writes each word and a newline. -/
def countingCheck (h : Nat) (w : List Wc) : UB (List Wc × Nat) := some (w ++ nl, h + 1)

theorem countingCheck_steady (ws : List (List Wc)) : Steady countingCheck (fun _ => True) (fun w => w ++ nl) ws := fun h w _ _ => ⟨h + 1, rfl, trivial⟩

/-- 600 words and two threads: the hypotheses of the theorems hold, and a complete execution prints all words. -/
example : ∃ n t, ToolRun countingCheck n (startTool [0, 7] (List.replicate 600 [0x61])) t ∧ t.pc = .terminated ∧
    t.out = expected (fun w => w ++ nl) (List.replicate 600 [0x61]) := by
  obtain ⟨n, t, h1, h2⟩ := C86_complete_execution (check := countingCheck) (handles := [0, 7]) (words := List.replicate 600 [0x61])
  have hb : ([0, 7] : List Nat).length ≤ blockCount (List.replicate 600 [0x61]) := by unfold blockCount; rw [List.length_replicate]; decide
  have h3 := C86_all_executions_partial (P := fun _ => True) (by decide) (fun _ _ => trivial) (countingCheck_steady _) (Or.inl hb) h1 h2 0 trivial
  exact ⟨n, t, h1, h3.1, (C86_same_output (P := fun _ => True) (by decide) (fun _ _ => trivial) (countingCheck_steady _) h1 h3.1 0 trivial).2⟩

/-- One word and two threads: every complete execution ends with undefined behaviour. -/
example : ∃ n t, ToolRun countingCheck n (startTool [0, 7] [[0x61]]) t ∧ ToolUb countingCheck t := by
  obtain ⟨n, t, h1, h2⟩ := C86_complete_execution (check := countingCheck) (handles := [0, 7]) (words := [[0x61]])
  exact ⟨n, t, h1, Or.inl (C86_violation_few_words (P := fun _ => True) (fun _ _ => trivial) (countingCheck_steady _) (by decide) (by decide) h1 h2)⟩

end Verif.Props
