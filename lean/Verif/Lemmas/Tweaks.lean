import Verif.Model.Tweaks
import Verif.Props.SpellUtils
/-! Helper lemmas for `Model/Tweaks.lean`. -/

set_option linter.unusedSimpArgs false

namespace Verif.Props
open Verif

/-- The non-recursive part of `spellNoShy`. -/
def noShyBody (recN recT : List Wc → UB SpellRes) (extra : Bool) (an : Analyzer) (word : List Wc) : UB SpellRes :=
  (adapterSpell an word).bind fun result =>
  if result = .ok ∨ word.length ≤ 3 then some result
  else
    match firstInnerHyphen word with
    | none => some result
    | some l =>
      (rd (withoutHyphen word l ++ [0]) l).bind fun atl =>
      (if extra && decide (l > 1) && atl != 0x2D then recN (withoutHyphen word l) else some .failed).bind fun early =>
      if early = .ok then some .ok
      else
        (sameVC word l).bind fun vc =>
        (if vc then adapterSpell an (withoutHyphen word l) else some .failed).bind fun spres =>
        if spres ≠ .failed ∧ improves result spres = true then some spres
        else
          match lastInnerHyphen word (word.length - 2) with
          | none => none
          | some none => ambiguousCompound an (withoutHyphen word l) l result
          | some (some i) =>
            (recT (word.take i)).bind fun leading =>
            if leading ≠ .failed ∧ trailingAcceptable (an (word.drop (i + 1))) = true then some leading
            else ambiguousCompound an (withoutHyphen word l) l result

theorem spellNoShy_eq (hyph : List Wc → UB (Option (List Wc))) (extra : Bool) (an : Analyzer) (word : List Wc) :
    spellNoShy hyph extra an word =
      noShyBody (spellNoShy hyph extra an) (spellTweaked hyph extra an) extra an word := by
  rw [spellNoShy]
  unfold noShyBody
  simp only [Option.bind_eq_bind, Option.pure_def]
  congr 1
  funext result
  by_cases h : result = .ok ∨ word.length ≤ 3
  · rw [if_pos h, if_pos h]
  · rw [if_neg h, if_neg h]
    cases hf : firstInnerHyphen word with
    | none => rfl
    | some l =>
      simp only
      congr 1; funext atl
      congr 1; funext early
      congr 1
      congr 1; funext vc
      congr 1; funext spres
      congr 1
      cases hl : lastInnerHyphen word (word.length - 2) with
      | none => rfl
      | some o => cases o <;> rfl

/-- The soft hyphen part. -/
def shyBody (recN : List Wc → UB SpellRes) (hyph : List Wc → UB (Option (List Wc))) (word : List Wc) : UB SpellRes :=
  match shyLoop word [] [] with
  | none => some .failed
  | some (buffer, positions) =>
    (recN buffer).bind fun r =>
    if r ≠ .failed then
      (hyph buffer).bind fun hp =>
      match hp with
      | none => some .failed
      | some p => (shyPositionsOk p positions.reverse).bind fun ok => if ok then some r else some .failed
    else some r

theorem spellTweaked_eq (hyph : List Wc → UB (Option (List Wc))) (extra : Bool) (an : Analyzer) (word : List Wc) :
    spellTweaked hyph extra an word =
      if 0xAD ∈ word then shyBody (spellNoShy hyph extra an) hyph word else spellNoShy hyph extra an word := by
  rw [spellTweaked]
  congr 1
  unfold shyBody
  cases hs : shyLoop word [] [] with
  | none => rfl
  | some o =>
    obtain ⟨b, ps⟩ := o
    simp only [Option.bind_eq_bind, Option.pure_def]
    rfl

/-! ### Totality -/

/-- The analyser gives a structure with every analysis. -/
def AnalyzerOk (an : Analyzer) : Prop := ∀ w, HasStructures (an w)

/-- The hyphenator is defined on every word and returns either null or one character per character of the word. -/
def HyphOk (hyph : List Wc → UB (Option (List Wc))) : Prop :=
  ∀ w, ∃ o, hyph w = some o ∧ ∀ p, o = some p → p.length = w.length

theorem adapterSpell_total (an : Analyzer) (h : AnalyzerOk an) (w : List Wc) : ∃ r, adapterSpell an w = some r := by
  obtain ⟨r, h1, _⟩ := C25_best an w (h w)
  exact ⟨r, h1⟩

theorem sameVC_total (word : List Wc) (l : Nat) : ∃ b, sameVC word l = some b := by
  unfold sameVC
  by_cases h : l ≥ 2 ∧ word.length - l ≥ 3
  · rw [if_pos h, rd_eq_some (by omega), rd_eq_some (by omega), rd_eq_some (by omega), rd_eq_some (by omega)]
    exact ⟨_, rfl⟩
  · rw [if_neg h]; exact ⟨_, rfl⟩

theorem lastInnerHyphen_total (word : List Wc) (n : Nat) (h : n < word.length ∨ n = 0) :
    ∃ o, lastInnerHyphen word n = some o := by
  induction n with
  | zero => exact ⟨_, rfl⟩
  | succ n ih =>
    rw [lastInnerHyphen, rd_eq_some (by omega)]
    simp only [Option.bind_eq_bind, Option.bind_some, Option.pure_def]
    split
    · exact ⟨_, rfl⟩
    · exact ih (by omega)

theorem skipLetters_total (n : Nat) (cells : List Wc) (h : 0 ∈ cells) :
    ∃ o, skipLetters n cells = some o ∧ ∀ s, o = some s → 0 ∈ s := by
  induction n generalizing cells with
  | zero => exact ⟨some cells, rfl, by rintro s ⟨⟩; exact h⟩
  | succ n ih =>
    obtain ⟨k, t, h1, h2, h3, h4⟩ := skipEq_spec cells h
    rw [skipLetters, h1]
    simp only [Option.bind_eq_bind, Option.bind_some, rd, List.getElem?_cons_zero, Option.pure_def,
      List.drop_succ_cons, List.drop_zero]
    by_cases hk : k = 0
    · rw [if_pos hk]; exact ⟨none, rfl, by simp⟩
    · rw [if_neg hk]
      refine ih t ?_
      rcases List.mem_cons.1 h4 with e | e
      · exact absurd e.symm hk
      · exact e

theorem borderLoop_total (buffer : List Wc) (l : Nat) (st : SpellRes × SpellRes) (as : List MorAn)
    (h : HasStructures as) : ∃ o, borderLoop buffer l st as = some o := by
  induction as generalizing st with
  | nil => exact ⟨st, rfl⟩
  | cons a as ih =>
    obtain ⟨s, hs⟩ := h a (by simp)
    have h' : HasStructures as := fun x hx => h x (by simp [hx])
    obtain ⟨o, ho, ho'⟩ := skipLetters_total l (s ++ [0]) (by simp)
    rw [borderLoop]
    simp only [MorAn.structCells, hs, Option.bind_eq_bind, Option.bind_some, ho]
    cases o with
    | none => exact ih st h'
    | some t =>
      simp only
      rw [matchWord_string]
      have : 0 ∈ t := ho' t rfl
      cases t with
      | nil => simp at this
      | cons k t =>
        simp only [Option.bind_some, rd, List.getElem?_cons_zero]
        exact ih _ h'

theorem ambiguousCompound_total (an : Analyzer) (h : AnalyzerOk an) (buffer : List Wc) (l : Nat) (result : SpellRes) :
    ∃ r, ambiguousCompound an buffer l result = some r := by
  unfold ambiguousCompound
  simp only [Option.bind_eq_bind, Option.pure_def]
  by_cases he : (an (buffer.takeWhile (· ≠ 0))).isEmpty = true
  · rw [if_pos he]; exact ⟨_, rfl⟩
  · rw [if_neg he]
    obtain ⟨⟨w, wo⟩, ho⟩ := borderLoop_total buffer l (.failed, .failed) _ (h (buffer.takeWhile (· ≠ 0)))
    rw [ho]
    simp only [Option.bind_some]
    split <;> exact ⟨_, rfl⟩

theorem noShyBody_total (recN recT : List Wc → UB SpellRes) (extra : Bool) (an : Analyzer) (h : AnalyzerOk an)
    (word : List Wc) (hN : ∀ v : List Wc, v.length < word.length → ∃ r, recN v = some r)
    (hT : ∀ v : List Wc, v.length < word.length → ∃ r, recT v = some r) :
    ∃ r, noShyBody recN recT extra an word = some r := by
  unfold noShyBody
  obtain ⟨r0, hr0⟩ := adapterSpell_total an h word
  rw [hr0]
  simp only [Option.bind_some]
  split
  · exact ⟨_, rfl⟩
  · cases hf : firstInnerHyphen word with
    | none => exact ⟨_, rfl⟩
    | some l =>
      have hl := firstInnerHyphen_lt hf
      have hb := withoutHyphen_length (word := word) (l := l) (by omega)
      simp only
      rw [rd_eq_some (by simp only [List.length_append, List.length_singleton]; omega)]
      simp only [Option.bind_some]
      have hearly : ∃ e, (if extra && decide (l > 1) && (withoutHyphen word l ++ [0])[l]'(by
          simp only [List.length_append, List.length_singleton]; omega) != 0x2D then
          recN (withoutHyphen word l) else some .failed) = some e := by
        split
        · exact hN _ (by omega)
        · exact ⟨_, rfl⟩
      obtain ⟨e, he⟩ := hearly
      rw [he]
      simp only [Option.bind_some]
      split
      · exact ⟨_, rfl⟩
      · obtain ⟨vc, hvc⟩ := sameVC_total word l
        rw [hvc]
        simp only [Option.bind_some]
        have hsp : ∃ s, (if vc = true then adapterSpell an (withoutHyphen word l) else some .failed) = some s := by
          split
          · exact adapterSpell_total an h _
          · exact ⟨_, rfl⟩
        obtain ⟨s, hs⟩ := hsp
        rw [hs]
        simp only [Option.bind_some]
        split
        · exact ⟨_, rfl⟩
        · obtain ⟨o, ho⟩ := lastInnerHyphen_total word (word.length - 2) (by omega)
          rw [ho]
          cases o with
          | none => exact ambiguousCompound_total an h _ _ _
          | some i =>
            have hi := lastInnerHyphen_le ho
            obtain ⟨r, hr⟩ := hT (word.take i) (by simp only [List.length_take]; omega)
            simp only [hr, Option.bind_some]
            split
            · exact ⟨_, rfl⟩
            · exact ambiguousCompound_total an h _ _ _

/-! ### Soft hyphens -/

/-- The word without its soft hyphens. -/
def stripShy (w : List Wc) : List Wc := w.filter (· ≠ 0xAD)

/-- Soft hyphens only between other characters. -/
def ShyPlaced (w : List Wc) : Prop :=
  w.head? ≠ some 0xAD ∧ w.getLast? ≠ some 0xAD ∧ ∀ i, ¬ (w[i]? = some 0xAD ∧ w[i + 1]? = some 0xAD)

/-- Every soft hyphen is at a place where `positions` (for the word without soft hyphens) has a hyphen. -/
def ShyAllowed (w positions : List Wc) : Prop :=
  ∀ i, w[i]? = some 0xAD → positions[(stripShy (w.take i)).length]? = some 0x2D

/-- Positions recorded by the loop: for each soft hyphen of the rest the number of other characters before. -/
def shyPos (n : Nat) : List Wc → List Nat
  | [] => []
  | c :: cs => if c = 0xAD then n :: shyPos n cs else shyPos (n + 1) cs

/-- Well placed rest: `prev` = the previous character is a soft hyphen or there is none. -/
def restPlaced (prev : Bool) : List Wc → Bool
  | [] => true
  | c :: cs => if c = 0xAD then !prev && cs != [] && restPlaced true cs else restPlaced false cs

theorem shyLoop_eq (cs out : List Wc) (pos : List Nat) (hpos : ∀ p ∈ pos, p ≤ out.length) (prev : Bool)
    (hprev : prev = decide (out.length = 0 ∨ pos.head? = some out.length)) :
    shyLoop cs out pos = if restPlaced prev cs then
      some (out ++ stripShy cs, (shyPos out.length cs).reverse ++ pos) else none := by
  induction cs generalizing out pos prev with
  | nil => simp [shyLoop, restPlaced, stripShy, shyPos]
  | cons c cs ih =>
    rw [shyLoop]
    by_cases hc : c = 0xAD
    · subst hc
      simp only [ne_eq, not_true_eq_false, if_false, restPlaced, if_true, shyPos]
      by_cases hb : out.length = 0 ∨ pos.head? = some out.length
      · rw [if_pos (by tauto)]
        rw [hprev, decide_eq_true hb]; simp
      · by_cases hcs : cs = []
        · subst hcs; simp
        · rw [if_neg (by tauto), ih out (out.length :: pos) (by
            intro p hp; rcases List.mem_cons.1 hp with e | e
            · omega
            · exact hpos p e) true (by simp)]
          rw [hprev, decide_eq_false hb]
          have : (cs != []) = true := by simpa using hcs
          simp [this, stripShy]
    · simp only [ne_eq, hc, not_false_eq_true, if_true, restPlaced, if_false, shyPos]
      have hb : ¬ ((out ++ [c]).length = 0 ∨ pos.head? = some (out ++ [c]).length) := by
        rintro (h | h)
        · simp at h
        · have hm := List.mem_of_mem_head? (Option.mem_def.2 h)
          have := hpos _ hm
          simp at this
      rw [ih (out ++ [c]) pos (fun p hp => by have := hpos p hp; simp; omega) false (by
        rw [decide_eq_false hb])]
      simp [stripShy, hc]

theorem restPlaced_iff (prev : Bool) (cs : List Wc) :
    restPlaced prev cs = true ↔ (prev = true → cs.head? ≠ some 0xAD) ∧ cs.getLast? ≠ some 0xAD ∧
      ∀ i, ¬ (cs[i]? = some 0xAD ∧ cs[i + 1]? = some 0xAD) := by
  induction cs generalizing prev with
  | nil => simp [restPlaced]
  | cons c cs ih =>
    have hsplit : (∀ i, ¬ ((c :: cs)[i]? = some 0xAD ∧ (c :: cs)[i + 1]? = some 0xAD)) ↔
        ¬ (c = 0xAD ∧ cs.head? = some 0xAD) ∧ ∀ i, ¬ (cs[i]? = some 0xAD ∧ cs[i + 1]? = some 0xAD) := by
      constructor
      · intro h
        refine ⟨?_, fun i => by have := h (i + 1); simpa using this⟩
        have := h 0
        simpa [List.head?_eq_getElem?] using this
      · rintro ⟨h1, h2⟩ i
        cases i with
        | zero => simpa [List.head?_eq_getElem?] using h1
        | succ i => simpa using h2 i
    rw [hsplit]
    by_cases hc : c = 0xAD
    · subst hc
      by_cases hcs : cs = []
      · subst hcs; simp [restPlaced]
      · have hl : (0xAD :: cs).getLast? = cs.getLast? := by
          cases cs with
          | nil => exact absurd rfl hcs
          | cons d ds => simp [List.getLast?_cons_cons]
        have hne : (cs != []) = true := by simpa using hcs
        rw [restPlaced, if_pos rfl, hl, hne]
        simp only [Bool.and_true, Bool.and_eq_true, Bool.not_eq_true', ih true, List.head?_cons, true_and]
        cases prev <;> simp; tauto
    · have hl : (c :: cs).getLast? ≠ some 0xAD ↔ cs.getLast? ≠ some 0xAD := by
        cases cs with
        | nil => simp [hc]
        | cons d ds => simp [List.getLast?_cons_cons]
      rw [restPlaced, if_neg hc, ih false, hl]
      simp [hc]

theorem shyPlaced_iff (w : List Wc) : restPlaced true w = true ↔ ShyPlaced w := by
  rw [restPlaced_iff]; simp [ShyPlaced]

theorem shyPositionsOk_eq (p : List Wc) (ps : List Nat) (h : ∀ n ∈ ps, n < p.length) :
    shyPositionsOk p ps = some (ps.all (fun n => p[n]? == some 0x2D)) := by
  induction ps with
  | nil => rfl
  | cons n ps ih =>
    have hn : n < p.length := h n (by simp)
    rw [shyPositionsOk, rd_eq_some hn]
    simp only [Option.bind_eq_bind, Option.bind_some, Option.pure_def, List.all_cons]
    by_cases hc : p[n] = 0x2D
    · rw [if_neg (by simpa using hc), ih (fun m hm => h m (by simp [hm]))]
      simp [List.getElem?_eq_getElem hn, hc]
    · rw [if_pos hc]
      simp [List.getElem?_eq_getElem hn, hc]

theorem mem_shyPos (n : Nat) (cs : List Wc) (m : Nat) :
    m ∈ shyPos n cs ↔ ∃ i, cs[i]? = some 0xAD ∧ m = n + (stripShy (cs.take i)).length := by
  induction cs generalizing n with
  | nil => simp [shyPos]
  | cons c cs ih =>
    have hsplit : (∃ i, (c :: cs)[i]? = some 0xAD ∧ m = n + (stripShy ((c :: cs).take i)).length) ↔
        (c = 0xAD ∧ m = n) ∨ ∃ i, cs[i]? = some 0xAD ∧ m = n + (stripShy (c :: cs.take i)).length := by
      constructor
      · rintro ⟨i, h1, h2⟩
        cases i with
        | zero => left; simpa [stripShy] using And.intro h1 h2
        | succ i => right; exact ⟨i, by simpa using h1, by simpa using h2⟩
      · rintro (⟨h1, h2⟩ | ⟨i, h1, h2⟩)
        · exact ⟨0, by simp [h1], by simp [stripShy, h2]⟩
        · exact ⟨i + 1, by simpa using h1, by simpa using h2⟩
    rw [hsplit, shyPos]
    by_cases hc : c = 0xAD
    · subst hc
      simp [ih, stripShy]
    · simp only [hc, if_false, ih, false_and, false_or]
      constructor
      · rintro ⟨i, h1, h2⟩
        exact ⟨i, h1, by simp only [stripShy] at h2 ⊢; simp [hc] at h2 ⊢; omega⟩
      · rintro ⟨i, h1, h2⟩
        exact ⟨i, h1, by simp only [stripShy] at h2 ⊢; simp [hc] at h2 ⊢; omega⟩

theorem shyPos_lt (n : Nat) (cs : List Wc) (prev : Bool) (h : restPlaced prev cs = true) :
    ∀ m ∈ shyPos n cs, m < n + (stripShy cs).length := by
  induction cs generalizing n prev with
  | nil => simp [shyPos]
  | cons c cs ih =>
    intro m hm
    rw [restPlaced] at h
    rw [shyPos] at hm
    by_cases hc : c = 0xAD
    · subst hc
      simp only [if_true, Bool.and_eq_true] at h
      simp only [if_true, List.mem_cons] at hm
      rcases hm with rfl | hm
      · cases cs with
        | nil => simp at h
        | cons d ds =>
          have h2 := h.2
          rw [restPlaced] at h2
          by_cases hd : d = 0xAD
          · subst hd; simp at h2
          · simp [stripShy, hd]
      · have := ih n true h.2 m hm
        simpa [stripShy] using this
    · rw [if_neg hc] at h hm
      have := ih (n + 1) false h m hm
      simp [stripShy, hc] at this ⊢
      omega

end Verif.Props
