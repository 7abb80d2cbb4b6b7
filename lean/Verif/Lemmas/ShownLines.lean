import Verif.Lemmas.Spell
import Verif.Spec.Letters
import Verif.Spec.WordBases
/-!
# The values of an analysis are single lines if the output of the transducer is one (for C106)
-/

set_option linter.unusedSimpArgs false
set_option linter.unusedVariables false

namespace Verif.ShownLines
open Verif Verif.Letters Verif.Baseform Verif.WordBases

/-- No line break in the items. -/
def Flat (its : List SItem) : Prop := ∀ x ∈ its, 0x0A ∉ x.render

theorem flat_of : ∀ {its : List SItem}, 0x0A ∉ render its → Flat its
  | [], _ => fun _ h => by cases h
  | y :: its, h => by
    rw [render, List.mem_append, not_or] at h
    intro x hx
    rcases List.mem_cons.1 hx with rfl | hx
    · exact h.1
    · exact flat_of h.2 x hx

theorem strip_flat {w : List Wc} (h : 0x0A ∉ w) : 0x0A ∉ strip w := fun e => h (List.mem_filter.1 e).1

theorem of_strip {w : List Wc} (h : 0x0A ∉ strip w) : 0x0A ∉ w := fun e => h (List.mem_filter.2 ⟨e, by decide⟩)

theorem upper_flat {c : Wc} (h : c ≠ 0x0A) : upper c ≠ 0x0A := by
  rcases Props.upper_eq_or c with e | e <;> omega

/-! ### STRUCTURE -/

theorem letters_flat : ∀ (its : List SItem) (c : Ctx), Flat its → 0x0A ∉ c.need → 0x0A ∉ letters c its
  | [], _, _, _ => by simp [letters]
  | x :: its, c, h, hc => by
    have hr : Flat its := fun y hy => h y (List.mem_cons_of_mem _ hy)
    have hx := h x List.mem_cons_self
    cases x with
    | chr y =>
      have hy : y ≠ 0x0A := fun e => hx (by rw [e]; simp [SItem.render])
      rw [letters, List.mem_cons, not_or]
      refine ⟨?_, letters_flat its _ hr ?_⟩
      · unfold Ctx.describe
        cases hn : c.need with
        | cons q qs => rw [hn] at hc; simp only; intro e; exact hc (by rw [e]; simp)
        | nil =>
          simp only
          split
          · exact fun e => hy e.symm
          · unfold Ctx.letter; split <;> split <;> decide
      · unfold Ctx.pass
        cases hn : c.need with
        | cons q qs => rw [hn] at hc; simp only; intro e; exact hc (List.mem_cons_of_mem _ e)
        | nil =>
          simp only
          split
          · rw [hn]; simp
          · split <;> simp [hn]
    | pat p =>
      refine letters_flat its _ hr ?_
      show 0x0A ∉ strip p
      exact strip_flat fun e => hx (by simp [SItem.render, e])
    | cls k =>
      refine letters_flat its _ hr ?_
      show 0x0A ∉ (c.mark its (.cls k)).need
      unfold Ctx.mark
      split <;> first | exact hc | (rename_i e; cases e)
    | cls2 k l =>
      refine letters_flat its _ hr ?_
      show 0x0A ∉ (c.mark its (.cls2 k l)).need
      unfold Ctx.mark
      split <;> first | exact hc | (rename_i e; cases e)
    | tag n => exact letters_flat its _ hr hc
    | bound k => exact letters_flat its _ hr hc
    | sect k b => exact letters_flat its _ hr hc

theorem lowerPart_flat : ∀ (w : List Wc) (h : Nat), 0x0A ∉ w → 0x0A ∉ lowerPart h w
  | [], h, _ => by cases h <;> simp [lowerPart]
  | c :: w, 0, hw => by
    rw [List.mem_cons, not_or] at hw
    rw [lowerPart]
    split
    · rw [List.mem_cons, not_or]; exact hw
    · rw [List.mem_cons, not_or]
      refine ⟨?_, lowerPart_flat w 0 hw.2⟩
      split
      · decide
      · exact hw.1
  | c :: w, h + 1, hw => by
    rw [List.mem_cons, not_or] at hw
    rw [lowerPart, List.mem_cons, not_or]
    exact ⟨hw.1, lowerPart_flat w _ hw.2⟩

theorem firstCapital_flat : ∀ w : List Wc, 0x0A ∉ w → 0x0A ∉ firstCapital w
  | [], _ => by simp [firstCapital]
  | c :: w, hw => by
    rw [List.mem_cons, not_or] at hw
    rw [firstCapital]
    split
    · rw [List.mem_cons, not_or]; exact ⟨by decide, hw.2⟩
    · rw [List.mem_cons, not_or]; exact ⟨hw.1, firstCapital_flat w hw.2⟩

theorem adjusted_flat (h : Nat) (de : Bool) (st : List Wc) (its : List SItem) (hs : 0x0A ∉ st) : 0x0A ∉ adjusted h de st its := by
  fun_induction adjusted h de st its with
  | case1 => exact hs
  | case2 _ _ st _ _ _ ih => exact ih (lowerPart_flat _ _ hs)
  | case3 _ _ _ _ _ _ _ ih => exact ih hs
  | case4 _ _ _ _ _ _ _ ih => exact ih hs
  | case5 _ _ _ _ ih => exact ih hs
  | case6 => exact firstCapital_flat _ hs
  | case7 => exact hs
  | case8 _ _ _ _ _ ih => exact ih hs
  | case9 => rename_i ih; exact ih hs

/-! ### BASEFORM -/

theorem shown_flat (st : List Wc) (n : Nat) {c : Wc} (h : c ≠ 0x0A) : shown st n c ≠ 0x0A := by
  unfold shown; split
  · exact upper_flat h
  · exact h

theorem capital_flat : ∀ w : List Wc, 0x0A ∉ w → 0x0A ∉ capital w
  | [], _ => by simp [capital]
  | c :: w, hw => by
    rw [List.mem_cons, not_or] at hw
    rw [capital]
    split
    · exact strip_flat hw.2
    · rw [List.mem_cons, not_or]
      exact ⟨fun e => upper_flat (fun h => hw.1 h.symm) e.symm, strip_flat hw.2⟩

theorem sect_flat {its : List SItem} (h : Flat its) {x : SItem} (hx : x ∈ its) {b : List Wc} (hb : BaseSect x b) : 0x0A ∉ b := by
  have := h x hx
  rcases hb with rfl | rfl <;> exact fun e => this (by simp [SItem.render, e])

theorem written_flat {its : List SItem} (hf : Flat its) {st : List Wc} {P : List SItem} {t : List Wc} (h : Written its st P t) :
    (∃ R, its = P ++ R) → 0x0A ∉ t := by
  induction h with
  | nil => intro _; simp
  | mark _ _ ih => rintro ⟨R, e⟩; exact ih ⟨_ :: R, by rw [e, List.append_assoc]; rfl⟩
  | @letter P c t _ _ ih =>
    rintro ⟨R, e⟩
    have hc : c ≠ 0x0A := fun ec => hf (.chr c) (by rw [e]; simp) (by rw [ec]; simp [SItem.render])
    rw [List.mem_append, List.mem_singleton, not_or]
    exact ⟨ih ⟨.chr c :: R, by rw [e, List.append_assoc]; rfl⟩, fun e => shown_flat _ _ hc e.symm⟩
  | @name P A body t _ hrep ih =>
    rintro ⟨R, e⟩
    obtain ⟨⟨M, ⟨x, hP, hx, _⟩, _⟩, _⟩ := hrep
    have hb : 0x0A ∉ body := sect_flat hf (x := x) (by rw [e, hP]; simp) hx
    rw [List.mem_append, List.mem_append, List.mem_singleton, not_or, not_or]
    exact ⟨⟨ih ⟨x :: M ++ [.chr 0x2D] ++ R, by rw [e, hP]; simp⟩, capital_flat _ hb⟩, fun e => shown_flat _ _ (by decide) e.symm⟩

theorem numeralText_flat (on : Bool) (its : List SItem) (h : Flat its) : 0x0A ∉ numeralText on its := by
  fun_induction numeralText on its with
  | case1 => simp
  | case2 on c r hc ih =>
    rw [List.mem_cons, not_or]
    exact ⟨fun e => h (.chr c) List.mem_cons_self (by rw [← e]; simp [SItem.render]), ih fun y hy => h y (List.mem_cons_of_mem _ hy)⟩
  | case3 on c r hc ih => exact ih fun y hy => h y (List.mem_cons_of_mem _ hy)
  | case4 on c body r hc ih =>
    rw [List.mem_append, not_or]
    exact ⟨fun e => h (.sect c body) List.mem_cons_self (by simp [SItem.render, e]), ih fun y hy => h y (List.mem_cons_of_mem _ hy)⟩
  | case5 on c body r hc ih => exact ih fun y hy => h y (List.mem_cons_of_mem _ hy)
  | case6 on c r ih => exact ih fun y hy => h y (List.mem_cons_of_mem _ hy)
  | case7 => rename_i ih; exact ih fun y hy => h y (List.mem_cons_of_mem _ hy)

theorem leading_flat : ∀ its : List SItem, Flat its → 0x0A ∉ leading its
  | [], _ => by simp [leading]
  | x :: its, h => by
    cases x with
    | chr c =>
      rw [leading, List.mem_cons, not_or]
      exact ⟨fun e => h (.chr c) List.mem_cons_self (by rw [← e]; simp [SItem.render]), leading_flat its fun y hy => h y (List.mem_cons_of_mem _ hy)⟩
    | _ => simp [leading]

theorem after_flat : ∀ its : List SItem, Flat its → Flat (after its)
  | [], h => h
  | x :: its, h => by
    cases x with
    | chr c => exact after_flat its fun y hy => h y (List.mem_cons_of_mem _ hy)
    | _ => exact h

theorem base_flat {its : List SItem} (hf : Flat its) {st b : List Wc} (h : BaseOf its st b) : 0x0A ∉ b := by
  rcases h with ⟨Q, R, t, ⟨e, _, _⟩, _, hw, rfl⟩ | ⟨_, _, ⟨A, body, M, t, ⟨x, e, hx, _⟩, _, hw, rfl⟩ | ⟨_, hw⟩⟩
  · have hR : Flat R := fun y hy => hf y (by rw [e]; simp [hy])
    rw [List.mem_append, not_or]
    refine ⟨written_flat hf hw ⟨_, e⟩, ?_⟩
    unfold numeralBase
    split
    · rw [List.mem_append, not_or]; exact ⟨leading_flat R hR, numeralText_flat _ _ (after_flat R hR)⟩
    · exact numeralText_flat _ _ hR
  · rw [List.mem_append, not_or]
    exact ⟨written_flat hf hw ⟨_, e⟩, strip_flat (sect_flat hf (x := x) (by rw [e]; simp) hx)⟩
  · exact written_flat hf hw ⟨[], by simp⟩

/-! ### WORDBASES and WORDIDS -/

/-- No line break in a part. -/
def FlatPart (p : Part) : Prop := 0x0A ∉ p.text ∧ 0x0A ∉ p.base ∧ 0x0A ∉ p.id

theorem suffix_flat {b : List Wc} (h : 0x0A ∉ b) : 0x0A ∉ suffix b := by
  unfold suffix; split
  · simp
  · rw [List.mem_cons, not_or]; exact ⟨by decide, h⟩

theorem parts_flat (p : Part) (its : List SItem) (hp : FlatPart p) (h : Flat its) : ∀ q ∈ parts p its, FlatPart q := by
  have he : FlatPart {} := ⟨by simp, by simp, by simp⟩
  fun_induction parts p its with
  | case1 p => intro q hq; rw [List.mem_singleton.1 hq]; exact hp
  | case2 p _ r ih =>
    intro q hq
    rcases List.mem_cons.1 hq with rfl | hq
    · exact hp
    · exact ih he (fun y hy => h y (List.mem_cons_of_mem _ hy)) q hq
  | case3 p _ _ r ih =>
    intro q hq
    rcases List.mem_cons.1 hq with rfl | hq
    · exact hp
    · exact ih he (fun y hy => h y (List.mem_cons_of_mem _ hy)) q hq
  | case4 p c r hc ih =>
    intro q hq
    rcases List.mem_cons.1 hq with rfl | hq
    · exact hp
    · exact ih ⟨by simp, by simp, by simp⟩ (fun y hy => h y (List.mem_cons_of_mem _ hy)) q hq
  | case5 p c r hc ih =>
    refine ih ⟨?_, hp.2⟩ fun y hy => h y (List.mem_cons_of_mem _ hy)
    show 0x0A ∉ p.text ++ [c]
    rw [List.mem_append, List.mem_singleton, not_or]
    exact ⟨hp.1, fun e => h (.chr c) List.mem_cons_self (by rw [← e]; simp [SItem.render])⟩
  | case6 p body r ih =>
    refine ih ⟨hp.1, ?_, hp.2.2⟩ fun y hy => h y (List.mem_cons_of_mem _ hy)
    exact sect_flat h List.mem_cons_self (.inl rfl)
  | case7 p body r hc he' ih =>
    refine ih ⟨hp.1, ?_, hp.2.2⟩ fun y hy => h y (List.mem_cons_of_mem _ hy)
    exact suffix_flat (sect_flat h List.mem_cons_self (.inr rfl))
  | case8 p body r hc he' ih =>
    intro q hq
    rcases List.mem_cons.1 hq with rfl | hq
    · exact hp
    · exact ih ⟨by simp, suffix_flat (sect_flat h List.mem_cons_self (.inr rfl)), by simp⟩ (fun y hy => h y (List.mem_cons_of_mem _ hy)) q hq
  | case9 p c body r h1 h2 ih =>
    refine ih ⟨hp.1, hp.2.1, ?_⟩ fun y hy => h y (List.mem_cons_of_mem _ hy)
    exact fun e => h (.sect c body) List.mem_cons_self (by simp [SItem.render, e])
  | case10 => rename_i ih; exact ih hp fun y hy => h y (List.mem_cons_of_mem _ hy)

theorem inner_flat {note : Part → List Wc} {p : Part} (hp : FlatPart p) (hn : 0x0A ∉ note p) : 0x0A ∉ inner note p := by
  unfold inner lead
  rw [List.mem_append, List.mem_append, List.mem_append, not_or, not_or, not_or]
  exact ⟨⟨⟨by split <;> decide, by split <;> decide⟩, hp.1⟩, hn⟩

theorem final_flat {note : Part → List Wc} {p : Part} (hp : FlatPart p) (hn : 0x0A ∉ note p) : 0x0A ∉ final note p := by
  unfold final
  split
  · exact inner_flat hp hn
  · rw [List.mem_append, List.mem_append, List.mem_append, not_or, not_or, not_or]
    exact ⟨⟨⟨by split <;> decide, by split <;> decide⟩, strip_flat hp.2.1⟩, hn⟩

theorem describe_flat {note : Part → List Wc} (hn : ∀ p, FlatPart p → 0x0A ∉ note p) : ∀ ps : List Part, (∀ p ∈ ps, FlatPart p) → 0x0A ∉ describe note ps
  | [], _ => by simp [describe]
  | [p], h => by rw [describe]; exact final_flat (h p List.mem_cons_self) (hn p (h p List.mem_cons_self))
  | p :: q :: r, h => by
    rw [describe, List.mem_append, not_or]
    exact ⟨inner_flat (h p List.mem_cons_self) (hn p (h p List.mem_cons_self)), describe_flat hn (q :: r) fun x hx => h x (List.mem_cons_of_mem _ hx)⟩

theorem baseNote_flat (p : Part) (h : FlatPart p) : 0x0A ∉ baseNote p := by
  unfold baseNote; split
  · simp
  · rw [List.mem_append, List.mem_append, not_or, not_or]; exact ⟨⟨by decide, h.2.1⟩, by decide⟩

theorem idNote_flat (p : Part) (h : FlatPart p) : 0x0A ∉ idNote p := by
  unfold idNote; split
  · simp
  · rw [List.mem_append, List.mem_append, not_or, not_or]; exact ⟨⟨by decide, h.2.2⟩, by decide⟩

theorem bases_flat {its : List SItem} (h : Flat its) : 0x0A ∉ describe baseNote (parts {} its) :=
  describe_flat baseNote_flat _ (parts_flat {} its ⟨by simp, by simp, by simp⟩ h)

theorem ids_flat {its : List SItem} (h : Flat its) : 0x0A ∉ describe idNote (parts {} its) :=
  describe_flat idNote_flat _ (parts_flat {} its ⟨by simp, by simp, by simp⟩ h)

end Verif.ShownLines
