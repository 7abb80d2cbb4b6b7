import Verif.Lemmas.FstCount
import Verif.Lemmas.FstWNext
/-!
# Sequences of calls of the weighted look-up
-/

set_option linter.unusedSimpArgs false
set_option linter.unusedVariables false

namespace Verif.Props
open Verif

section
variable {f : WFst} {S : Nat → Prop} {input : List Nat}

/-- Why a search may end early. -/
def WLimit (f : WFst) (input : List Nat) (bufferSize bufferLen : Nat) : WNextRes → Prop
  | .outputLimit => ∃ q n, Accepting (plainFst f) input false q n ∧ bufferLen ≤ (outputOf (plainFst f) q).length + 1
  | .stackLimit => ∃ q e, Path (plainFst f) input (startPoint (plainFst f)) q e ∧ q.length + 1 = bufferSize
  | .loopLimit => ∃ L : List (List Nat), L.Nodup ∧ maxLoopCount ≤ 2 * L.length ∧
      ∀ p ∈ L, ∃ e, Path (plainFst f) input (startPoint (plainFst f)) p e
  | _ => False

theorem accepting_length {g : Fst} {q : List Nat} {n : Nat} (h : Accepting g input false q n) : n = input.length := by
  obtain ⟨as, a, p, t, e1, e2, e3, e4, e5, e6, e7⟩ := h
  exact e7 rfl

/-- A sequence of calls, from any point of the search. -/
theorem wenumerate_spec (wf : WWellFormed f S) (hin : ∀ x ∈ input, f.firstNormal ≤ x) (hmask : NoMaskedFlag (plainFst f) input)
    {bufferLen : Nat} (hbl : 0 < bufferLen) : ∀ n c rows, Inv (plainFst f) input c → RowsRel c.flags c.log rows →
      ∃ (qs : List (List Nat)) (tail : List WNextRes) (w' : WConf),
        wenumerate f bufferLen n (toW c rows) =
          some (qs.map (fun q => .found (outputOf (plainFst f) q) (pathWeight f q)) ++ tail, w') ∧
        (∀ q ∈ qs, Accepting (plainFst f) input false q input.length ∧ ¬ Before q (Conf.place c)) ∧
        qs.Pairwise Before ∧
        ((tail = [] ∧ qs.length = n) ∨
          (tail = [.exhausted] ∧ ∀ q m, Accepting (plainFst f) input false q m → Before q (Conf.place c) ∨ q ∈ qs) ∨
          ∃ r, tail = [r] ∧ WLimit f input c.bufferSize bufferLen r) := by
  intro n
  induction n with
  | zero => intro c rows hc hr; exact ⟨[], [], _, rfl, by simp, by simp, .inl ⟨rfl, rfl⟩⟩
  | succ n ih =>
    intro c rows hc hr
    obtain ⟨r, c1, h1, hsz, h2⟩ := nextLoop_spec wf.plain hin false hbl maxLoopCount c hc
    obtain ⟨r0, c0, wr, reached', rows1, k1, k2, k3, k4⟩ :=
      wnextLoop_sim wf hin hmask hbl maxLoopCount (toW c rows).inputDepth c rows hc hr
    rw [h1] at k1
    cases k1
    have hen : wenumerate f bufferLen (n + 1) (toW c rows) = (match (generalizing := false) wr with
        | .found _ _ => (wenumerate f bufferLen n (toW c1 rows1)).bind fun x => some (wr :: x.1, x.2)
        | _ => some ([wr], toW c1 rows1)) := by
      rw [wenumerate, wnext, k2, ub_bind]
      cases wr
      all_goals rfl
    rw [hen]
    cases r with
    | found out m =>
      obtain ⟨hc1, q, hqe, hacc, hout, hnb, hq⟩ := h2
      have k4' : wr = .found out (pathWeight f q) := by rw [hqe]; exact k4
      subst k4'
      obtain ⟨qs, tail, w', g1, g2, g3, g4⟩ := ih c1 rows1 hc1 k3
      have hqb : Before q (Conf.place c1) := (hq q m hacc).2 (.inr rfl)
      have hmono : ∀ q' n', Accepting (plainFst f) input false q' n' → ¬ Before q' (Conf.place c1) → Before q q' := by
        intro q' n' ha hb
        rcases accepting_total hacc ha with h | h | h
        · exact h
        · exact absurd (before_trans h hqb) hb
        · exact absurd (h ▸ hqb) hb
      refine ⟨q :: qs, tail, w', ?_, ?_, ?_, ?_⟩
      · simp only [g1, Option.bind_some, List.map_cons, List.cons_append, hout]
      · intro x hx
        rcases List.mem_cons.1 hx with rfl | hx
        · exact ⟨accepting_length hacc ▸ hacc, hnb⟩
        · refine ⟨(g2 x hx).1, fun hb => (g2 x hx).2 ?_⟩
          exact (hq _ _ (g2 x hx).1).2 (.inl hb)
      · refine List.pairwise_cons.2 ⟨fun x hx => ?_, g3⟩
        exact hmono _ _ (g2 x hx).1 (g2 x hx).2
      · rcases g4 with ⟨h, h'⟩ | ⟨h, h'⟩ | ⟨r, h, h'⟩
        · exact .inl ⟨h, by simp [h']⟩
        · refine .inr (.inl ⟨h, fun q' m' ha => ?_⟩)
          rcases h' q' m' ha with h3 | h3
          · rcases (hq q' m' ha).1 h3 with h4 | h4
            · exact .inl h4
            · exact .inr (h4 ▸ List.mem_cons_self)
          · exact .inr (List.mem_cons_of_mem _ h3)
        · exact .inr (.inr ⟨r, h, hsz ▸ h'⟩)
    | exhausted =>
      have k4' : wr = .exhausted := k4
      subst k4'
      exact ⟨[], [.exhausted], _, rfl, by simp, by simp, .inr (.inl ⟨rfl, fun q m ha => .inl (h2.2.2 q m ha)⟩)⟩
    | outputLimit =>
      have k4' : wr = .outputLimit := k4
      subst k4'
      exact ⟨[], [.outputLimit], _, rfl, by simp, by simp, .inr (.inr ⟨_, rfl, h2⟩)⟩
    | stackLimit =>
      have k4' : wr = .stackLimit := k4
      subst k4'
      exact ⟨[], [.stackLimit], _, rfl, by simp, by simp, .inr (.inr ⟨_, rfl, h2⟩)⟩
    | loopLimit =>
      have k4' : wr = .loopLimit := k4
      subst k4'
      exact ⟨[], [.loopLimit], _, rfl, by simp, by simp,
        .inr (.inr ⟨_, rfl, loopLimit_many wf.plain hin false hbl hc h1⟩)⟩

end

end Verif.Props
