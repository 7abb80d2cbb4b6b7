import Verif.Model.Legacy
import Verif.Props.Handles
import Verif.Props.Tokenizer
import Verif.Props.SpellExact
/-!
# C111: sessions of the deprecated interface do not disturb each other
-/

set_option linter.unusedSimpArgs false
set_option linter.unusedVariables false

namespace Verif.Legacy
open Verif Verif.Props

variable {H Op R : Type}

/-! ## Programs that use the interface -/

/-- A call made by a program. -/
inductive Call (H Op : Type) where
  /-- `voikko_init` with a language, a cache size, and what `voikkoInit` would give -/
  | init (lang : Option (List Nat)) (cacheSize : Int) (make : List Nat → Option H)
  | terminate (h : Int)
  | use (h : Int) (op : Op)

/-- What a call returns. -/
inductive Out (R : Type) where
  | opened (r : InitResult)
  | closed (r : Nat)
  | result (r : R)

/-- One call. -/
def step (junk : Nat → List Nat) (apply : H → Op → UB (H × R)) (resize : H → Int → UB H) (t : HandleTable H) :
    Call H Op → UB (HandleTable H × Out R)
  | .init lang cacheSize make => do
    let (t, r) ← legacyOpen junk make resize t lang cacheSize
    some (t, .opened r)
  | .terminate h => do
    let (t, _, r) ← legacyTerminate t h
    some (t, .closed r)
  | .use h op => do
    let (t, r) ← legacyUse apply t h op
    some (t, .result r)

/-- The calls of a program, one after the other, with what they return. -/
def run (junk : Nat → List Nat) (apply : H → Op → UB (H × R)) (resize : H → Int → UB H) :
    HandleTable H → List (Call H Op) → UB (HandleTable H × List (Out R))
  | t, [] => some (t, [])
  | t, c :: cs => do
    let (t, o) ← step junk apply resize t c
    let (t, os) ← run junk apply resize t cs
    some (t, o :: os)

/-! ## Specification -/

/-- The functions called with the handle `h`, up to the first `voikko_terminate` of it. -/
def ownOps (h : Int) : List (Call H Op) → List Op
  | [] => []
  | .use k op :: cs => if k = h then op :: ownOps h cs else ownOps h cs
  | .terminate k :: cs => if k = h then [] else ownOps h cs
  | .init .. :: cs => ownOps h cs

/-- What these calls returned. -/
def ownResults (h : Int) : List (Call H Op) → List (Out R) → List R
  | .use k op :: cs, .result r :: os => if k = h then r :: ownResults h cs os else ownResults h cs os
  | .terminate k :: cs, _ :: os => if k = h then [] else ownResults h cs os
  | _ :: cs, _ :: os => ownResults h cs os
  | _, _ => []

/-- An object that is used alone: it is given the functions one after the other and nothing else happens to it. -/
inductive Alone (apply : H → Op → UB (H × R)) : H → List Op → H → List R → Prop where
  | nil (x : H) : Alone apply x [] x []
  | cons {x y z : H} {op : Op} {r : R} {ops : List Op} {rs : List R} (h : apply x op = some (y, r)) (t : Alone apply y ops z rs) :
      Alone apply x (op :: ops) z (r :: rs)

/-- `h` is not terminated by these calls. -/
def Kept (h : Int) (cs : List (Call H Op)) : Prop := ∀ c ∈ cs, ∀ k, c = .terminate k → k ≠ h

/-- The language strings have no NUL inside. -/
def Clean (c : Call H Op) : Prop := ∀ lang n make, c = .init lang n make → ∀ l, lang = some l → 0 ∉ l

/-! ## The table -/

theorem handleAt_live {t : HandleTable H} (ht : GoodTable t) (h : Int) : handleAt t h = liveAt t h := by
  unfold handleAt
  cases t with
  | none => rfl
  | some a =>
    obtain ⟨s1, s2, s3, s4, rfl⟩ := ht a rfl
    simp only [Option.bind_eq_bind, Option.bind_some, liveAt]
    by_cases h0 : h < 0
    · rw [if_pos h0, if_neg (by omega)]; rfl
    · rw [if_neg h0]
      by_cases hr : 1 ≤ h ∧ h < 5
      · rw [if_pos hr]
        have : h = 1 ∨ h = 2 ∨ h = 3 ∨ h = 4 := by omega
        rcases this with rfl | rfl | rfl | rfl <;> rfl
      · rw [if_neg hr]
        by_cases hz : h = 0
        · subst hz; rfl
        · have : [none, s1, s2, s3, s4].length ≤ h.toNat := by simp only [List.length_cons, List.length_nil]; omega
          unfold rd
          rw [List.getElem?_eq_none_iff.2 this]
          rfl

/-- Writing an object to the slot of a live handle changes this handle only. -/
theorem put_live {t : HandleTable H} (ht : GoodTable t) {h : Int} {x : H} (hx : liveAt t h = some x) (y : H) :
    ∃ a a', t = some a ∧ wr a h.toNat (some y) = some a' ∧ GoodTable (some a') ∧ liveAt (some a') h = some y ∧
      ∀ i, i ≠ h → liveAt (some a') i = liveAt t i := by
  cases t with
  | none => cases hx
  | some a =>
    obtain ⟨s1, s2, s3, s4, rfl⟩ := ht a rfl
    have hr : 1 ≤ h ∧ h < 5 := by
      apply Decidable.byContradiction
      intro hn
      simp only [liveAt, if_neg hn] at hx
      cases hx
    have h4 : h = 1 ∨ h = 2 ∨ h = 3 ∨ h = 4 := by omega
    have other : ∀ (u v : HandleTable H), (∀ i : Int, i = 1 ∨ i = 2 ∨ i = 3 ∨ i = 4 → i ≠ h → liveAt u i = liveAt v i) →
        ∀ i, i ≠ h → liveAt u i = liveAt v i := by
      intro u v huv i hi
      by_cases hri : 1 ≤ i ∧ i < 5
      · exact huv i (by omega) hi
      · cases u <;> cases v <;> simp only [liveAt, if_neg hri]
    rcases h4 with rfl | rfl | rfl | rfl <;>
    · refine ⟨_, _, rfl, rfl, ?_, rfl, other _ _ ?_⟩
      · intro b hb
        cases hb
        exact ⟨_, _, _, _, rfl⟩
      · rintro i (rfl | rfl | rfl | rfl) hi <;> first | rfl | exact absurd rfl hi

/-- A function called with a live handle does to the object behind it what it does, and nothing to the other objects. -/
theorem use_live (apply : H → Op → UB (H × R)) {t : HandleTable H} (ht : GoodTable t) {h : Int} {x : H} (hx : liveAt t h = some x)
    (op : Op) :
    (apply x op = none ∧ legacyUse apply t h op = none) ∨
    ∃ y r t', apply x op = some (y, r) ∧ legacyUse apply t h op = some (t', r) ∧ GoodTable t' ∧ liveAt t' h = some y ∧
      ∀ i, i ≠ h → liveAt t' i = liveAt t i := by
  unfold legacyUse
  rw [handleAt_live ht, hx]
  simp only [Option.bind_eq_bind, Option.bind_some]
  cases ha : apply x op with
  | none => exact .inl ⟨rfl, rfl⟩
  | some p =>
    obtain ⟨y, r⟩ := p
    obtain ⟨a, a', rfl, h2, h3, h4, h5⟩ := put_live ht hx y
    right
    simp only [Option.bind_some, h2]
    exact ⟨y, r, _, rfl, rfl, h3, h4, h5⟩

/-- A function called with a number that is not a live handle: undefined. -/
theorem use_dead (apply : H → Op → UB (H × R)) {t : HandleTable H} (ht : GoodTable t) {h : Int} (hx : liveAt t h = none)
    (op : Op) : legacyUse apply t h op = none := by
  unfold legacyUse
  rw [handleAt_live ht, hx]
  rfl

/-- `voikko_init`. -/
theorem open_cases {junk : Nat → List Nat} (hjunk : ∀ n, (junk n).length = n) (resize : H → Int → UB H) {t : HandleTable H}
    (ht : GoodTable t) {lang : Option (List Nat)} (hz : ∀ l, lang = some l → 0 ∉ l) (n : Int) (make : List Nat → Option H) :
    (∃ x, resize x n = none ∧ (∃ s, make s = some x) ∧ legacyOpen junk make resize t lang n = none) ∨
    ∃ t' r, legacyOpen junk make resize t lang n = some (t', r) ∧ GoodTable t' ∧
      (∀ k, r = .ok k → 1 ≤ k ∧ k ≤ 4 ∧ liveAt t k = none ∧
        (∃ l s x y, lang = some l ∧ meansLegacy l s ∧ make s = some x ∧ resize x n = some y ∧ liveAt t' k = some y) ∧
        ∀ i, i ≠ (k : Int) → liveAt t' i = liveAt t i) ∧
      ((∀ k, r ≠ .ok k) → ∀ i, liveAt t' i = liveAt t i) ∧
      (r = .full ↔ ∀ i : Int, 1 ≤ i → i ≤ 4 → liveAt t i ≠ none) := by
  obtain ⟨t1, r, h1, h2, h3, h4, h5⟩ := C50_init junk hjunk make ht lang hz
  unfold legacyOpen
  rw [h1]
  simp only [Option.bind_eq_bind, Option.bind_some]
  cases r with
  | ok k =>
    obtain ⟨a1, a2, a3, ⟨l, s, x, b1, b2, b3, b4⟩, a4⟩ := h3 k rfl
    simp only [handleAt_live h2, b4, Option.bind_some]
    cases hr : resize x n with
    | none => exact .inl ⟨x, hr, ⟨s, b3⟩, rfl⟩
    | some y =>
      obtain ⟨a, a', rfl, c2, c3, c4, c5⟩ := put_live h2 b4 y
      have c2' : wr a k (some y) = some a' := c2
      right
      simp only [Option.bind_some, c2']
      refine ⟨_, _, rfl, c3, ?_, ?_, h5⟩
      · intro k' hk'
        cases hk'
        exact ⟨a1, a2, a3, ⟨l, s, x, y, b1, b2, b3, hr, c4⟩, fun i hi => (c5 i hi).trans (a4 i hi)⟩
      · intro hk
        exact absurd rfl (hk k)
  | full => exact .inr ⟨_, _, rfl, h2, (by intro k hk; cases hk), h4, h5⟩
  | nullLanguage => exact .inr ⟨_, _, rfl, h2, (by intro k hk; cases hk), h4, h5⟩
  | error => exact .inr ⟨_, _, rfl, h2, (by intro k hk; cases hk), h4, h5⟩

/-- A call that is not a call of `h` leaves the object behind `h` alone. -/
theorem step_other {junk : Nat → List Nat} (hjunk : ∀ n, (junk n).length = n) {apply : H → Op → UB (H × R)}
    {resize : H → Int → UB H} {t t' : HandleTable H} (ht : GoodTable t) {c : Call H Op} (hc : Clean c) {o : Out R}
    (hs : step junk apply resize t c = some (t', o)) :
    GoodTable t' ∧ ∀ h x, liveAt t h = some x → (∀ op, c ≠ .use h op) → c ≠ .terminate h → liveAt t' h = some x := by
  cases c with
  | init lang n make =>
    rcases open_cases hjunk resize ht (hc _ _ _ rfl) n make with ⟨_, _, _, h1⟩ | ⟨t1, r, h1, h2, h3, h4, _⟩
    · simp only [step, h1] at hs; cases hs
    · simp only [step, h1, Option.bind_eq_bind, Option.bind_some, Option.some.injEq, Prod.mk.injEq] at hs
      obtain ⟨rfl, _⟩ := hs
      refine ⟨h2, ?_⟩
      intro h x hx _ _
      cases r with
      | ok k =>
        obtain ⟨_, _, a3, _, a4⟩ := h3 k rfl
        rw [a4 h (by rintro rfl; rw [a3] at hx; cases hx), hx]
      | full => rw [h4 (by simp), hx]
      | nullLanguage => rw [h4 (by simp), hx]
      | error => rw [h4 (by simp), hx]
  | terminate k =>
    rcases legacyTerminate_cases ht k with e | e | ⟨y, hy⟩
    · simp only [step, e] at hs; cases hs
    · simp only [step, e, Option.bind_eq_bind, Option.bind_some, Option.some.injEq, Prod.mk.injEq] at hs
      obtain ⟨rfl, _⟩ := hs
      exact ⟨ht, fun h x hx _ _ => hx⟩
    · obtain ⟨t1, h1, h2, _, h4⟩ := C50_terminate_live ht hy
      simp only [step, h1, Option.bind_eq_bind, Option.bind_some, Option.some.injEq, Prod.mk.injEq] at hs
      obtain ⟨rfl, _⟩ := hs
      refine ⟨h2, ?_⟩
      intro h x hx _ hk
      rw [h4 h (by rintro rfl; exact hk rfl), hx]
  | use k op =>
    cases hy : liveAt t k with
    | none => simp only [step, use_dead apply ht hy op] at hs; cases hs
    | some y =>
      rcases use_live apply ht hy op with ⟨_, e⟩ | ⟨z, r, t1, _, h1, h2, h3, h4⟩
      · simp only [step, e] at hs; cases hs
      · simp only [step, h1, Option.bind_eq_bind, Option.bind_some, Option.some.injEq, Prod.mk.injEq] at hs
        obtain ⟨rfl, _⟩ := hs
        refine ⟨h2, ?_⟩
        intro h x hx hk _
        rw [h4 h (by rintro rfl; exact hk op rfl), hx]

/-! ## Theorems -/

/-- In a program that makes any calls with any handles, the calls made with a live handle `h` (until it is terminated) return what
the object behind it returns if it is used alone, and leave it in the same state. -/
theorem C111_isolated {junk : Nat → List Nat} (hjunk : ∀ n, (junk n).length = n) (apply : H → Op → UB (H × R))
    (resize : H → Int → UB H) {cs : List (Call H Op)} (hc : ∀ c ∈ cs, Clean c) {t t' : HandleTable H} (ht : GoodTable t)
    {os : List (Out R)} (hr : run junk apply resize t cs = some (t', os)) {h : Int} {x : H} (hx : liveAt t h = some x) :
    GoodTable t' ∧ ∃ y, Alone apply x (ownOps h cs) y (ownResults h cs os) ∧ (Kept h cs → liveAt t' h = some y) := by
  have good : ∀ (cs : List (Call H Op)) (t t' : HandleTable H) (os : List (Out R)), (∀ c ∈ cs, Clean c) → GoodTable t →
      run junk apply resize t cs = some (t', os) → GoodTable t' := by
    intro cs
    induction cs with
    | nil => intro t t' os _ ht hr; cases hr; exact ht
    | cons c cs ih =>
      intro t t' os hc ht hr
      simp only [run, Option.bind_eq_bind] at hr
      obtain ⟨⟨t1, o⟩, h1, hr⟩ := Option.bind_eq_some_iff.1 hr
      obtain ⟨⟨t2, os2⟩, h2, hr⟩ := Option.bind_eq_some_iff.1 hr
      cases hr
      exact ih t1 _ _ (fun c hm => hc c (List.mem_cons_of_mem _ hm)) (step_other hjunk ht (hc c List.mem_cons_self) h1).1 h2
  refine ⟨good cs t t' os hc ht hr, ?_⟩
  induction cs generalizing t x os with
  | nil => cases hr; exact ⟨x, .nil x, fun _ => hx⟩
  | cons c cs ih =>
    simp only [run, Option.bind_eq_bind] at hr
    obtain ⟨⟨t1, o⟩, h1, hr⟩ := Option.bind_eq_some_iff.1 hr
    obtain ⟨⟨t2, os2⟩, h2, hr⟩ := Option.bind_eq_some_iff.1 hr
    simp only [Option.some.injEq, Prod.mk.injEq] at hr
    obtain ⟨rfl, rfl⟩ := hr
    have hc1 := hc c List.mem_cons_self
    have hc2 : ∀ d ∈ cs, Clean d := fun d hm => hc d (List.mem_cons_of_mem _ hm)
    obtain ⟨g1, keep⟩ := step_other hjunk ht hc1 h1
    have kc : Kept h (c :: cs) → Kept h cs := fun hk d hm => hk d (List.mem_cons_of_mem _ hm)
    cases c with
    | init lang n make =>
      obtain ⟨y, hy1, hy2⟩ := ih hc2 g1 h2 (keep h x hx (by simp) (by simp))
      exact ⟨y, by simpa only [ownOps, ownResults] using hy1, fun hk => hy2 (kc hk)⟩
    | terminate k =>
      by_cases hk : k = h
      · subst hk
        refine ⟨x, ?_, fun hk => absurd rfl (hk _ List.mem_cons_self k rfl)⟩
        simp only [ownOps, ownResults, if_pos]
        exact .nil x
      · obtain ⟨y, hy1, hy2⟩ := ih hc2 g1 h2 (keep h x hx (by simp) (by simp [hk]))
        exact ⟨y, by simpa only [ownOps, ownResults, if_neg hk] using hy1, fun hk => hy2 (kc hk)⟩
    | use k op =>
      by_cases hk : k = h
      · subst hk
        rcases use_live apply ht hx op with ⟨_, e⟩ | ⟨z, r, t3, a1, a2, a3, a4, _⟩
        · simp only [step, e] at h1; cases h1
        · simp only [step, a2, Option.bind_eq_bind, Option.bind_some, Option.some.injEq, Prod.mk.injEq] at h1
          obtain ⟨rfl, rfl⟩ := h1
          obtain ⟨y, hy1, hy2⟩ := ih hc2 g1 h2 a4
          refine ⟨y, ?_, fun hk => hy2 (kc hk)⟩
          simp only [ownOps, ownResults, if_pos]
          exact .cons a1 hy1
      · obtain ⟨y, hy1, hy2⟩ := ih hc2 g1 h2 (keep h x hx (by simp [hk]) (by simp))
        refine ⟨y, ?_, fun hk => hy2 (kc hk)⟩
        cases hl : liveAt t k with
        | none => simp only [step, use_dead apply ht hl op] at h1; cases h1
        | some z =>
          rcases use_live apply ht hl op with ⟨_, e⟩ | ⟨_, r, t3, _, a2, _⟩
          · simp only [step, e] at h1; cases h1
          · simp only [step, a2, Option.bind_eq_bind, Option.bind_some, Option.some.injEq, Prod.mk.injEq] at h1
            obtain ⟨_, rfl⟩ := h1
            simpa only [ownOps, ownResults, if_neg hk] using hy1

theorem run_append {junk : Nat → List Nat} {apply : H → Op → UB (H × R)} {resize : H → Int → UB H} :
    ∀ (c1 c2 : List (Call H Op)) (t t' : HandleTable H) (os : List (Out R)), run junk apply resize t (c1 ++ c2) = some (t', os) →
    ∃ tm os1 os2, run junk apply resize t c1 = some (tm, os1) ∧ run junk apply resize tm c2 = some (t', os2) ∧ os = os1 ++ os2 ∧
      os1.length = c1.length := by
  intro c1
  induction c1 with
  | nil => intro c2 t t' os h; exact ⟨t, [], os, rfl, h, rfl, rfl⟩
  | cons c c1 ih =>
    intro c2 t t' os h
    simp only [List.cons_append, run, Option.bind_eq_bind] at h
    obtain ⟨⟨t1, o⟩, h1, h⟩ := Option.bind_eq_some_iff.1 h
    obtain ⟨⟨t2, os2⟩, h2, h⟩ := Option.bind_eq_some_iff.1 h
    simp only [Option.some.injEq, Prod.mk.injEq] at h
    obtain ⟨rfl, rfl⟩ := h
    obtain ⟨tm, p, q, a1, a2, rfl, a4⟩ := ih c2 t1 t2 os2 h2
    refine ⟨tm, o :: p, q, ?_, a2, rfl, by simp [a4]⟩
    simp only [run, h1, Option.bind_eq_bind, Option.bind_some, a1]

theorem run_good {junk : Nat → List Nat} (hjunk : ∀ n, (junk n).length = n) {apply : H → Op → UB (H × R)}
    {resize : H → Int → UB H} : ∀ (cs : List (Call H Op)) (t t' : HandleTable H) (os : List (Out R)), (∀ c ∈ cs, Clean c) →
    GoodTable t → run junk apply resize t cs = some (t', os) → GoodTable t' := by
  intro cs
  induction cs with
  | nil => intro t t' os _ ht hr; cases hr; exact ht
  | cons c cs ih =>
    intro t t' os hc ht hr
    simp only [run, Option.bind_eq_bind] at hr
    obtain ⟨⟨t1, o⟩, h1, hr⟩ := Option.bind_eq_some_iff.1 hr
    obtain ⟨⟨t2, os2⟩, h2, hr⟩ := Option.bind_eq_some_iff.1 hr
    cases hr
    exact ih t1 _ _ (fun c hm => hc c (List.mem_cons_of_mem _ hm)) (step_other hjunk ht (hc c List.mem_cons_self) h1).1 h2

/-- A whole program, from its start. If a `voikko_init` in it gave the handle `k`, then `k` is one of 1, 2, 3, 4, `voikkoInit` made an
object for the language meant by the code, its cache was given the wanted size, and the calls made with `k` from then on (until it is
terminated) return what this object returns if it is used alone. -/
theorem C111_session {junk : Nat → List Nat} (hjunk : ∀ n, (junk n).length = n) (apply : H → Op → UB (H × R))
    (resize : H → Int → UB H) {before after : List (Call H Op)} {lang : Option (List Nat)} {n : Int} {make : List Nat → Option H}
    (hc : ∀ c ∈ before ++ .init lang n make :: after, Clean c) {t : HandleTable H} {os1 os2 : List (Out R)} {k : Nat}
    (hl : os1.length = before.length)
    (hr : run junk apply resize none (before ++ .init lang n make :: after) = some (t, os1 ++ .opened (.ok k) :: os2)) :
    1 ≤ k ∧ k ≤ 4 ∧ ∃ l s x y z, lang = some l ∧ meansLegacy l s ∧ make s = some x ∧ resize x n = some y ∧
      Alone apply y (ownOps k after) z (ownResults k after os2) ∧ (Kept k after → liveAt t k = some z) := by
  obtain ⟨tm, p, q, a1, a2, a3, a4⟩ := run_append _ _ _ _ _ hr
  obtain ⟨rfl, rfl⟩ := List.append_inj a3 (by omega)
  have hc1 : ∀ c ∈ before, Clean c := fun c hm => hc c (List.mem_append_left _ hm)
  have hc2 : ∀ c ∈ after, Clean c := fun c hm => hc c (List.mem_append_right _ (List.mem_cons_of_mem _ hm))
  have hci := hc (.init lang n make) (List.mem_append_right _ List.mem_cons_self)
  have gm := run_good hjunk before none tm os1 hc1 (by intro a ha; cases ha) a1
  simp only [run, Option.bind_eq_bind] at a2
  obtain ⟨⟨t1, o⟩, h1, a2⟩ := Option.bind_eq_some_iff.1 a2
  obtain ⟨⟨t2, q⟩, h2, a2⟩ := Option.bind_eq_some_iff.1 a2
  simp only [Option.some.injEq, Prod.mk.injEq, List.cons.injEq] at a2
  obtain ⟨rfl, rfl, rfl⟩ := a2
  rcases open_cases hjunk resize gm (hci _ _ _ rfl) n make with ⟨_, _, _, e⟩ | ⟨t3, r, b1, b2, b3, _⟩
  · simp only [step, e] at h1; cases h1
  · simp only [step, b1, Option.bind_eq_bind, Option.bind_some, Option.some.injEq, Prod.mk.injEq, Out.opened.injEq] at h1
    obtain ⟨rfl, rfl⟩ := h1
    obtain ⟨d1, d2, _, ⟨l, s, x, y, e1, e2, e3, e4, e5⟩, _⟩ := b3 k rfl
    obtain ⟨_, z, f1, f2⟩ := C111_isolated hjunk apply resize hc2 b2 h2 e5
    exact ⟨d1, d2, l, s, x, y, z, e1, e2, e3, e4, f1, f2⟩

/-- Every function is used with a live handle only, and `voikko_terminate` with a number outside of 1..4 or while some handle is
live. -/
def Careful (junk : Nat → List Nat) (apply : H → Op → UB (H × R)) (resize : H → Int → UB H) : HandleTable H → List (Call H Op) → Prop
  | _, [] => True
  | t, c :: cs => (∀ h op, c = .use h op → liveAt t h ≠ none) ∧
      (∀ h, c = .terminate h → h < 1 ∨ 4 < h ∨ ∃ i, liveAt t i ≠ none) ∧
      ∀ t' o, step junk apply resize t c = some (t', o) → Careful junk apply resize t' cs

/-- A careful program has no undefined behaviour, if none of the objects has: `I` is what the objects satisfy and `A` the functions
that may be used. -/
theorem C111_defined {junk : Nat → List Nat} (hjunk : ∀ n, (junk n).length = n) (apply : H → Op → UB (H × R))
    (resize : H → Int → UB H) {I : H → Prop} {A : Op → Prop}
    (hI : ∀ x op, I x → A op → ∃ y r, apply x op = some (y, r) ∧ I y) {cs : List (Call H Op)} (hc : ∀ c ∈ cs, Clean c)
    (hA : ∀ c ∈ cs, ∀ h op, c = .use h op → A op)
    (hm : ∀ c ∈ cs, ∀ lang n make, c = .init lang n make → ∀ s x, make s = some x → ∃ y, resize x n = some y ∧ I y)
    {t : HandleTable H} (ht : GoodTable t) (hl : ∀ h x, liveAt t h = some x → I x) (hcare : Careful junk apply resize t cs) :
    ∃ t' os, run junk apply resize t cs = some (t', os) ∧ ∀ h x, liveAt t' h = some x → I x := by
  induction cs generalizing t with
  | nil => exact ⟨t, [], rfl, hl⟩
  | cons c cs ih =>
    have key : ∃ t1 o, step junk apply resize t c = some (t1, o) ∧ ∀ h x, liveAt t1 h = some x → I x := by
      cases c with
      | init lang n make =>
        have hm' := hm _ List.mem_cons_self lang n make rfl
        rcases open_cases hjunk resize ht (hc _ List.mem_cons_self _ _ _ rfl) n make with ⟨x, e1, ⟨s, e2⟩, _⟩ | ⟨t1, r, h1, h2, h3, h4, _⟩
        · obtain ⟨y, hy, _⟩ := hm' s x e2
          rw [e1] at hy; cases hy
        · refine ⟨t1, .opened r, by simp only [step, h1, Option.bind_eq_bind, Option.bind_some], ?_⟩
          intro h x hx
          by_cases hk : ∃ k, r = .ok k
          · obtain ⟨k, rfl⟩ := hk
            obtain ⟨_, _, _, ⟨l, s, x0, y, _, _, e3, e4, e5⟩, a6⟩ := h3 k rfl
            by_cases hh : h = (k : Int)
            · subst hh
              obtain ⟨y', hy', hi⟩ := hm' s x0 e3
              rw [e4] at hy'; cases hy'
              rw [e5] at hx; cases hx
              exact hi
            · rw [a6 h hh] at hx; exact hl h x hx
          · rw [h4 (fun k e => hk ⟨k, e⟩)] at hx; exact hl h x hx
      | terminate h =>
        cases hx : liveAt t h with
        | none =>
          have := C50_terminate_other_partial ht hx (hcare.2.1 h rfl)
          exact ⟨t, .closed 0, by simp only [step, this, Option.bind_eq_bind, Option.bind_some], hl⟩
        | some x =>
          obtain ⟨t1, h1, h2, h3, h4⟩ := C50_terminate_live ht hx
          refine ⟨t1, .closed 1, by simp only [step, h1, Option.bind_eq_bind, Option.bind_some], ?_⟩
          intro i y hy
          by_cases hi : i = h
          · subst hi; rw [h3] at hy; cases hy
          · rw [h4 i hi] at hy; exact hl i y hy
      | use h op =>
        cases hx : liveAt t h with
        | none => exact absurd hx (hcare.1 h op rfl)
        | some x =>
          obtain ⟨y, r, hy, hi⟩ := hI x op (hl h x hx) (hA _ List.mem_cons_self h op rfl)
          rcases use_live apply ht hx op with ⟨e, _⟩ | ⟨y', r', t1, b1, b2, b3, b4, b5⟩
          · rw [e] at hy; cases hy
          · rw [b1] at hy; cases hy
            refine ⟨t1, .result _, by simp only [step, b2, Option.bind_eq_bind, Option.bind_some]; rfl, ?_⟩
            intro i z hz
            by_cases hh : i = h
            · subst hh; rw [b4] at hz; cases hz; exact hi
            · rw [b5 i hh] at hz; exact hl i z hz
    obtain ⟨t1, o, h1, h2⟩ := key
    obtain ⟨t', os, h3, h4⟩ := ih (fun d hd => hc d (List.mem_cons_of_mem _ hd)) (fun d hd => hA d (List.mem_cons_of_mem _ hd))
      (fun d hd => hm d (List.mem_cons_of_mem _ hd)) (step_other hjunk ht (hc c List.mem_cons_self) h1).1 h2 (hcare.2.2 t1 o h1)
    exact ⟨t', o :: os, by simp only [run, h1, Option.bind_eq_bind, Option.bind_some, h3], h4⟩

/-! ## The functions themselves -/

/-- The grammar checker of the deprecated interface gives the error that the current interface gives for the same text, with the
same code, position, length and suggestions; code 0 stands for no error; the object is left in the same state. -/
theorem C111_grammar {σ : Type} (x : LegacyObj σ) (bytes : List Nat) (startpos : Nat) (skip : Int) :
    legacyApply x (.grammarCstr (some bytes) startpos skip) =
      (nextGrammarErrorCstr x.env x.handle x.memory bytes startpos skip).bind fun (e, h, m) =>
        some ({ x with handle := h, memory := m },
          .error (match e with
            | some e => ⟨e.code, e.start, e.len, e.sugg⟩
            | none => ⟨0, 0, 0, []⟩)) := by
  have fin : ∀ e : Option GErr, legacyError e = (match e with
      | some e => ⟨e.code, e.start, e.len, e.sugg⟩
      | none => ⟨0, 0, 0, []⟩) := by
    intro e; cases e <;> rfl
  cases bytes with
  | nil => rfl
  | cons b bs =>
    simp only [legacyApply, legacyGrammarCstr, nextGrammarErrorCstr, if_neg (show ¬ (b :: bs).length = 0 by simp),
      Option.bind_eq_bind]
    cases ucs4FromUtf8 (b :: bs) with
    | none => rfl
    | some w =>
      cases w with
      | none => rfl
      | some w => simp only [Option.bind_some, legacyGrammarUcs4, Option.bind_eq_bind, fin]

/-- A structure with code 0 is returned only if there is no error. -/
theorem C111_grammar_none {σ : Type} (x : LegacyObj σ) (text : List Wc) (textlen startpos : Nat) (skip : Int) {y : LegacyObj σ}
    {r : LegacyRes} (h : legacyApply x (.grammarUcs4 (some text) textlen startpos skip) = some (y, r)) :
    ∃ e hd m, nextGrammarError x.env x.handle x.memory text textlen startpos skip = some (e, hd, m) ∧
      y = { x with handle := hd, memory := m } ∧ ∃ le, r = .error le ∧ (le.code = 0 ↔ e = none) ∧
        ∀ g, e = some g → le.code = g.code ∧ le.start = g.start ∧ le.len = g.len ∧ le.sugg = g.sugg := by
  simp only [legacyApply, legacyGrammarUcs4, Option.bind_eq_bind] at h
  obtain ⟨⟨e, hd, m⟩, h1, h2⟩ := Option.bind_eq_some_iff.1 h
  simp only [Option.some.injEq, Prod.mk.injEq] at h2
  obtain ⟨rfl, rfl⟩ := h2
  refine ⟨e, hd, m, h1, rfl, _, rfl, ?_, ?_⟩
  · cases e with
    | none => exact ⟨fun _ => rfl, fun _ => rfl⟩
    | some g =>
      refine ⟨fun h0 => ?_, fun h0 => by cases h0⟩
      exfalso
      have real : ∀ r, realError r = some g → g.code ≠ 0 := by
        intro r hr
        unfold realError at hr
        split at hr
        · rename_i e
          by_cases hz : e.code = 0
          · rw [if_pos hz] at hr; cases hr
          · rw [if_neg hz] at hr; cases hr; exact hz
        · cases hr
      have hg : g.code = 0 := h0
      unfold nextGrammarError at h1
      by_cases hz : textlen = 0
      · rw [if_pos hz] at h1; cases h1
      · rw [if_neg hz] at h1
        simp only [Option.bind_eq_bind] at h1
        obtain ⟨r, _, h1⟩ := Option.bind_eq_some_iff.1 h1
        cases r with
        | some r =>
          simp only [Option.pure_def, Option.some.injEq, Prod.mk.injEq] at h1
          exact real _ h1.1 hg
        | none =>
          simp only at h1
          obtain ⟨⟨h', c'⟩, _, h1⟩ := Option.bind_eq_some_iff.1 h1
          obtain ⟨r, _, h1⟩ := Option.bind_eq_some_iff.1 h1
          simp only [Option.pure_def, Option.some.injEq, Prod.mk.injEq] at h1
          exact real _ h1.1 hg
  · intro g hg
    subst hg
    exact ⟨rfl, rfl, rfl, rfl⟩

/-- Options of older versions: the level of compounds is accepted and does nothing; of the string options only the encoding UTF-8
is accepted; all other options are those of the current interface. -/
theorem C111_options {σ : Type} (x : LegacyObj σ) :
    (∀ v, legacyApply x (.setInt 5 v) = some (x, .int 1)) ∧
    (∀ o v h r, o ≠ 5 → setIntegerOption x.handle o v = some (h, r) → legacyApply x (.setInt o v) = some ({ x with handle := h }, .int r)) ∧
    (∀ o v, legacyApply x (.setBool o v) = some ({ x with handle := (setBooleanOption x.handle o v).1 }, .int (setBooleanOption x.handle o v).2)) ∧
    (∀ o v, legacySetString o v = 1 ∧ o = 2 ∧ v = some [0x55, 0x54, 0x46, 0x2D, 0x38] ∨
      legacySetString o v = 0 ∧ ¬ (o = 2 ∧ v = some [0x55, 0x54, 0x46, 0x2D, 0x38])) := by
  refine ⟨fun v => rfl, ?_, fun o v => rfl, ?_⟩
  · intro o v h r ho hs
    simp only [legacyApply, legacySetInt, if_neg ho, hs, Option.bind_eq_bind, Option.bind_some]
  · intro o v
    cases v with
    | none => exact .inr ⟨rfl, fun h => by cases h.2⟩
    | some v =>
      unfold legacySetString
      by_cases ho : o = 2
      · by_cases hv : v = [0x55, 0x54, 0x46, 0x2D, 0x38]
        · subst ho; subst hv; exact .inl ⟨rfl, rfl, rfl⟩
        · right
          simp only [ho, ne_eq, not_true_eq_false, if_false]
          rw [if_neg (show ¬ v = lit "UTF-8" from hv)]
          exact ⟨rfl, fun h => hv (by cases h.2; rfl)⟩
      · exact .inr ⟨by simp only [ne_eq, ho, not_false_eq_true, if_true], fun h => ho h.1⟩

/-- Both spelling functions accept, under the options of the handle, exactly the words described by `AcceptedWord`, and leave the same object
behind. -/
theorem C111_spelling {σ : Type} (x : LegacyObj σ) {w : List Wc} (hw : ∀ c ∈ w, ValidCp c ∧ c ≠ 0) (hl : (encodeStr w).length ≤ 255)
    (hc : CacheInv (effDict (x.dict x.handle.acceptExtraHyphens) x.handle.spell.acceptMissingHyphens) x.handle.spellerCache) :
    ∃ x' r, legacyApply x (.spellUcs4 w) = some (x', .code r) ∧ legacyApply x (.spellCstr (encodeStr w)) = some (x', .code r) ∧
      (r = .ok ∨ r = .failed) ∧
      (r = .ok ↔ AcceptedWord (effDict (x.dict x.handle.acceptExtraHyphens) x.handle.spell.acceptMissingHyphens) x.handle.spell w (normSpec w)) := by
  have hk : WordOk w := by
    intro c hcw
    have := hw c hcw
    unfold ValidCp at this
    omega
  obtain ⟨r, cache, h1, h2, h3⟩ := C65_exact _ x.handle.spell x.handle.spellerCache hc w hk
  refine ⟨{ x with handle := { x.handle with spellerCache := cache } }, r, ?_, ?_, h2, h3⟩
  · simp only [legacyApply, Handle.spellWord, h1, Option.bind_eq_bind, Option.bind_some, Option.pure_def]
  · simp only [legacyApply, C16_agree_partial _ _ _ w (fun c hcw => (hw c hcw).1) hl, h1, Option.bind_eq_bind, Option.bind_some]

/-- The other functions for words and texts are those of the current interface, with the options of the handle. -/
theorem C111_current {σ : Type} (x : LegacyObj σ) :
    (∀ w l, suggestUcs4 (x.gen x.handle) x.handle.spell.ignoreDot x.handle.spell.acceptAllUppercase w = some l →
      legacyApply x (.suggestUcs4 w) = some (x, .words l)) ∧
    (∀ w p, hyphenateUcs4 x.handle.hyph x.an w = some p → legacyApply x (.hyphenateUcs4 w) = some (x, .pattern p)) ∧
    (∀ w p, hyphenateCstr x.handle.hyph x.an w = some p → legacyApply x (.hyphenateCstr w) = some (x, .pattern p)) ∧
    (∀ w t n, nextToken w x.handle.spell.ignoreDot = some (t, n) → legacyApply x (.tokenUcs4 w) = some (x, .token t n)) ∧
    (∀ w t n, nextTokenCstr w x.handle.spell.ignoreDot = some (t, n) → legacyApply x (.tokenCstr w) = some (x, .token t n)) ∧
    (∀ w t n dot, sentenceNext (x.env.spellOk x.handle.acceptExtraHyphens) w x.handle.spell.ignoreDot = some (t, n, dot) →
      ∃ x', legacyApply x (.sentenceUcs4 w) = some (x', .sentence t n) ∧ (dot = x.handle.spell.ignoreDot → x' = x)) := by
  refine ⟨?_, ?_, ?_, ?_, ?_, ?_⟩
  · intro w l h; simp only [legacyApply, h, Option.bind_eq_bind, Option.bind_some]
  · intro w l h; simp only [legacyApply, h, Option.bind_eq_bind, Option.bind_some]
  · intro w l h; simp only [legacyApply, h, Option.bind_eq_bind, Option.bind_some]
  · intro w t n h; simp only [legacyApply, h, Option.bind_eq_bind, Option.bind_some]
  · intro w t n h; simp only [legacyApply, h, Option.bind_eq_bind, Option.bind_some]
  · intro w t n dot h
    refine ⟨_, by simp only [legacyApply, h, Option.bind_eq_bind, Option.bind_some]; rfl, ?_⟩
    rintro rfl
    rfl

/-- Only `voikko_terminate` looks whether its number is a live handle: every other function is undefined with such a number, and with
a handle that has been terminated. -/
theorem C111_violation (apply : H → Op → UB (H × R)) {t : HandleTable H} (ht : GoodTable t) (op : Op) :
    (∀ h, liveAt t h = none → legacyUse apply t h op = none) ∧
    (∀ h x, liveAt t h = some x → ∃ t', legacyTerminate t h = some (t', some x, 1) ∧ legacyUse apply t' h op = none) := by
  refine ⟨fun h hx => use_dead apply ht hx op, fun h x hx => ?_⟩
  obtain ⟨t', h1, h2, h3, _⟩ := C50_terminate_live ht hx
  exact ⟨t', h1, use_dead apply h2 h3 op⟩

/-! ## Example: two handles with different options -/

/-- An object without a dictionary. -/
def bare : LegacyObj Unit :=
  { dict := fun _ _ => .failed, an := fun _ => [], gen := fun _ s => some s,
    env := { an := fun _ => [], spellOk := fun _ _ => false, auto := none }, handle := {}, memory := () }

/-- With an object without a dictionary, the hypotheses hold and spelling of "ab" has a result. -/
example : ∃ x' r, legacyApply bare (.spellCstr (encodeStr [0x61, 0x62])) = some (x', .code r) ∧ (r = .ok ∨ r = .failed) := by
  obtain ⟨x', r, _, h2, h3, _⟩ := C111_spelling bare (w := [0x61, 0x62]) (by
    intro c hc
    simp only [List.mem_cons, List.not_mem_nil, or_false] at hc
    unfold ValidCp
    omega) (by decide) trivial
  exact ⟨x', r, h2, h3⟩

/-- A program with two handles: the option IGNORE_DOT is set for the first one, and both look for a token in `a.`. -/
def twoHandles : List (Call (LegacyObj Unit) LegacyOp) :=
  [.init (some (lit "fi_FI")) (-1) (fun _ => some bare), .init (some []) (-1) (fun _ => some bare), .use 1 (.setBool 0 1),
    .use 2 (.tokenUcs4 [0x61, 0x2E]), .use 1 (.tokenUcs4 [0x61, 0x2E]), .terminate 2, .use 1 (.setInt 5 7)]

example : (run (fun n => List.replicate n 0) legacyApply legacyResize none twoHandles).map (fun p => ownResults 1 twoHandles p.2) =
      some [.int 1, .token .word 2, .int 1] ∧
    (run (fun n => List.replicate n 0) legacyApply legacyResize none twoHandles).map (fun p => ownResults 2 twoHandles p.2) =
      some [.token .word 1] := by
  decide +kernel

/-- Functions that set a Boolean option or look for a token. -/
def simpleOp : LegacyOp → Bool
  | .setBool .. => true
  | .tokenUcs4 _ => true
  | _ => false

example (junk : Nat → List Nat) (hjunk : ∀ n, (junk n).length = n) (o v : Int) (text : List Wc) :
    ∃ t' os, run junk legacyApply legacyResize (some [none, none, some bare, none, none])
      [.use 2 (.setBool o v), .use 2 (.tokenUcs4 text)] = some (t', os) := by
  obtain ⟨t', os, h1, _⟩ := C111_defined (I := fun _ => True) (A := fun op => simpleOp op = true) hjunk
    (legacyApply (σ := Unit)) legacyResize
    (by
      intro x op _ hop
      cases op with
      | setBool o v => exact ⟨_, _, rfl, trivial⟩
      | tokenUcs4 text =>
        cases hn : nextToken text x.handle.spell.ignoreDot with
        | none => exact absurd hn (C02_in_bounds _ _)
        | some p => exact ⟨x, .token p.1 p.2, by simp only [legacyApply, hn, Option.bind_eq_bind, Option.bind_some], trivial⟩
      | _ => cases hop)
    (cs := [.use 2 (.setBool o v), .use 2 (.tokenUcs4 text)]) (t := some [none, none, some bare, none, none])
    (by
      intro c hm lang n make hc
      simp only [List.mem_cons, List.not_mem_nil, or_false] at hm
      rcases hm with rfl | rfl <;> cases hc)
    (by
      intro c hm h op hc
      simp only [List.mem_cons, List.not_mem_nil, or_false] at hm
      rcases hm with rfl | rfl <;> (cases hc; rfl))
    (by
      intro c hm lang n make hc
      simp only [List.mem_cons, List.not_mem_nil, or_false] at hm
      rcases hm with rfl | rfl <;> cases hc)
    (by intro a ha; cases ha; exact ⟨_, _, _, _, rfl⟩) (fun _ _ _ => trivial)
    (by
      refine ⟨?_, (fun h hc => by cases hc), ?_⟩
      · intro h op hc
        cases hc
        exact fun e => by cases e
      · intro t' r hs
        cases hs
        refine ⟨?_, (fun h hc => by cases hc), fun _ _ _ => trivial⟩
        intro h op hc
        cases hc
        exact fun e => by cases e)
  exact ⟨t', os, h1⟩

/-- The cache of the new object can make `voikko_init` undefined. -/
theorem C111_violation_cache_size :
    legacyOpen (fun n => List.replicate n 0) (fun _ => some bare) legacyResize none (some (lit "fi_FI")) 19 = none := by
  decide +kernel

end Verif.Legacy
