import Verif.Spec.ToolArgs
/-!
# Lemmas about the arguments of the command line programs
-/

namespace Verif.Args
open Verif

theorem lastOf_nil {β : Type} (f : Item → Option β) : lastOf f [] = none := rfl

theorem lastOf_cons {β : Type} (f : Item → Option β) (it : Item) (r : List Item) : lastOf f (it :: r) = (lastOf f r).or (f it) := by
  unfold lastOf
  rw [List.filterMap_cons]
  cases h : f it with
  | none => simp
  | some b =>
    simp only
    rw [List.getLast?_cons]
    cases h2 : (List.filterMap f r).getLast? <;> simp

theorem lastOf_none {β : Type} (f : Item → Option β) : (items : List Item) → (∀ it ∈ items, f it = none) → lastOf f items = none
  | [], _ => rfl
  | it :: r, h => by
    rw [lastOf_cons, lastOf_none f r (fun x hx => h x (List.mem_cons_of_mem _ hx)), h it List.mem_cons_self]; rfl

/-- A component of the state that each item sets or leaves has the last value set. -/
theorem foldl_last {σ β : Type} (upd : σ → Item → σ) (get : σ → β) (f : Item → Option β) :
    (items : List Item) → (h : ∀ it ∈ items, ∀ s, get (upd s it) = (f it).getD (get s)) → (s : σ) →
    get (items.foldl upd s) = (lastOf f items).getD (get s)
  | [], _, _ => rfl
  | it :: r, h, s => by
    rw [List.foldl_cons, foldl_last upd get f r (fun x hx => h x (List.mem_cons_of_mem _ hx)), lastOf_cons, h it List.mem_cons_self]
    cases lastOf f r <;> simp

/-- A component that items only switch on. -/
theorem foldl_flag {σ : Type} (upd : σ → Item → σ) (get : σ → Bool) (p : Item → Prop) :
    (items : List Item) → (h : ∀ it ∈ items, ∀ s, get (upd s it) = true ↔ p it ∨ get s = true) → (s : σ) →
    (get (items.foldl upd s) = true ↔ (∃ it ∈ items, p it) ∨ get s = true)
  | [], _, _ => by simp
  | it :: r, h, s => by
    rw [List.foldl_cons, foldl_flag upd get p r (fun x hx => h x (List.mem_cons_of_mem _ hx)), h it List.mem_cons_self]
    constructor
    · rintro (⟨x, hx, hp⟩ | hp | hp)
      · exact .inl ⟨x, List.mem_cons_of_mem _ hx, hp⟩
      · exact .inl ⟨it, List.mem_cons_self, hp⟩
      · exact .inr hp
    · rintro (⟨x, hx, hp⟩ | hp)
      · rcases List.mem_cons.1 hx with rfl | hx
        · exact .inr (.inl hp)
        · exact .inl ⟨x, hx, hp⟩
      · exact .inr (.inr hp)

/-- Every command line is a sequence of items. -/
theorem reads_exists (keys : List Arg) : (args : List Arg) → ∃ items rest, Reads keys args items rest
  | [] => ⟨[], none, rfl, by simp, by simp, by simp⟩
  | [a] => by
    by_cases h : a ∈ keys
    · exact ⟨[], some a, rfl, by simp, by simp, by simpa using h⟩
    · exact ⟨[.word a], none, rfl, by simp, by simpa using h, by simp⟩
  | a :: v :: r => by
    by_cases h : a ∈ keys
    · obtain ⟨items, rest, hr⟩ := reads_exists keys r
      refine ⟨.valued a v :: items, rest, by simp [Item.args, hr.split], ?_, ?_, hr.rest⟩
      · intro k w hm
        rcases List.mem_cons.1 hm with e | hm
        · cases e; exact h
        · exact hr.valued k w hm
      · intro w hm
        rcases List.mem_cons.1 hm with e | hm
        · cases e
        · exact hr.word w hm
    · obtain ⟨items, rest, hr⟩ := reads_exists keys (v :: r)
      refine ⟨.word a :: items, rest, by simp [Item.args, hr.split], ?_, ?_, hr.rest⟩
      · intro k w hm
        rcases List.mem_cons.1 hm with e | hm
        · cases e
        · exact hr.valued k w hm
      · intro w hm
        rcases List.mem_cons.1 hm with e | hm
        · cases e; exact h
        · exact hr.word w hm

/-- The items after the first one are a command line. -/
theorem Reads.tail {keys : List Arg} {args : List Arg} {it : Item} {items : List Item} {rest : Option Arg} (h : Reads keys args (it :: items) rest) :
    Reads keys (items.flatMap Item.args ++ rest.toList) items rest :=
  ⟨rfl, fun k v hm => h.valued k v (List.mem_cons_of_mem _ hm), fun w hm => h.word w (List.mem_cons_of_mem _ hm), h.rest⟩

/-- There is only one way to read a command line. -/
theorem reads_unique (keys : List Arg) : (items items' : List Item) → (rest rest' : Option Arg) → (args : List Arg) →
    Reads keys args items rest → Reads keys args items' rest' → items = items' ∧ rest = rest'
  | [], [], rest, rest', args, h, h' => by
    have := h.split.symm.trans h'.split
    cases rest <;> cases rest' <;> simp_all
  | [], it :: items', rest, rest', args, h, h' => by
    have e := h.split.symm.trans h'.split
    cases rest with
    | none => cases it <;> simp [Item.args] at e
    | some k =>
      cases it with
      | valued a v => simp [Item.args] at e
      | word w =>
        simp [Item.args] at e
        exact absurd (e.1 ▸ h.rest k rfl) (h'.word w List.mem_cons_self)
  | it :: items, [], rest, rest', args, h, h' => by
    have e := h.split.symm.trans h'.split
    cases rest' with
    | none => cases it <;> simp [Item.args] at e
    | some k =>
      cases it with
      | valued a v => simp [Item.args] at e
      | word w =>
        simp [Item.args] at e
        exact absurd (e.1 ▸ h'.rest k rfl) (h.word w List.mem_cons_self)
  | it :: items, it' :: items', rest, rest', args, h, h' => by
    have e := h.split.symm.trans h'.split
    have key : it = it' ∧ items.flatMap Item.args ++ rest.toList = items'.flatMap Item.args ++ rest'.toList := by
      cases it with
      | valued a v =>
        cases it' with
        | valued a' v' => simp [Item.args] at e; exact ⟨by rw [e.1, e.2.1], by simpa using e.2.2⟩
        | word w =>
          simp [Item.args] at e
          exact absurd (e.1 ▸ h.valued a v List.mem_cons_self) (h'.word w List.mem_cons_self)
      | word w =>
        cases it' with
        | valued a' v' =>
          simp [Item.args] at e
          exact absurd (e.1 ▸ h'.valued a' v' List.mem_cons_self) (h.word w List.mem_cons_self)
        | word w' => simp [Item.args] at e; exact ⟨by rw [e.1], by simpa using e.2⟩
    obtain ⟨e1, e2⟩ := reads_unique keys items items' rest rest' _ h.tail (key.2 ▸ h'.tail)
    exact ⟨by rw [key.1, e1], e2⟩

/-! ### Numbers -/

theorem digitsValue_append : (ds : List Nat) → (∀ d ∈ ds, d < 10) → (v : Int) → (rest : List Nat) →
    digitsValue v (ds.map (· + 0x30) ++ rest) = digitsValue (ds.foldl (fun (v : Int) (d : Nat) => v * 10 + (d : Int)) v) rest
  | [], _, _, _ => rfl
  | d :: ds, h, v, rest => by
    have hd : d < 10 := h d List.mem_cons_self
    rw [List.map_cons, List.cons_append, digitsValue, if_pos ⟨by omega, by omega⟩, Nat.add_sub_cancel,
      digitsValue_append ds (fun x hx => h x (List.mem_cons_of_mem _ hx)), List.foldl_cons]

/-! ### The second loop -/

/-- What an argument changes in the second loop. -/
def change {α : Type} (step : Arg → α → ArgStep α) (s : α) : Item → α
  | .word w => match step w s with
    | .set s' => s'
    | _ => s
  | .valued .. => s

theorem second_known {α : Type} (step : Arg → α → ArgStep α) (keys : List Arg) (hk : ∀ k ∈ keys, ∀ s, step k s = .skipValue) :
    (items : List Item) → (args : List Arg) → (rest : Option Arg) → (s : α) → Reads keys args items rest →
    (∀ w, .word w ∈ items → ∀ s, ∃ s', step w s = .set s') → secondPass step args s = some (some (items.foldl (change step) s))
  | [], args, rest, s, h, _ => by
    rw [h.split]
    cases rest with
    | none => rfl
    | some k => simp only [List.flatMap_nil, List.nil_append, Option.toList]; rw [secondPass, hk k (h.rest k rfl)]; rfl
  | it :: items, args, rest, s, h, hw => by
    rw [h.split]
    have hw' : ∀ w, .word w ∈ items → ∀ s, ∃ s', step w s = .set s' := fun w hm => hw w (List.mem_cons_of_mem _ hm)
    cases it with
    | valued k v =>
      simp only [List.flatMap_cons, Item.args, List.cons_append, List.nil_append]
      rw [secondPass.eq_def]
      simp only [hk k (h.valued k v List.mem_cons_self)]
      rw [second_known step keys hk items _ rest s h.tail hw']; rfl
    | word w =>
      obtain ⟨s', e⟩ := hw w List.mem_cons_self s
      simp only [List.flatMap_cons, Item.args, List.cons_append, List.nil_append]
      rw [secondPass.eq_def]
      simp only [e]
      rw [second_known step keys hk items _ rest s' h.tail hw', List.foldl_cons, change, e]

theorem second_unknown {α : Type} (step : Arg → α → ArgStep α) (keys : List Arg) (hk : ∀ k ∈ keys, ∀ s, step k s = .skipValue)
    (hd : ∀ w, w ∉ keys → (∀ s, ∃ s', step w s = .set s') ∨ ∀ s, step w s = .unknown) :
    (items : List Item) → (args : List Arg) → (rest : Option Arg) → (s : α) → Reads keys args items rest →
    (∃ w, .word w ∈ items ∧ ∀ s, step w s = .unknown) → secondPass step args s = some none
  | [], args, rest, s, h, ⟨w, hm, _⟩ => by cases hm
  | it :: items, args, rest, s, h, ⟨w, hm, hu⟩ => by
    rw [h.split]
    cases it with
    | valued k v =>
      simp only [List.flatMap_cons, Item.args, List.cons_append, List.nil_append]
      rw [secondPass.eq_def]
      simp only [hk k (h.valued k v List.mem_cons_self)]
      refine second_unknown step keys hk hd items _ rest s h.tail ⟨w, ?_, hu⟩
      rcases List.mem_cons.1 hm with e | hm
      · cases e
      · exact hm
    | word w' =>
      simp only [List.flatMap_cons, Item.args, List.cons_append, List.nil_append]
      rw [secondPass.eq_def]
      rcases hd w' (h.word w' List.mem_cons_self) with hs | hs
      · obtain ⟨s', e⟩ := hs s
        simp only [e]
        refine second_unknown step keys hk hd items _ rest s' h.tail ⟨w, ?_, hu⟩
        rcases List.mem_cons.1 hm with e' | hm
        · cases e'; rw [hu s] at e; cases e
        · exact hm
      · simp only [hs s]

/-- The second loop up to an item. -/
theorem second_before {α : Type} (step : Arg → α → ArgStep α) (keys : List Arg) (hk : ∀ k ∈ keys, ∀ s, step k s = .skipValue) :
    (pre : List Item) → (it : Item) → (post : List Item) → (args : List Arg) → (rest : Option Arg) → (s : α) → Reads keys args (pre ++ it :: post) rest →
    (∀ w, .word w ∈ pre → ∀ s, ∃ s', step w s = .set s') →
    ∃ s', secondPass step args s = secondPass step ((it :: post).flatMap Item.args ++ rest.toList) s'
  | [], it, post, args, rest, s, h, _ => ⟨s, by rw [h.split]; rfl⟩
  | .valued k v :: pre, it, post, args, rest, s, h, hw => by
    obtain ⟨s', e⟩ := second_before step keys hk pre it post _ rest s h.tail fun w hm => hw w (List.mem_cons_of_mem _ hm)
    refine ⟨s', Eq.trans ?_ e⟩
    rw [h.split]
    simp only [List.cons_append, List.flatMap_cons, Item.args, List.nil_append]
    rw [secondPass.eq_def]
    simp only [hk k (h.valued k v List.mem_cons_self)]
    rfl
  | .word w :: pre, it, post, args, rest, s, h, hw => by
    obtain ⟨s1, e1⟩ := hw w List.mem_cons_self s
    obtain ⟨s', e⟩ := second_before step keys hk pre it post _ rest s1 h.tail fun w hm => hw w (List.mem_cons_of_mem _ hm)
    refine ⟨s', Eq.trans ?_ e⟩
    rw [h.split]
    simp only [List.cons_append, List.flatMap_cons, Item.args, List.nil_append]
    rw [secondPass.eq_def]
    simp only [e1]
    rfl

/-! ### One argument of voikkospell -/

/-- What one argument sets. -/
structure SpellSets {G : Type} (w : Arg) (s s' : SpellTool G) : Prop where
  mode : s'.opts.mode = (modeOf (.word w)).getD s.opts.mode
  suggest : s'.opts.suggest = (decide (w = lit "-s") || s.opts.suggest)
  morphology : s'.opts.morphology = (decide (w = lit "-m") || decide (w = lit "-M") || s.opts.morphology)
  oneLine : s'.opts.oneLine = ((lit "-x").isPrefixOf w || s.opts.oneLine)
  separator : s'.opts.separator = (separatorOf (.word w)).getD s.opts.separator
  space : s.opts.space = (s.opts.separator != 0x20) → s'.opts.space = (s'.opts.separator != 0x20)
  handles : s'.handles = s.handles.map (handleAfter · [.word w])

macro "sets" : tactic => `(tactic|
  exact ⟨_, rfl, rfl, rfl, rfl, rfl, rfl, fun h => h, ((List.map_congr_left (fun _ _ => rfl)).trans (List.map_id _)).symm⟩)
macro "sets_option" : tactic => `(tactic| exact ⟨_, rfl, rfl, rfl, rfl, rfl, rfl, fun h => h, List.map_congr_left (fun _ _ => rfl)⟩)

theorem spellSecond_set {G : Type} (w : Arg) (s : SpellTool G) (hk : SpellKnown w) : ∃ s', spellSecondArg w s = .set s' ∧ SpellSets w s s' := by
  rcases hk with hk | ⟨n, hn, hk⟩ | ⟨t, rfl⟩ | ⟨t, rfl⟩
  · simp only [List.map_cons, List.map_nil, List.mem_cons, List.not_mem_nil, or_false] at hk
    rcases hk with rfl | rfl | rfl | rfl | rfl <;> sets
  · have hb : w = lit n ++ lit "=1" ∨ w = lit n ++ lit "=0" := by
      by_cases h1 : w = lit n ++ lit "=1"
      · exact .inl h1
      · by_cases h0 : w = lit n ++ lit "=0"
        · exact .inr h0
        · simp [setting, h1, h0] at hk
    simp only [spellNames, List.mem_cons, List.not_mem_nil, or_false] at hn
    rcases hn with rfl | rfl | rfl | rfl | rfl | rfl | rfl | rfl <;> rcases hb with rfl | rfl <;> sets_option
  · rcases t with _ | ⟨a, _ | ⟨b, t⟩⟩ <;>
      exact ⟨_, rfl, rfl, rfl, rfl, rfl, rfl, fun _ => rfl, ((List.map_congr_left (fun _ _ => rfl)).trans (List.map_id _)).symm⟩
  · sets

theorem spellSecond_unknown {G : Type} (w : Arg) (hw : w ∉ spellKeys) (s : SpellTool G) (hk : ¬ SpellKnown w) : spellSecondArg w s = .unknown := by
  have h1 : ∀ n ∈ ["-t", "-tt", "-s", "-m", "-M"], w ≠ lit n := fun n hn e => hk (.inl (List.mem_map.2 ⟨n, hn, e.symm⟩))
  have h2 : ∀ n ∈ spellNames, w ≠ lit n ++ lit "=1" ∧ w ≠ lit n ++ lit "=0" := by
    intro n hn
    constructor
    · rintro rfl; exact hk (.inr (.inl ⟨n, hn, by simp [setting]⟩))
    · rintro rfl; exact hk (.inr (.inl ⟨n, hn, by simp only [setting]; split <;> simp⟩))
  have h3 : (lit "-x").isPrefixOf w = false := by
    rw [Bool.eq_false_iff]; exact fun e => hk (.inr (.inr (.inl (List.isPrefixOf_iff_prefix.1 e))))
  have h4 : (lit "-c").isPrefixOf w = false := by
    rw [Bool.eq_false_iff]; exact fun e => hk (.inr (.inr (.inr (List.isPrefixOf_iff_prefix.1 e))))
  have k1 : w ≠ lit "-p" := fun e => hw (e ▸ by decide)
  have k2 : w ≠ lit "-d" := fun e => hw (e ▸ by decide)
  have k3 : w ≠ lit "-j" := fun e => hw (e ▸ by decide)
  unfold spellSecondArg
  rw [if_neg (h1 "-t" (by simp)), if_neg (h1 "-tt" (by simp)),
    if_neg (show w ≠ lit "ignore_dot=1" from (h2 "ignore_dot" (by simp [spellNames])).1), if_neg (show w ≠ lit "ignore_dot=0" from (h2 "ignore_dot" (by simp [spellNames])).2),
    if_neg (show w ≠ lit "ignore_numbers=1" from (h2 "ignore_numbers" (by simp [spellNames])).1), if_neg (show w ≠ lit "ignore_numbers=0" from (h2 "ignore_numbers" (by simp [spellNames])).2),
    if_neg (show w ≠ lit "ignore_nonwords=1" from (h2 "ignore_nonwords" (by simp [spellNames])).1), if_neg (show w ≠ lit "ignore_nonwords=0" from (h2 "ignore_nonwords" (by simp [spellNames])).2),
    if_neg (show w ≠ lit "accept_first_uppercase=1" from (h2 "accept_first_uppercase" (by simp [spellNames])).1), if_neg (show w ≠ lit "accept_first_uppercase=0" from (h2 "accept_first_uppercase" (by simp [spellNames])).2),
    if_neg (show w ≠ lit "accept_all_uppercase=1" from (h2 "accept_all_uppercase" (by simp [spellNames])).1), if_neg (show w ≠ lit "accept_all_uppercase=0" from (h2 "accept_all_uppercase" (by simp [spellNames])).2),
    if_neg (show w ≠ lit "accept_extra_hyphens=1" from (h2 "accept_extra_hyphens" (by simp [spellNames])).1), if_neg (show w ≠ lit "accept_extra_hyphens=0" from (h2 "accept_extra_hyphens" (by simp [spellNames])).2),
    if_neg (show w ≠ lit "accept_missing_hyphens=1" from (h2 "accept_missing_hyphens" (by simp [spellNames])).1), if_neg (show w ≠ lit "accept_missing_hyphens=0" from (h2 "accept_missing_hyphens" (by simp [spellNames])).2),
    if_neg (show w ≠ lit "ocr_suggestions=1" from (h2 "ocr_suggestions" (by simp [spellNames])).1), if_neg (show w ≠ lit "ocr_suggestions=0" from (h2 "ocr_suggestions" (by simp [spellNames])).2),
    if_neg (by rw [h3]; decide), if_neg (h1 "-s" (by simp)), if_neg (h1 "-m" (by simp)), if_neg (h1 "-M" (by simp)), if_neg (by rw [h4]; decide),
    if_neg (fun e => e.elim k1 (fun e => e.elim k2 k3))]

theorem spellSecond_key {G : Type} (k : Arg) (hk : k ∈ spellKeys) (s : SpellTool G) : spellSecondArg k s = .skipValue := by
  simp only [spellKeys, List.mem_cons, List.not_mem_nil, or_false] at hk
  rcases hk with rfl | rfl | rfl <;> rfl

/-! ### The first loop of voikkospell -/

/-- What an item sets in the first loop. -/
def firstUpd (s : SpellFirst) : Item → SpellFirst
  | .word w =>
    if lit "-c" <+: w then { s with cacheSize := (atoi (w.drop 2)).getD 0 }
    else if w = lit "-l" then { s with listDicts := true }
    else if w = lit "-L" then { s with listCapabilities := true }
    else s
  | .valued k v =>
    if k = lit "-p" then { s with path := some v }
    else if k = lit "-d" then { s with variant := v }
    else { s with threadCount := (atoi v).getD 0 }

theorem first_word (w : Arg) (hw : w ∉ spellKeys) (r : List Arg) (s : SpellFirst) :
    spellFirstPass (w :: r) s =
      if lit "-c" <+: w then (atoi (w.drop 2)).bind fun n => spellFirstPass r { s with cacheSize := n }
      else if w = lit "-h" ∨ w = lit "--help" then some .help
      else if w = lit "--version" then some .version
      else spellFirstPass r (firstUpd s (.word w)) := by
  have k1 : w ≠ lit "-p" := fun e => hw (e ▸ by decide)
  have k2 : w ≠ lit "-d" := fun e => hw (e ▸ by decide)
  have k3 : w ≠ lit "-j" := fun e => hw (e ▸ by decide)
  rw [spellFirstPass.eq_def]
  simp only [List.isPrefixOf_iff_prefix]
  by_cases hc : lit "-c" <+: w
  · rw [if_pos hc, if_pos hc]; rfl
  · rw [if_neg hc, if_neg hc]
    simp only [firstUpd, if_neg hc]
    cases r with
    | nil =>
      simp only [if_neg k3]
      by_cases h1 : w = lit "-h" ∨ w = lit "--help"
      · rw [if_pos h1, if_pos h1]
      rw [if_neg h1, if_neg h1]
      by_cases h2 : w = lit "--version"
      · rw [if_pos h2, if_pos h2]
      rw [if_neg h2, if_neg h2]
      by_cases h3 : w = lit "-l"
      · rw [if_pos h3, if_pos h3]; rfl
      rw [if_neg h3, if_neg h3]
      by_cases h4 : w = lit "-L"
      · rw [if_pos h4, if_pos h4]; rfl
      rw [if_neg h4, if_neg h4]; rfl
    | cons v r =>
      simp only [if_neg k1, if_neg k2, if_neg k3]
      by_cases h1 : w = lit "-h" ∨ w = lit "--help"
      · rw [if_pos h1, if_pos h1]
      rw [if_neg h1, if_neg h1]
      by_cases h2 : w = lit "--version"
      · rw [if_pos h2, if_pos h2]
      rw [if_neg h2, if_neg h2]
      by_cases h3 : w = lit "-l"
      · rw [if_pos h3, if_pos h3]
      rw [if_neg h3, if_neg h3]
      by_cases h4 : w = lit "-L"
      · rw [if_pos h4, if_pos h4]
      rw [if_neg h4, if_neg h4]

theorem first_valued (k v : Arg) (hk : k ∈ spellKeys) (r : List Arg) (s : SpellFirst) :
    spellFirstPass (k :: v :: r) s =
      if k = lit "-j" then (atoi v).bind fun n => if 1 ≤ n ∧ n ≤ 200 then spellFirstPass r { s with threadCount := n } else some .fail
      else spellFirstPass r (firstUpd s (.valued k v)) := by
  simp only [spellKeys, List.mem_cons, List.not_mem_nil, or_false] at hk
  rcases hk with rfl | rfl | rfl
  · rw [spellFirstPass.eq_def]; rfl
  · rw [spellFirstPass.eq_def]; rfl
  · rw [spellFirstPass.eq_def, if_pos rfl]
    simp only
    rw [if_neg (by decide), if_neg (by decide), if_neg (by decide), if_neg (by decide), if_neg (by decide), if_neg (by decide), if_neg (by decide), if_pos trivial]
    cases atoi v with
    | none => rfl
    | some n =>
      simp only [Option.bind_eq_bind, Option.bind_some]
      by_cases h : 1 ≤ n ∧ n ≤ 200
      · rw [if_pos h, if_neg (by omega)]
      · rw [if_neg h, if_pos (by omega)]

theorem first_last (k : Arg) (hk : k ∈ spellKeys) (s : SpellFirst) :
    spellFirstPass [k] s = if k = lit "-j" then some .fail else some (.run s) := by
  simp only [spellKeys, List.mem_cons, List.not_mem_nil, or_false] at hk
  rcases hk with rfl | rfl | rfl <;> rfl

/-- An item that does not end the program is passed. -/
theorem first_pass (it : Item) (items : List Item) (args : List Arg) (rest : Option Arg) (s : SpellFirst) (h : Reads spellKeys args (it :: items) rest)
    (hn : NumbersOk it) (hs : stopOf (α := SpellFirst) it = none) :
    spellFirstPass args s = spellFirstPass (items.flatMap Item.args ++ rest.toList) (firstUpd s it) := by
  rw [h.split]
  cases it with
  | word w =>
    simp only [List.flatMap_cons, Item.args, List.cons_append, List.nil_append]
    rw [first_word w (h.word w List.mem_cons_self)]
    simp only [stopOf] at hs
    by_cases hc : lit "-c" <+: w
    · rw [if_pos hc]
      have hn1 := hn.1
      simp only [cacheOf, if_pos hc] at hn1
      cases ha : atoi (w.drop 2) with
      | none => rw [ha] at hn1; exact absurd rfl hn1
      | some n => simp only [Option.bind_some, firstUpd, if_pos hc, ha, Option.getD_some]
    · rw [if_neg hc]
      by_cases h1 : w = lit "-h" ∨ w = lit "--help"
      · rw [if_pos h1] at hs; cases hs
      · rw [if_neg h1] at hs
        by_cases h2 : w = lit "--version"
        · rw [if_pos h2] at hs; cases hs
        · rw [if_neg h1, if_neg h2]
  | valued k v =>
    simp only [List.flatMap_cons, Item.args, List.cons_append, List.nil_append]
    rw [first_valued k v (h.valued k v List.mem_cons_self)]
    by_cases hj : k = lit "-j"
    · subst hj
      rw [if_pos rfl]
      have hn2 := hn.2
      simp only [threadsOf, if_pos] at hn2
      simp only [stopOf] at hs
      cases ha : atoi v with
      | none => rw [ha] at hn2; exact absurd rfl hn2
      | some n =>
        by_cases hr : 1 ≤ n ∧ n ≤ 200
        · rw [Option.bind_some, if_pos hr, firstUpd, if_neg (by decide), if_neg (by decide), ha]; rfl
        · rw [if_pos ⟨trivial, n, ha, hr⟩] at hs; cases hs
    · rw [if_neg hj]

theorem first_items : (items : List Item) → (args : List Arg) → (rest : Option Arg) → (s : SpellFirst) → Reads spellKeys args items rest →
    (∀ it ∈ items, NumbersOk it ∧ stopOf (α := SpellFirst) it = none) →
    spellFirstPass args s = if rest = some (lit "-j") then some .fail else some (.run (items.foldl firstUpd s))
  | [], args, rest, s, h, _ => by
    rw [h.split]
    cases rest with
    | none => rfl
    | some k =>
      simp only [List.flatMap_nil, List.nil_append, Option.toList, Option.some.injEq]
      exact first_last k (h.rest k rfl) s
  | it :: items, args, rest, s, h, ha => by
    have h0 := ha it List.mem_cons_self
    rw [first_pass it items args rest s h h0.1 h0.2, first_items items _ rest _ h.tail fun x hx => ha x (List.mem_cons_of_mem _ hx)]
    rfl

/-- Up to the first item that ends the program. -/
theorem first_before : (pre : List Item) → (it : Item) → (post : List Item) → (args : List Arg) → (rest : Option Arg) → (s : SpellFirst) →
    Reads spellKeys args (pre ++ it :: post) rest → (∀ it ∈ pre, NumbersOk it ∧ stopOf (α := SpellFirst) it = none) →
    ∃ s', spellFirstPass args s = spellFirstPass ((it :: post).flatMap Item.args ++ rest.toList) s'
  | [], it, post, args, rest, s, h, _ => ⟨s, by rw [h.split]; rfl⟩
  | x :: pre, it, post, args, rest, s, h, ha => by
    have h0 := ha x List.mem_cons_self
    obtain ⟨s', e⟩ := first_before pre it post _ rest (firstUpd s x) h.tail fun y hy => ha y (List.mem_cons_of_mem _ hy)
    exact ⟨s', (first_pass x (pre ++ it :: post) args rest s h h0.1 h0.2).trans e⟩

theorem reads_suffix {keys : List Arg} : (pre : List Item) → {it : Item} → {post : List Item} → {args : List Arg} → {rest : Option Arg} →
    Reads keys args (pre ++ it :: post) rest → Reads keys ((it :: post).flatMap Item.args ++ rest.toList) (it :: post) rest
  | [], _, _, _, _, h => ⟨rfl, h.valued, h.word, h.rest⟩
  | _ :: pre, _, _, _, _, h => reads_suffix pre h.tail

theorem first_stop (it : Item) (items : List Item) (args : List Arg) (rest : Option Arg) (s : SpellFirst) (h : Reads spellKeys args (it :: items) rest)
    (x : ArgsRes SpellFirst) (hs : stopOf it = some x) : spellFirstPass args s = some x := by
  rw [h.split]
  cases it with
  | word w =>
    simp only [List.flatMap_cons, Item.args, List.cons_append, List.nil_append]
    rw [first_word w (h.word w List.mem_cons_self)]
    simp only [stopOf] at hs
    by_cases h1 : w = lit "-h" ∨ w = lit "--help"
    · rw [if_pos h1] at hs
      rw [if_neg (by rcases h1 with rfl | rfl <;> decide), if_pos h1, ← hs]
    · rw [if_neg h1] at hs
      by_cases h2 : w = lit "--version"
      · rw [if_pos h2] at hs
        rw [if_neg (by subst h2; decide), if_neg h1, if_pos h2, ← hs]
      · rw [if_neg h2] at hs; cases hs
  | valued k v =>
    simp only [List.flatMap_cons, Item.args, List.cons_append, List.nil_append]
    rw [first_valued k v (h.valued k v List.mem_cons_self)]
    simp only [stopOf] at hs
    split at hs
    · rename_i hj
      obtain ⟨rfl, n, ha, hr⟩ := hj
      rw [if_pos rfl, ha, Option.bind_some, if_neg hr, ← hs]
    · cases hs

theorem first_undefined (it : Item) (items : List Item) (args : List Arg) (rest : Option Arg) (s : SpellFirst) (h : Reads spellKeys args (it :: items) rest)
    (hn : ¬ NumbersOk it) : spellFirstPass args s = none := by
  rw [h.split]
  cases it with
  | word w =>
    simp only [List.flatMap_cons, Item.args, List.cons_append, List.nil_append]
    rw [first_word w (h.word w List.mem_cons_self)]
    by_cases hc : lit "-c" <+: w
    · rw [if_pos hc]
      cases ha : atoi (w.drop 2) with
      | none => rfl
      | some n => exact absurd ⟨by simp [cacheOf, hc, ha], by simp [threadsOf]⟩ hn
    · exact absurd ⟨by simp [cacheOf, hc], by simp [threadsOf]⟩ hn
  | valued k v =>
    simp only [List.flatMap_cons, Item.args, List.cons_append, List.nil_append]
    rw [first_valued k v (h.valued k v List.mem_cons_self)]
    by_cases hj : k = lit "-j"
    · rw [if_pos hj]
      cases ha : atoi v with
      | none => rfl
      | some n => exact absurd ⟨by simp [cacheOf], by simp [threadsOf, hj, ha]⟩ hn
    · exact absurd ⟨by simp [cacheOf], by simp [threadsOf, hj]⟩ hn

end Verif.Args
