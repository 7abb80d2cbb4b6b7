import Verif.Lemmas.WordBases
import Verif.Lemmas.FinnishBaseValue
/-!
# Where WORDBASES and WORDIDS of an analysis come from, and how to read them (for C90)
-/

set_option linter.unusedSimpArgs false
set_option linter.unusedVariables false

namespace Verif.WordBases
open Verif Verif.Baseform
open Verif.Attrs (Tidy TidyItem adjustAttributes_spec)

/-- An analysis in good order with this STRUCTURE and without WORDBASES and WORDIDS. -/
structure Lacks (s : Option (List Wc)) (a : Ana) : Prop where
  ok : AnaOk a
  str : a.getValue .structure_ = s
  ids : a.getValue .wordids = none
  bases : a.getValue .wordbases = none

theorem lacks_add {s : Option (List Wc)} {a : Ana} (h : Lacks s a) {k : AKey} (h0 : k ≠ .structure_) (h1 : k ≠ .wordids) (h2 : k ≠ .wordbases) (v : List Wc) :
    Lacks s (a.add k v) :=
  ⟨anaOk_add h.ok k v, by rw [getValue_add h.ok, if_neg (fun e => h0 e.symm)]; exact h.str,
    by rw [getValue_add h.ok, if_neg (fun e => h1 e.symm)]; exact h.ids,
    by rw [getValue_add h.ok, if_neg (fun e => h2 e.symm)]; exact h.bases⟩

theorem lacks_basic {out : List Wc} (h : out ≠ []) (hlen : out.length < 2 ^ 64) : Ok (parseBasicAttributes {} out) (Lacks none) := by
  have hal : AllowedBasic (fun k _ => k ≠ .structure_ ∧ k ≠ .wordids ∧ k ≠ .wordbases) := by constructor <;> intros <;> decide
  refine okMono (parseBasicAttributes_ok hal good_empty rfl h hlen) fun a ha => ⟨ha.ok, ?_, ?_, ?_⟩
  · cases hg : a.getValue .structure_ with
    | none => rfl
    | some v => exact absurd rfl (ha.vals _ _ hg).1
  · cases hg : a.getValue .wordids with
    | none => rfl
    | some v => exact absurd rfl (ha.vals _ _ hg).2.1
  · cases hg : a.getValue .wordbases with
    | none => rfl
    | some v => exact absurd rfl (ha.vals _ _ hg).2.2

theorem lacks_adjust {s : Option (List Wc)} {a : Ana} (ha : Lacks s a) : Ok (adjustAttributes a) (Lacks s) :=
  okMono (adjustAttributes_spec ha.ok) fun c hc => ⟨hc.1, by rw [hc.2]; exact ha.str, by rw [hc.2]; exact ha.ids, by rw [hc.2]; exact ha.bases⟩

theorem lacks_copy {old : Ana} {v : List Wc} (hv : old.getValue .structure_ = some v) (hl : 2 ≤ v.length) :
    ∀ (ks : List AKey) (a : Ana) (ns : Option (List Wc)), (∀ k ∈ ks, (old.getValue k).isSome) → (∃ s, Lacks s a) → .wordids ∉ ks → .wordbases ∉ ks →
    Ok (orgCopy old ks (a, ns)) (fun r => ∃ s, Lacks s r.1) := by
  intro ks
  induction ks with
  | nil => intro a ns _ ha _ _; exact okSome ha
  | cons k ks ih =>
    intro a ns hk ha h1 h2
    have hk' := fun x hx => hk x (List.mem_cons_of_mem _ hx)
    have h1' : AKey.wordids ∉ ks := fun e => h1 (List.mem_cons_of_mem _ e)
    have h2' : AKey.wordbases ∉ ks := fun e => h2 (List.mem_cons_of_mem _ e)
    have hk1 : k ≠ .wordids := fun e => h1 (by rw [e]; simp)
    have hk2 : k ≠ .wordbases := fun e => h2 (by rw [e]; simp)
    have hadd : ∀ w, ∃ s, Lacks s (a.add k w) := by
      intro w
      obtain ⟨s, h⟩ := ha
      exact ⟨_, anaOk_add h.ok k w, rfl, by rw [getValue_add h.ok, if_neg (fun e => hk1 e.symm)]; exact h.ids,
        by rw [getValue_add h.ok, if_neg (fun e => hk2 e.symm)]; exact h.bases⟩
    have haddc : ∀ w, ∃ s, Lacks s (a.addConst k w) := by
      intro w
      obtain ⟨s, h⟩ := ha
      exact ⟨_, anaOk_addConst h.ok k w, rfl, by rw [getValue_addConst h.ok, if_neg (fun e => hk1 e.symm)]; exact h.ids,
        by rw [getValue_addConst h.ok, if_neg (fun e => hk2 e.symm)]; exact h.bases⟩
    rw [orgCopy]
    refine okIte (fun hc => ih _ _ hk' (haddc _) h1' h2') fun _ => ?_
    cases hg : old.getValue k with
    | none => have := hk k List.mem_cons_self; rw [hg] at this; cases this
    | some w =>
      simp only
      refine okIte (fun hs => ?_) fun hs => ?_
      · subst hs
        rw [hv] at hg
        cases hg
        rw [if_pos hl]
        exact ih _ _ hk' (hadd _) h1' h2'
      · exact okIte (fun _ => ih _ _ hk' ha h1' h2') fun _ => ih _ _ hk' (hadd _) h1' h2'

theorem lacks_org {a : Ana} {v : List Wc} (ha : Lacks (some v) a) (out : List Wc)
    (hl : out.head? ≠ some 0x2D → 2 ≤ v.length) : Ok (duplicateOrgName a out) (fun r => ∀ b ∈ r.toList, ∃ s, Lacks s b) := by
  have hn : ∀ b ∈ (none : Option Ana).toList, ∃ s, Lacks s b := fun b hb => by cases hb
  rw [duplicateOrgName]
  refine okIte (fun _ => okSome hn) fun _ => okIte (fun _ => okSome hn) fun hlen => ?_
  rw [rdz_lt (by omega)]
  refine okBind (okSome (P := fun c => c = out[0]) rfl) fun c0 hc0 => ?_
  refine okBind (okCmpz (by omega) (by decide)) fun _ _ => ?_
  refine okIte (fun _ => okPure hn) fun hno => ?_
  have hhead : out.head? ≠ some 0x2D := by
    rw [List.head?_eq_getElem?, List.getElem?_eq_getElem (by omega), ← hc0]
    intro e
    exact hno (Or.inl (Option.some.inj e))
  refine okBind (orgLoop_ok out _ (by omega)) fun _ _ => ?_
  refine okIte (fun _ => ?_) fun _ => okPure hn
  have hnk : ∀ k, a.getValue k = none → k ∉ a.internalKeys := fun k hk e => by
    have := internalKeys_some ha.ok _ e
    rw [hk] at this
    cases this
  refine okBind (lacks_copy ha.str (hl hhead) _ {} none (internalKeys_some ha.ok) ⟨_, anaOk_empty, rfl, rfl, rfl⟩ (hnk _ ha.ids) (hnk _ ha.bases)) fun r hr => ?_
  obtain ⟨n, ns⟩ := r
  obtain ⟨s, hs⟩ := hr
  simp only
  cases ns with
  | none => exact okPure fun b hb => by rw [Option.mem_toList] at hb; cases hb; exact ⟨s, hs⟩
  | some ns =>
    simp only
    refine okBind (parseBaseform_ok out ns) fun bf _ => ?_
    cases bf with
    | none => exact okPure fun b hb => by rw [Option.mem_toList] at hb; cases hb; exact ⟨s, hs⟩
    | some w => exact okPure fun b hb => by rw [Option.mem_toList] at hb; cases hb; exact ⟨s, lacks_add hs (by decide) (by decide) (by decide) w⟩

/-- The values. -/
def Told (its : List SItem) (a : Ana) : Prop :=
  a.getValue .wordbases = some (describe baseNote (parts {} its))
  ∧ (HasId its → a.getValue .wordids = some (describe idNote (parts {} its))) ∧ (¬ HasId its → a.getValue .wordids = none)

theorem usual_ditems {its : List SItem} (hw : WellFormed its) (ht : Tidy its) (hu : Usual its) : ∀ x ∈ its, DItem x := by
  intro x hx
  have h1 := usual_items its _ _ hw.1 hu.known x hx
  have h2 := ht x hx
  cases x with
  | cls c => exact h2
  | cls2 c d => exact h2
  | tag n => exact ⟨h2.1, h2.2.1, h2.2.2, h1.2.1, h1.1⟩
  | bound c => exact h2
  | sect c b => exact ⟨hu.known c b hx, h2.2, hu.bodies c b hx⟩
  | pat p => exact h2
  | chr c =>
    refine ⟨h2.1, h2.2, fun e => hu.noPlus ?_⟩
    subst e
    clear hw ht hu h1 h2
    induction its with
    | nil => cases hx
    | cons y its ih =>
      rcases List.mem_cons.1 hx with e | e
      · rw [← e]; exact List.mem_cons_self
      · have := ih e
        cases y with
        | chr c => exact List.mem_cons_of_mem _ this
        | _ => exact this

theorem debug_told {its : List SItem} (hd : ∀ x ∈ its, DItem x)
    (hl : ∀ p, (parts {} its).getLast? = some p → p.base ≠ [] → p.text ≠ [] ∨ p.joined = true) {s : Option (List Wc)} {a : Ana} (ha : Lacks s a) :
    Ok (parseDebugAttributes a (render its)) (Told its) := by
  obtain ⟨b, hb, -⟩ := parseDebugAttributes_keep (s := s) ⟨ha.ok, ha.str⟩ (render its)
  refine ⟨b, hb, ?_⟩
  rw [parseDebugAttributes] at hb
  obtain ⟨d, h1, h2⟩ := Option.bind_eq_some_iff.1 hb
  obtain ⟨⟨ids, bases⟩, h3, h4⟩ := Option.bind_eq_some_iff.1 h2
  obtain ⟨qs, q, g1, g2, g3⟩ := runs_all its.length its (Nat.le_refl _) hd [] [] {} {} sim_start ⟨_, h1⟩
  rw [List.nil_append] at g2
  obtain ⟨e1, e2⟩ := dbEnd_inv g2 (hl q (by rw [g1]; simp)) h3
  rw [← g1] at e1 e2
  subst e1; subst e2
  have hany : d.anyXs = true ↔ HasId its := by rw [g3]; simp
  have e4 := Option.some.inj h4
  subst e4
  refine ⟨?_, fun hid => ?_, fun hid => ?_⟩
  · have : AnaOk (if d.anyXs = true then a.add .wordids (describe idNote (parts {} its)) else a) ∧
        (if d.anyXs = true then a.add .wordids (describe idNote (parts {} its)) else a).getValue .wordbases = none := by
      split
      · exact ⟨anaOk_add ha.ok _ _, by rw [getValue_add ha.ok, if_neg (by decide)]; exact ha.bases⟩
      · exact ⟨ha.ok, ha.bases⟩
    rw [getValue_add this.1, if_pos rfl, this.2]
    rfl
  · rw [if_pos (hany.2 hid), getValue_add (anaOk_add ha.ok _ _), if_neg (by decide), getValue_add ha.ok, if_pos rfl, ha.ids]
    rfl
  · rw [if_neg (fun e => hid (hany.1 e)), getValue_add ha.ok, if_neg (by decide)]
    exact ha.ids

theorem rest_told (full : Bool) {its : List SItem} (hd : ∀ x ∈ its, DItem x)
    (hlast : ∀ p, (parts {} its).getLast? = some p → p.base ≠ [] → p.text ≠ [] ∨ p.joined = true) (h : render its ≠ [])
    (hlen : (render its).length < 2 ^ 64) {st : List Wc} (hst : (render its).head? ≠ some 0x2D → 2 ≤ st.length) :
    Ok (restOfAnalysis full (render its) st) (fun l => ∃ a r, l = a :: r ∧ (∀ b ∈ r, ∃ s, Lacks s b)
      ∧ (full = true → Told its a) ∧ (full = false → ∃ s, Lacks s a)) := by
  rw [restOfAnalysis]
  refine okBind (lacks_basic h hlen) fun a ha => ?_
  refine okBind (fixStructure_ok st _) fun st' hst' => ?_
  have ha1 : Lacks (some st') (a.add .structure_ st') :=
    ⟨anaOk_add ha.ok _ _, by rw [getValue_add ha.ok, if_pos rfl, ha.str]; rfl, by rw [getValue_add ha.ok, if_neg (by decide)]; exact ha.ids,
      by rw [getValue_add ha.ok, if_neg (by decide)]; exact ha.bases⟩
  refine okBind (lacks_adjust ha1) fun a ha => ?_
  refine okBind (lacks_org ha _ (by rw [hst'.1]; exact hst)) fun dup hdup => ?_
  refine okBind (P := fun b => (full = true → Told its b) ∧ (full = false → ∃ s, Lacks s b)) ?_ fun b hb => okPure ⟨b, _, rfl, hdup, hb⟩
  cases full with
  | false => exact okSome ⟨(fun e => by cases e), fun _ => ⟨_, ha⟩⟩
  | true =>
    rw [if_pos rfl]
    refine okBind (parseBaseform_ok _ st') fun bf _ => ?_
    have h1 := lacks_add ha (k := .fstoutput) (by decide) (by decide) (by decide) (render its)
    have h2 : Lacks (some st') (match bf with | some b => (a.add .fstoutput (render its)).add .baseform b | none => a.add .fstoutput (render its)) := by
      cases bf with
      | none => exact h1
      | some b => exact lacks_add h1 (by decide) (by decide) (by decide) b
    exact okMono (debug_told hd hlast h2) fun c hc => ⟨fun _ => hc, fun e => by cases e⟩

/-! ### Reading -/

theorem notes_text {w r : List Wc} (h : 0x28 ∉ w) : notes none (w ++ r) = notes none r := by
  induction w with
  | nil => rfl
  | cons c w ih =>
    have hc : c ≠ 0x28 := fun e => h (by simp [e])
    rw [List.cons_append, notes, if_neg hc, ih fun e => h (List.mem_cons_of_mem _ e)]

theorem notes_body {w r : List Wc} (h : 0x29 ∉ w) : ∀ v, notes (some v) (w ++ 0x29 :: r) = (v ++ w) :: notes none r := by
  induction w with
  | nil => intro v; simp [notes]
  | cons c w ih =>
    intro v
    have hc : c ≠ 0x29 := fun e => h (by simp [e])
    rw [List.cons_append, notes, if_neg hc, ih fun e => h (List.mem_cons_of_mem _ e)]
    simp

theorem bare_text {w r : List Wc} (h : 0x28 ∉ w) : bare false (w ++ r) = w.filter (· ≠ 0x2B) ++ bare false r := by
  induction w with
  | nil => rfl
  | cons c w ih =>
    have hc : c ≠ 0x28 := fun e => h (by simp [e])
    rw [List.cons_append, bare, if_neg hc, ih fun e => h (List.mem_cons_of_mem _ e)]
    by_cases h2 : c = 0x2B <;> simp [h2]

theorem bare_body {w r : List Wc} (h : 0x29 ∉ w) : bare true (w ++ 0x29 :: r) = bare false r := by
  induction w with
  | nil => simp [bare]
  | cons c w ih =>
    have hc : c ≠ 0x29 := fun e => h (by simp [e])
    rw [List.cons_append, bare, if_neg hc, ih fun e => h (List.mem_cons_of_mem _ e)]

/-- A word without parentheses. -/
def Clean (w : List Wc) : Prop := 0x28 ∉ w ∧ 0x29 ∉ w

/-- The word in parentheses that belongs to a part. -/
def noted (note : Part → List Wc) (word : Part → List Wc) (p : Part) : Prop :=
  note p = if word p = [] then [] else 0x28 :: (word p ++ [0x29])

theorem read_note {note word : Part → List Wc} {p : Part} (hn : noted note word p) (hc : Clean (word p)) (r : List Wc) :
    notes none (note p ++ r) = (if word p = [] then [] else [word p]) ++ notes none r ∧ bare false (note p ++ r) = bare false r := by
  rw [hn]
  split
  · exact ⟨rfl, rfl⟩
  · constructor
    · show notes (some []) ((word p ++ [0x29]) ++ r) = _
      rw [List.append_assoc]
      exact notes_body hc.2 []
    · show bare true ((word p ++ [0x29]) ++ r) = _
      rw [List.append_assoc]
      exact bare_body hc.2

theorem clean_lead (p : Part) : 0x28 ∉ lead p := by
  unfold lead
  by_cases h1 : p.hyphen = true <;> by_cases h2 : p.text = [] ∨ p.joined = true <;> simp [h1, h2, lit]

theorem filter_self {w : List Wc} (h : 0x2B ∉ w) : w.filter (· ≠ 0x2B) = w :=
  List.filter_eq_self.2 fun c hc => by simpa using fun e : c = 0x2B => h (e ▸ hc)

theorem bare_lead (p : Part) : (lead p).filter (· ≠ 0x2B) = if p.hyphen then [0x2D] else [] := by
  unfold lead
  by_cases h1 : p.hyphen = true <;> by_cases h2 : p.text = [] ∨ p.joined = true <;> simp [h1, h2, lit]

theorem read_inner {note word : Part → List Wc} {p : Part} (hn : noted note word p) (hc : Clean (word p)) (ht : Clean p.text) (hp : 0x2B ∉ p.text)
    (r : List Wc) : notes none (inner note p ++ r) = (if word p = [] then [] else [word p]) ++ notes none r
      ∧ bare false (inner note p ++ r) = said p ++ bare false r := by
  have h1 : 0x28 ∉ lead p ++ p.text := by
    rw [List.mem_append, not_or]
    exact ⟨clean_lead p, ht.1⟩
  have := read_note hn hc r
  constructor
  · rw [inner, List.append_assoc, notes_text h1, this.1]
  · rw [inner, List.append_assoc, bare_text h1, this.2, List.filter_append, bare_lead, filter_self hp]
    rfl

/-- The last part as it is said. -/
def saidLast (p : Part) : List Wc :=
  if p.base = [] then said p else (if p.hyphen then [0x2D] else []) ++ (strip p.base).filter (· ≠ 0x2B)

theorem read_final {note word : Part → List Wc} {p : Part} (hn : noted note word p) (hc : Clean (word p)) (ht : Clean p.text) (hp : 0x2B ∉ p.text)
    (hb : Clean p.base) : notes none (final note p) = (if word p = [] then [] else [word p]) ∧ bare false (final note p) = saidLast p := by
  unfold final saidLast
  by_cases h : p.base = []
  · rw [if_pos h, if_pos h]
    have := read_inner hn hc ht hp []
    simpa [notes, bare] using this
  · rw [if_neg h, if_neg h]
    have hs : 0x28 ∉ strip p.base := fun e => hb.1 (List.mem_filter.1 e).1
    have h2 := read_note hn hc []
    rw [List.append_nil] at h2
    have h1 : 0x28 ∉ (if p.hyphen then lit "+-" else []) ++ (if p.joined ∨ p.base.head? = some 0x2B then [] else lit "+") ++ strip p.base := by
      rw [List.mem_append, not_or]
      refine ⟨?_, hs⟩
      by_cases h1 : p.hyphen = true <;> by_cases h2 : p.joined = true ∨ p.base.head? = some 0x2B <;> simp [h1, h2, lit]
    constructor
    · rw [notes_text h1, h2.1]; simp [notes]
    · rw [bare_text h1, h2.2, List.filter_append]
      simp only [bare, List.append_nil]
      congr 1
      by_cases h1 : p.hyphen = true <;> by_cases h2 : p.joined = true ∨ p.base.head? = some 0x2B <;> simp [h1, h2, lit]

theorem read_describe {note word : Part → List Wc} : ∀ (ps : List Part) (p : Part), (∀ q ∈ ps ++ [p], noted note word q ∧ Clean (word q) ∧ Clean q.text
      ∧ 0x2B ∉ q.text ∧ Clean q.base) →
    notes none (describe note (ps ++ [p])) = ((ps ++ [p]).map word).filter (· ≠ []) ∧ bare false (describe note (ps ++ [p])) = ps.flatMap said ++ saidLast p := by
  intro ps p h
  obtain ⟨h1, h2, h3, h4, h5⟩ := h p (by simp)
  rw [describe_snoc]
  have hf := read_final h1 h2 h3 h4 h5
  have h' : ∀ q ∈ ps, noted note word q ∧ Clean (word q) ∧ Clean q.text ∧ 0x2B ∉ q.text ∧ Clean q.base := fun q hq => h q (by simp [hq])
  clear h
  induction ps with
  | nil =>
    refine ⟨?_, ?_⟩
    · show notes none (final note p) = List.filter _ [word p]
      rw [hf.1]
      by_cases e : word p = [] <;> simp [e]
    · simpa [sofar] using hf.2
  | cons q ps ih =>
    obtain ⟨g1, g2, g3, g4, g5⟩ := h' q (by simp)
    obtain ⟨i1, i2⟩ := ih fun x hx => h' x (by simp [hx])
    have e : sofar note (q :: ps) ++ final note p = inner note q ++ (sofar note ps ++ final note p) := by simp [sofar]
    rw [e]
    have := read_inner g1 g2 g3 g4 (sofar note ps ++ final note p)
    rw [this.1, this.2, i1, i2]
    refine ⟨?_, by simp⟩
    by_cases e : word q = [] <;> simp [e]

theorem noted_base (p : Part) : noted baseNote (·.base) p := by
  show baseNote p = _
  unfold baseNote
  split <;> simp [lit]

theorem noted_id (p : Part) : noted idNote (fun p => if p.id = [] then [] else 0x77 :: p.id) p := by
  show idNote p = _
  unfold idNote
  by_cases h : p.id = [] <;> simp [h, lit]

/-! ### The parts -/

/-- Nothing but letters and known base forms and identifiers without parentheses. -/
structure Fine (p : Part) : Prop where
  text : ∀ c ∈ p.text, c ≠ 0x28 ∧ c ≠ 0x29 ∧ c ≠ 0x2B
  base : ∀ c ∈ p.base, c ≠ 0x28 ∧ c ≠ 0x29
  id : ∀ c ∈ p.id, c ≠ 0x28 ∧ c ≠ 0x29

theorem quiet_tail {x : SItem} {l : List SItem} (h : Quiet (x :: l)) : Quiet l := by
  refine ⟨fun c hc => h.1 c ?_, fun k b hb => h.2 k b (List.mem_cons_of_mem _ hb)⟩
  cases x with
  | chr d => exact List.mem_cons_of_mem _ hc
  | _ => exact hc

theorem fine_suffix {b : List Wc} (h : ∀ c ∈ b, c ≠ 0x28 ∧ c ≠ 0x29 ∧ c ≠ 0x2B) : ∀ c ∈ suffix b, c ≠ 0x28 ∧ c ≠ 0x29 := by
  intro c hc
  unfold suffix at hc
  split at hc
  · cases hc
  · rcases List.mem_cons.1 hc with rfl | hc
    · decide
    · exact ⟨(h c hc).1, (h c hc).2.1⟩

theorem fine_parts : ∀ (l : List SItem) (p : Part), Quiet l → Fine p → ∀ q ∈ parts p l, Fine q := by
  intro l
  induction l with
  | nil =>
    intro p _ hp q hq
    rw [parts, List.mem_singleton] at hq
    subst hq
    exact hp
  | cons x l ih =>
    intro p hq hp q hmem
    have hq' := quiet_tail hq
    have fine0 : ∀ hy, Fine { hyphen := hy } := fun hy => ⟨by simp, by simp, by simp⟩
    cases x with
    | cls c =>
      rw [parts] at hmem
      rcases List.mem_cons.1 hmem with rfl | hmem
      · exact hp
      · exact ih _ hq' (fine0 false) q hmem
    | cls2 c d =>
      rw [parts] at hmem
      rcases List.mem_cons.1 hmem with rfl | hmem
      · exact hp
      · exact ih _ hq' (fine0 false) q hmem
    | chr c =>
      rw [parts] at hmem
      split at hmem
      · rcases List.mem_cons.1 hmem with rfl | hmem
        · exact hp
        · exact ih _ hq' (fine0 true) q hmem
      · refine ih { p with text := p.text ++ [c] } hq' ⟨?_, hp.base, hp.id⟩ q hmem
        intro d hd
        rcases List.mem_append.1 hd with hd | hd
        · exact hp.text d hd
        · rw [List.mem_singleton] at hd
          subst hd
          exact hq.1 d List.mem_cons_self
    | sect c b =>
      have hb := hq.2 c b List.mem_cons_self
      have hb2 : ∀ x ∈ b, x ≠ 0x28 ∧ x ≠ 0x29 := fun x hx => ⟨(hb x hx).1, (hb x hx).2.1⟩
      rw [parts] at hmem
      split at hmem
      · exact ih { p with base := b } hq' ⟨hp.text, hb2, hp.id⟩ q hmem
      · split at hmem
        · split at hmem
          · exact ih { p with base := suffix b } hq' ⟨hp.text, fine_suffix hb, hp.id⟩ q hmem
          · rcases List.mem_cons.1 hmem with rfl | hmem
            · exact hp
            · exact ih _ hq' ⟨by simp, fine_suffix hb, by simp⟩ q hmem
        · exact ih { p with id := b } hq' ⟨hp.text, hp.base, hb2⟩ q hmem
    | tag n => exact ih _ hq' hp q hmem
    | bound n => exact ih _ hq' hp q hmem
    | pat n => exact ih _ hq' hp q hmem

/-- The letters of the parts are the word. -/
theorem parts_said : ∀ (l : List SItem) (p : Part), (parts p l).flatMap said = said p ++ content l := by
  intro l
  induction l with
  | nil => intro p; simp [parts, content]
  | cons x l ih =>
    intro p
    cases x with
    | cls c => rw [parts, List.flatMap_cons, ih]; simp [said, content]
    | cls2 c d => rw [parts, List.flatMap_cons, ih]; simp [said, content]
    | chr c =>
      rw [parts]
      split
      · rename_i h
        rw [List.flatMap_cons, ih, h.1]
        simp [said, content]
      · rw [ih]
        simp [said, content]
    | sect c b =>
      rw [parts]
      split
      · rw [ih]; simp [said, content]
      · split
        · split
          · rw [ih]; simp [said, content]
          · rw [List.flatMap_cons, ih]; simp [said, content]
        · rw [ih]; simp [said, content]
    | tag n => exact ih p
    | bound n => exact ih p
    | pat n => exact ih p

theorem parts_snoc : ∀ (l : List SItem) (p : Part), ∃ qs q, parts p l = qs ++ [q] := by
  intro l
  induction l with
  | nil => intro p; exact ⟨[], p, rfl⟩
  | cons x l ih =>
    intro p
    have more : ∀ p0 p', ∃ qs q, p0 :: parts p' l = qs ++ [q] := by
      intro p0 p'
      obtain ⟨qs, q, e⟩ := ih p'
      exact ⟨p0 :: qs, q, by rw [e]; rfl⟩
    cases x with
    | cls c => exact more _ _
    | cls2 c d => exact more _ _
    | chr c => rw [parts]; split; exacts [more _ _, ih _]
    | sect c b =>
      rw [parts]
      split
      · exact ih _
      · split
        · split
          · exact ih _
          · exact more _ _
        · exact ih _
    | tag n => exact ih p
    | bound n => exact ih p
    | pat n => exact ih p

/-- The parts up to some place. -/
theorem parts_before (R : List SItem) : ∀ (A : List SItem) (p : Part), ∃ qs q, parts p (A ++ R) = qs ++ parts q R
    ∧ qs.flatMap said ++ said q = said p ++ content A := by
  intro A
  induction A with
  | nil => intro p; exact ⟨[], p, rfl, by simp [content]⟩
  | cons x A ih =>
    intro p
    have same : ∀ p' w, (said p' = said p ++ w) → content (x :: A) = w ++ content A →
        ∃ qs q, parts p' (A ++ R) = qs ++ parts q R ∧ qs.flatMap said ++ said q = said p ++ content (x :: A) := by
      intro p' w h1 h2
      obtain ⟨qs, q, e1, e2⟩ := ih p'
      exact ⟨qs, q, e1, by rw [e2, h1, h2]; simp⟩
    have more : ∀ p', said p' ++ content A = content (x :: A) →
        ∃ qs q, p :: parts p' (A ++ R) = qs ++ parts q R ∧ qs.flatMap said ++ said q = said p ++ content (x :: A) := by
      intro p' h1
      obtain ⟨qs, q, e1, e2⟩ := ih p'
      exact ⟨p :: qs, q, by rw [e1]; rfl, by rw [List.flatMap_cons, List.append_assoc, e2, h1]⟩
    cases x with
    | cls c => exact more _ (by simp [said, content])
    | cls2 c d => exact more _ (by simp [said, content])
    | chr c =>
      rw [List.cons_append, parts]
      split
      · rename_i h
        exact more _ (by simp [said, content, h.1])
      · exact same _ [c] (by simp [said]) (by simp [content])
    | sect c b =>
      rw [List.cons_append, parts]
      split
      · exact same _ [] (by simp [said]) (by simp [content])
      · split
        · split
          · exact same _ [] (by simp [said]) (by simp [content])
          · exact more _ (by simp [said, content])
        · exact same _ [] (by simp [said]) (by simp [content])
    | tag n => exact same _ [] (by simp [said]) (by simp [content])
    | bound n => exact same _ [] (by simp [said]) (by simp [content])
    | pat n => exact same _ [] (by simp [said]) (by simp [content])

/-- Without letters the part stays without letters. -/
theorem parts_silent (R : List SItem) : ∀ (A : List SItem) (p : Part), content A = [] → p.text = [] → p.joined = false → ∃ qs q,
    parts p (A ++ R) = qs ++ parts q R ∧ qs.flatMap said ++ said q = said p ∧ q.text = [] ∧ q.joined = false := by
  intro A
  induction A with
  | nil => intro p _ h1 h2; exact ⟨[], p, rfl, rfl, h1, h2⟩
  | cons x A ih =>
    intro p h h1 h2
    cases x with
    | cls c =>
      obtain ⟨qs, q, e1, e2, e3⟩ := ih {} h rfl rfl
      exact ⟨p :: qs, q, by rw [List.cons_append, parts, e1]; rfl, by rw [List.flatMap_cons, List.append_assoc, e2]; simp [said], e3⟩
    | cls2 c d =>
      obtain ⟨qs, q, e1, e2, e3⟩ := ih {} h rfl rfl
      exact ⟨p :: qs, q, by rw [List.cons_append, parts, e1]; rfl, by rw [List.flatMap_cons, List.append_assoc, e2]; simp [said], e3⟩
    | chr c => cases h
    | sect c b =>
      rw [List.cons_append, parts]
      split
      · exact ih { p with base := b } h h1 h2
      · split
        · rw [if_pos ⟨h1, h2⟩]; exact ih { p with base := suffix b } h h1 h2
        · exact ih { p with id := b } h h1 h2
    | tag n => exact ih p h h1 h2
    | bound n => exact ih p h h1 h2
    | pat n => exact ih p h h1 h2

theorem parts_single : ∀ (M : List SItem) (p : Part), NoBorder M → NoBase M → ∃ i, parts p M = [{ p with text := p.text ++ content M, id := i }] := by
  intro M
  induction M with
  | nil => intro p _ _; exact ⟨p.id, by simp [parts, content]⟩
  | cons x M ih =>
    intro p h1 h2
    have h1' : NoBorder M := fun y hy => h1 y (List.mem_cons_of_mem _ hy)
    have h2' : NoBase M := fun y hy => h2 y (List.mem_cons_of_mem _ hy)
    have hx := h1 x List.mem_cons_self
    have hn := h2 x List.mem_cons_self
    cases x with
    | cls c => exact absurd (Or.inl ⟨c, rfl⟩) hx.1
    | cls2 c d => exact absurd (Or.inr ⟨c, d, rfl⟩) hx.1
    | chr c =>
      have hb : atBoundary M = false := by
        cases M with
        | nil => rfl
        | cons y M =>
          have hy := (h1' y List.mem_cons_self).2
          cases y with
          | tag n =>
            cases n with
            | nil => rfl
            | cons a n =>
              rw [atBoundary.eq_def] at hy ⊢
              revert hy
              split <;> split <;> simp_all
          | bound c => cases hy
          | _ => rfl
      obtain ⟨i, e⟩ := ih { p with text := p.text ++ [c] } h1' h2'
      refine ⟨i, ?_⟩
      rw [parts, if_neg (by simp [hb]), e]
      simp [content]
    | sect c b =>
      have hc1 : c ≠ 0x70 := fun e => hn b (Or.inl (by rw [e]))
      have hc2 : c ≠ 0x6A := fun e => hn b (Or.inr (by rw [e]))
      obtain ⟨i, e⟩ := ih { p with id := b } h1' h2'
      refine ⟨i, ?_⟩
      rw [parts, if_neg hc1, if_neg hc2, e]
      rfl
    | tag n => exact ih p h1' h2'
    | bound n => exact ih p h1' h2'
    | pat n => exact ih p h1' h2'

theorem parts_last {A M : List SItem} {x : SItem} {body : List Wc} (hx : BaseSect x body) (ho : Opens A x) (hb : body ≠ []) (hM : NoBorder M) (hN : NoBase M) :
    ∃ qs q, parts {} (A ++ x :: M) = qs ++ [q] ∧ qs.flatMap said ++ (if q.hyphen then [0x2D] else []) = content A ∧
      (q.base = body ∨ q.base = 0x2B :: body) := by
  rcases hx with rfl | rfl
  · obtain ⟨A1, y, A2, rfl, hy, h2⟩ : ∃ A1 y A2, A = A1 ++ y :: A2 ∧ IsClass y ∧ content A2 = [] := by
      rcases ho with ⟨b, e⟩ | h
      · cases e
      · exact h
    obtain ⟨qs, q, e1, e2⟩ := parts_before (y :: (A2 ++ .sect 0x70 body :: M)) A1 {}
    obtain ⟨qs2, q2, f1, f2, f3, f4⟩ := parts_silent (.sect 0x70 body :: M) A2 {} h2 rfl rfl
    obtain ⟨i, g⟩ := parts_single M { q2 with base := body } hM hN
    have hcls : parts q (y :: (A2 ++ .sect 0x70 body :: M)) = q :: parts {} (A2 ++ .sect 0x70 body :: M) := by
      rcases hy with ⟨c, rfl⟩ | ⟨c, d, rfl⟩ <;> rfl
    refine ⟨qs ++ q :: qs2, { q2 with base := body, text := q2.text ++ content M, id := i }, ?_, ?_, Or.inl ?_⟩
    · rw [List.append_assoc, List.cons_append, e1, hcls, f1, parts, if_pos rfl, g]
      rw [List.append_assoc, List.cons_append]
    · have hcA : content (A1 ++ y :: A2) = content A1 := by
        rw [content_append]
        have : content (y :: A2) = content A2 := by rcases hy with ⟨c, rfl⟩ | ⟨c, d, rfl⟩ <;> rfl
        rw [this, h2, List.append_nil]
      rw [hcA]
      have hs : said q2 = if q2.hyphen then [0x2D] else [] := by simp [said, f3]
      rw [hs] at f2
      have e2' : qs.flatMap said ++ said q = content A1 := by rw [e2]; simp [said]
      rw [List.flatMap_append, List.flatMap_cons, List.append_assoc, List.append_assoc]
      have f2' : qs2.flatMap said ++ (if q2.hyphen then [0x2D] else []) = [] := by rw [f2]; simp [said]
      show qs.flatMap said ++ (said q ++ (qs2.flatMap said ++ if q2.hyphen = true then [0x2D] else [])) = _
      rw [f2', List.append_nil, e2']
    · rfl
  · obtain ⟨qs, q, e1, e2⟩ := parts_before (.sect 0x6A body :: M) A {}
    have e2' : qs.flatMap said ++ said q = content A := by rw [e2]; simp [said]
    have hsuf : suffix body = 0x2B :: body := by simp [suffix, hb]
    by_cases hq : q.text = [] ∧ q.joined = false
    · obtain ⟨i, g⟩ := parts_single M { q with base := suffix body } hM hN
      refine ⟨qs, { q with base := suffix body, text := q.text ++ content M, id := i }, ?_, ?_, Or.inr ?_⟩
      · rw [e1, parts, if_neg (by decide), if_pos rfl, if_pos hq, g]
      · rw [← e2']
        simp [said, hq.1]
      · exact hsuf
    · obtain ⟨i, g⟩ := parts_single M { joined := true, base := suffix body } hM hN
      refine ⟨qs ++ [q], { joined := true, base := suffix body, text := content M, id := i }, ?_, ?_, Or.inr ?_⟩
      · rw [e1, parts, if_neg (by decide), if_pos rfl, if_neg hq, g]
        simp
      · rw [← e2']
        simp
      · exact hsuf

end Verif.WordBases
