import Verif.Lemmas.VfstcMain
import Verif.Lemmas.FstTextPlain
import Verif.Props.FstTextW
/-!
# What the dictionary compiler does with its arguments, its input and its output file (C107)
-/

set_option linter.unusedSimpArgs false
set_option linter.unusedVariables false

namespace Verif.VfstcProgram
open Verif Verif.Att Verif.Args

/-! ### Specification -/

/-- The options of the compiler that have values: the output file, the byte order and the kind of weights. -/
def options : List Arg := [lit "-o", lit "-f", lit "-w"]

/-- The names of the kinds of weights. -/
inductive KindName : Arg → WeightKind → Prop
  | prob : KindName (lit "prob") .prob
  | log : KindName (lit "log") .log

/-- The byte order that is meant by a name, on a machine that is little-endian or not: is the file big-endian? -/
inductive OrderName (little : Bool) : Arg → Bool → Prop
  | le : OrderName little (lit "le") false
  | be : OrderName little (lit "be") true
  | native : OrderName little (lit "native") (!little)

/-- The arguments ask for the file `name`, with the given byte order and kind of weights. -/
structure Asks (little : Bool) (args : List Arg) (name : Arg) (big : Bool) (kind : Option WeightKind) : Prop where
  reads : ∃ items rest, Reads options args items rest ∧
    (∀ v, Item.valued (lit "-w") v ∈ items → ∃ k, KindName v k) ∧
    lastOf (valueOf "-o") items = some name ∧ name ≠ [] ∧
    OrderName little ((lastOf (valueOf "-f") items).getD (lit "le")) big ∧
    (match lastOf (valueOf "-w") items with
     | none => kind = none
     | some v => ∃ k, kind = some k ∧ KindName v k)

/-- The text can be read: the states are numbered in the order in which their lines begin, and no symbol is a lone bracket. -/
def Readable (ls : List Line) : Prop :=
  (∀ (k : Nat) (l : Line), ls[k]? = some l → ∀ s, s < l.src → ∃ (j : Nat) (l' : Line), j < k ∧ ls[j]? = some l' ∧ l'.src = s) ∧
  ∀ l ∈ ls, [91] ∉ l.symbols

/-- Every target of a transition has a line. -/
def Closed (ls : List Line) : Prop := ∀ a, Line.arc a ∈ ls → ∃ l ∈ ls, l.src = a.tgt

/-- Fewer than 65535 symbols are used. -/
def FewSymbols (ls : List Line) : Prop := ∃ all : List (List Wc), all.length < 65535 ∧ ∀ l ∈ ls, ∀ s ∈ l.symbols, s ∈ all

/-! ### The arguments -/

theorem kind_iff (v : Arg) (k : WeightKind) : KindName v k ↔ Vfstc.kindOf v = some k := by
  constructor
  · rintro (_ | _) <;> decide
  · unfold Vfstc.kindOf
    intro h
    split at h
    · rename_i e; cases h; rw [e]; exact .prob
    · split at h
      · rename_i e; cases h; rw [e]; exact .log
      · cases h

theorem order_iff (little : Bool) (v : Arg) (big : Bool) : OrderName little v big ↔ (vfstcSwap little v).map (· == little) = some big := by
  constructor
  · rintro (_ | _ | _) <;> cases little <;> decide
  · unfold vfstcSwap
    intro h
    split at h
    · rename_i e
      rw [e]
      have : big = false := by cases little <;> simpa using h.symm
      rw [this]; exact .le
    · split at h
      · rename_i e
        rw [e]
        have : big = true := by cases little <;> simpa using h.symm
        rw [this]; exact .be
      · split at h
        · rename_i e
          rw [e]
          have : big = !little := by cases little <;> simpa using h.symm
          rw [this]; exact .native
        · cases h

theorem lastOf_mem {k : String} {items : List Item} {v : Arg} (h : lastOf (valueOf k) items = some v) : Item.valued (lit k) v ∈ items := by
  unfold lastOf at h
  obtain ⟨it, hit, hv⟩ := List.mem_filterMap.1 (List.mem_of_getLast? h)
  cases it with
  | word w => cases hv
  | valued k' v' =>
    simp only [valueOf] at hv
    by_cases e : k' = lit k
    · rw [if_pos e] at hv
      rw [← e, ← Option.some.inj hv]; exact hit
    · rw [if_neg e] at hv
      cases hv

/-- What the program does when it is asked for a file. -/
theorem main_asked {little : Bool} {args : List Arg} {name : Arg} {big : Bool} {kind : Option WeightKind} (h : Asks little args name big kind)
    (N : WeightKind → AttNumbers) (reserved : Nat → Nat) (srtS : List (Nat × List Nat) → List (Nat × List Nat)) (srtT : List CTrans → List CTrans)
    (srtW : List WTrans → List WTrans) (canOpen : Arg → Bool) (text : List Nat) :
    vfstcMain N reserved srtS srtT srtW little canOpen args text =
      (match kind with
        | some k => vfstcWeighted (N k) reserved srtS srtW big text
        | none => vfstcPlain srtS srtT big text).map fun r =>
        match r with
        | none => .refused
        | some content => if canOpen name then (match content with | none => .broken name | some c => .written name c) else .cannotOpen name := by
  obtain ⟨items, rest, hr, hw, ho, hne, hf, hk⟩ := h.reads
  have hbad : ¬ ∃ it ∈ items, Vfstc.BadKind it := by
    rintro ⟨it, hit, v, rfl, hv⟩
    obtain ⟨k, hk⟩ := hw v hit
    rw [kind_iff, hv] at hk
    cases hk
  have e := (Vfstc.args_spec items args rest {} hr).2 hbad
  have e1 := Vfstc.upd_output items {}
  have e2 := Vfstc.upd_format items {}
  have e3 := Vfstc.upd_weights items {}
  rw [order_iff] at hf
  rw [ho] at e1
  unfold vfstcMain
  rw [e]
  generalize items.foldl Vfstc.upd {} = s at e1 e2 e3
  replace e1 : s.outputFile = name := e1
  replace e2 : s.format = (lastOf (valueOf "-f") items).getD (lit "le") := e2
  simp only [e1, e2, if_neg hne]
  cases hs : vfstcSwap little ((lastOf (valueOf "-f") items).getD (lit "le")) with
  | none => rw [hs] at hf; cases hf
  | some b =>
    rw [hs] at hf
    have hb : (b == little) = big := Option.some.inj hf
    simp only [hb]
    have fin : ∀ x : UB (Option (Option (List Nat))), (x >>= fun r => match r with
        | none => return .refused
        | some content => if canOpen name then (match content with | none => return .broken name | some c => return .written name c) else return .cannotOpen name) =
        (x.map fun r => match r with
        | none => .refused
        | some content => if canOpen name then (match content with | none => .broken name | some c => .written name c) else .cannotOpen name : UB VfstcEnd) := by
      intro x
      cases x with
      | none => rfl
      | some r =>
        cases r with
        | none => rfl
        | some c =>
          cases c <;> (simp only [Option.bind_eq_bind, Option.bind_some, Option.map_some]; split <;> rfl)
    cases hl : lastOf (valueOf "-w") items with
    | none =>
      rw [hl] at hk e3
      simp only [Option.map_none, Option.getD_none, Prod.mk.injEq] at e3
      simp only at hk
      rw [hk, e3.1]
      exact fin _
    | some v =>
      rw [hl] at hk e3
      obtain ⟨k, rfl, hv⟩ := hk
      rw [kind_iff] at hv
      simp only [Option.map_some, Option.getD_some, Prod.mk.injEq, hv] at e3
      rw [e3.1, e3.2]
      exact fin _

/-- C107: arguments that do not ask for a file (the name of the output file is missing or empty, the byte order is unknown, or one of the kinds of weights is
unknown) are refused: the status is 1 and no file is opened. -/
theorem C107_not_asked {little : Bool} {args : List Arg} (h : ∀ name big kind, ¬ Asks little args name big kind)
    (N : WeightKind → AttNumbers) (reserved : Nat → Nat) (srtS : List (Nat × List Nat) → List (Nat × List Nat)) (srtT : List CTrans → List CTrans)
    (srtW : List WTrans → List WTrans) (canOpen : Arg → Bool) (text : List Nat) :
    vfstcMain N reserved srtS srtT srtW little canOpen args text = some .refused := by
  obtain ⟨items, rest, hr⟩ := reads_exists options args
  obtain ⟨a, b⟩ := Vfstc.args_spec items args rest {} hr
  by_cases hbad : ∃ it ∈ items, Vfstc.BadKind it
  · unfold vfstcMain; rw [a hbad]; rfl
  · have e := b hbad
    have e1 := Vfstc.upd_output items {}
    have e2 := Vfstc.upd_format items {}
    unfold vfstcMain
    rw [e]
    generalize items.foldl Vfstc.upd {} = s at e1 e2
    replace e2 : s.format = (lastOf (valueOf "-f") items).getD (lit "le") := e2
    simp only
    by_cases hn : s.outputFile = []
    · rw [if_pos hn]; rfl
    · rw [if_neg hn]
      cases hs : vfstcSwap little s.format with
      | none => rfl
      | some sw =>
        exfalso
        cases ho : lastOf (valueOf "-o") items with
        | none => rw [ho] at e1; exact hn e1
        | some name =>
          rw [ho] at e1
          replace e1 : s.outputFile = name := e1
          have hw : ∀ v, Item.valued (lit "-w") v ∈ items → ∃ k, KindName v k := by
            intro v hv
            cases hk : Vfstc.kindOf v with
            | none => exact absurd ⟨_, hv, v, rfl, hk⟩ hbad
            | some k => exact ⟨k, (kind_iff v k).2 hk⟩
          have ho' : OrderName little ((lastOf (valueOf "-f") items).getD (lit "le")) (sw == little) := by
            rw [order_iff, ← e2, hs]; rfl
          cases hl : lastOf (valueOf "-w") items with
          | none => exact h name _ none ⟨items, rest, hr, hw, ho, e1 ▸ hn, ho', by rw [hl]⟩
          | some v =>
            obtain ⟨k, hk⟩ := hw v (lastOf_mem hl)
            exact h name _ (some k) ⟨items, rest, hr, hw, ho, e1 ▸ hn, ho', by rw [hl]; exact ⟨k, rfl, hk⟩⟩

/-- C107: the arguments decide what is asked for: there is only one answer. -/
theorem C107_asks_unique {little : Bool} {args : List Arg} {name name' : Arg} {big big' : Bool} {kind kind' : Option WeightKind}
    (h : Asks little args name big kind) (h' : Asks little args name' big' kind') : name = name' ∧ big = big' ∧ kind = kind' := by
  obtain ⟨items, rest, hr, -, ho, -, hf, hk⟩ := h.reads
  obtain ⟨items', rest', hr', -, ho', -, hf', hk'⟩ := h'.reads
  obtain ⟨rfl, rfl⟩ := reads_unique options _ _ _ _ _ hr hr'
  rw [ho] at ho'
  rw [order_iff] at hf hf'
  rw [hf] at hf'
  refine ⟨Option.some.inj ho', Option.some.inj hf', ?_⟩
  cases hl : lastOf (valueOf "-w") items with
  | none => rw [hl] at hk hk'; exact Eq.trans hk (Eq.symm hk')
  | some v =>
    rw [hl] at hk hk'
    obtain ⟨k, rfl, hk⟩ := hk
    obtain ⟨k', rfl, hk'⟩ := hk'
    rw [kind_iff] at hk hk'
    rw [← hk, ← hk']

/-- C107: what is asked for without weights is the file that the compiler makes of the text; it is written to the file with the given name, and no other file is
touched. -/
theorem C107_plain {little : Bool} {args : List Arg} {name : Arg} {big : Bool} (h : Asks little args name big none)
    (N : WeightKind → AttNumbers) (reserved : Nat → Nat) (srtS : List (Nat × List Nat) → List (Nat × List Nat)) (srtT : List CTrans → List CTrans)
    (srtW : List WTrans → List WTrans) (canOpen : Arg → Bool) (text : List Nat) :
    (∀ file, attCompile srtS srtT big text = some (some file) →
      vfstcMain N reserved srtS srtT srtW little canOpen args text = some (if canOpen name then .written name file else .cannotOpen name)) ∧
    (attCompile srtS srtT big text = some none → ∃ e, vfstcMain N reserved srtS srtT srtW little canOpen args text = some e ∧
      (e = .refused ∨ e = if canOpen name then .broken name else .cannotOpen name)) ∧
    (attCompile srtS srtT big text = none → vfstcMain N reserved srtS srtT srtW little canOpen args text = none) := by
  rw [main_asked h, Vfstc.plain_compile]
  simp only
  cases vfstcPlain srtS srtT big text with
  | none => exact ⟨fun _ e => (by cases e), fun e => (by cases e), fun _ => rfl⟩
  | some r =>
    cases r with
    | none => exact ⟨fun _ e => (by cases e), fun _ => ⟨_, rfl, .inl rfl⟩, fun e => (by cases e)⟩
    | some c =>
      cases c with
      | none => exact ⟨fun _ e => (by cases e), fun _ => ⟨_, rfl, .inr rfl⟩, fun e => (by cases e)⟩
      | some c => exact ⟨fun _ e => (by cases e; rfl), fun e => (by cases e), fun e => (by cases e)⟩

/-- C107: the same with weights, which are read as the last `-w` says. -/
theorem C107_weighted {little : Bool} {args : List Arg} {name : Arg} {big : Bool} {kind : WeightKind} (h : Asks little args name big (some kind))
    (N : WeightKind → AttNumbers) (reserved : Nat → Nat) (srtS : List (Nat × List Nat) → List (Nat × List Nat)) (srtT : List CTrans → List CTrans)
    (srtW : List WTrans → List WTrans) (canOpen : Arg → Bool) (text : List Nat) :
    (∀ file, attCompileW (N kind) reserved srtS srtW big text = some (some file) →
      vfstcMain N reserved srtS srtT srtW little canOpen args text = some (if canOpen name then .written name file else .cannotOpen name)) ∧
    (attCompileW (N kind) reserved srtS srtW big text = some none → ∃ e, vfstcMain N reserved srtS srtT srtW little canOpen args text = some e ∧
      (e = .refused ∨ e = if canOpen name then .broken name else .cannotOpen name)) ∧
    (attCompileW (N kind) reserved srtS srtW big text = none → vfstcMain N reserved srtS srtT srtW little canOpen args text = none) := by
  rw [main_asked h, Vfstc.weighted_compile]
  simp only
  cases vfstcWeighted (N kind) reserved srtS srtW big text with
  | none => exact ⟨fun _ e => (by cases e), fun e => (by cases e), fun _ => rfl⟩
  | some r =>
    cases r with
    | none => exact ⟨fun _ e => (by cases e), fun _ => ⟨_, rfl, .inl rfl⟩, fun e => (by cases e)⟩
    | some c =>
      cases c with
      | none => exact ⟨fun _ e => (by cases e), fun _ => ⟨_, rfl, .inr rfl⟩, fun e => (by cases e)⟩
      | some c => exact ⟨fun _ e => (by cases e; rfl), fun e => (by cases e), fun e => (by cases e)⟩

/-- C107: unless the native byte order is asked for, the result does not depend on the byte order of the machine. -/
theorem C107_machine {args : List Arg} {items : List Item} {rest : Option Arg} (hr : Reads options args items rest)
    (hn : lastOf (valueOf "-f") items ≠ some (lit "native"))
    (N : WeightKind → AttNumbers) (reserved : Nat → Nat) (srtS : List (Nat × List Nat) → List (Nat × List Nat)) (srtT : List CTrans → List CTrans)
    (srtW : List WTrans → List WTrans) (canOpen : Arg → Bool) (text : List Nat) :
    vfstcMain N reserved srtS srtT srtW true canOpen args text = vfstcMain N reserved srtS srtT srtW false canOpen args text := by
  have tr : ∀ {l l' : Bool} {name : Arg} {big : Bool} {kind : Option WeightKind}, Asks l args name big kind → Asks l' args name big kind := by
    intro l l' name big kind h
    obtain ⟨items', rest', hr', hw, ho, hne, hf, hk⟩ := h.reads
    obtain ⟨rfl, rfl⟩ := reads_unique options _ _ _ _ _ hr hr'
    refine ⟨items, rest, hr, hw, ho, hne, ?_, hk⟩
    generalize hv : (lastOf (valueOf "-f") items).getD (lit "le") = v at hf
    cases hf with
    | le => exact .le
    | be => exact .be
    | native =>
      exfalso
      cases hl : lastOf (valueOf "-f") items with
      | none => rw [hl] at hv; exact absurd hv (by decide)
      | some w => rw [hl] at hv; exact hn (hl.trans (congrArg some hv))
  by_cases h : ∃ name big kind, Asks true args name big kind
  · obtain ⟨name, big, kind, h⟩ := h
    rw [main_asked h, main_asked (tr h : Asks false args name big kind)]
  · rw [C107_not_asked fun name big kind hh => h ⟨name, big, kind, hh⟩, C107_not_asked fun name big kind hh => h ⟨name, big, kind, tr hh⟩]

/-- C107: a text without weights is refused before the output file is opened exactly if it is not readable; otherwise a file is written if every target has a line. -/
theorem C107_text {little : Bool} {args : List Arg} {name : Arg} {big : Bool} (h : Asks little args name big none)
    {text : List Nat} {ls : List Line} (hd : Describes text ls) (hfew : FewSymbols ls)
    (N : WeightKind → AttNumbers) (reserved : Nat → Nat) {srtS : List (Nat × List Nat) → List (Nat × List Nat)} {srtT : List CTrans → List CTrans}
    (hS : SortsBy (fun a b => attSymLt a.2 b.2) srtS) (hT : SortsBy fileOrderLt srtT) (srtW : List WTrans → List WTrans) (canOpen : Arg → Bool) :
    (¬ Readable ls → vfstcMain N reserved srtS srtT srtW little canOpen args text = some .refused) ∧
    (Readable ls → canOpen name = false → vfstcMain N reserved srtS srtT srtW little canOpen args text = some (.cannotOpen name)) ∧
    (Readable ls → canOpen name = true → ¬ Closed ls → vfstcMain N reserved srtS srtT srtW little canOpen args text = some (.broken name)) ∧
    (Readable ls → canOpen name = true → Closed ls → ∃ file, attCompile srtS srtT big text = some (some file) ∧
      vfstcMain N reserved srtS srtT srtW little canOpen args text = some (.written name file)) := by
  obtain ⟨t1, t2, t3⟩ := Vfstc.plain_text hd hfew hS hT big
  have nc : ¬ Closed ls → ∃ a, Line.arc a ∈ ls ∧ ∀ l ∈ ls, l.src ≠ a.tgt := by
    intro h
    refine Classical.byContradiction fun hn => h fun a ha => ?_
    exact Classical.byContradiction fun hl => hn ⟨a, ha, fun l hl' e => hl ⟨l, hl', e⟩⟩
  rw [main_asked h, Vfstc.plain_compile]
  simp only
  refine ⟨fun h => by rw [t1 h]; rfl, fun h hc => ?_, fun h hc hn => ?_, fun h hc hn => ?_⟩
  · by_cases hcl : Closed ls
    · obtain ⟨file, e⟩ := t3 h hcl
      rw [e]; simp [hc]
    · rw [t2 h (nc hcl)]; simp [hc]
  · rw [t2 h (nc hn)]; simp [hc]
  · obtain ⟨file, e⟩ := t3 h hn
    refine ⟨file, ?_, ?_⟩
    · rw [e]; rfl
    · rw [e]; simp [hc]

/-- C107: a proper text is written, in both byte orders, and the file loads. -/
theorem C107_dictionary {little : Bool} {args : List Arg} {name : Arg} {big : Bool} (h : Asks little args name big none)
    {text : List Nat} {ls : List Line} (hd : Describes text ls) (hp : Proper ls)
    (N : WeightKind → AttNumbers) (reserved : Nat → Nat) {srtS : List (Nat × List Nat) → List (Nat × List Nat)} {srtT : List CTrans → List CTrans}
    (hS : SortsBy (fun a b => attSymLt a.2 b.2) srtS) (hT : SortsBy fileOrderLt srtT) (srtW : List WTrans → List WTrans) {canOpen : Arg → Bool} (hc : canOpen name = true) :
    ∃ file f, vfstcMain N reserved srtS srtT srtW little canOpen args text = some (.written name file) ∧ loadFile file = some (some f) ∧ PlainStored ls f := by
  obtain ⟨file, f, h1, h2, h3⟩ := plain_of hd hp hS hT big
  refine ⟨file, f, ?_, h2, h3⟩
  rw [(C107_plain h N reserved srtS srtT srtW canOpen text).1 file h1, if_pos hc]

/-- C107: the same for a text with weights, which must survive the change of the byte order. -/
theorem C107_weighted_dictionary {little : Bool} {args : List Arg} {name : Arg} {big : Bool} {kind : WeightKind} (h : Asks little args name big (some kind))
    {N : WeightKind → AttNumbers} {reserved : Nat → Nat} {text : List Nat} {wls : List (Line × Nat)} (hd : DescribesW (N kind) text wls) (hp : Proper (wls.map (·.1)))
    {srtS : List (Nat × List Nat) → List (Nat × List Nat)} {srtW : List WTrans → List WTrans}
    (hS : SortsBy (fun a b => attSymLt a.2 b.2) srtS) (hW : SortsBy (fun a b => fileOrderLt a.t b.t) srtW) (srtT : List CTrans → List CTrans)
    (hbig : big = true → ∀ x ∈ wls, KeepsWeight x.2) {canOpen : Arg → Bool} (hc : canOpen name = true) :
    ∃ file f symbols states Ss F V K, vfstcMain N reserved srtS srtT srtW little canOpen args text = some (.written name file) ∧ loadFileW file = some (some f) ∧
      Stored wls f symbols states reserved Ss F V K := by
  obtain ⟨file, f, symbols, states, Ss, F, V, K, h1, h2, h3⟩ := stored_of (reserved := reserved) hd hp hS hW big hbig
  refine ⟨file, f, symbols, states, Ss, F, V, K, ?_, h2, h3⟩
  rw [(C107_weighted h N reserved srtS srtT srtW canOpen text).1 file h1, if_pos hc]

/-- C107: without weights no text and no arguments make the program read outside of its tables. -/
theorem C107_total {little : Bool} {args : List Arg} {name : Arg} {big : Bool} (h : Asks little args name big none)
    (N : WeightKind → AttNumbers) (reserved : Nat → Nat) {srtS : List (Nat × List Nat) → List (Nat × List Nat)} (srtT : List CTrans → List CTrans)
    (hS : SortsBy (fun a b => attSymLt a.2 b.2) srtS) (srtW : List WTrans → List WTrans) (canOpen : Arg → Bool) (text : List Nat) :
    ∃ e, vfstcMain N reserved srtS srtT srtW little canOpen args text = some e := by
  obtain ⟨r, hr⟩ := Props.C82_total (srtT := srtT) hS big text
  obtain ⟨a, b, -⟩ := C107_plain h N reserved srtS srtT srtW canOpen text
  cases r with
  | none => obtain ⟨e, he, _⟩ := b hr; exact ⟨e, he⟩
  | some file => exact ⟨_, a file hr⟩

/-! ### A former dictionary is lost -/

/-- The content of the named files after the program, if the broken file has `part` as its content. -/
def filesAfter (files : Arg → Option (List Nat)) (part : List Nat) : VfstcEnd → Arg → Option (List Nat)
  | .refused => files
  | .cannotOpen _ => files
  | .broken name => fun n => if n = name then some part else files n
  | .written name content => fun n => if n = name then some content else files n

/-- C107: only the file that is asked for is changed. -/
theorem C107_other_files {little : Bool} {args : List Arg} {name : Arg} {big : Bool} {kind : Option WeightKind} (h : Asks little args name big kind)
    (N : WeightKind → AttNumbers) (reserved : Nat → Nat) (srtS : List (Nat × List Nat) → List (Nat × List Nat)) (srtT : List CTrans → List CTrans)
    (srtW : List WTrans → List WTrans) (canOpen : Arg → Bool) (text : List Nat) {e : VfstcEnd}
    (he : vfstcMain N reserved srtS srtT srtW little canOpen args text = some e) (files : Arg → Option (List Nat)) (part : List Nat) {other : Arg} (ho : other ≠ name) :
    filesAfter files part e other = files other := by
  rw [main_asked h, Option.map_eq_some_iff] at he
  obtain ⟨r, -, rfl⟩ := he
  cases r with
  | none => rfl
  | some c =>
    cases hc : canOpen name with
    | false => simp [hc, filesAfter]
    | true => cases c <;> simp [hc, filesAfter, ho]

/-- The claim that a text that is not accepted leaves the output file as it was is false: for every text in which a target has no line, the program ends with
the status 1 after it has opened the file. -/
theorem C107_lost_violation {little : Bool} {args : List Arg} {name : Arg} {big : Bool} (h : Asks little args name big none)
    {text : List Nat} {ls : List Line} (hd : Describes text ls) (hfew : FewSymbols ls) (hr : Readable ls) (hc : ¬ Closed ls)
    (N : WeightKind → AttNumbers) (reserved : Nat → Nat) {srtS : List (Nat × List Nat) → List (Nat × List Nat)} {srtT : List CTrans → List CTrans}
    (hS : SortsBy (fun a b => attSymLt a.2 b.2) srtS) (hT : SortsBy fileOrderLt srtT) (srtW : List WTrans → List WTrans) {canOpen : Arg → Bool} (ho : canOpen name = true) :
    ∃ e, vfstcMain N reserved srtS srtT srtW little canOpen args text = some e ∧ ∀ files part, filesAfter files part e name = some part := by
  refine ⟨_, (C107_text h hd hfew N reserved hS hT srtW canOpen).2.2.1 hr ho hc, fun files part => ?_⟩
  simp [filesAfter]

/-! ### Examples -/

/-- `-f be -o a.vfst -o out.vfst -x`: the last name counts, other arguments are ignored. -/
def demoArgs : List Arg := [lit "-f", lit "be", lit "-o", lit "a.vfst", lit "-o", lit "out.vfst", lit "-x"]

theorem demo_asks (little : Bool) : Asks little demoArgs (lit "out.vfst") true none := by
  refine ⟨[.valued (lit "-f") (lit "be"), .valued (lit "-o") (lit "a.vfst"), .valued (lit "-o") (lit "out.vfst"), .word (lit "-x")], none,
    ⟨by decide, ?_, ?_, by simp⟩, ?_, by decide, by decide, ?_, ?_⟩
  · intro k v hm
    simp only [List.mem_cons, Item.valued.injEq, reduceCtorEq, List.not_mem_nil, or_false] at hm
    rcases hm with ⟨rfl, -⟩ | ⟨rfl, -⟩ | ⟨rfl, -⟩ <;> decide
  · intro w hm
    simp only [List.mem_cons, Item.word.injEq, reduceCtorEq, List.not_mem_nil, or_false, false_or] at hm
    subst hm; decide
  · intro v hm
    simp only [List.mem_cons, Item.valued.injEq, reduceCtorEq, List.not_mem_nil, or_false] at hm
    rcases hm with ⟨h, -⟩ | ⟨h, -⟩ | ⟨h, -⟩ <;> exact absurd h (by decide)
  · have : (lastOf (valueOf "-f") [.valued (lit "-f") (lit "be"), .valued (lit "-o") (lit "a.vfst"), .valued (lit "-o") (lit "out.vfst"), .word (lit "-x")]).getD (lit "le") =
        lit "be" := by decide
    rw [this]; exact .be
  · have : lastOf (valueOf "-w") [.valued (lit "-f") (lit "be"), .valued (lit "-o") (lit "a.vfst"), .valued (lit "-o") (lit "out.vfst"), .word (lit "-x")] = none := by decide
    rw [this]

/-- `C107_dictionary` and `C107_text` apply to a text. -/
example (little : Bool) (N : WeightKind → AttNumbers) (reserved : Nat → Nat) :=
  C107_dictionary (demo_asks little) Props.demo_describes Props.demo_proper N reserved Props.sortSymbols_sorts Props.sortTransitions_sorts Props.sortWeighted
    (canOpen := fun _ => true) rfl

example (little : Bool) (N : WeightKind → AttNumbers) (reserved : Nat → Nat) :=
  C107_text (demo_asks little) Props.demo_describes Props.demo_proper.count N reserved Props.sortSymbols_sorts Props.sortTransitions_sorts Props.sortWeighted

/-- A weighted text, with `-w log` after `-w prob`. -/
def weightedArgs : List Arg := [lit "-w", lit "prob", lit "-o", lit "out.vfst", lit "-w", lit "log", lit "-f"]

theorem weighted_asks (little : Bool) : Asks little weightedArgs (lit "out.vfst") false (some .log) := by
  refine ⟨[.valued (lit "-w") (lit "prob"), .valued (lit "-o") (lit "out.vfst"), .valued (lit "-w") (lit "log")], some (lit "-f"),
    ⟨by decide, ?_, ?_, by intro k hk; cases hk; decide⟩, ?_, by decide, by decide, ?_, ?_⟩
  · intro k v hm
    simp only [List.mem_cons, Item.valued.injEq, reduceCtorEq, List.not_mem_nil, or_false] at hm
    rcases hm with ⟨rfl, -⟩ | ⟨rfl, -⟩ | ⟨rfl, -⟩ <;> decide
  · intro w hm
    simp at hm
  · intro v hm
    simp only [List.mem_cons, Item.valued.injEq, reduceCtorEq, List.not_mem_nil, or_false] at hm
    rcases hm with ⟨-, rfl⟩ | ⟨h, -⟩ | ⟨-, rfl⟩
    · exact ⟨_, .prob⟩
    · exact absurd h (by decide)
    · exact ⟨_, .log⟩
  · have : (lastOf (valueOf "-f") [.valued (lit "-w") (lit "prob"), .valued (lit "-o") (lit "out.vfst"), .valued (lit "-w") (lit "log")]).getD (lit "le") = lit "le" := by decide
    rw [this]; exact .le
  · have : lastOf (valueOf "-w") [.valued (lit "-w") (lit "prob"), .valued (lit "-o") (lit "out.vfst"), .valued (lit "-w") (lit "log")] = some (lit "log") := by decide
    rw [this]; exact ⟨_, rfl, .log⟩

example (little : Bool) (reserved : Nat → Nat) :=
  C107_weighted_dictionary (weighted_asks little) (N := fun _ => Props.digitNumbers) (reserved := reserved) Props.weighted_describes Props.weighted_proper
    Props.sortSymbols_sorts Props.sortWeighted_sorts Props.sortTransitions (fun h => nomatch h) (canOpen := fun _ => true) rfl

/-- Arguments that do not ask for a file. -/
example : ∀ name big kind, ¬ Asks true [lit "-o", lit "out.vfst", lit "-f", lit "xe"] name big kind := by
  intro name big kind h
  obtain ⟨items, rest, hr, -, -, -, hf, -⟩ := h.reads
  obtain ⟨rfl, rfl⟩ := reads_unique options items [.valued (lit "-o") (lit "out.vfst"), .valued (lit "-f") (lit "xe")] rest none _ hr
    ⟨by decide, by
      intro k v hm
      simp only [List.mem_cons, Item.valued.injEq, List.not_mem_nil, or_false] at hm
      rcases hm with ⟨rfl, -⟩ | ⟨rfl, -⟩ <;> decide, by intro w hm; simp at hm, by simp⟩
  rw [order_iff] at hf
  revert hf
  cases big <;> decide

/-- The text `0 1 a a`, in which the state 1 has no line, and a former dictionary. -/
example : vfstcMain (fun _ => Props.digitNumbers) (fun _ => 0) Props.sortSymbols Props.sortTransitions Props.sortWeighted true (fun _ => true)
    [lit "-o", lit "out.vfst"] (Props.ascii "0\t1\ta\ta\n") = some (.broken (lit "out.vfst")) := by decide +kernel

/-- A state that comes too early is found before the file is opened. -/
example : vfstcMain (fun _ => Props.digitNumbers) (fun _ => 0) Props.sortSymbols Props.sortTransitions Props.sortWeighted true (fun _ => true)
    [lit "-o", lit "out.vfst"] (Props.ascii "0\t1\ta\ta\n2\n1\n") = some .refused := by decide +kernel

/-- The theorem on the lost file applies to the lines of the first text. -/
example : FewSymbols [Line.arc ⟨0, 1, [97], [97]⟩] ∧ Readable [Line.arc ⟨0, 1, [97], [97]⟩] ∧ ¬ Closed [Line.arc ⟨0, 1, [97], [97]⟩] := by
  refine ⟨⟨[[97]], by decide, by simp [Line.symbols]⟩, ⟨?_, by simp [Line.symbols]⟩, ?_⟩
  · intro k l hk s hs
    cases k with
    | zero => cases hk; exact absurd hs (by simp [Line.src])
    | succ k => simp at hk
  · intro h
    obtain ⟨l, hl, e⟩ := h _ List.mem_cons_self
    rw [List.mem_singleton.1 hl] at e
    simp [Line.src] at e

end Verif.VfstcProgram
