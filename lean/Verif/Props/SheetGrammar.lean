import Verif.Props.SheetText
import Verif.Props.Meaning2
import Verif.Props.Meaning3
/-
C97: documents with expressions, parsed by the grammar of the expressions.
-/
namespace Spiff
open Spec

open Classical in
/-- dynaml/parser.go:76-90 `Parse` with the model of the grammar (`ParseTo`), as a function: it is total and has one result (`parse_total`). Only expressions
modelled by Model/Eval.lean count (`toEx`). -/
noncomputable def grammarParse (lib : PLib) (s : String) (path stubPath : List String) : Option Ex :=
  if h : ∃ t, ParseTo lib ⟨path.map String.toList, stubPath.map String.toList⟩ s.toList (.ok t) then toEx h.choose else none

theorem grammarParse_iff (lib : PLib) (s : String) (path stubPath : List String) (e : Ex) : grammarParse lib s path stubPath = some e ↔
    ∃ t, ParseTo lib ⟨path.map String.toList, stubPath.map String.toList⟩ s.toList (.ok t) ∧ toEx t = some e := by
  unfold grammarParse
  obtain ⟨r, -, hu⟩ := parse_total lib ⟨path.map String.toList, stubPath.map String.toList⟩ s.toList
  constructor
  · intro h
    split at h
    · rename_i hx
      exact ⟨_, hx.choose_spec, h⟩
    · cases h
  · rintro ⟨t, h1, h2⟩
    have hx : ∃ t, ParseTo lib ⟨path.map String.toList, stubPath.map String.toList⟩ s.toList (.ok t) := ⟨t, h1⟩
    rw [dif_pos hx]
    have := (hu _ hx.choose_spec).trans (hu _ h1).symm
    injection this with this
    rw [this, h2]

/-- the language with the grammar as parser -/
noncomputable def grammarBase (lib : PLib) (base : Lang Ex) : Lang Ex := { base with parse := grammarParse lib }

/-! ### expressions with additional parentheses -/

theorem means_regroup {fns : Fns} {val : List String → Val Ex → Prop} {absent : List String → Prop} {e : Ex} {v : Val Ex} (h : Means fns val absent e v) :
    Means fns val absent (regroupEx e) v := by
  induction h with
  | lit l => exact .lit l
  | ref h => exact .ref h
  | group _ ih => rw [regroup_node _ _ rfl]; exact .group ih
  | not _ ih =>
    rw [regroupEx, regroupExL_map]
    exact .not (.group ih)
  | bin _ _ hc ih1 ih2 => rw [regroup_node _ _ rfl]; exact .bin ih1 ih2 hc
  | yes _ ht _ ih1 ih2 => rw [regroup_node _ _ rfl]; exact .yes ih1 ht ih2
  | no _ ht _ ih1 ih2 => rw [regroup_node _ _ rfl]; exact .no ih1 ht ih2
  | first _ ih => rw [regroup_node _ _ rfl]; exact .first ih
  | second hp _ ih => rw [regroup_node _ _ rfl]; exact .second hp ih
  | call hf hl _ hv ih =>
    rw [regroup_node _ _ rfl]
    refine .call hf (by simpa using hl) (fun i h h' => ?_) hv
    rw [List.getElem_map]
    exact ih i (by simpa using h) h'

theorem waits_regroup {M M' : Ex → Val Ex → Prop} {stuck : List String → Prop} (hM : ∀ e v, M e v → M' (regroupEx e) v) {e : Ex} (h : Waits M stuck e) : Waits M' stuck (regroupEx e) := by
  induction h with
  | ref h => exact .ref h
  | group _ ih => rw [regroup_node _ _ rfl]; exact .group ih
  | not _ ih =>
    rw [regroupEx, regroupExL_map]
    exact .not (.group ih)
  | both ho _ _ ih1 ih2 => rw [regroup_node _ _ rfl]; exact .both ho ih1 ih2
  | left ho _ hm ih => rw [regroup_node _ _ rfl]; exact .left ho ih (hM _ _ hm)
  | right ho hm _ ih => rw [regroup_node _ _ rfl]; exact .right ho (hM _ _ hm) ih
  | cond _ ih => rw [regroup_node _ _ rfl]; exact .cond ih
  | or _ ih => rw [regroup_node _ _ rfl]; exact .or ih
  | call w hs _ hm ih =>
    rw [regroup_node _ _ rfl]
    refine .call w ?_ (fun i h hw => ?_) (fun i h hw => ?_)
    · obtain ⟨i, hi, hw⟩ := hs
      exact ⟨i, by simpa using hi, hw⟩
    · rw [List.getElem_map]
      exact ih i (by simpa using h) hw
    · obtain ⟨v, hv⟩ := hm i (by simpa using h) hw
      rw [List.getElem_map]
      exact ⟨v, hM _ _ hv⟩

/-- values of references: finitely many references are followed -/
theorem means_bound {L : Lang Ex} {fns : Fns} {around : Blocks} {absent : List String → Prop} {e : Ex} {v : Val Ex} (h : Means fns (known L fns around) absent e v) :
    ∃ k, Means fns (knownIn L fns k around) absent e v := by
  have up : ∀ {k k' : Nat} {e : Ex} {v : Val Ex}, k ≤ k' → Means fns (knownIn L fns k around) absent e v → Means fns (knownIn L fns k' around) absent e v := by
    intro k k' e v hk h
    exact means_mono (fun p w ⟨a, c, q, u, h1, h2, h3⟩ => ⟨a, c, q, u, h1, computesIn_le hk h2, h3⟩) h
  induction h with
  | lit l => exact ⟨0, .lit l⟩
  | ref h =>
    obtain ⟨a, c, q, u, h1, ⟨k, h2⟩, h3⟩ := h
    exact ⟨k, .ref ⟨a, c, q, u, h1, h2, h3⟩⟩
  | group _ ih => obtain ⟨k, h⟩ := ih; exact ⟨k, .group h⟩
  | not _ ih => obtain ⟨k, h⟩ := ih; exact ⟨k, .not h⟩
  | bin _ _ hc ih1 ih2 =>
    obtain ⟨k, h⟩ := ih1
    obtain ⟨k', h'⟩ := ih2
    exact ⟨max k k', .bin (up (by omega) h) (up (by omega) h') hc⟩
  | yes _ ht _ ih1 ih2 =>
    obtain ⟨k, h⟩ := ih1
    obtain ⟨k', h'⟩ := ih2
    exact ⟨max k k', .yes (up (by omega) h) ht (up (by omega) h')⟩
  | no _ ht _ ih1 ih2 =>
    obtain ⟨k, h⟩ := ih1
    obtain ⟨k', h'⟩ := ih2
    exact ⟨max k k', .no (up (by omega) h) ht (up (by omega) h')⟩
  | first _ ih => obtain ⟨k, h⟩ := ih; exact ⟨k, .first h⟩
  | second hp _ ih => obtain ⟨k, h⟩ := ih; exact ⟨k, .second hp h⟩
  | @call fn f args vs v hf hl hm hv ih =>
    have hall : ∀ n ≤ args.length, ∃ k, ∀ (i : Nat) (h : i < args.length) (h' : i < vs.length), i < n → Means fns (knownIn L fns k around) absent args[i] vs[i] := by
      intro n
      induction n with
      | zero => intro _; exact ⟨0, fun i _ _ hi => absurd hi (Nat.not_lt_zero _)⟩
      | succ n ihn =>
        intro hn
        obtain ⟨k, hk⟩ := ihn (by omega)
        obtain ⟨k', hk'⟩ := ih n (by omega) (by omega)
        refine ⟨max k k', fun i h h' hi => ?_⟩
        by_cases hin : i < n
        · exact up (by omega) (hk i h h' hin)
        · obtain rfl : i = n := by omega
          exact up (by omega) hk'
    obtain ⟨k, hk⟩ := hall args.length (Nat.le_refl _)
    exact ⟨k, .call hf hl (fun i h h' => hk i h h' h) hv⟩

/-! ### written formulas -/

/-- `text` is the text of a field with an expression: two opening parentheses, the expression, two closing parentheses -/
def WrittenFormula (lib : PLib) (text : String) (e : Ex) : Prop :=
  ∃ s, text.toList = leftText lib s ∧ (∀ cx, Printable lib cx .expr s) ∧ toEx s = some e

section
variable {lib : PLib} {X : EvLib} {R : RefLib Ex} {base : Lang Ex} {fns : Fns}

theorem written_parses {text : String} {e : Ex} (h : WrittenFormula lib text e) : ParsesTo (exLang X R (grammarBase lib base)) text (regroupEx e) := by
  obtain ⟨s, h1, h2, h3⟩ := h
  have hb := body_left (synText lib s)
  refine ⟨' ' :: synText lib s ++ [' '], ?_, fun path stubPath => ?_⟩
  · rw [h1]
    unfold embeddedDynaml at hb ⊢
    unfold leftText
    cases hd : dynamlBody ("(( ".toList ++ synText lib s ++ " ))".toList) with
    | none => rw [hd] at hb; cases hb
    | some sub => rw [hd] at hb; exact hb
  · show grammarParse lib _ path stubPath = _
    rw [grammarParse_iff]
    refine ⟨regroup s, ?_, ?_⟩
    · rw [String.toList_ofList]
      exact print_parse_blank (h2 _)
    · rw [toEx_regroup, h3]; rfl

/-- **C97**: the value of a written expression, calculated from the values of the fields it refers to, is the value of the field. -/
theorem written_computes {text src : String} {e : Ex} (h : WrittenFormula lib text e) {around : Blocks} {w : Val Ex}
    (hm : Means fns (known (exLang X R (grammarBase lib base)) fns around) (fun p => target around p = .absent) e w) (hp : PlainV (exLang X R (grammarBase lib base)) {} w) (stub : Option (Node Ex)) :
    Computes (exLang X R (grammarBase lib base)) fns around (.formula text src stub) (replaced stub w) := by
  obtain ⟨k, hk⟩ := means_bound hm
  exact ⟨k + 1, w, rfl, hp, regroupEx e, written_parses h, means_regroup hk⟩

/-- **C97**: a set of fields with written expressions each of which waits for another one of the set -/
theorem written_cycle (S : Blocks → Cell → Prop) (h : ∀ around c, S around c → ∃ text src stub e, c = .formula text src stub ∧ WrittenFormula lib text e ∧
    Waits (Means fns (known (exLang X R (grammarBase lib base)) fns around) (fun p => target around p = .absent))
      (fun p => ∃ around' c' q, target around p = .place around' c' q ∧ S around' c') e) :
    Cycle (exLang X R (grammarBase lib base)) fns S := by
  intro around c hc
  obtain ⟨text, src, stub, e, h1, h2, h3⟩ := h around c hc
  exact ⟨text, src, stub, _, h1, written_parses h2, waits_regroup (fun _ _ h => means_regroup h) h3⟩

end

/-! ### an example -/

def synPath (p : List String) : Syn := .node (.ref [] (p.map String.toList)) []
def synSum : Syn := .node .add [synPath ["port"], synPath ["offset"]]
def synOffset : Syn := .node .or [synPath ["limits", "low"], .node .mul [synPath ["base"], .node (.int 10) []]]

theorem key_comp {k : Txt} (h : firstKeyB k = true) : CompText k := by
  have := firstKey_of h
  obtain ⟨c, w, rfl, hc⟩ := this.head
  refine .inl ⟨c, w, rfl, ?_, fun d hd => this.chars d (List.mem_cons_of_mem _ hd)⟩
  revert hc
  simp only [isLetterChar, isWordChar]
  grind

theorem written_sum : WrittenFormula plainPLib "(( port + offset ))" exPortSum := by
  refine ⟨synSum, by decide +kernel, fun cx => ?_, by decide +kernel⟩
  have hx : Printable plainPLib cx (.operand false 0) (synPath ["port"]) := printable_ref (by decide +kernel)
  have hy : Printable plainPLib cx (.operand false 0) (synPath ["offset"]) := printable_ref (by decide +kernel)
  exact printable_expr (.infix .add (by intro c hc; cases hc) (printable_up hx 3 (by omega)) (printable_up hy 2 (by omega))) (by omega)

theorem written_offset : WrittenFormula plainPLib "(( limits.low || base * 10 ))" exOffset := by
  refine ⟨synOffset, by decide +kernel, fun cx => ?_, by decide +kernel⟩
  have hx : Printable plainPLib cx (.operand false 0) (synPath ["limits", "low"]) :=
    .ref (firstKey_of (by decide +kernel)) (by
      intro c hc
      obtain rfl : c = "low".toList := by simpa using hc
      exact key_comp (by decide +kernel))
  have hy : Printable plainPLib cx (.operand false 0) (synPath ["base"]) := printable_ref (by decide +kernel)
  have hi : Printable plainPLib cx (.operand false 1) (.node (.int 10) []) := .int (by omega)
  have hm := Printable.infix (lib := plainPLib) .mul (by intro c hc; cases hc) (printable_up hy 2 (by omega)) hi
  exact printable_expr (.infix .or (by intro c hc; cases hc) (printable_up hx 8 (by omega)) (printable_up hm 5 (by omega))) (by omega)

/-- **C97**, the example of C96 with the grammar as parser: the run of the command with the two texts computes the numbers of the specification. -/
theorem sum_grammar : ∃ out N, ∀ fuel ≥ N, ∀ passes ≥ N,
    mergeMain (sumLibWith (grammarParse plainPLib) fuel passes) { fs := [("f", sumTemplate), ("g", sumStub)] } { template := "f", stubs := ["g"] } [] =
      ⟨out, [("f", sumTemplate), ("g", sumStub)], none⟩ ∧
    ∃ n, DocsOf (sumLibWith (grammarParse plainPLib) fuel passes) "again" out [n] ∧ ∃ x, locate n [.key "total"] = some x ∧ x.val = .int 9080 :=
  sum_run (written_parses (base := sumBase) written_offset) (written_parses (base := sumBase) written_sum)

end Spiff
