import Verif.Props.Validate
import Verif.Props.Compare
import Verif.Spec.Types
/-
C45: the elementary conditions.
-/
namespace Spiff
variable {E : Type}

theorem exprType_iff (v : Val E) (t : String) (h : t ≠ "") : exprType v = t ↔ HasType v t := by
  constructor
  · rintro rfl
    cases v <;> first | constructor | exact absurd rfl h
  · intro h
    cases h <;> rfl

variable [DecidableEq E]

/-- a literal in a condition -/
def arg (v : Val E) : Node E := Node.new v ""

theorem byName_plain (L : VLib E) (op : String) (args : List (Node E)) (cs) (v : Val E) (h : validatorName op = some (op, false)) :
    byName L op args cs v = handleString L op args cs v := by
  simp [byName, h]

/-- **C45** (elementary conditions): order comparisons of integers compare the value with the argument. -/
theorem order_int (L : VLib E) (a y : Int) :
    (∀ op ∈ ["gt", ">"], vCond L (vnode op [arg (.int a)]) (.int y) = .ok (decide (y > a))) ∧
    (∀ op ∈ ["lt", "<"], vCond L (vnode op [arg (.int a)]) (.int y) = .ok (decide (y < a))) ∧
    (∀ op ∈ ["ge", ">="], vCond L (vnode op [arg (.int a)]) (.int y) = .ok (decide (y ≥ a))) ∧
    (∀ op ∈ ["le", "<="], vCond L (vnode op [arg (.int a)]) (.int y) = .ok (decide (y ≤ a))) := by
  refine ⟨?_, ?_, ?_, ?_⟩ <;> intro op hop <;> simp only [List.mem_cons, List.not_mem_nil, or_false] at hop <;>
    rcases hop with rfl | rfl <;> rw [vCond_vnode, byName_plain _ _ _ _ _ (by decide +kernel)] <;>
    simp [handleString, vOrd, arg, Node.new, cmpInt]

/-- **C45** (elementary conditions): order comparisons of strings compare the value with the argument. -/
theorem order_string (L : VLib E) (a y : String) :
    (∀ op ∈ ["gt", ">"], vCond L (vnode op [arg (.str a)]) (.str y) = .ok (decide (y > a))) ∧
    (∀ op ∈ ["lt", "<"], vCond L (vnode op [arg (.str a)]) (.str y) = .ok (decide (y < a))) ∧
    (∀ op ∈ ["ge", ">="], vCond L (vnode op [arg (.str a)]) (.str y) = .ok (decide (y ≥ a))) ∧
    (∀ op ∈ ["le", "<="], vCond L (vnode op [arg (.str a)]) (.str y) = .ok (decide (y ≤ a))) := by
  refine ⟨?_, ?_, ?_, ?_⟩ <;> intro op hop <;> simp only [List.mem_cons, List.not_mem_nil, or_false] at hop <;>
    rcases hop with rfl | rfl <;> rw [vCond_vnode, byName_plain _ _ _ _ _ (by decide +kernel)] <;>
    simp only [handleString, vOrd, arg, Node.new, cmpStr] <;> simp

/-- **C45** (elementary conditions): strings are only comparable with strings, integers with numbers. -/
theorem order_mismatch (L : VLib E) (op : String) (hop : op ∈ ["gt", ">", "lt", "<", "ge", ">=", "le", "<="]) :
    (∀ a (v : Val E), (∀ y, v ≠ .str y) → vCond L (vnode op [arg (.str a)]) v = .err) ∧
    (∀ a (v : Val E), (∀ y, v ≠ .int y) → (∀ y, v ≠ .float y) → vCond L (vnode op [arg (.int a)]) v = .err) := by
  have hv : ∃ c, ∀ args cs (v : Val E), byName L op args cs v = vOrd L c op args v := by
    simp only [List.mem_cons, List.not_mem_nil, or_false] at hop
    rcases hop with rfl | rfl | rfl | rfl | rfl | rfl | rfl | rfl
    · exact ⟨.gt, fun args cs v => by rw [byName_plain _ _ _ _ _ (by decide +kernel)]; simp [handleString]⟩
    · exact ⟨.gt, fun args cs v => by rw [byName_plain _ _ _ _ _ (by decide +kernel)]; simp [handleString]⟩
    · exact ⟨.lt, fun args cs v => by rw [byName_plain _ _ _ _ _ (by decide +kernel)]; simp [handleString]⟩
    · exact ⟨.lt, fun args cs v => by rw [byName_plain _ _ _ _ _ (by decide +kernel)]; simp [handleString]⟩
    · exact ⟨.ge, fun args cs v => by rw [byName_plain _ _ _ _ _ (by decide +kernel)]; simp [handleString]⟩
    · exact ⟨.ge, fun args cs v => by rw [byName_plain _ _ _ _ _ (by decide +kernel)]; simp [handleString]⟩
    · exact ⟨.le, fun args cs v => by rw [byName_plain _ _ _ _ _ (by decide +kernel)]; simp [handleString]⟩
    · exact ⟨.le, fun args cs v => by rw [byName_plain _ _ _ _ _ (by decide +kernel)]; simp [handleString]⟩
  obtain ⟨c, hc⟩ := hv
  constructor
  · intro a v hv
    rw [vCond_vnode, hc]
    cases v <;> simp_all [vOrd, arg, Node.new]
  · intro a v h1 h2
    rw [vCond_vnode, hc]
    cases v <;> simp_all [vOrd, arg, Node.new]

/-- **C45** (elementary conditions): `type` accepts a value iff its type is one of the given names. -/
theorem type_condition (L : VLib E) (names : List String) (h : "" ∉ names) (v : Val E) :
    ∃ b, vCond L (vnode "type" (names.map (fun s => arg (.str s)))) v = .ok b ∧ (b = true ↔ ∃ t ∈ names, HasType v t) := by
  rw [vCond_vnode, byName_plain _ _ _ _ _ (by decide +kernel)]
  have h1 : ∀ cs, handleString L "type" (names.map (fun s => arg (.str s))) cs v = vType (names.map (fun s => arg (.str s))) v := by
    intro cs; simp [handleString]
  rw [h1]
  have h2 : ∀ f : Node E → VRes, (∀ s, f (arg (.str s)) = .ok (s == exprType v)) → ∀ names : List String, "" ∉ names →
      (vAny f (names.map (fun s => arg (.str s))) = some (.ok true)
        ∧ ∃ t ∈ names, HasType v t) ∨
      (vAny f (names.map (fun s => arg (.str s))) = none
        ∧ ¬ ∃ t ∈ names, HasType v t) := by
    intro f hf names
    induction names with
    | nil => intro _; right; simp [vAny]
    | cons t r ih =>
      intro h
      have ht : t ≠ "" := fun e => h (by simp [e])
      rw [List.map_cons, vAny, hf]
      by_cases he : exprType v = t
      · left
        refine ⟨by simp [he], t, by simp, (exprType_iff v t ht).1 he⟩
      · have he' : (t == exprType v) = false := by simpa using fun e => he e.symm
        have hn := mt (exprType_iff v t ht).2 he
        rw [he']
        rcases ih (fun e => h (by simp [e])) with ⟨h1, h2⟩ | ⟨h1, h2⟩
        · left
          refine ⟨h1, ?_⟩
          obtain ⟨x, hx, hh⟩ := h2
          exact ⟨x, by simp [hx], hh⟩
        · right
          refine ⟨h1, ?_⟩
          rintro ⟨x, hx, hh⟩
          rcases List.mem_cons.1 hx with rfl | hx
          · exact hn hh
          · exact h2 ⟨x, hx, hh⟩
  unfold vType
  generalize hg : (fun a : Node E => match Node.val a with | .str s => VRes.ok (s == exprType v) | _ => .err) = f
  have hf : ∀ s, f (arg (.str s)) = .ok (s == exprType v) := fun s => by rw [← hg]; rfl
  rcases h2 f hf names h with ⟨h1, h2⟩ | ⟨h1, h2⟩
  · exact ⟨true, by rw [h1], by simp [h2]⟩
  · exact ⟨false, by rw [h1], by simpa using h2⟩

/-- **C45** (elementary conditions): `empty` accepts exactly the empty strings, lists and maps, and is an error for other values. -/
theorem empty_condition (L : VLib E) (v : Val E) :
    (vCond L (vnode "empty" []) v = .ok true ↔ v = .str "" ∨ v = .list [] ∨ v = .map []) ∧
    (vCond L (vnode "empty" []) v = .err ↔ ¬ ((∃ s, v = .str s) ∨ (∃ l, v = .list l) ∨ (∃ m, v = .map m))) := by
  rw [vCond_vnode, byName_plain _ _ _ _ _ (by decide +kernel)]
  have h1 : ∀ cs, handleString L "empty" [] cs v = vEmpty v := by
    intro cs; simp [handleString]
  rw [h1]
  cases v <;> simp [vEmpty, String.isEmpty_iff]

/-- **C45** (elementary conditions): `value` (or `=`) accepts the values equal (in the sense of `==`) to the argument, `valueset` the
values equal to one of the listed ones. -/
theorem value_conditions (L : VLib E) (v a : Val E) (l : List (Node E)) :
    (∀ op ∈ ["value", "="], vCond L (vnode op [arg a]) v = .ok (eqVals a v)) ∧
    (∃ b, vCond L (vnode "valueset" [arg (.list l)]) v = .ok b ∧ (b = true ↔ ∃ x ∈ l, eqVals v x.val = true)) := by
  constructor
  · intro op hop
    simp only [List.mem_cons, List.not_mem_nil, or_false] at hop
    rcases hop with rfl | rfl <;> rw [vCond_vnode, byName_plain _ _ _ _ _ (by decide +kernel)] <;>
      simp [handleString, vValue, arg, Node.new, Node.val]
  · refine ⟨l.any (fun x => eqVals v x.val), ?_, by simp⟩
    rw [vCond_vnode, byName_plain _ _ _ _ _ (by decide +kernel)]
    simp [handleString, vValueset, arg, Node.new]

/-- 5 is between 3 and 7, and neither a list nor nil -/
example (L : VLib E) : vCond L (vnode "and" [vnode "gt" [arg (.int 3)], vnode "<=" [arg (.int 7)], vnode "!type" [arg (.str "list"), arg (.str "nil")]]) (.int 5) = .ok true := by
  rw [(and_spec L _ _ _).1]
  intro x hx
  simp only [List.mem_cons, List.not_mem_nil, or_false] at hx
  rcases hx with rfl | rfl | rfl
  · rw [(order_int L 3 5).1 _ (by simp)]; rfl
  · rw [(order_int L 7 5).2.2.2 _ (by simp)]; rfl
  · have hb := bang_negates L "type".toList (by decide) (by decide) [arg (.str "list"), arg (.str "nil")] (.int 5)
    obtain ⟨b, h1, h2⟩ := type_condition L ["list", "nil"] (by decide) (.int 5)
    have hb' : b = false := by
      rcases b with _ | _
      · rfl
      · obtain ⟨t, ht, hh⟩ := h2.1 rfl
        simp only [List.mem_cons, List.not_mem_nil, or_false] at ht
        rcases ht with rfl | rfl <;> exact absurd ((exprType_iff _ _ (by decide)).2 hh) (by simp [exprType])
    rw [show String.ofList "type".toList = "type" by decide +kernel] at hb
    rw [show String.ofList ('!' :: "type".toList) = "!type" by decide +kernel] at hb
    rw [hb]
    simp only [List.map_cons, List.map_nil] at h1
    rw [h1, hb']
    rfl

end Spiff
