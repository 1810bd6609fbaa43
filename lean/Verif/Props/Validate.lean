import Verif.Model.Validate
/-
C45: validators form a boolean logic.
-/
namespace Spiff
variable {E : Type}

/-! ### Specification: condition trees -/

/-- A condition tree over elementary conditions. -/
inductive VTree (E : Type) : Type where
  | leaf (n : Node E)
  | and (cs : List (VTree E))
  | or (cs : List (VTree E))
  | not (cs : List (VTree E))
  /-- all entries of a list satisfy all conditions -/
  | each (cs : List (VTree E))
  /-- all values of a map satisfy the condition -/
  | values (c : VTree E)
  /-- all keys of a map satisfy the first, all values the second condition -/
  | entries (k c : VTree E)
  /-- the field exists and its value satisfies the condition -/
  | field (f : String) (c : VTree E)
  /-- the field does not exist or its value satisfies the condition -/
  | optField (f : String) (c : VTree E)

/-- a condition written as a list -/
def vnode (op : String) (args : List (Node E)) : Node E :=
  Node.new (.list (Node.new (.str op) "" :: args)) ""

mutual
/-- The condition as written by a user. -/
def VTree.node : VTree E → Node E
  | .leaf n => n
  | .and cs => vnode "and" (VTree.nodes cs)
  | .or cs => vnode "or" (VTree.nodes cs)
  | .not cs => vnode "not" (VTree.nodes cs)
  | .each cs => vnode "list" (VTree.nodes cs)
  | .values c => vnode "map" [c.node]
  | .entries k c => vnode "map" [k.node, c.node]
  | .field f c => vnode "mapfield" [Node.new (.str f) "", c.node]
  | .optField f c => vnode "optionalfield" [Node.new (.str f) "", c.node]
termination_by structural t => t
def VTree.nodes : List (VTree E) → List (Node E)
  | [] => []
  | c :: cs => c.node :: VTree.nodes cs
termination_by structural t => t
end

mutual
/-- Its meaning, given the meaning of the elementary conditions. -/
def VTree.sem (S : Node E → Val E → Bool) : VTree E → Val E → Bool
  | .leaf n => S n
  | .and cs => fun v => VTree.semAll S cs v
  | .or cs => fun v => VTree.semAny S cs v
  | .not cs => fun v => !VTree.semAll S cs v
  | .each cs => fun v => match v with
    | .list l => l.all (fun e => VTree.semAll S cs e.val)
    | _ => false
  | .values c => fun v => match v with
    | .map m => m.all (fun e => VTree.sem S c e.2.val)
    | _ => false
  | .entries k c => fun v => match v with
    | .map m => m.all (fun e => VTree.sem S k (.str e.1) && VTree.sem S c e.2.val)
    | _ => false
  | .field f c => fun v => match v with
    | .map m => match mget m f with
      | some x => VTree.sem S c x.val
      | none => false
    | _ => false
  | .optField f c => fun v => match v with
    | .map m => match mget m f with
      | some x => VTree.sem S c x.val
      | none => true
    | _ => false
termination_by structural t => t
def VTree.semAll (S : Node E → Val E → Bool) : List (VTree E) → Val E → Bool
  | [] => fun _ => true
  | c :: cs => fun v => VTree.sem S c v && VTree.semAll S cs v
termination_by structural t => t
def VTree.semAny (S : Node E → Val E → Bool) : List (VTree E) → Val E → Bool
  | [] => fun _ => false
  | c :: cs => fun v => VTree.sem S c v || VTree.semAny S cs v
termination_by structural t => t
end

mutual
/-- The elementary conditions always give the verdict `S` (no errors), conjunctions and negations
have at least one, disjunctions at least two operands. -/
def VTree.Decided [DecidableEq E] (L : VLib E) (S : Node E → Val E → Bool) : VTree E → Prop
  | .leaf n => ∀ v, vCond L n v = .ok (S n v)
  | .and cs => cs ≠ [] ∧ VTree.DecidedL L S cs
  | .or cs => 2 ≤ cs.length ∧ VTree.DecidedL L S cs
  | .not cs => cs ≠ [] ∧ VTree.DecidedL L S cs
  | .each cs => VTree.DecidedL L S cs
  | .values c => VTree.Decided L S c
  | .entries k c => VTree.Decided L S k ∧ VTree.Decided L S c
  | .field _ c => VTree.Decided L S c
  | .optField _ c => VTree.Decided L S c
termination_by structural t => t
def VTree.DecidedL [DecidableEq E] (L : VLib E) (S : Node E → Val E → Bool) : List (VTree E) → Prop
  | [] => True
  | c :: cs => VTree.Decided L S c ∧ VTree.DecidedL L S cs
termination_by structural t => t
end

/-! ### elementary facts -/

theorem vAll_true_iff {α : Type} (f : α → VRes) (l : List α) :
    vAll f l = .ok true ↔ ∀ x ∈ l, f x = .ok true := by
  induction l with
  | nil => simp [vAll]
  | cons x l ih =>
    rw [vAll]
    cases h : f x with
    | err => simp [h]
    | pending => simp [h]
    | ok b => cases b <;> simp [h, ih]

theorem vAll_decided {α : Type} {f : α → VRes} {l : List α} {g : α → Bool} (h : ∀ x ∈ l, f x = .ok (g x)) :
    vAll f l = .ok (l.all g) := by
  induction l with
  | nil => rfl
  | cons x l ih =>
    rw [vAll, h x (by simp)]
    cases hg : g x
    · simp [hg]
    · simp only []
      rw [ih (fun y hy => h y (by simp [hy]))]
      simp [hg]

theorem vAll_false_iff {α : Type} (f : α → VRes) (l : List α) :
    vAll f l = .ok false ↔ ∃ pre x post, l = pre ++ x :: post ∧ (∀ y ∈ pre, f y = .ok true) ∧ f x = .ok false := by
  induction l with
  | nil => simp [vAll]
  | cons x l ih =>
    rw [vAll]
    constructor
    · intro h
      cases hx : f x with
      | err => rw [hx] at h; simp at h
      | pending => rw [hx] at h; simp at h
      | ok b =>
        cases b with
        | false => exact ⟨[], x, l, rfl, by simp, hx⟩
        | true =>
          rw [hx] at h
          obtain ⟨pre, y, post, h1, h2, h3⟩ := ih.mp h
          refine ⟨x :: pre, y, post, by rw [h1]; rfl, ?_, h3⟩
          intro z hz
          rcases List.mem_cons.mp hz with rfl | hz
          · exact hx
          · exact h2 z hz
    · rintro ⟨pre, y, post, h1, h2, h3⟩
      cases pre with
      | nil => simp at h1; obtain ⟨rfl, rfl⟩ := h1; rw [h3]
      | cons z pre =>
        simp only [List.cons_append, List.cons.injEq] at h1
        obtain ⟨rfl, rfl⟩ := h1
        rw [h2 x (by simp)]
        exact ih.mpr ⟨pre, y, post, rfl, fun w hw => h2 w (by simp [hw]), h3⟩

theorem vAny_decided {α : Type} {f : α → VRes} {l : List α} {g : α → Bool} (h : ∀ x ∈ l, f x = .ok (g x)) :
    vAny f l = if l.any g then some (.ok true) else none := by
  induction l with
  | nil => rfl
  | cons x l ih =>
    rw [vAny, h x (by simp)]
    cases hg : g x
    · simp only []
      rw [ih (fun y hy => h y (by simp [hy]))]
      simp [hg]
    · simp [hg]

theorem vAny_none_iff {α : Type} (f : α → VRes) (l : List α) :
    vAny f l = none ↔ ∀ x ∈ l, f x = .ok false := by
  induction l with
  | nil => simp [vAny]
  | cons x l ih =>
    rw [vAny]
    cases h : f x with
    | err => simp [h]
    | pending => simp [h]
    | ok b => cases b <;> simp [h, ih]

variable [DecidableEq E]

theorem vCond_vnode (L : VLib E) (op : String) (args : List (Node E)) (v : Val E) :
    vCond L (vnode op args) v = byName L op args (vConds L args) v := by
  simp [vnode, Node.new, vCond, vCondV, vCondL]

theorem vConds_map (L : VLib E) (l : List (Node E)) : vConds L l = l.map (vCond L) := by
  induction l with
  | nil => simp [vConds]
  | cons a l ih => rw [vConds, ih]; rfl

theorem name_and : validatorName "and" = some ("and", false) := by decide +kernel
theorem name_or : validatorName "or" = some ("or", false) := by decide +kernel
theorem name_not : validatorName "not" = some ("not", true) := by decide +kernel
theorem name_list : validatorName "list" = some ("list", false) := by decide +kernel
theorem name_map : validatorName "map" = some ("map", false) := by decide +kernel
theorem name_field : validatorName "mapfield" = some ("mapfield", false) := by decide +kernel
theorem name_opt : validatorName "optionalfield" = some ("optionalfield", false) := by decide +kernel

theorem byName_and (L : VLib E) (args : List (Node E)) (cs) (v : Val E) : byName L "and" args cs v = vAnd cs v := by
  simp [byName, name_and, handleString]
theorem byName_or (L : VLib E) (args : List (Node E)) (cs) (v : Val E) : byName L "or" args cs v = vOr cs v := by
  simp [byName, name_or, handleString]
theorem byName_not (L : VLib E) (args : List (Node E)) (cs) (v : Val E) :
    byName L "not" args cs v = (vAnd cs v).negate := by
  simp [byName, name_not, handleString]
theorem byName_list (L : VLib E) (args : List (Node E)) (cs) (v : Val E) : byName L "list" args cs v = vList cs v := by
  simp [byName, name_list, handleString]
theorem byName_map (L : VLib E) (args : List (Node E)) (cs) (v : Val E) : byName L "map" args cs v = vMap cs v := by
  simp [byName, name_map, handleString]
theorem byName_field (L : VLib E) (args : List (Node E)) (cs) (v : Val E) :
    byName L "mapfield" args cs v = vField false args cs v := by
  simp [byName, name_field, handleString]
theorem byName_opt (L : VLib E) (args : List (Node E)) (cs) (v : Val E) :
    byName L "optionalfield" args cs v = vField true args cs v := by
  simp [byName, name_opt, handleString]

/-! ### the boolean logic -/

theorem VTree.nodes_length (cs : List (VTree E)) : (VTree.nodes cs).length = cs.length := by
  induction cs with
  | nil => rfl
  | cons c cs ih => rw [VTree.nodes, List.length_cons, ih, List.length_cons]

omit [DecidableEq E] in
theorem VTree.semAll_eq (S : Node E → Val E → Bool) (cs : List (VTree E)) (v : Val E) :
    VTree.semAll S cs v = cs.all (fun c => c.sem S v) := by
  induction cs with
  | nil => rfl
  | cons c cs ih => simp [VTree.semAll, ih]

omit [DecidableEq E] in
theorem VTree.semAny_eq (S : Node E → Val E → Bool) (cs : List (VTree E)) (v : Val E) :
    VTree.semAny S cs v = cs.any (fun c => c.sem S v) := by
  induction cs with
  | nil => rfl
  | cons c cs ih => simp [VTree.semAny, ih]

/-- **C45**: the verdict on a value for any condition tree is the boolean combination of the
verdicts of its elementary conditions: `and` accepts iff all operands accept, `or` iff one of them
accepts, `not` inverts (a list of operands is a conjunction); the list and map validators accept
iff all entries are accepted; the field validators check the field. -/
theorem validators_boolean (L : VLib E) (S : Node E → Val E → Bool) (t : VTree E) (h : t.Decided L S) (v : Val E) :
    vCond L t.node v = .ok (t.sem S v) := by
  suffices key : ∀ t : VTree E, t.Decided L S → ∀ v, vCond L t.node v = .ok (t.sem S v) from key t h v
  clear h t v
  intro t
  refine VTree.rec (motive_1 := fun t => t.Decided L S → ∀ v, vCond L t.node v = .ok (t.sem S v))
    (motive_2 := fun cs => VTree.DecidedL L S cs →
      ∀ v, vAll (fun c => c v) (vConds L (VTree.nodes cs)) = .ok (VTree.semAll S cs v) ∧
        vAny (fun c => c v) (vConds L (VTree.nodes cs)) = if VTree.semAny S cs v then some (.ok true) else none)
    ?_ ?_ ?_ ?_ ?_ ?_ ?_ ?_ ?_ ?_ ?_ t
  · intro n h v
    exact h v
  · intro cs ih h v
    obtain ⟨h0, h1⟩ := h
    rw [VTree.node, vCond_vnode, byName_and, vAnd, VTree.sem]
    rw [if_neg (by cases cs with
      | nil => exact absurd rfl h0
      | cons c cs => simp [VTree.nodes, vConds])]
    exact (ih h1 v).1
  · intro cs ih h v
    obtain ⟨h0, h1⟩ := h
    rw [VTree.node, vCond_vnode, byName_or, vOr, VTree.sem, (ih h1 v).2]
    have hl : (vConds L (VTree.nodes cs)).length = cs.length := by
      rw [vConds_map, List.length_map, VTree.nodes_length]
    rw [if_neg (by intro he; rw [List.isEmpty_iff] at he; rw [he] at hl; simp at hl; omega)]
    cases hs : VTree.semAny S cs v
    · simp only [hl]
      have : ¬ cs.length = 1 := by omega
      simp [this, hs]
    · simp [hs]
  · intro cs ih h v
    obtain ⟨h0, h1⟩ := h
    rw [VTree.node, vCond_vnode, byName_not, vAnd, VTree.sem]
    rw [if_neg (by cases cs with
      | nil => exact absurd rfl h0
      | cons c cs => simp [VTree.nodes, vConds])]
    rw [(ih h1 v).1]
    rfl
  · intro cs ih h v
    rw [VTree.node, vCond_vnode, byName_list, VTree.sem]
    cases v with
    | list l =>
      simp only [vList]
      by_cases he : cs = []
      · subst he; simp [VTree.nodes, vConds, VTree.semAll]
      · rw [if_neg (by cases cs with
          | nil => exact absurd rfl he
          | cons c cs => simp [VTree.nodes, vConds])]
        exact vAll_decided (fun x _ => (ih h x.val).1)
    | _ => rfl
  · intro c ih h v
    rw [VTree.node, vCond_vnode, byName_map, VTree.sem]
    cases v with
    | map m =>
      simp only [vMap, vConds]
      exact vAll_decided (fun x _ => ih h x.2.val)
    | _ => rfl
  · intro k c ihk ihc h v
    obtain ⟨hk, hc⟩ := h
    rw [VTree.node, vCond_vnode, byName_map, VTree.sem]
    cases v with
    | map m =>
      simp only [vMap, vConds]
      apply vAll_decided
      intro x _
      rw [vEntry]
      simp only [ihk hk, ihc hc]
      cases VTree.sem S k (.str x.1) <;> simp
    | _ => rfl
  · intro f c ih h v
    rw [VTree.node, vCond_vnode, byName_field, VTree.sem]
    cases v with
    | map m =>
      simp only [vField, vConds, Node.new]
      cases hf : mget m f with
      | none => rfl
      | some x => exact ih h x.val
    | _ => rfl
  · intro f c ih h v
    rw [VTree.node, vCond_vnode, byName_opt, VTree.sem]
    cases v with
    | map m =>
      simp only [vField, vConds, Node.new]
      cases hf : mget m f with
      | none => rfl
      | some x => exact ih h x.val
    | _ => rfl
  · intro _ v
    exact ⟨rfl, rfl⟩
  · intro c cs ihc ihcs h v
    obtain ⟨h1, h2⟩ := h
    refine ⟨?_, ?_⟩
    · rw [VTree.nodes, vConds, vAll, ihc h1 v, VTree.semAll]
      cases hs : VTree.sem S c v
      · simp [hs]
      · simpa [hs] using (ihcs h2 v).1
    · rw [VTree.nodes, vConds, vAny, ihc h1 v, VTree.semAny]
      cases hs : VTree.sem S c v
      · simpa [hs] using (ihcs h2 v).2
      · simp [hs]

/-- **C45** (conjunction, with errors): `and` accepts iff all conditions accept; it rejects iff
some condition rejects and all conditions before it accept (later ones are not evaluated). -/
theorem and_spec (L : VLib E) (c : Node E) (cs : List (Node E)) (v : Val E) :
    (vCond L (vnode "and" (c :: cs)) v = .ok true ↔ ∀ x ∈ c :: cs, vCond L x v = .ok true) ∧
    (vCond L (vnode "and" (c :: cs)) v = .ok false ↔
      ∃ pre x post, c :: cs = pre ++ x :: post ∧ (∀ y ∈ pre, vCond L y v = .ok true) ∧ vCond L x v = .ok false) := by
  have h : vCond L (vnode "and" (c :: cs)) v = vAll (fun x => vCond L x v) (c :: cs) := by
    rw [vCond_vnode, byName_and, vAnd, vConds_map]
    simp only [List.map_cons, List.isEmpty_cons, Bool.false_eq_true, if_false]
    have : ∀ l : List (Node E), vAll (fun f => f v) (l.map (vCond L)) = vAll (fun x => vCond L x v) l := by
      intro l
      induction l with
      | nil => rfl
      | cons a l ih => simp only [List.map_cons, vAll, ih]
    exact this (c :: cs)
  rw [h]
  exact ⟨vAll_true_iff _ _, vAll_false_iff _ _⟩

/-- **C45** (disjunction): with at least two conditions `or` rejects iff all conditions reject. -/
theorem or_rejects (L : VLib E) (c d : Node E) (cs : List (Node E)) (v : Val E) :
    vCond L (vnode "or" (c :: d :: cs)) v = .ok false ↔ ∀ x ∈ c :: d :: cs, vCond L x v = .ok false := by
  rw [vCond_vnode, byName_or, vOr, vConds_map]
  have hm : ∀ l : List (Node E), vAny (fun f => f v) (l.map (vCond L)) = vAny (fun x => vCond L x v) l := by
    intro l
    induction l with
    | nil => rfl
    | cons a l ih => simp only [List.map_cons, vAny, ih]
  rw [hm]
  simp only [List.map_cons, List.isEmpty_cons, Bool.false_eq_true, if_false, List.length_cons]
  rw [← vAny_none_iff]
  have hne : ∀ l : List (Node E), vAny (fun x => vCond L x v) l ≠ some (.ok false) := by
    intro l
    induction l with
    | nil => simp [vAny]
    | cons a l ih =>
      rw [vAny]
      cases h : vCond L a v with
      | err => simp
      | pending => simp
      | ok b => cases b with
        | false => exact ih
        | true => simp
  constructor
  · intro h
    cases ha : vAny (fun x => vCond L x v) (c :: d :: cs) with
    | none => rfl
    | some r =>
      rw [ha] at h
      simp only at h
      subst h
      exact absurd ha (hne _)
  · intro h
    rw [h]
    simp

/-- **C45** (exception): a disjunction of a single condition accepts a value although the
condition rejects it. -/
theorem or_single_defect (L : VLib E) (c : Node E) (v : Val E) (h : vCond L c v = .ok false) :
    vCond L (vnode "or" [c]) v = .ok true := by
  rw [vCond_vnode, byName_or, vOr]
  simp [vConds, vAny, h]

/-- **C45** (negation): a leading `!` inverts the verdict of a validator, whatever its arguments. -/
theorem bang_negates (L : VLib E) (op : List Char) (h0 : op ≠ []) (hb : op.head? ≠ some '!')
    (args : List (Node E)) (v : Val E) :
    vCond L (vnode (String.ofList ('!' :: op)) args) v = (vCond L (vnode (String.ofList op) args) v).negate := by
  rw [vCond_vnode, vCond_vnode, byName, byName]
  have h1 : validatorName (String.ofList ('!' :: op)) = some (String.ofList op, !(String.ofList op == "not")) := by
    simp [validatorName]
  have h2 : validatorName (String.ofList op) = some (String.ofList op, String.ofList op == "not") := by
    rw [validatorName, String.toList_ofList]
    split
    · exact absurd rfl h0
    · simp at hb
    · rfl
  rw [h1, h2]
  simp only
  have hn : ∀ r : VRes, r.negate.negate = r := by
    intro r; cases r <;> simp [VRes.negate]
  cases String.ofList op == "not" <;> simp [hn]

/-- **C45** (maps): whether a map is accepted does not depend on the order of its entries. -/
theorem map_order_independent (L : VLib E) (args : List (Node E)) (m m' : List (String × Node E)) (h : m.Perm m') :
    vCond L (vnode "map" args) (.map m) = .ok true ↔ vCond L (vnode "map" args) (.map m') = .ok true := by
  rw [vCond_vnode, vCond_vnode, byName_map, byName_map]
  rcases hc : vConds L args with _ | ⟨a, _ | ⟨b, _ | ⟨c, r⟩⟩⟩
  · simp [vMap]
  · simp only [vMap, vAll_true_iff]
    exact ⟨fun g x hx => g x (h.mem_iff.mpr hx), fun g x hx => g x (h.mem_iff.mp hx)⟩
  · simp only [vMap, vAll_true_iff]
    exact ⟨fun g x hx => g x (h.mem_iff.mpr hx), fun g x hx => g x (h.mem_iff.mp hx)⟩
  · simp [vMap]

/-- **C45** (functions): `check` is true iff all conditions accept; exactly then `validate`
yields the value. -/
theorem check_validate (L : VLib E) (value c : Val E) (cs : List (Val E)) :
    (funcCheck L (value :: c :: cs) = some (.ok true) ↔ ∀ x ∈ c :: cs, vCondV L x value = .ok true) ∧
    ((∃ w, funcValidate L (value :: c :: cs) = some (.ok (some w))) ↔ ∀ x ∈ c :: cs, vCondV L x value = .ok true) ∧
    (∀ w, funcValidate L (value :: c :: cs) = some (.ok (some w)) → w = value) := by
  refine ⟨?_, ?_, ?_⟩
  · rw [funcCheck, Option.some.injEq, vAll_true_iff]
  · rw [funcValidate, ← vAll_true_iff]
    cases vAll (fun c => vCondV L c value) (c :: cs) with
    | err => simp
    | pending => simp
    | ok b => cases b <;> simp
  · intro w hw
    rw [funcValidate] at hw
    cases hv : vAll (fun c => vCondV L c value) (c :: cs) with
    | err => rw [hv] at hw; simp at hw
    | pending => rw [hv] at hw; simp at hw
    | ok b =>
      rw [hv] at hw
      cases b
      · simp at hw
      · simp at hw; exact hw.symm

/-- A nested condition: no list, or a list of which every entry is nil or not an integer. -/
example (L : VLib E) :
    let isInt : Node E := vnode "type" [Node.new (.str "int") ""]
    let isNil : Node E := vnode "type" [Node.new (.str "nil") ""]
    let isList : Node E := vnode "type" [Node.new (.str "list") ""]
    let S : Node E → Val E → Bool := fun n v => match n with
      | .mk (.list [_, .mk (.str s) _ _]) _ _ => s == exprType v
      | _ => false
    (VTree.or [.not [.leaf isList], .each [.or [.leaf isNil, .not [.leaf isInt]]]]).Decided L S := by
  have ht : validatorName "type" = some ("type", false) := by decide +kernel
  have key : ∀ (s : String) (v : Val E), vCond L (vnode "type" [Node.new (.str s) ""]) v = .ok (s == exprType v) := by
    intro s v
    rw [vCond_vnode]
    simp only [byName, ht, handleString]
    simp only [vType, vAny, Node.new, Node.val]
    cases hs : s == exprType v <;> simp
  intro isInt isNil isList S
  simp only [VTree.Decided, VTree.DecidedL]
  refine ⟨by simp, ⟨by simp, fun v => ?_, trivial⟩, ⟨⟨by simp, fun v => ?_, ⟨by simp, fun v => ?_, trivial⟩, trivial⟩, trivial⟩, trivial⟩
  · exact key _ v
  · exact key _ v
  · exact key _ v

end Spiff
